import Verif.SpecCompile

/-!
# Specification of "the same but for `search_mode`"

Two classes are the same but for the search mode if they become the same class when `search_mode` is `strict` everywhere.
-/

namespace PXml

/-- The sub-model serializer with `search_mode='strict'`. -/
def Proxy.strict (p : Proxy) : Proxy := { p with mode := .strict }

mutual

/-- The serializer with `search_mode='strict'` everywhere. -/
def Ser.strict : Ser → Ser
  | .text c n => .text c n
  | .attr name c => .attr name c
  | .elem name nsmap _ c n => .elem name nsmap .strict c n
  | .attrs a => .attrs a
  | .mapElem a name _ => .mapElem a name .strict
  | .raw name _ c => .raw name .strict c
  | .proxy p => .proxy p.strict
  | .primUnion c inner => .primUnion c inner.strict
  | .modelUnion t c alts => .modelUnion t c (alts.map Proxy.strict)
  | .tagged c discr attrName _ alts => .tagged c discr attrName .strict (alts.map fun kp => (kp.1, kp.2.strict))
  | .wrap path nsmap _ c inner => .wrap path nsmap .strict c inner.strict
  | .homog t c inner => .homog t c inner.strict
  | .hetero t c inners => .hetero t c (Ser.strictAll inners)

/-- The same for every serializer of a list. -/
def Ser.strictAll : List Ser → List Ser
  | [] => []
  | s :: ss => s.strict :: Ser.strictAll ss

end

/-- The same for a field. -/
def Field.strict (f : Field) : Field := { f with ser := f.ser.strict }

/-- The same for what a class consists of. -/
def Body.strict : Body → Body
  | .fields fs => .fields (fs.map Field.strict)
  | .root s => .root s.strict

/-- The same for a class. -/
def ModelSer.strict (m : ModelSer) : ModelSer := { m with body := m.body.strict }

/-- The same for all classes. -/
def Env.strict (env : Env) : Env := { env with model := fun cls => (env.model cls).map ModelSer.strict }

/-- The same classes, with other search modes. -/
def Classes.searching (classes : Classes) (mode : String → Mode) : Classes := fun c =>
  (classes c).map fun cd => { cd with params := { cd.params with searchMode := mode c } }

end PXml
