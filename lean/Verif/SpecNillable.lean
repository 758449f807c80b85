import Verif.SpecCompile

/-!
# Specification of "the same but for nillable"

Two classes are the same but for `nillable` if they become the same class when `nillable` is taken away everywhere.  A document is free of `xsi:nil` if
none of its elements has this attribute.
-/

namespace PXml

/-- Not nillable. -/
def Proxy.unnilled (p : Proxy) : Proxy := { p with nillable := false }

mutual

/-- Nothing in it is nillable. -/
def Ser.unnilled : Ser → Ser
  | .text c _ => .text c false
  | .attr name c => .attr name c
  | .elem name nsmap mode c _ => .elem name nsmap mode c false
  | .attrs a => .attrs a
  | .mapElem a name mode => .mapElem a name mode
  | .raw name mode c => .raw name mode c
  | .proxy p => .proxy p.unnilled
  | .primUnion c inner => .primUnion c inner.unnilled
  | .modelUnion t c alts => .modelUnion t c (alts.map Proxy.unnilled)
  | .tagged c discr attrName mode alts => .tagged c discr attrName mode (alts.map fun kp => (kp.1, kp.2.unnilled))
  | .wrap path nsmap mode c inner => .wrap path nsmap mode c inner.unnilled
  | .homog t c inner => .homog t c inner.unnilled
  | .hetero t c inners => .hetero t c (Ser.unnilledAll inners)

/-- The same for every serializer of a list. -/
def Ser.unnilledAll : List Ser → List Ser
  | [] => []
  | s :: ss => s.unnilled :: Ser.unnilledAll ss

end

/-- Nothing in it is nillable. -/
def Field.unnilled (f : Field) : Field := { f with ser := f.ser.unnilled }

/-- Nothing in it is nillable. -/
def Body.unnilled : Body → Body
  | .fields fs => .fields (fs.map Field.unnilled)
  | .root s => .root s.unnilled

/-- Nothing in it is nillable. -/
def ModelSer.unnilled (m : ModelSer) : ModelSer := { m with body := m.body.unnilled }

/-- The same classes, with nothing nillable. -/
def Env.unnilled (env : Env) : Env := { env with model := fun cls => (env.model cls).map ModelSer.unnilled }

/-- The annotation of a field without `nillable`, also inside `wrapped`. -/
def EntityInfo.unnilled : EntityInfo → EntityInfo
  | .mk l p n m _ none => .mk l p n m none none
  | .mk l p n m _ (some w) => .mk l p n m none (some w.unnilled)

/-- The definition of a class without `nillable` in the annotations of its fields. -/
def BodyDef.unnilled : BodyDef → BodyDef
  | .fields fs cs => .fields (fs.map fun f => { f with infos := f.infos.map EntityInfo.unnilled })
      (cs.map fun c => { c with info := c.info.map EntityInfo.unnilled })
  | .root s infos => .root s (infos.map EntityInfo.unnilled)

/-- The definitions of all classes without `nillable`. -/
def Classes.unnilled (classes : Classes) : Classes := fun c => (classes c).map fun cd => { cd with body := cd.body.unnilled }

/-- No element of the document has an attribute `xsi:nil`. -/
inductive Node.NilFree : Node → Prop
  | elem {tag : String} {attrib : Dict String String} {nsmap : NsMap} {text tail : Option String} {children : List Node} {line : Option Int} :
      Elem.nilAttr ∉ Dict.keys attrib → (∀ c ∈ children, NilFree c) → NilFree (.elem tag attrib nsmap text tail children line)
  | comment {text tail : Option String} : NilFree (.comment text tail)
  | pi {text tail : Option String} : NilFree (.pi text tail)

end PXml
