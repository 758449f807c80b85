import Verif.Serializer

/-!
# Specification of giving attributes other names

`κ` gives the attributes new names (in the form `{namespace}name`), in the declarations and in the documents.
-/

namespace PXml

/-- Different attributes get different names, and `xsi:nil` stays. -/
structure Rekeying (κ : String → String) : Prop where
  injective : ∀ a b, κ a = κ b → a = b
  nil : κ Elem.nilAttr = Elem.nilAttr

/-- The attributes under other names. -/
def Dict.rekeyed (κ : String → String) (d : Dict String String) : Dict String String := d.map fun kv => (κ kv.1, kv.2)

mutual

/-- The document with all attributes renamed. -/
def Node.rekeyed (κ : String → String) : Node → Node
  | .elem tag attrib nsmap text tail children line => .elem tag (Dict.rekeyed κ attrib) nsmap text tail (Node.rekeyedAll κ children) line
  | .comment text tail => .comment text tail
  | .pi text tail => .pi text tail

/-- The same for every node of a list. -/
def Node.rekeyedAll (κ : String → String) : List Node → List Node
  | [] => []
  | n :: ns => n.rekeyed κ :: Node.rekeyedAll κ ns

end

mutual

/-- The same for the library's own elements, which custom functions get. -/
def Elem.rekeyed (κ : String → String) : Elem → Elem
  | ⟨tag, nsmap, text, tail, attrib, elements, next, line⟩ => ⟨tag, nsmap, text, tail, attrib.map (Dict.rekeyed κ), Elem.rekeyedAll κ elements, next, line⟩

/-- The same for every element of a list. -/
def Elem.rekeyedAll (κ : String → String) : List Elem → List Elem
  | [] => []
  | e :: es => e.rekeyed κ :: Elem.rekeyedAll κ es

end

mutual

/-- The value with the attributes of all native elements in it renamed; only fields for raw elements hold any. -/
def Val.rekeyed (κ : String → String) : Val → Val
  | .list xs => .list (Val.rekeyedAll κ xs)
  | .dict d => .dict (Val.rekeyedItems κ d)
  | .model cls fields set => .model cls (Val.rekeyedItems κ fields) set
  | .raw node => .raw (node.rekeyed κ)
  | .none => .none
  | .str s => .str s
  | .bool b => .bool b
  | .int i => .int i
  | .opaque r l => .opaque r l
  | .undef => .undef

/-- The same for every value of a list. -/
def Val.rekeyedAll (κ : String → String) : List Val → List Val
  | [] => []
  | v :: vs => v.rekeyed κ :: Val.rekeyedAll κ vs

/-- The same for every value of a dictionary. -/
def Val.rekeyedItems (κ : String → String) : List (String × Val) → List (String × Val)
  | [] => []
  | (k, v) :: d => (k, v.rekeyed κ) :: Val.rekeyedItems κ d

end

mutual

/-- The serializer with all names of attributes replaced; the names of elements stay. -/
def Ser.rekeyed (κ : String → String) : Ser → Ser
  | .text c n => .text c n
  | .attr name c => .attr (κ name) c
  | .elem name nsmap mode c n => .elem name nsmap mode c n
  | .attrs a => .attrs a
  | .mapElem a name mode => .mapElem a name mode
  | .raw name mode c => .raw name mode c
  | .proxy p => .proxy p
  | .primUnion c inner => .primUnion c (inner.rekeyed κ)
  | .modelUnion t c alts => .modelUnion t c alts
  | .tagged c discr attrName mode alts => .tagged c discr (κ attrName) mode alts
  | .wrap path nsmap mode c inner => .wrap path nsmap mode c (inner.rekeyed κ)
  | .homog t c inner => .homog t c (inner.rekeyed κ)
  | .hetero t c inners => .hetero t c (Ser.rekeyedAll κ inners)

/-- The same for every serializer of a list. -/
def Ser.rekeyedAll (κ : String → String) : List Ser → List Ser
  | [] => []
  | s :: ss => s.rekeyed κ :: Ser.rekeyedAll κ ss

end

mutual

/-- There are no mapping fields in it: in a mapping the names of the attributes are data. -/
def Ser.mapless : Ser → Bool
  | .attrs _ => false
  | .mapElem _ _ _ => false
  | .primUnion _ inner => inner.mapless
  | .wrap _ _ _ _ inner => inner.mapless
  | .homog _ _ inner => inner.mapless
  | .hetero _ _ inners => Ser.maplessAll inners
  | _ => true

/-- The same for every serializer of a list. -/
def Ser.maplessAll : List Ser → Bool
  | [] => true
  | s :: ss => s.mapless && Ser.maplessAll ss

end

/-- The reads give the same value up to the renaming, or both fail, with the same exception unless it is a validation error. -/
def SameRekeyed (κ : String → String) : Out Val → Out Val → Prop
  | .ok v, .ok v' => v' = v.rekeyed κ
  | .verr _, .verr _ => True
  | .crash e, .crash e' => e = e'
  | .diverge, .diverge => True
  | _, _ => False

/-- Both write the same up to the renaming, or fail with the same exception. -/
def Out.rekeyed (κ : String → String) : Out Elem → Out Elem
  | .ok e => .ok (e.rekeyed κ)
  | .verr e => .verr e
  | .crash e => .crash e
  | .diverge => .diverge

/-- The same for documents. -/
def Out.rekeyedDoc (κ : String → String) : Out Node → Out Node
  | .ok e => .ok (e.rekeyed κ)
  | .verr e => .verr e
  | .crash e => .crash e
  | .diverge => .diverge

/-- The field is the same but that attributes are renamed; it is no mapping; custom functions do the same up to the renaming. -/
structure Field.Rekeys (κ : String → String) (f f' : Field) : Prop where
  name : f'.name = f.name
  ser : f'.ser = f.ser.rekeyed κ
  mapless : f.ser.mapless = true
  alias : f'.alias = f.alias
  exclude : f'.exclude = f.exclude
  validator : (f.validator = none ∧ f'.validator = none) ∨ ∃ g g', f.validator = some g ∧ f'.validator = some g' ∧
    ∀ e, SameRekeyed κ (g e).1 (g' (e.rekeyed κ)).1 ∧ (g' (e.rekeyed κ)).2 = (g e).2.rekeyed κ
  serializer : (f.serializer = none ∧ f'.serializer = none) ∨ ∃ g g', f.serializer = some g ∧ f'.serializer = some g' ∧
    ∀ self el v, g' (self.rekeyed κ) (el.rekeyed κ) (v.rekeyed κ) = (g self el v).rekeyed κ

/-- The fields are the same one by one. -/
inductive Fields.Rekeys (κ : String → String) : List Field → List Field → Prop
  | nil : Fields.Rekeys κ [] []
  | cons {f f' : Field} {fs fs' : List Field} : f.Rekeys κ f' → Fields.Rekeys κ fs fs' → Fields.Rekeys κ (f :: fs) (f' :: fs')

/-- What the class consists of. -/
inductive Body.Rekeys (κ : String → String) : Body → Body → Prop
  | fields {fs fs' : List Field} : Fields.Rekeys κ fs fs' → Body.Rekeys κ (.fields fs) (.fields fs')
  | root (s : Ser) : s.mapless = true → Body.Rekeys κ (.root s) (.root (s.rekeyed κ))

/-- The class is the same but that attributes are renamed. -/
structure ModelSer.Rekeys (κ : String → String) (m m' : ModelSer) : Prop where
  elementName : m'.elementName = m.elementName
  nsmap : m'.nsmap = m.nsmap
  body : m.body.Rekeys κ m'.body
  skipEmpty : m'.skipEmpty = m.skipEmpty
  extraForbid : m'.extraForbid = m.extraForbid

/-- Validation gives the same instance up to the renaming, or fails in both cases. -/
inductive RekeyedValidation (κ : String → String) :
    Except VErr (List (String × Val) × List String) → Except VErr (List (String × Val) × List String) → Prop
  | valid (fields : List (String × Val)) (set : List String) : RekeyedValidation κ (.ok (fields, set)) (.ok (Val.rekeyedItems κ fields, set))
  | invalid (e e' : VErr) : RekeyedValidation κ (.error e) (.error e')

/-- The classes of `env'` are those of `env` with other names of attributes; instances are validated and encoded as before. -/
structure Env.Rekeys (κ : String → String) (env env' : Env) : Prop where
  names : Rekeying κ
  backend : env'.backend = env.backend
  classes : ∀ cls, (env.model cls = none ∧ env'.model cls = none) ∨ ∃ m m', env.model cls = some m ∧ env'.model cls = some m' ∧ m.Rekeys κ m'
  validate : ∀ cls d, RekeyedValidation κ (env.validate cls d) (env'.validate cls (d.rekeyed κ))
  toJsonable : ∀ v, env'.toJsonable (v.rekeyed κ) = env.toJsonable v
  reprOf : env'.reprOf = env.reprOf

end PXml
