import Verif.Serializer

/-!
# Specification of giving elements other names

`σ` gives the elements new names (in the form `{namespace}name`), in the declarations and in the documents.
-/

namespace PXml

/-- Different elements get different names, and only elements get other names: the two strings that stand for what comments and processing instructions have
instead of a tag stay. -/
structure Retagging (σ : String → String) : Prop where
  injective : ∀ a b, σ a = σ b → a = b
  comment : σ "<!---->" = "<!---->"
  pi : σ "<??>" = "<??>"

mutual

/-- The document with all elements renamed. -/
def Node.retagged (σ : String → String) : Node → Node
  | .elem tag attrib nsmap text tail children line => .elem (σ tag) attrib nsmap text tail (Node.retaggedAll σ children) line
  | .comment text tail => .comment text tail
  | .pi text tail => .pi text tail

/-- The same for every node of a list. -/
def Node.retaggedAll (σ : String → String) : List Node → List Node
  | [] => []
  | n :: ns => n.retagged σ :: Node.retaggedAll σ ns

end

mutual

/-- The same for the library's own elements, which custom functions get. -/
def Elem.retagged (σ : String → String) : Elem → Elem
  | ⟨tag, nsmap, text, tail, attrib, elements, next, line⟩ => ⟨σ tag, nsmap, text, tail, attrib, Elem.retaggedAll σ elements, next, line⟩

/-- The same for every element of a list. -/
def Elem.retaggedAll (σ : String → String) : List Elem → List Elem
  | [] => []
  | e :: es => e.retagged σ :: Elem.retaggedAll σ es

end

mutual

/-- The value with all native elements in it renamed; only fields for raw elements hold any. -/
def Val.retagged (σ : String → String) : Val → Val
  | .list xs => .list (Val.retaggedAll σ xs)
  | .dict d => .dict (Val.retaggedItems σ d)
  | .model cls fields set => .model cls (Val.retaggedItems σ fields) set
  | .raw node => .raw (node.retagged σ)
  | .none => .none
  | .str s => .str s
  | .bool b => .bool b
  | .int i => .int i
  | .opaque r l => .opaque r l
  | .undef => .undef

/-- The same for every value of a list. -/
def Val.retaggedAll (σ : String → String) : List Val → List Val
  | [] => []
  | v :: vs => v.retagged σ :: Val.retaggedAll σ vs

/-- The same for every value of a dictionary. -/
def Val.retaggedItems (σ : String → String) : List (String × Val) → List (String × Val)
  | [] => []
  | (k, v) :: d => (k, v.retagged σ) :: Val.retaggedItems σ d

end

/-- The sub-model is at an element of the new name. -/
def Proxy.retagged (σ : String → String) (p : Proxy) : Proxy := { p with name := σ p.name }

mutual

/-- The serializer with all names of elements replaced; the names of attributes stay. -/
def Ser.retagged (σ : String → String) : Ser → Ser
  | .text c n => .text c n
  | .attr name c => .attr name c
  | .elem name nsmap mode c n => .elem (σ name) nsmap mode c n
  | .attrs a => .attrs a
  | .mapElem a name mode => .mapElem a (σ name) mode
  | .raw name mode c => .raw (σ name) mode c
  | .proxy p => .proxy (p.retagged σ)
  | .primUnion c inner => .primUnion c (inner.retagged σ)
  | .modelUnion t c alts => .modelUnion t c (alts.map (Proxy.retagged σ))
  | .tagged c discr attrName mode alts => .tagged c discr attrName mode (alts.map fun kp => (kp.1, kp.2.retagged σ))
  | .wrap path nsmap mode c inner => .wrap (path.map σ) nsmap mode c (inner.retagged σ)
  | .homog t c inner => .homog t c (inner.retagged σ)
  | .hetero t c inners => .hetero t c (Ser.retaggedAll σ inners)

/-- The same for every serializer of a list. -/
def Ser.retaggedAll (σ : String → String) : List Ser → List Ser
  | [] => []
  | s :: ss => s.retagged σ :: Ser.retaggedAll σ ss

end

/-- The reads give the same value up to the renaming, or both fail, with the same exception unless it is a validation error. -/
def SameRetagged (σ : String → String) : Out Val → Out Val → Prop
  | .ok v, .ok v' => v' = v.retagged σ
  | .verr _, .verr _ => True
  | .crash e, .crash e' => e = e'
  | .diverge, .diverge => True
  | _, _ => False

/-- Both write the same up to the renaming, or fail with the same exception. -/
def Out.retagged (σ : String → String) : Out Elem → Out Elem
  | .ok e => .ok (e.retagged σ)
  | .verr e => .verr e
  | .crash e => .crash e
  | .diverge => .diverge

/-- The same for documents. -/
def Out.retaggedDoc (σ : String → String) : Out Node → Out Node
  | .ok e => .ok (e.retagged σ)
  | .verr e => .verr e
  | .crash e => .crash e
  | .diverge => .diverge

/-- The field is the same but that elements are renamed; custom functions do the same up to the renaming. -/
structure Field.Retags (σ : String → String) (f f' : Field) : Prop where
  name : f'.name = f.name
  ser : f'.ser = f.ser.retagged σ
  alias : f'.alias = f.alias
  exclude : f'.exclude = f.exclude
  validator : (f.validator = none ∧ f'.validator = none) ∨ ∃ g g', f.validator = some g ∧ f'.validator = some g' ∧
    ∀ e, SameRetagged σ (g e).1 (g' (e.retagged σ)).1 ∧ (g' (e.retagged σ)).2 = (g e).2.retagged σ
  serializer : (f.serializer = none ∧ f'.serializer = none) ∨ ∃ g g', f.serializer = some g ∧ f'.serializer = some g' ∧
    ∀ self el v, g' (self.retagged σ) (el.retagged σ) (v.retagged σ) = (g self el v).retagged σ

/-- The fields are the same one by one. -/
inductive Fields.Retags (σ : String → String) : List Field → List Field → Prop
  | nil : Fields.Retags σ [] []
  | cons {f f' : Field} {fs fs' : List Field} : f.Retags σ f' → Fields.Retags σ fs fs' → Fields.Retags σ (f :: fs) (f' :: fs')

/-- What the class consists of. -/
inductive Body.Retags (σ : String → String) : Body → Body → Prop
  | fields {fs fs' : List Field} : Fields.Retags σ fs fs' → Body.Retags σ (.fields fs) (.fields fs')
  | root (s : Ser) : Body.Retags σ (.root s) (.root (s.retagged σ))

/-- The class is the same but that its element, and those of its fields, are renamed. -/
structure ModelSer.Retags (σ : String → String) (m m' : ModelSer) : Prop where
  elementName : m'.elementName = σ m.elementName
  nsmap : m'.nsmap = m.nsmap
  body : m.body.Retags σ m'.body
  skipEmpty : m'.skipEmpty = m.skipEmpty
  extraForbid : m'.extraForbid = m.extraForbid

/-- Validation gives the same instance up to the renaming, or fails in both cases. -/
inductive RetaggedValidation (σ : String → String) :
    Except VErr (List (String × Val) × List String) → Except VErr (List (String × Val) × List String) → Prop
  | valid (fields : List (String × Val)) (set : List String) : RetaggedValidation σ (.ok (fields, set)) (.ok (Val.retaggedItems σ fields, set))
  | invalid (e e' : VErr) : RetaggedValidation σ (.error e) (.error e')

/-- The classes of `env'` are those of `env` with other names of elements; instances are validated and encoded as before. -/
structure Env.Retags (σ : String → String) (env env' : Env) : Prop where
  names : Retagging σ
  backend : env'.backend = env.backend
  classes : ∀ cls, (env.model cls = none ∧ env'.model cls = none) ∨ ∃ m m', env.model cls = some m ∧ env'.model cls = some m' ∧ m.Retags σ m'
  validate : ∀ cls d, RetaggedValidation σ (env.validate cls d) (env'.validate cls (d.retagged σ))
  toJsonable : ∀ v, env'.toJsonable (v.retagged σ) = env.toJsonable v
  reprOf : env'.reprOf = env.reprOf

end PXml
