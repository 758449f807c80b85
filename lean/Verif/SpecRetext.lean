import Verif.Compile

/-!
# Specification of replacing texts

`φ` replaces texts and values of attributes, in the documents and in the instances, and the discriminator values in the declarations.
-/

namespace PXml

/-- Different texts are replaced by different ones, the empty text and the `true` of `xsi:nil` stay, and blank texts stay blank. -/
structure Retexting (φ : String → String) : Prop where
  injective : ∀ a b, φ a = φ b → a = b
  empty : φ "" = ""
  nil : φ "true" = "true"
  blank : ∀ s, Elem.strip (φ s) = "" ↔ Elem.strip s = ""

/-- The texts in which values that are no strings are written stay. -/
structure KeepsForms (φ : String → String) : Prop where
  no : φ "false" = "false"
  pyTrue : φ "True" = "True"
  pyFalse : φ "False" = "False"
  pyNone : φ "None" = "None"
  int : ∀ i : Int, φ (toString i) = toString i

/-- Attributes with other values. -/
def Dict.retexted (φ : String → String) (d : Dict String String) : Dict String String := d.map fun kv => (kv.1, φ kv.2)

mutual

/-- The document with all texts and values of attributes replaced. -/
def Node.retexted (φ : String → String) : Node → Node
  | .elem tag attrib nsmap text tail children line => .elem tag (Dict.retexted φ attrib) nsmap (text.map φ) (tail.map φ) (Node.retextedAll φ children) line
  | .comment text tail => .comment (text.map φ) (tail.map φ)
  | .pi text tail => .pi (text.map φ) (tail.map φ)

/-- The same for every node of a list. -/
def Node.retextedAll (φ : String → String) : List Node → List Node
  | [] => []
  | n :: ns => n.retexted φ :: Node.retextedAll φ ns

end

mutual

/-- The same for the library's own elements, which custom functions get. -/
def Elem.retexted (φ : String → String) : Elem → Elem
  | ⟨tag, nsmap, text, tail, attrib, elements, next, line⟩ =>
    ⟨tag, nsmap, text.map φ, tail.map φ, attrib.map (Dict.retexted φ), Elem.retextedAll φ elements, next, line⟩

/-- The same for every element of a list. -/
def Elem.retextedAll (φ : String → String) : List Elem → List Elem
  | [] => []
  | e :: es => e.retexted φ :: Elem.retextedAll φ es

end

mutual

/-- The value with all strings in it replaced, and the texts of other primitives but numbers and booleans; keys of dictionaries and names of fields stay. -/
def Val.retexted (φ : String → String) : Val → Val
  | .str s => .str (φ s)
  | .opaque r l => .opaque (φ r) l
  | .list xs => .list (Val.retextedAll φ xs)
  | .dict d => .dict (Val.retextedItems φ d)
  | .model cls fields set => .model cls (Val.retextedItems φ fields) set
  | .raw node => .raw (node.retexted φ)
  | .none => .none
  | .bool b => .bool b
  | .int i => .int i
  | .undef => .undef

/-- The same for every value of a list. -/
def Val.retextedAll (φ : String → String) : List Val → List Val
  | [] => []
  | v :: vs => v.retexted φ :: Val.retextedAll φ vs

/-- The same for every value of a dictionary. -/
def Val.retextedItems (φ : String → String) : List (String × Val) → List (String × Val)
  | [] => []
  | (k, v) :: d => (k, v.retexted φ) :: Val.retextedItems φ d

end

mutual

/-- The serializer with all discriminator values replaced; there are no other texts in serializers. -/
def Ser.retexted (φ : String → String) : Ser → Ser
  | .text c n => .text c n
  | .attr name c => .attr name c
  | .elem name nsmap mode c n => .elem name nsmap mode c n
  | .attrs a => .attrs a
  | .mapElem a name mode => .mapElem a name mode
  | .raw name mode c => .raw name mode c
  | .proxy p => .proxy p
  | .primUnion c inner => .primUnion c (inner.retexted φ)
  | .modelUnion t c alts => .modelUnion t c alts
  | .tagged c discr attrName mode alts => .tagged c discr attrName mode (alts.map fun kp => (φ kp.1, kp.2))
  | .wrap path nsmap mode c inner => .wrap path nsmap mode c (inner.retexted φ)
  | .homog t c inner => .homog t c (inner.retexted φ)
  | .hetero t c inners => .hetero t c (Ser.retextedAll φ inners)

/-- The same for every serializer of a list. -/
def Ser.retextedAll (φ : String → String) : List Ser → List Ser
  | [] => []
  | s :: ss => s.retexted φ :: Ser.retextedAll φ ss

end

/-- The reads give the same value up to the replacement, or both fail, with the same exception unless it is a validation error. -/
def SameRetexted (φ : String → String) : Out Val → Out Val → Prop
  | .ok v, .ok v' => v' = v.retexted φ
  | .verr _, .verr _ => True
  | .crash e, .crash e' => e = e'
  | .diverge, .diverge => True
  | _, _ => False

/-- Both write the same up to the replacement, or fail with the same exception. -/
def Out.retexted (φ : String → String) : Out Elem → Out Elem
  | .ok e => .ok (e.retexted φ)
  | .verr e => .verr e
  | .crash e => .crash e
  | .diverge => .diverge

/-- The same for documents. -/
def Out.retextedDoc (φ : String → String) : Out Node → Out Node
  | .ok e => .ok (e.retexted φ)
  | .verr e => .verr e
  | .crash e => .crash e
  | .diverge => .diverge

/-- The field is the same but for discriminator values; custom functions do the same up to the replacement. -/
structure Field.Retexts (φ : String → String) (f f' : Field) : Prop where
  name : f'.name = f.name
  ser : f'.ser = f.ser.retexted φ
  alias : f'.alias = f.alias
  exclude : f'.exclude = f.exclude
  validator : (f.validator = none ∧ f'.validator = none) ∨ ∃ g g', f.validator = some g ∧ f'.validator = some g' ∧
    ∀ e, SameRetexted φ (g e).1 (g' (e.retexted φ)).1 ∧ (g' (e.retexted φ)).2 = (g e).2.retexted φ
  serializer : (f.serializer = none ∧ f'.serializer = none) ∨ ∃ g g', f.serializer = some g ∧ f'.serializer = some g' ∧
    ∀ self el v, g' (self.retexted φ) (el.retexted φ) (v.retexted φ) = (g self el v).retexted φ

/-- The fields are the same one by one. -/
inductive Fields.Retexts (φ : String → String) : List Field → List Field → Prop
  | nil : Fields.Retexts φ [] []
  | cons {f f' : Field} {fs fs' : List Field} : f.Retexts φ f' → Fields.Retexts φ fs fs' → Fields.Retexts φ (f :: fs) (f' :: fs')

/-- What the class consists of. -/
inductive Body.Retexts (φ : String → String) : Body → Body → Prop
  | fields {fs fs' : List Field} : Fields.Retexts φ fs fs' → Body.Retexts φ (.fields fs) (.fields fs')
  | root (s : Ser) : Body.Retexts φ (.root s) (.root (s.retexted φ))

/-- The class is the same but for discriminator values. -/
structure ModelSer.Retexts (φ : String → String) (m m' : ModelSer) : Prop where
  elementName : m'.elementName = m.elementName
  nsmap : m'.nsmap = m.nsmap
  body : m.body.Retexts φ m'.body
  skipEmpty : m'.skipEmpty = m.skipEmpty
  extraForbid : m'.extraForbid = m.extraForbid

/-- Validation gives the same instance up to the replacement, or fails in both cases. -/
inductive RetextedValidation (φ : String → String) :
    Except VErr (List (String × Val) × List String) → Except VErr (List (String × Val) × List String) → Prop
  | valid (fields : List (String × Val)) (set : List String) : RetextedValidation φ (.ok (fields, set)) (.ok (Val.retextedItems φ fields, set))
  | invalid (e e' : VErr) : RetextedValidation φ (.error e) (.error e')

/-- The classes of `env'` are those of `env` with other discriminator values; instances are validated and encoded as before, up to the replacement. -/
structure Env.Retexts (φ : String → String) (env env' : Env) : Prop where
  texts : Retexting φ
  backend : env'.backend = env.backend
  classes : ∀ cls, (env.model cls = none ∧ env'.model cls = none) ∨ ∃ m m', env.model cls = some m ∧ env'.model cls = some m' ∧ m.Retexts φ m'
  validate : ∀ cls d, RetextedValidation φ (env.validate cls d) (env'.validate cls (d.retexted φ))
  toJsonable : ∀ v, env'.toJsonable (v.retexted φ) = (env.toJsonable v).retexted φ
  reprOf : ∀ v, env'.reprOf (v.retexted φ) = φ (env.reprOf v)

/-! ## Definitions -/

mutual

/-- The schema with all discriminator values replaced. -/
def Schema.retexted (φ : String → String) : Schema → Schema
  | .prim ty => .prim ty
  | .other ty => .other ty
  | .func i => .func (i.retexted φ)
  | .funcPlain none => .funcPlain none
  | .funcPlain (some i) => .funcPlain (some (i.retexted φ))
  | .default i => .default (i.retexted φ)
  | .nullable i => .nullable (i.retexted φ)
  | .jsonOrPython i => .jsonOrPython (i.retexted φ)
  | .definitions defs i => .definitions (Schema.retextedDefs φ defs) (i.retexted φ)
  | .ref r => .ref r
  | .model cls root => .model cls root
  | .list i => .list (i.retexted φ)
  | .tuple is variadic => .tuple (Schema.retextedAll φ is) variadic
  | .dict k v => .dict (k.retexted φ) (v.retexted φ)
  | .typedDict vs => .typedDict (Schema.retextedAll φ vs)
  | .union cs => .union (Schema.retextedAll φ cs)
  | .tagged discr cs => .tagged discr (Schema.retextedChoices φ cs)
  | .isInst native => .isInst native
  | .call isTuple args => .call isTuple (Schema.retextedAll φ args)

/-- The same for every schema of a list. -/
def Schema.retextedAll (φ : String → String) : List Schema → List Schema
  | [] => []
  | s :: ss => s.retexted φ :: Schema.retextedAll φ ss

/-- The same for every choice of a tagged union, with its discriminator value. -/
def Schema.retextedChoices (φ : String → String) : List (Option String × Schema) → List (Option String × Schema)
  | [] => []
  | (t, s) :: ss => (t.map φ, s.retexted φ) :: Schema.retextedChoices φ ss

/-- The same for every definition. -/
def Schema.retextedDefs (φ : String → String) : List (String × Schema) → List (String × Schema)
  | [] => []
  | (k, s) :: ss => (k, s.retexted φ) :: Schema.retextedDefs φ ss

end

/-- The body of a class with all discriminator values in the types of the fields replaced. -/
def BodyDef.retexted (φ : String → String) : BodyDef → BodyDef
  | .fields fs cs => .fields (fs.map fun f => { f with schema := f.schema.retexted φ }) (cs.map fun c => { c with schema := c.schema.retexted φ })
  | .root s infos => .root (s.retexted φ) infos

/-- The definition is the same but for discriminator values; custom functions do the same up to the replacement. -/
structure ClassDef.Retexts (φ : String → String) (cd cd' : ClassDef) : Prop where
  name : cd'.name = cd.name
  params : cd'.params = cd.params
  schema : cd'.schema = cd.schema.retexted φ
  body : cd'.body = cd.body.retexted φ
  extraForbid : cd'.extraForbid = cd.extraForbid
  hideInput : cd'.hideInput = cd.hideInput
  complete : cd'.complete = cd.complete
  validators : ∀ f, (cd.validators f = none ∧ cd'.validators f = none) ∨ ∃ g g', cd.validators f = some g ∧ cd'.validators f = some g' ∧
    ∀ e, SameRetexted φ (g e).1 (g' (e.retexted φ)).1 ∧ (g' (e.retexted φ)).2 = (g e).2.retexted φ
  serializers : ∀ f, (cd.serializers f = none ∧ cd'.serializers f = none) ∨ ∃ g g', cd.serializers f = some g ∧ cd'.serializers f = some g' ∧
    ∀ self el v, g' (self.retexted φ) (el.retexted φ) (v.retexted φ) = (g self el v).retexted φ

/-- All definitions of a program. -/
def Classes.Retexts (φ : String → String) (classes classes' : Classes) : Prop :=
  ∀ c, (classes c = none ∧ classes' c = none) ∨ ∃ cd cd', classes c = some cd ∧ classes' c = some cd' ∧ cd.Retexts φ cd'

end PXml
