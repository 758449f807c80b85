import Verif.Compile

/-!
# Specification of renaming classes

`ρ` gives the classes new names, `τ` gives new texts to the names that appear in errors.
-/

namespace PXml

mutual

/-- The value with the classes of all instances in it renamed. -/
def Val.renamed (ρ : String → String) : Val → Val
  | .list xs => .list (Val.renamedAll ρ xs)
  | .dict d => .dict (Val.renamedItems ρ d)
  | .model cls fields set => .model (ρ cls) (Val.renamedItems ρ fields) set
  | .none => .none
  | .str s => .str s
  | .bool b => .bool b
  | .int i => .int i
  | .opaque r l => .opaque r l
  | .raw node => .raw node
  | .undef => .undef

/-- The same for every value of a list. -/
def Val.renamedAll (ρ : String → String) : List Val → List Val
  | [] => []
  | v :: vs => v.renamed ρ :: Val.renamedAll ρ vs

/-- The same for every value of a dictionary. -/
def Val.renamedItems (ρ : String → String) : List (String × Val) → List (String × Val)
  | [] => []
  | (k, v) :: d => (k, v.renamed ρ) :: Val.renamedItems ρ d

end

/-- The sub-model is of the renamed class. -/
def Proxy.renamed (ρ : String → String) (p : Proxy) : Proxy := { p with cls := ρ p.cls }

/-- Errors have another heading. -/
def Title.renamed (τ : String → String) (t : Title) : Title := { t with text := τ t.text }

mutual

/-- The serializer with all classes renamed. -/
def Ser.renamed (ρ τ : String → String) : Ser → Ser
  | .text c n => .text c n
  | .attr name c => .attr name c
  | .elem name nsmap mode c n => .elem name nsmap mode c n
  | .attrs a => .attrs a
  | .mapElem a name mode => .mapElem a name mode
  | .raw name mode c => .raw name mode c
  | .proxy p => .proxy (p.renamed ρ)
  | .primUnion c inner => .primUnion c (inner.renamed ρ τ)
  | .modelUnion t c alts => .modelUnion (t.renamed τ) c (alts.map (Proxy.renamed ρ))
  | .tagged c discr attrName mode alts => .tagged c discr attrName mode (alts.map fun kp => (kp.1, kp.2.renamed ρ))
  | .wrap path nsmap mode c inner => .wrap path nsmap mode c (inner.renamed ρ τ)
  | .homog t c inner => .homog (t.renamed τ) c (inner.renamed ρ τ)
  | .hetero t c inners => .hetero (t.renamed τ) c (Ser.renamedAll ρ τ inners)

/-- The same for every serializer of a list. -/
def Ser.renamedAll (ρ τ : String → String) : List Ser → List Ser
  | [] => []
  | s :: ss => s.renamed ρ τ :: Ser.renamedAll ρ τ ss

end

/-- The reads give the same value up to the renaming, or both fail, with the same exception unless it is a validation error. -/
def SameRenamed (ρ : String → String) : Out Val → Out Val → Prop
  | .ok v, .ok v' => v' = v.renamed ρ
  | .verr _, .verr _ => True
  | .crash e, .crash e' => e = e'
  | .diverge, .diverge => True
  | _, _ => False

/-- The field is the same but that classes are renamed; custom functions do the same up to the renaming. -/
structure Field.Renames (ρ τ : String → String) (f f' : Field) : Prop where
  name : f'.name = f.name
  ser : f'.ser = f.ser.renamed ρ τ
  alias : f'.alias = f.alias
  exclude : f'.exclude = f.exclude
  validator : (f.validator = none ∧ f'.validator = none) ∨ ∃ g g', f.validator = some g ∧ f'.validator = some g' ∧
    ∀ e, SameRenamed ρ (g e).1 (g' e).1 ∧ (g e).2 = (g' e).2
  serializer : (f.serializer = none ∧ f'.serializer = none) ∨ ∃ g g', f.serializer = some g ∧ f'.serializer = some g' ∧
    ∀ self el v, g' (self.renamed ρ) el (v.renamed ρ) = g self el v

/-- The fields are the same one by one. -/
inductive Fields.Renames (ρ τ : String → String) : List Field → List Field → Prop
  | nil : Fields.Renames ρ τ [] []
  | cons {f f' : Field} {fs fs' : List Field} : f.Renames ρ τ f' → Fields.Renames ρ τ fs fs' → Fields.Renames ρ τ (f :: fs) (f' :: fs')

/-- What the class consists of. -/
inductive Body.Renames (ρ τ : String → String) : Body → Body → Prop
  | fields {fs fs' : List Field} : Fields.Renames ρ τ fs fs' → Body.Renames ρ τ (.fields fs) (.fields fs')
  | root (s : Ser) : Body.Renames ρ τ (.root s) (.root (s.renamed ρ τ))

/-- The class is the same; its name in errors may be any. -/
structure ModelSer.Renames (ρ τ : String → String) (m m' : ModelSer) : Prop where
  elementName : m'.elementName = m.elementName
  nsmap : m'.nsmap = m.nsmap
  body : m.body.Renames ρ τ m'.body
  skipEmpty : m'.skipEmpty = m.skipEmpty
  extraForbid : m'.extraForbid = m.extraForbid

/-- Validation gives the same instance up to the renaming, or fails in both cases. -/
inductive RenamedValidation (ρ : String → String) :
    Except VErr (List (String × Val) × List String) → Except VErr (List (String × Val) × List String) → Prop
  | valid (fields : List (String × Val)) (set : List String) : RenamedValidation ρ (.ok (fields, set)) (.ok (Val.renamedItems ρ fields, set))
  | invalid (e e' : VErr) : RenamedValidation ρ (.error e) (.error e')

/-- The classes of `env'` are those of `env` under new names; instances are validated and encoded as before. -/
structure Env.Renames (ρ τ : String → String) (env env' : Env) : Prop where
  injective : ∀ a b, ρ a = ρ b → a = b
  backend : env'.backend = env.backend
  classes : ∀ cls, (env.model cls = none ∧ env'.model (ρ cls) = none) ∨
    ∃ m m', env.model cls = some m ∧ env'.model (ρ cls) = some m' ∧ m.Renames ρ τ m'
  validate : ∀ cls d, RenamedValidation ρ (env.validate cls d) (env'.validate (ρ cls) (d.renamed ρ))
  toJsonable : ∀ v, env'.toJsonable (v.renamed ρ) = env.toJsonable v
  reprOf : env'.reprOf = env.reprOf

/-! ## Definitions -/

mutual

/-- The schema with all classes renamed.  The keys of references stay: pydantic makes them up, and they only connect a reference to its definition. -/
def Schema.renamed (ρ : String → String) : Schema → Schema
  | .prim ty => .prim ty
  | .other ty => .other ty
  | .func i => .func (i.renamed ρ)
  | .funcPlain none => .funcPlain none
  | .funcPlain (some i) => .funcPlain (some (i.renamed ρ))
  | .default i => .default (i.renamed ρ)
  | .nullable i => .nullable (i.renamed ρ)
  | .jsonOrPython i => .jsonOrPython (i.renamed ρ)
  | .definitions defs i => .definitions (Schema.renamedDefs ρ defs) (i.renamed ρ)
  | .ref r => .ref r
  | .model cls root => .model (ρ cls) root
  | .list i => .list (i.renamed ρ)
  | .tuple is variadic => .tuple (Schema.renamedAll ρ is) variadic
  | .dict k v => .dict (k.renamed ρ) (v.renamed ρ)
  | .typedDict vs => .typedDict (Schema.renamedAll ρ vs)
  | .union cs => .union (Schema.renamedAll ρ cs)
  | .tagged discr cs => .tagged discr (Schema.renamedChoices ρ cs)
  | .isInst native => .isInst native
  | .call isTuple args => .call isTuple (Schema.renamedAll ρ args)

/-- The same for every schema of a list. -/
def Schema.renamedAll (ρ : String → String) : List Schema → List Schema
  | [] => []
  | s :: ss => s.renamed ρ :: Schema.renamedAll ρ ss

/-- The same for every choice of a tagged union; the tags stay. -/
def Schema.renamedChoices (ρ : String → String) : List (Option String × Schema) → List (Option String × Schema)
  | [] => []
  | (t, s) :: ss => (t, s.renamed ρ) :: Schema.renamedChoices ρ ss

/-- The same for every definition. -/
def Schema.renamedDefs (ρ : String → String) : List (String × Schema) → List (String × Schema)
  | [] => []
  | (k, s) :: ss => (k, s.renamed ρ) :: Schema.renamedDefs ρ ss

end

/-- The body of a class with all classes in the types of the fields renamed. -/
def BodyDef.renamed (ρ : String → String) : BodyDef → BodyDef
  | .fields fs cs => .fields (fs.map fun f => { f with schema := f.schema.renamed ρ }) (cs.map fun c => { c with schema := c.schema.renamed ρ })
  | .root s infos => .root (s.renamed ρ) infos

/-- The definition is the same but that the classes have other names.  `ρ` renames the classes, `τ` is what becomes of their `__name__`; it may change only for
classes that declare a tag, since for others it is the tag. -/
structure ClassDef.Renames (ρ τ : String → String) (cd cd' : ClassDef) : Prop where
  name : cd'.name = τ cd.name
  tag : Elem.truthy cd.params.tag = true ∨ τ cd.name = cd.name
  params : cd'.params = cd.params
  schema : cd'.schema = cd.schema.renamed ρ
  body : cd'.body = cd.body.renamed ρ
  extraForbid : cd'.extraForbid = cd.extraForbid
  hideInput : cd'.hideInput = cd.hideInput
  complete : cd'.complete = cd.complete
  validators : ∀ f, (cd.validators f = none ∧ cd'.validators f = none) ∨ ∃ g g', cd.validators f = some g ∧ cd'.validators f = some g' ∧
    ∀ e, SameRenamed ρ (g e).1 (g' e).1 ∧ (g e).2 = (g' e).2
  serializers : ∀ f, (cd.serializers f = none ∧ cd'.serializers f = none) ∨ ∃ g g', cd.serializers f = some g ∧ cd'.serializers f = some g' ∧
    ∀ self el v, g' (self.renamed ρ) el (v.renamed ρ) = g self el v

/-- All definitions of a program. -/
def Classes.Renames (ρ τ : String → String) (classes classes' : Classes) : Prop :=
  ∀ c, (classes c = none ∧ classes' (ρ c) = none) ∨ ∃ cd cd', classes c = some cd ∧ classes' (ρ c) = some cd' ∧ cd.Renames ρ τ cd'

/-- The class statement, or the call of `model_rebuild`, of the renamed class. -/
def Event.renamed (ρ : String → String) : Event → Event
  | .statement c k => .statement (ρ c) k
  | .rebuild c k => .rebuild (ρ c) k

end PXml
