import Verif.Spec
import Verif.Compile

/-!
# Specification of class definitions

What a class definition means, independently of the code that builds its serializer: how names are formed, how core
schemas are resolved, and which types can be used where.
-/

namespace PXml

/-- The lists have the same length and corresponding items are related. -/
inductive Each {α β : Type} (R : α → β → Prop) : List α → List β → Prop
  | nil : Each R [] []
  | cons {a b as bs} : R a b → Each R as bs → Each R (a :: as) (b :: bs)

/-! ## Names -/

/-- The first name that is given; an empty string does not count. -/
def givenName (candidates : List (Option String)) : Option String :=
  candidates.findSome? fun c => if c = some "" then none else c

/-- The uri of a prefix: that of the first namespace map that declares it. -/
def uriIn (scope : List (Option NsMap)) (p : String) : Option String := scope.findSome? fun m => (m.getD []).get? p

/-- A name in a namespace, in Clark notation; the empty namespace is no namespace. -/
def qualified (uri : Option String) (tag : String) : String :=
  match uri with
  | none => tag
  | some u => if u = "" then tag else "{" ++ u ++ "}" ++ tag

/-- The namespace map of an annotation, if any, is a dictionary: every prefix occurs once. -/
def EntityInfo.Proper (i : Option EntityInfo) : Prop := ∀ m, i.bind EntityInfo.nsmap = some m → m.WF

/-- So are those of the annotations wrapped by it. -/
inductive EntityInfo.WellFormed : EntityInfo → Prop
  | mk {i : EntityInfo} : EntityInfo.Proper (some i) → (∀ w, i.wrapped = some w → w.WellFormed) → i.WellFormed

/-- What the representation of a field can depend on, besides its type: the names given to the field, the search mode and
`ns_attrs` of the class, whether it is a computed field, the annotation of the entity, and the annotations around it
(enclosing `wrapped` levels and finally the class), the nearest first. -/
structure Place where
  fieldName : Option String
  fieldAlias : Option String
  mode : Mode
  nsAttrs : Bool
  computed : Bool
  info : Option EntityInfo
  around : List (Option EntityInfo)

def Ctx.place (c : Ctx) : Place := ⟨c.fieldName, c.fieldAlias, c.mode, c.nsAttrs, c.computed, c.info, c.parents⟩

namespace Place

def location (p : Place) : Option Location := p.info.bind EntityInfo.location
def path (p : Place) : Option String := p.info.bind EntityInfo.path
def ns (p : Place) : Option String := p.info.bind EntityInfo.ns
def nsmap (p : Place) : Option NsMap := p.info.bind EntityInfo.nsmap
def nillable (p : Place) : Bool := (p.info.bind EntityInfo.nillable).getD false

/-- The place of the content of a `wrapped` entity. -/
def inside (p : Place) : Place := { p with info := p.info.bind EntityInfo.wrapped, around := p.info :: p.around }

/-- All namespace maps around and at the entity are dictionaries. -/
def Proper (p : Place) : Prop :=
  (∀ i, p.info = some i → i.WellFormed) ∧ ∀ i ∈ p.around, EntityInfo.Proper i

/-- The name of an element or attribute: the path, else the alias, else the name of the field. -/
def given (p : Place) : Option String := givenName [p.path, p.fieldAlias, p.fieldName]

/-- The namespace prefixes declared around the entity, the nearest first. -/
def prefixes (p : Place) : List (Option String) := p.around.map fun i => i.bind EntityInfo.ns

/-- The namespace maps declared around the entity: the class comes first, inner `wrapped` levels last. -/
def maps (p : Place) : List (Option NsMap) := (p.around.map fun i => i.bind EntityInfo.nsmap).reverse

/-- The namespace maps in scope: those of the entity itself first. -/
def scope (p : Place) : List (Option NsMap) := p.nsmap :: p.maps

/-- The namespace maps in scope of a sub-model: the map of its class comes after that of the entity. -/
def modelScope (p : Place) (cd : ClassDef) : List (Option NsMap) := p.nsmap :: cd.params.nsmap :: p.maps

/-- The prefix of an element: the first declared one, of the entity itself or around it. -/
def prefix? (p : Place) : Option String := (p.ns :: p.prefixes).findSome? id

/-- The prefix of an attribute: its own one or, with `ns_attrs`, the first declared one. -/
def attrPrefix? (p : Place) : Option String := (p.ns :: if p.nsAttrs then p.prefixes else []).findSome? id

/-- The prefix of a sub-model: that of its class comes after that of the entity. -/
def modelPrefix? (p : Place) (cd : ClassDef) : Option String := (p.ns :: cd.params.ns :: p.prefixes).findSome? id

/-- The name of an element field with local name `tag`; without any prefix, the default namespace applies. -/
def elementName (p : Place) (tag : String) : String := qualified (uriIn p.scope (p.prefix?.getD "")) tag

/-- The name of an attribute; without any prefix, the attribute is in no namespace. -/
def attrName (p : Place) (tag : String) : String := qualified (p.attrPrefix?.bind (uriIn p.scope)) tag

/-- The name of a sub-model element. -/
def modelName (p : Place) (cd : ClassDef) (tag : String) : String :=
  qualified (uriIn (p.modelScope cd) ((p.modelPrefix? cd).getD "")) tag

end Place

/-- The namespace map binds exactly the prefixes in scope. -/
def Binds (scope : List (Option NsMap)) (m : Option NsMap) : Prop := ∃ d, m = some d ∧ ∀ a, Dict.get? d a = uriIn scope a

/-- The settings of a dictionary field. -/
def AttrsSer.Fits (p : Place) (a : AttrsSer) : Prop :=
  a.ns = p.prefix? ∧ Binds p.scope a.nsmap ∧ a.namespaced = p.nsAttrs ∧ a.computed = p.computed

/-- The parts of a path: none contains a slash, and with slashes between them they are the path. -/
def Segments (path : String) (parts : List String) : Prop :=
  parts ≠ [] ∧ (∀ p ∈ parts, '/' ∉ p.toList) ∧ path.toList = ['/'].intercalate (parts.map String.toList)

/-- All settings of the serializer (names, namespace maps, search mode, whether it is computed or nillable) are the ones
that the annotations prescribe. -/
inductive Ser.Fits (classes : Classes) : Place → Ser → Prop
  | text {p} : Fits classes p (.text p.computed p.nillable)
  | attrs {p a} : a.Fits p → Fits classes p (.attrs a)
  | attr {p tag} : p.given = some tag → Fits classes p (.attr (p.attrName tag) p.computed)
  | elem {p tag m} : p.given = some tag → Binds p.scope m →
      Fits classes p (.elem (p.elementName tag) m p.mode p.computed p.nillable)
  | mapElem {p tag a} : p.given = some tag → a.Fits p → Fits classes p (.mapElem a (p.elementName tag) p.mode)
  | raw {p tag} : p.given = some tag → Fits classes p (.raw (p.elementName tag) p.mode p.computed)
  | proxy {p : Place} {cls : String} {m : Option NsMap} {cd : ClassDef} {tag : String} : classes cls = some cd →
      givenName [p.path, cd.params.tag, p.fieldAlias, p.fieldName, some cd.name] = some tag →
      Binds (p.modelScope cd) m →
      Fits classes p (.proxy { cls := cls, name := p.modelName cd tag, nsmap := m, mode := p.mode, computed := p.computed, nillable := p.nillable })
  | primUnion {p s} : Fits classes p s → Fits classes p (.primUnion p.computed s)
  | modelUnion {p t alts} : (∀ x ∈ alts, Fits classes p (.proxy x)) → Fits classes p (.modelUnion t p.computed alts)
  | tagged {p d a alts} : (∀ x ∈ alts, Fits classes p (.proxy x.2)) → Fits classes p (.tagged p.computed d a p.mode alts)
  | wrap {p : Place} {path parts m s} : p.path = some path → Segments path parts → Binds p.scope m → Fits classes p.inside s →
      Fits classes p (.wrap (parts.map p.elementName) m p.mode p.computed s)
  | homog {p t s} : Fits classes p s → Fits classes p (.homog t p.computed s)
  | hetero {p t ss} : (∀ s ∈ ss, Fits classes p s) → Fits classes p (.hetero t p.computed ss)

/-- The classes have names, and their namespace maps are dictionaries. -/
def Classes.Proper (classes : Classes) : Prop :=
  ∀ c cd, classes c = some cd → cd.name ≠ "" ∧ ∀ m, cd.params.nsmap = some m → m.WF

/-! ## Classes -/

/-- What a class declares for the entities in it. -/
def ClassDef.info (cd : ClassDef) : EntityInfo :=
  .mk (some .element) cd.params.tag cd.params.ns cd.params.nsmap none none

/-- The place of a field: the annotations of its metadata are merged, the class is around it. -/
def FieldDef.place (cd : ClassDef) (f : FieldDef) : Place :=
  ⟨some f.name, f.alias, cd.params.searchMode, cd.params.nsAttrs, false, EntityInfo.extract f.infos, [some cd.info]⟩

/-- The place of a computed field. -/
def ComputedDef.place (cd : ClassDef) (c : ComputedDef) : Place :=
  ⟨some c.name, c.alias, cd.params.searchMode, cd.params.nsAttrs, true, c.info, [some cd.info]⟩

/-- The place of the content of a root model. -/
def ClassDef.rootPlace (cd : ClassDef) (infos : List EntityInfo) : Place :=
  ⟨none, none, cd.params.searchMode, cd.params.nsAttrs, false, EntityInfo.extract infos, [some cd.info]⟩

/-- The name of the root element of a class: its tag, else the name of the class, in the namespace of its prefix. -/
def ClassDef.rootName (cd : ClassDef) : String :=
  qualified (uriIn [cd.params.nsmap] (cd.params.ns.getD "")) ((givenName [cd.params.tag, some cd.name]).getD "")

/-- The names are not empty and the namespace maps are dictionaries. -/
def ClassDef.Proper (cd : ClassDef) : Prop :=
  cd.name ≠ "" ∧ (∀ m, cd.params.nsmap = some m → m.WF) ∧
  match cd.body with
  | .fields fs cs => (∀ f ∈ fs, f.name ≠ "" ∧ ∀ i ∈ f.infos, i.WellFormed) ∧
      ∀ c ∈ cs, c.name ≠ "" ∧ ∀ i, c.info = some i → i.WellFormed
  | .root _ infos => ∀ i ∈ infos, i.WellFormed

/-- The field of the serializer has the settings of the field of the class. -/
structure Field.Fits (classes : Classes) (cd : ClassDef) (f : FieldDef) (x : Field) : Prop where
  name : x.name = f.name
  ser : x.ser.Fits classes (f.place cd)
  alias : x.alias = if f.validationAlias = some "" then none else f.validationAlias
  exclude : x.exclude = f.exclude
  validator : x.validator = cd.validators f.name
  serializer : x.serializer = cd.serializers f.name

/-- The field of the serializer has the settings of the computed field. -/
structure Field.FitsComputed (classes : Classes) (cd : ClassDef) (c : ComputedDef) (x : Field) : Prop where
  name : x.name = c.name
  ser : x.ser.Fits classes (c.place cd)
  alias : x.alias = none
  exclude : x.exclude = false
  validator : x.validator = cd.validators c.name
  serializer : x.serializer = cd.serializers c.name

/-- The serializer of a class has all its fields that are XML entities and all its computed fields, in the order of their
definition, and the settings of the class. -/
structure ModelSer.Fits (classes : Classes) (cd : ClassDef) (m : ModelSer) : Prop where
  name : m.name = cd.name
  elementName : m.elementName = cd.rootName
  nsmap : m.nsmap = cd.params.nsmap
  skipEmpty : m.skipEmpty = cd.params.skipEmpty
  extraForbid : m.extraForbid = cd.extraForbid
  hideInput : m.hideInput = cd.hideInput.getD false
  body : match cd.body with
    | .fields fs cs => ∃ a b, m.body = .fields (a ++ b) ∧
        Each (fun f x => x.Fits classes cd f) (fs.filter fun f => !f.noXml) a ∧
        Each (fun c x => x.FitsComputed classes cd c) cs b
    | .root _ infos => ∃ x, m.body = .root x ∧ x.Fits classes (cd.rootPlace infos)

/-! ## Types -/

/-- Types proper: what is neither a reference nor wrapped around another schema, and known to pydantic-xml. -/
def Schema.isType : Schema → Bool
  | .prim _ | .model _ _ | .list _ | .tuple _ _ | .dict _ _ | .typedDict _ | .union _ | .tagged _ _ | .isInst _ | .call _ _ => true
  | _ => false

/-- Types of which the items of a collection need no name: models, unions of any sort, and tuples. -/
def Schema.SelfNamed (s : Schema) : Prop :=
  (∃ c r, s = .model c r) ∨ (∃ cs, s = .union cs) ∨ (∃ o cs, s = .tagged o cs) ∨ (∃ is v, s = .tuple is v) ∨ ∃ b as, s = .call b as

/-- The type a core schema stands for, given the definitions in scope: `Optional`, defaults and validators do not
matter, references are followed.  The second dictionary is the scope at the place of the type. -/
inductive Strips : Dict String Schema → Schema → Dict String Schema → Schema → Prop
  | done {d s} : s.isType = true → Strips d s d s
  | func {d i d' t} : Strips d i d' t → Strips d (.func i) d' t
  | funcPlain {d i d' t} : Strips d i d' t → Strips d (.funcPlain (some i)) d' t
  | default {d i d' t} : Strips d i d' t → Strips d (.default i) d' t
  | nullable {d i d' t} : Strips d i d' t → Strips d (.nullable i) d' t
  | jsonOrPython {d i d' t} : Strips d i d' t → Strips d (.jsonOrPython i) d' t
  | definitions {d defs i d' t} : Strips (Dict.update d defs) i d' t → Strips d (.definitions defs i) d' t
  | ref {d r s d' t} : d.get? r = some s → Strips d s d' t → Strips d (.ref r) d' t

/-- There are no definitions inside the schema: pydantic collects them at the top of the schema of a class. -/
inductive Schema.Plain : Schema → Prop
  | prim {ty} : Plain (.prim ty)
  | other {ty} : Plain (.other ty)
  | func {i} : Plain i → Plain (.func i)
  | funcPlain {o} : (∀ i, o = some i → Plain i) → Plain (.funcPlain o)
  | default {i} : Plain i → Plain (.default i)
  | nullable {i} : Plain i → Plain (.nullable i)
  | jsonOrPython {i} : Plain i → Plain (.jsonOrPython i)
  | ref {r} : Plain (.ref r)
  | model {c r} : Plain (.model c r)
  | list {i} : Plain i → Plain (.list i)
  | tuple {is v} : (∀ i ∈ is, Plain i) → Plain (.tuple is v)
  | dict {k v} : Plain k → Plain v → Plain (.dict k v)
  | typedDict {vs} : (∀ v ∈ vs, Plain v) → Plain (.typedDict vs)
  | union {cs} : (∀ c ∈ cs, Plain c) → Plain (.union cs)
  | tagged {d cs} : (∀ c ∈ cs, Plain c.2) → Plain (.tagged d cs)
  | isInst {n} : Plain (.isInst n)
  | call {b args} : (∀ a ∈ args, Plain a) → Plain (.call b args)

/-- The same for all definitions. -/
def PlainDefs (d : Dict String Schema) : Prop := ∀ r s, d.get? r = some s → s.Plain

/-- A prefix, if there is one, is declared, unless nothing is declared at all. -/
def Declared (scope : List (Option NsMap)) (pre : Option String) : Prop :=
  ∀ a, pre = some a → uriIn scope a ≠ none ∨ ∀ b, uriIn scope b = none

/-- The entity can be an element. -/
def Place.ElementOk (p : Place) : Prop := p.given ≠ none ∧ Declared p.scope p.prefix?

/-- The entity can be an attribute: the default namespace cannot be asked for. -/
def Place.AttrOk (p : Place) : Prop := p.given ≠ none ∧ p.attrPrefix? ≠ some "" ∧ Declared p.scope p.attrPrefix?

/-- The entity can be an element with the content of the class. -/
def Place.ModelOk (p : Place) (cd : ClassDef) : Prop := Declared (p.modelScope cd) (p.modelPrefix? cd)

/-- Text, attributes and elements can hold a primitive value. -/
def Place.Scalar (p : Place) : Prop :=
  p.location = none ∨ p.location = some .element ∧ p.ElementOk ∨ p.location = some .attribute ∧ p.AttrOk

/-- The attributes of the enclosing element or of an element of its own can hold a dictionary. -/
def Place.Mapping (p : Place) : Prop := p.location = none ∨ p.location = some .element ∧ p.ElementOk

/-- Everything but text and attributes. -/
def Place.Compound (p : Place) : Prop := p.location = none ∨ p.location = some .element

/-- The class has been built, and the attribute holds its field with the name of the discriminator. -/
def Built.Keyed (built : Built) (cls discr attr : String) : Prop :=
  ∃ m fs f comp, built cls = some m ∧ m.body = .fields fs ∧ fs.find? (fun f => f.name = discr) = some f ∧
    f.ser = .attr attr comp

/-- The types that have an XML representation at a place, given the definitions in scope and a relation that says in which
attribute of which class a discriminator is. -/
inductive Schema.Supported (classes : Classes) (keyed : String → String → String → Prop) (d : Dict String Schema) : Place → Schema → Prop
  /-- A wrapped entity, if its content has a representation. -/
  | wrapped {p s t path} : Strips d s d t → p.location = some .wrapped → p.path = some path →
      Declared p.scope p.prefix? → Supported classes keyed d p.inside t → Supported classes keyed d p s
  | prim {p s ty} : Strips d s d (.prim ty) → p.Scalar → Supported classes keyed d p s
  | inst {p s} : Strips d s d (.isInst false) → p.Scalar → Supported classes keyed d p s
  | raw {p s} : Strips d s d (.isInst true) → p.Compound → p.ElementOk → Supported classes keyed d p s
  | model {p s cls r cd} : Strips d s d (.model cls r) → classes cls = some cd → p.Compound → p.ModelOk cd →
      Supported classes keyed d p s
  | dict {p s k v ty ty'} : Strips d s d (.dict k v) → Strips d k d (.prim ty) → Strips d v d (.prim ty') → p.Mapping →
      Supported classes keyed d p s
  | typedDict {p s vs} : Strips d s d (.typedDict vs) → (∀ v ∈ vs, ∃ ty, Strips d v d (.prim ty)) → p.Mapping →
      Supported classes keyed d p s
  /-- Lists, sets and tuples of any length, of anything but lists and sets.  Without a location the items must name
  themselves. -/
  | collection {p s t item it} : Strips d s d t → t = .list item ∨ t = .tuple [item] (some 0) → Strips d item d it →
      (∀ i, it ≠ .list i) → p.location = none → it.SelfNamed →
      Supported classes keyed d p item → Supported classes keyed d p s
  | elements {p s t item it} : Strips d s d t → t = .list item ∨ t = .tuple [item] (some 0) → Strips d item d it →
      (∀ i, it ≠ .list i) → p.location = some .element →
      Supported classes keyed d p item → Supported classes keyed d p s
  /-- Tuples of a fixed length and named tuples, of anything but lists, sets and tuples.  Without a location the items must
  be models or unions. -/
  | tuple {p s t items} : Strips d s d t → t = .tuple items none ∨ t = .call true items →
      (∀ i ∈ items, ∃ it, Strips d i d it ∧ (∀ i, it ≠ .list i) ∧ (∀ is v, it ≠ .tuple is v) ∧
        (p.location = none → (∃ c r, it = .model c r) ∨ ∃ cs, it = .union cs)) →
      p.Compound → (∀ i ∈ items, Supported classes keyed d p i) → Supported classes keyed d p s
  /-- Unions of primitive types. -/
  | primUnion {p s cs} : Strips d s d (.union cs) →
      (∀ c ∈ cs, (∃ ty, Strips d c d (.prim ty)) ∨ Strips d c d (.isInst false)) →
      (∃ c ∈ cs, ∃ ty, Strips d c d (.prim ty)) → p.Scalar → Supported classes keyed d p s
  /-- Unions of models. -/
  | modelUnion {p s cs} : Strips d s d (.union cs) → cs ≠ [] → p.Compound →
      (∀ c ∈ cs, ∃ cls r cd, Strips d c d (.model cls r) ∧ classes cls = some cd ∧ p.ModelOk cd) →
      Supported classes keyed d p s
  /-- Discriminated unions of models that are not root models, if the discriminator is the same attribute in all of
  them. -/
  | tagged {p s discr cs attr} : Strips d s d (.tagged (some discr) cs) → cs ≠ [] → p.Compound →
      (∀ c ∈ cs, ∃ tag cls cd, c.1 = some tag ∧ Strips d c.2 d (.model cls false) ∧ classes cls = some cd ∧
        p.ModelOk cd ∧ keyed cls discr attr) →
      Supported classes keyed d p s

/-- A class definition that has an XML representation: all its XML fields, its computed fields or its root have one, and
the prefix of the class is declared by the class. -/
def ClassDef.Supported (classes : Classes) (keyed : String → String → String → Prop) (d : Dict String Schema) (cd : ClassDef) : Prop :=
  Declared [cd.params.nsmap] cd.params.ns ∧
  match cd.body with
  | .fields fs cs => (∀ f ∈ fs, f.noXml = false → f.schema.Supported classes keyed d (f.place cd)) ∧
      ∀ c ∈ cs, c.schema.Supported classes keyed d (c.place cd)
  | .root s infos => s.Supported classes keyed d (cd.rootPlace infos)

/-- There are no definitions inside the schemas of the fields. -/
def ClassDef.Plain (cd : ClassDef) : Prop :=
  match cd.body with
  | .fields fs cs => (∀ f ∈ fs, f.schema.Plain) ∧ ∀ c ∈ cs, c.schema.Plain
  | .root s _ => s.Plain

/-- The type unfolds to a finite tree: references inside it do not lead back to it, except through model classes (there
are no definitions inside, as for `Schema.Plain`). -/
inductive Schema.Finite (d : Dict String Schema) : Schema → Prop
  | prim {ty} : Finite d (.prim ty)
  | other {ty} : Finite d (.other ty)
  | model {c r} : Finite d (.model c r)
  | isInst {n} : Finite d (.isInst n)
  | func {i} : Finite d i → Finite d (.func i)
  | plainNone : Finite d (.funcPlain none)
  | plainSome {i} : Finite d i → Finite d (.funcPlain (some i))
  | default {i} : Finite d i → Finite d (.default i)
  | nullable {i} : Finite d i → Finite d (.nullable i)
  | jsonOrPython {i} : Finite d i → Finite d (.jsonOrPython i)
  | unknown {r} : d.get? r = none → Finite d (.ref r)
  | ref {r s} : d.get? r = some s → Finite d s → Finite d (.ref r)
  | list {i} : Finite d i → Finite d (.list i)
  | tuple {is v} : (∀ i ∈ is, Finite d i) → Finite d (.tuple is v)
  | dict {k v} : Finite d k → Finite d v → Finite d (.dict k v)
  | typedDict {vs} : (∀ v ∈ vs, Finite d v) → Finite d (.typedDict vs)
  | union {cs} : (∀ c ∈ cs, Finite d c) → Finite d (.union cs)
  | tagged {o cs} : (∀ c ∈ cs, Finite d c.2) → Finite d (.tagged o cs)
  | call {b args} : (∀ a ∈ args, Finite d a) → Finite d (.call b args)

/-! ## One path or several -/

/-- `wrapped('a/b', entity, ns)`: fields.py:180-220. -/
def wrappedInfo (path : String) (ns : Option String) (inner : Option EntityInfo) : EntityInfo :=
  .mk (some .wrapped) (some path) ns none none inner

/-- Building a serializer for the type in the context ends with the result. -/
def Compiles (classes : Classes) (built : Built) (s : Schema) (ctx : Ctx) (r : Except DefErr Ser) : Prop :=
  r ≠ .error .diverge ∧ ∃ n, parse classes built n s ctx = r

/-- The results for one path and for two: the same error, or a wrapper for the whole path and one wrapper in another. -/
inductive Folded : Except DefErr Ser → Except DefErr Ser → Prop
  | error (e : DefErr) : Folded (.error e) (.error e)
  | ok (p q : List String) (m : Option NsMap) (mode : Mode) (c : Bool) (inner : Ser) : p ≠ [] → q ≠ [] →
    Folded (.ok (.wrap (p ++ q) m mode c inner)) (.ok (.wrap p m mode c (.wrap q m mode c inner)))

end PXml
