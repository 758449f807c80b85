import Verif.SpecDeclared
import Verif.SpecTyped

/-!
# Specification of typed instances, in terms of declarations (C74)

Which places the declared fields occupy, and which instances come back from XML: by the declarations only, without serializers.
-/

namespace PXml

/-- A primitive type or a union of such types. -/
def Schema.Leaf (d : Dict String Schema) (s : Schema) : Prop :=
  s.Scalar d ∨ ∃ c cs, Strips d s d (.union (c :: cs)) ∧ ∀ i ∈ c :: cs, i.Scalar d

/-- The places in the element of a class that an entity of a type, which is not wrapped, may occupy. -/
inductive Schema.Occupies (classes : Classes) (d : Dict String Schema) : Place → Schema → Slot → Prop
  | text {p : Place} {s : Schema} : s.Scalar d → p.location = none → Occupies classes d p s .text
  | nil {p : Place} {s : Schema} : s.Scalar d → p.location = none → p.nillable = true → Occupies classes d p s (.attr Elem.nilAttr)
  | attr {p : Place} {s : Schema} {tag : String} : s.Scalar d → p.location = some .attribute → p.given = some tag →
      Occupies classes d p s (.attr (p.attrName tag))
  | elem {p : Place} {s : Schema} {tag : String} : s.Scalar d → p.location = some .element → p.given = some tag →
      Occupies classes d p s (.child (p.elementName tag))
  | attrs {p : Place} {s : Schema} : s.Mapping d → p.location = none → Occupies classes d p s .attrs
  | mapElem {p : Place} {s : Schema} {tag : String} : s.Mapping d → p.location = some .element → p.given = some tag →
      Occupies classes d p s (.child (p.elementName tag))
  | raw {p : Place} {s : Schema} {tag : String} : Strips d s d (.isInst true) → p.given = some tag →
      Occupies classes d p s (.child (p.elementName tag))
  | model {p : Place} {s : Schema} {cls : String} {r : Bool} {cd : ClassDef} {tag : String} : Strips d s d (.model cls r) →
      classes cls = some cd → givenName [p.path, cd.params.tag, p.fieldAlias, p.fieldName, some cd.name] = some tag →
      Occupies classes d p s (.child (p.modelName cd tag))
  | list {p : Place} {s t item : Schema} {slot : Slot} : Strips d s d t → t = .list item ∨ t = .tuple [item] (some 0) →
      Occupies classes d p item slot → Occupies classes d p s slot
  | tuple {p : Place} {s t item : Schema} {items : List Schema} {slot : Slot} : Strips d s d t → t = .tuple items none ∨ t = .call true items →
      item ∈ items → Occupies classes d p item slot → Occupies classes d p s slot
  | union {p : Place} {s c : Schema} {cs : List Schema} {slot : Slot} : Strips d s d (.union cs) → c ∈ cs →
      Occupies classes d p c slot → Occupies classes d p s slot
  | tagged {p : Place} {s : Schema} {discr : Option String} {c : Option String × Schema} {cs : List (Option String × Schema)} {slot : Slot} :
      Strips d s d (.tagged discr cs) → c ∈ cs → Occupies classes d p c.2 slot → Occupies classes d p s slot

/-- The names of the wrapper elements around an entity, all levels of `wrapped` together, and the place inside them. -/
inductive Place.Reaches : Place → List String → Place → Prop
  | here {p : Place} : p.location ≠ some .wrapped → Reaches p [] p
  | wrapped {p q : Place} {path : String} {parts names : List String} : p.location = some .wrapped → p.path = some path →
      Segments path parts → Reaches p.inside names q → Reaches p (parts.map p.elementName ++ names) q

/-- An entity: the wrapper elements around it, its place, its type. -/
abbrev Entity := List String × Place × Schema

/-- The places an entity may occupy; a wrapped one occupies its outermost wrapper. -/
def Entity.Occupies (classes : Classes) (d : Dict String Schema) : Entity → Slot → Prop
  | ([], p, s), slot => s.Occupies classes d p slot
  | (t :: _, _, _), slot => slot = .child t

/-- Entities that do not compete: no two of them occupy the same place, except that consecutive wrapped ones may share wrapper
elements, inside which the same holds. -/
inductive Neat (classes : Classes) (d : Dict String Schema) : List Entity → Prop
  | nil : Neat classes d []
  | field {p : Place} {s : Schema} {rest : List Entity} :
      (∀ a, s.Occupies classes d p a → ∀ u ∈ rest, ∀ b, u.Occupies classes d b → ¬a.Competes b) → Neat classes d rest →
      Neat classes d (([], p, s) :: rest)
  | wrapped {t : String} {group rest : List Entity} : group ≠ [] → Neat classes d group →
      (∀ u ∈ rest, ¬u.Occupies classes d (.child t)) → Neat classes d rest →
      Neat classes d (group.map (fun e => (t :: e.1, e.2)) ++ rest)

/-- The name under which pydantic looks for the data of the field: its validation alias, else its name. -/
def FieldDef.key (f : FieldDef) : String := (if f.validationAlias = some "" then none else f.validationAlias).getD f.name

/-- The place of a computed field, as if its value were stored. -/
def Place.stored (p : Place) : Place := { p with computed := false }

/-- A class without custom hooks, whose fields do not compete and have different names and keys; none is the attribute `xsi:nil`. Computed
fields compete neither with each other nor with the other fields. -/
def ClassDef.Neat (classes : Classes) (d : Dict String Schema) (cd : ClassDef) : Prop :=
  match cd.body with
  | .fields fs cs => (∀ f ∈ fs, f.noXml = false → cd.validators f.name = none ∧ cd.serializers f.name = none) ∧
      (∀ c ∈ cs, cd.validators c.name = none ∧ cd.serializers c.name = none) ∧
      (fs.map FieldDef.name ++ cs.map ComputedDef.name).Nodup ∧ (fs.map FieldDef.key).Nodup ∧
      ∃ es es' : List Entity,
        Each (fun f e => (f.place cd).Reaches e.1 e.2.1 ∧ e.2.2 = f.schema) (fs.filter fun f => !f.noXml) es ∧
        Each (fun c e => (c.place cd).stored.Reaches e.1 e.2.1 ∧ e.2.2 = c.schema) cs es' ∧
        PXml.Neat classes d es ∧ PXml.Neat classes d es' ∧ (∀ e ∈ es ++ es', ¬e.Occupies classes d (.attr Elem.nilAttr)) ∧
        ∀ e ∈ es, ∀ a, e.Occupies classes d a → ∀ u ∈ es', ∀ b, u.Occupies classes d b → ¬a.Competes b
  | .root s infos => ∃ names p, (cd.rootPlace infos).Reaches names p ∧ ¬Entity.Occupies classes d (names, p, s) (.attr Elem.nilAttr)

/-- What the declarations do not say: the defaults of the fields of classes, and the properties of their computed fields, which give the value
out of the values of the fields. -/
structure Behind where
  default : String → String → Option Val
  get : String → String → List (String × Val) → Val

/-- pydantic follows the declared types and defaults. Validating: every field gets the value made out of its data, or its default if
there is no data; computed fields have the values of their properties, which do not depend on what `Val.bare` removes. Encoding: item by item
and field by field, a root model as its root. Primitive values are read back from their string form. -/
structure Env.FollowsDeclared (env : Env) (P : Prims) (classes : Classes) (B : Behind) : Prop where
  fields : ∀ cls cd r d fs cs, classes cls = some cd → Strips [] cd.schema d (.model cls r) → cd.body = .fields fs cs →
    ∀ (data : Dict String Val) (value : String → Val),
    (∀ f ∈ fs, (∃ y, data.get? f.key = some y ∧ Makes P d f.schema y (value f.name)) ∨
      (data.get? f.key = none ∧ B.default cls f.name = some (value f.name))) →
    ∃ set, env.validate cls (.dict data) = .ok (fs.map (fun f => (f.name, value f.name)) ++
      cs.map (fun c => (c.name, B.get cls c.name (fs.map fun f => (f.name, value f.name)))), set)
  root : ∀ cls cd r d s infos, classes cls = some cd → Strips [] cd.schema d (.model cls r) → cd.body = .root s infos →
    (∀ y x, Makes P d s y x → ∃ set, env.validate cls y = .ok ([("root", x)], set)) ∧
    (∀ x, B.default cls "root" = some x → ∃ set, env.validate cls .undef = .ok ([("root", x)], set))
  derived : ∀ cls name fs fs', Val.bareItems fs = Val.bareItems fs' → (B.get cls name fs).bare = (B.get cls name fs').bare
  json_fields : ∀ cls cd fs cs, classes cls = some cd → cd.body = .fields fs cs → ∀ fields set,
    env.toJsonable (.model cls fields set) = .dict (fields.map fun kv => (kv.1, env.toJsonable kv.2))
  json_root : ∀ cls cd s infos, classes cls = some cd → cd.body = .root s infos → ∀ x set,
    env.toJsonable (.model cls [("root", x)] set) = env.toJsonable x
  json_list : ∀ vs, env.toJsonable (.list vs) = .list (vs.map env.toJsonable)
  json_dict : ∀ d, env.toJsonable (.dict d) = .dict (d.map fun kv => (kv.1, env.toJsonable kv.2))
  json_str : ∀ s, env.toJsonable (.str s) = .str s
  json_none : env.toJsonable .none = .none
  prim : ∀ s v, P.Is s v → v ≠ .none ∧ P.parse s (encodePrimitive env (env.toJsonable v)) = some v ∧
    P.parse s (pyStr env (env.toJsonable v)) = some v

/-- Types whose values can be items of lists and tuples: they are elements, and in a union the elements are found in strict mode. -/
inductive Schema.ItemAt (d : Dict String Schema) : Place → Schema → Prop
  | leaf {p : Place} {s : Schema} : s.Leaf d → p.location = some .element → ItemAt d p s
  | mapping {p : Place} {s : Schema} : s.Mapping d → p.location = some .element → ItemAt d p s
  | raw {p : Place} {s : Schema} : Strips d s d (.isInst true) → ItemAt d p s
  | model {p : Place} {s : Schema} {cls : String} {r : Bool} : Strips d s d (.model cls r) → ItemAt d p s
  | union {p : Place} {s c : Schema} {cs : List Schema} {cls : String} {r : Bool} : Strips d s d (.union cs) → c ∈ cs →
      Strips d c d (.model cls r) → p.mode = .strict → ItemAt d p s
  | tagged {p : Place} {s : Schema} {discr : Option String} {cs : List (Option String × Schema)} : Strips d s d (.tagged discr cs) →
      p.mode = .strict → ItemAt d p s
  | tuple {p : Place} {s t : Schema} {items : List Schema} : Strips d s d t → t = .tuple items none ∨ t = .call true items → items ≠ [] →
      (∀ i ∈ items, ItemAt d p i) → ItemAt d p s

/-- Entities that are read as `None` if nothing is written for them: not the attributes of the element (read as an empty dictionary) and
not its text if empty text counts as a string. -/
inductive Schema.Quiet (eas : Bool) (d : Dict String Schema) : Place → Schema → Prop
  | text {p : Place} {s : Schema} : s.Leaf d → p.location = none → eas = false → Quiet eas d p s
  | attr {p : Place} {s : Schema} : s.Leaf d → p.location = some .attribute → Quiet eas d p s
  | item {p : Place} {s : Schema} : s.ItemAt d p → p.Compound → Quiet eas d p s
  | union {p : Place} {s c : Schema} {cs : List Schema} {cls : String} {r : Bool} : Strips d s d (.union cs) → c ∈ cs →
      Strips d c d (.model cls r) → p.Compound → Quiet eas d p s
  | tagged {p : Place} {s : Schema} {discr : Option String} {cs : List (Option String × Schema)} : Strips d s d (.tagged discr cs) →
      p.Compound → Quiet eas d p s
  | list {p : Place} {s t item : Schema} : Strips d s d t → t = .list item ∨ t = .tuple [item] (some 0) → p.Compound → item.ItemAt d p →
      Quiet eas d p s
  | wrapped {p : Place} {s : Schema} : p.location = some .wrapped → Quiet eas d p.inside s → Quiet eas d p s

/-- A value of a type at a place, or an instance of a class. -/
inductive Kept where
  /-- `void`: what is written for the value is read as nothing. -/
  | field (d : Dict String Schema) (p : Place) (s : Schema) (v : Val) (void : Bool)
  | inst (cls : String) (v : Val)

/-- The flags inside a class: its own `skip_empty` wins. -/
def ClassDef.flagsIn (cd : ClassDef) (fl : Flags) : Flags := { fl with skipEmpty := cd.params.skipEmpty.getD fl.skipEmpty }

/-- The instances, and the values of fields, that come back: values of their types, with the following exceptions. What is read as nothing
(`None`, empty lists, empty strings without `empty_as_string`, and with `skip_empty` all that is empty) has to be the default of the field, and
cannot be an item of a list. A missing attribute must not be written, and a missing text must not be the empty string. With `skip_empty`
instances in fields, lists and tuples must not be empty themselves: the third flag says that something is written for sure; the
second is `false` if there may be computed fields, which are written but not read. -/
inductive Worth (env : Env) (P : Prims) (classes : Classes) (B : Behind) (eas : Bool) :
    Flags → Bool → Bool → Kept → Prop
  /-- primitive values -/
  | text {fl : Flags} {wh so : Bool} {d : Dict String Schema} {p : Place} {s : Schema} {v : Val} : s.Leaf d → p.location = none → P.Is s v →
      eas = true ∨ encodePrimitive env (env.toJsonable v) ≠ "" → (so = true → encodePrimitive env (env.toJsonable v) ≠ "") →
      Worth env P classes B eas fl wh so (.field d p s v false)
  | textEmpty {fl : Flags} {wh : Bool} {d : Dict String Schema} {p : Place} {s : Schema} {v : Val} : s.Leaf d → p.location = none → P.Is s v →
      eas = false → encodePrimitive env (env.toJsonable v) = "" → Worth env P classes B eas fl wh false (.field d p s v true)
  | textNone {fl : Flags} {wh so : Bool} {d : Dict String Schema} {p : Place} {s : Schema} : s.Leaf d → p.location = none →
      eas = false ∨ (¬fl.NoneSkipped ∧ p.nillable = true) → (so = true → ¬fl.NoneSkipped ∧ p.nillable = true) →
      Worth env P classes B eas fl wh so (.field d p s .none true)
  | attr {fl : Flags} {wh so : Bool} {d : Dict String Schema} {p : Place} {s : Schema} {v : Val} : s.Leaf d → p.location = some .attribute → P.Is s v →
      Worth env P classes B eas fl wh so (.field d p s v false)
  | attrNone {fl : Flags} {wh : Bool} {d : Dict String Schema} {p : Place} {s : Schema} : s.Leaf d → p.location = some .attribute → fl.NoneSkipped →
      Worth env P classes B eas fl wh false (.field d p s .none true)
  | elem {fl : Flags} {wh so : Bool} {d : Dict String Schema} {p : Place} {s : Schema} {v : Val} : s.Leaf d → p.location = some .element → P.Is s v →
      (eas = true ∧ fl.skipEmpty = false) ∨ encodePrimitive env (env.toJsonable v) ≠ "" →
      Worth env P classes B eas fl wh so (.field d p s v false)
  | elemEmpty {fl : Flags} {wh so : Bool} {d : Dict String Schema} {p : Place} {s : Schema} {v : Val} : s.Leaf d →
      p.location = some .element → P.Is s v →
      eas = false ∨ fl.skipEmpty = true → encodePrimitive env (env.toJsonable v) = "" → (so = true → fl.skipEmpty = false) →
      Worth env P classes B eas fl wh so (.field d p s v true)
  | elemNone {fl : Flags} {wh so : Bool} {d : Dict String Schema} {p : Place} {s : Schema} : s.Leaf d → p.location = some .element →
      eas = false ∨ fl.NoneSkipped ∨ p.nillable = true → (so = true → ¬fl.NoneSkipped) →
      Worth env P classes B eas fl wh so (.field d p s .none true)
  /-- dictionaries of primitive values, without `ns_attrs` -/
  | dict {fl : Flags} {wh so : Bool} {d : Dict String Schema} {p : Place} {s k vt : Schema} {items : List (String × Val)} : Strips d s d (.dict k vt) →
      p.location = none ∨ p.location = some .element → p.nsAttrs = false → Dict.WF items → Elem.nilAttr ∉ Dict.keys items →
      (∀ kv ∈ items, P.Is vt kv.2) → (p.location = none → so = true → items ≠ []) →
      (p.location = some .element → fl.skipEmpty = true → items ≠ []) → Worth env P classes B eas fl wh so (.field d p s (.dict items) false)
  | dictEmpty {fl : Flags} {wh : Bool} {d : Dict String Schema} {p : Place} {s k vt : Schema} : Strips d s d (.dict k vt) → p.location = some .element →
      p.nsAttrs = false → fl.skipEmpty = true → Worth env P classes B eas fl wh false (.field d p s (.dict []) true)
  /-- raw elements, with the name of the field and without processing instructions -/
  | raw {fl : Flags} {wh so : Bool} {d : Dict String Schema} {p : Place} {s : Schema} {tag : String}
      {n : Node} : Strips d s d (.isInst true) → p.Compound →
      p.given = some tag → n.tag = p.elementName tag → n.NoPIs → n.isComment = false →
      (fl.skipEmpty = true → ¬n.plain.Empty (p.elementName tag)) →
      Worth env P classes B eas fl wh so (.field d p s (.raw n) false)
  | rawNone {fl : Flags} {wh : Bool} {d : Dict String Schema} {p : Place} {s : Schema} : Strips d s d (.isInst true) → p.Compound →
      Worth env P classes B eas fl wh false (.field d p s .none true)
  /-- instances of the class of the field, or of one of its classes, which is the first with its name -/
  | model {fl : Flags} {wh so : Bool} {d : Dict String Schema} {p : Place} {s : Schema} {cls : String} {r : Bool}
      {v : Val} : Strips d s d (.model cls r) → p.Compound →
      Worth env P classes B eas fl wh fl.skipEmpty (.inst cls v) → Worth env P classes B eas fl wh so (.field d p s v false)
  | modelNone {fl : Flags} {wh so : Bool} {d : Dict String Schema} {p : Place} {s : Schema} {cls : String} {r : Bool} :
      Strips d s d (.model cls r) → p.Compound → (so = true → fl.excludeNone = false ∧ p.nillable = true) →
      Worth env P classes B eas fl wh so (.field d p s .none true)
  | union {fl : Flags} {wh so : Bool} {d : Dict String Schema} {p : Place} {s c : Schema} {pre post : List Schema} {cls : String} {r : Bool} {v : Val} :
      Strips d s d (.union (pre ++ c :: post)) → p.Compound → Strips d c d (.model cls r) →
      (∀ q ∈ pre, ∀ cls' r', Strips d q d (.model cls' r') → cls' ≠ cls) →
      (∀ q ∈ pre, ∀ t, q.Occupies classes d p (.child t) → ¬c.Occupies classes d p (.child t)) →
      Worth env P classes B eas fl wh fl.skipEmpty (.inst cls v) → Worth env P classes B eas fl wh so (.field d p s v false)
  | unionNone {fl : Flags} {wh : Bool} {d : Dict String Schema} {p : Place} {s c : Schema} {cs : List Schema} {cls : String} {r : Bool} :
      Strips d s d (.union cs) → p.Compound → c ∈ cs → Strips d c d (.model cls r) →
      Worth env P classes B eas fl wh false (.field d p s .none true)
  /-- an instance of the class with the tag that it holds -/
  | tagged {fl : Flags} {wh so : Bool} {d d' : Dict String Schema} {p : Place} {s c : Schema} {discr tag cls : String} {r : Bool}
      {cs : List (Option String × Schema)}
      {cd : ClassDef} {fs : List FieldDef} {cs' : List ComputedDef} {f : FieldDef} {fields : List (String × Val)} {set : List String} :
      Strips d s d (.tagged (some discr) cs) → p.Compound → (some tag, c) ∈ cs → (∀ c', (some tag, c') ∈ cs → c' = c) →
      Strips d c d (.model cls false) → tag ≠ "" → classes cls = some cd → Strips [] cd.schema d' (.model cls r) → cd.Neat classes d' →
      cd.body = .fields fs cs' → f ∈ fs → f.noXml = false → f.name = discr → f.exclude = false → (fl.excludeUnset = true → discr ∈ set) →
      Dict.get? fields discr = some (.str tag) → Worth env P classes B eas fl wh fl.skipEmpty (.inst cls (.model cls fields set)) →
      Worth env P classes B eas fl wh so (.field d p s (.model cls fields set) false)
  /-- lists and tuples -/
  | list {fl : Flags} {wh so : Bool} {d : Dict String Schema} {p : Place} {s t item : Schema} {v : Val} {vs : List Val} : Strips d s d t →
      t = .list item ∨ t = .tuple [item] (some 0) → p.Compound → item.ItemAt d p →
      (∀ x ∈ v :: vs, Worth env P classes B eas fl wh fl.skipEmpty (.field d p item x false)) →
      Worth env P classes B eas fl wh so (.field d p s (.list (v :: vs)) false)
  | listEmpty {fl : Flags} {wh : Bool} {d : Dict String Schema} {p : Place} {s t item : Schema} {v : Val} : Strips d s d t →
      t = .list item ∨ t = .tuple [item] (some 0) → p.Compound → item.ItemAt d p → v = .none ∨ v = .list [] →
      Worth env P classes B eas fl wh false (.field d p s v true)
  | tuple {fl : Flags} {wh so : Bool} {d : Dict String Schema} {p : Place} {s t : Schema} {rows : List (Schema × Val)} : Strips d s d t →
      t = .tuple (rows.map Prod.fst) none ∨ t = .call true (rows.map Prod.fst) → p.Compound → rows ≠ [] → (∀ r ∈ rows, r.1.ItemAt d p) →
      (∀ r ∈ rows, Worth env P classes B eas fl wh fl.skipEmpty (.field d p r.1 r.2 false)) →
      Worth env P classes B eas fl wh so (.field d p s (.list (rows.map Prod.snd)) false)
  | tupleNone {fl : Flags} {wh : Bool} {d : Dict String Schema} {p : Place} {s t : Schema} {items : List Schema} : Strips d s d t →
      t = .tuple items none ∨ t = .call true items → p.Compound → items ≠ [] → (∀ i ∈ items, i.ItemAt d p) →
      Worth env P classes B eas fl wh false (.field d p s .none true)
  /-- wrapped fields -/
  | wrapped {fl : Flags} {wh so so' : Bool} {d : Dict String Schema} {p : Place} {s : Schema} {v : Val}
      {void : Bool} : p.location = some .wrapped → v ≠ .none →
      (fl.skipEmpty = true → v.len? ≠ some 0) → Worth env P classes B eas fl wh so' (.field d p.inside s v void) →
      Worth env P classes B eas fl wh so (.field d p s v void)
  | wrappedNone {fl : Flags} {wh : Bool} {d : Dict String Schema} {p : Place} {s : Schema} {v : Val} : p.location = some .wrapped →
      v = .none ∨ (fl.skipEmpty = true ∧ v.len? = some 0) → s.Quiet eas d p.inside →
      Worth env P classes B eas fl wh false (.field d p s v true)
  /-- instances: a field that is not written, as it is not part of the XML, excluded or (with `exclude_unset`) not set, or that is read as
  nothing, has its default; the values of computed fields can be written, and no class around them forbids what is not read -/
  | fields {fl : Flags} {wh so : Bool} {cls : String} {cd : ClassDef} {r : Bool} {d : Dict String Schema}
      {rows : List (FieldDef × Val × Option Bool × Bool)} {more : List (ComputedDef × Option Bool × Bool)} {set : List String}
      {stored : List (String × Val)} :
      classes cls = some cd → Strips [] cd.schema d (.model cls r) → cd.Neat classes d →
      cd.body = .fields (rows.map Prod.fst) (more.map Prod.fst) →
      (wh = false → cd.extraForbid = false) → (more ≠ [] → wh = false) → stored = rows.map (fun x => (x.1.name, x.2.1)) →
      (∀ x ∈ rows, x.2.2.1 = none ↔ x.1.noXml = true ∨ x.1.exclude = true ∨ (fl.excludeUnset = true ∧ x.1.name ∉ set)) →
      (∀ x ∈ rows, x.2.2.1 = none → x.1.noXml = true ∨ x.1.schema.Quiet eas d (x.1.place cd)) →
      (∀ x ∈ rows, x.2.2.1 ≠ some false → ∃ y, B.default cls x.1.name = some y ∧ y.bare = x.2.1.bare) →
      (so = true → (∃ x ∈ rows, x.2.2.1 ≠ none ∧ x.2.2.2 = true) ∨ ∃ c ∈ more, c.2.1 ≠ none ∧ c.2.2 = true) →
      (∀ x ∈ rows, ∀ b, x.2.2.1 = some b →
        Worth env P classes B eas (cd.flagsIn fl) wh x.2.2.2 (.field d (x.1.place cd) x.1.schema x.2.1 b)) →
      (∀ c ∈ more, c.2.1 = none ↔ fl.excludeUnset = true ∧ c.1.name ∉ set) →
      (∀ c ∈ more, c.2.1 = none → c.1.schema.Quiet eas d (c.1.place cd).stored) →
      (∀ c ∈ more, ∀ b, c.2.1 = some b →
        Worth env P classes B eas (cd.flagsIn fl) wh c.2.2 (.field d (c.1.place cd).stored c.1.schema (B.get cls c.1.name stored) b)) →
      Worth env P classes B eas fl wh so (.inst cls (.model cls (stored ++ more.map fun c => (c.1.name, B.get cls c.1.name stored)) set))
  | root {fl : Flags} {wh so : Bool} {cls : String} {cd : ClassDef} {r : Bool} {d : Dict String Schema} {s : Schema} {infos : List EntityInfo} {v : Val}
      {void : Bool} {set : List String} : classes cls = some cd → Strips [] cd.schema d (.model cls r) → cd.Neat classes d →
      cd.body = .root s infos → (wh = false → cd.extraForbid = false) → (fl.excludeUnset = true → "root" ∈ set) →
      (void = true → ∃ y, B.default cls "root" = some y ∧ y.bare = v.bare) →
      Worth env P classes B eas (cd.flagsIn fl) wh so (.field d (cd.rootPlace infos) s v void) →
      Worth env P classes B eas fl wh so (.inst cls (.model cls [("root", v)] set))
  /-- something without computed fields inside something with computed fields -/
  | whole {fl : Flags} {so : Bool} {x : Kept} : Worth env P classes B eas fl true so x → Worth env P classes B eas fl false so x

end PXml
