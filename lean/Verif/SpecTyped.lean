import Verif.SpecProgram
import Verif.SpecRoundTrip

/-!
# Specification of typed instances (C74)

What pydantic does with the data it is handed, by the declared types; and which instances of typed classes come back from XML.
-/

namespace PXml

mutual
/-- The value without the information which fields were set explicitly, and raw elements without comments, prefix declarations and
line numbers: two instances compare equal in Python if they agree in this. -/
def Val.bare : Val → Val
  | .list vs => .list (Val.bareList vs)
  | .dict d => .dict (Val.bareItems d)
  | .model cls fields _ => .model cls (Val.bareItems fields) []
  | .raw n => .raw n.plain
  | v => v
def Val.bareList : List Val → List Val
  | [] => []
  | v :: vs => v.bare :: Val.bareList vs
def Val.bareItems : List (String × Val) → List (String × Val)
  | [] => []
  | (k, v) :: d => (k, v.bare) :: Val.bareItems d
end

/-- The primitive types: which values they have, and what is made out of a string. -/
structure Prims where
  Is : Schema → Val → Prop
  parse : Schema → String → Option Val

/-- `None` is a value of the type. -/
inductive Schema.Nullable (d : Dict String Schema) : Schema → Prop
  | nullable {s : Schema} : Nullable d (.nullable s)
  | func {s : Schema} : Nullable d s → Nullable d (.func s)
  | funcPlain {s : Schema} : Nullable d s → Nullable d (.funcPlain (some s))
  | default {s : Schema} : Nullable d s → Nullable d (.default s)
  | jsonOrPython {s : Schema} : Nullable d s → Nullable d (.jsonOrPython s)
  | ref {r : String} {s : Schema} : d.get? r = some s → Nullable d s → Nullable d (.ref r)

/-- pydantic accepts the data (second) for the type (first) and makes the value (third) out of it. The types are core schemas with the
definitions in scope; `Optional`, defaults and validators around a type do not matter. -/
inductive Makes (P : Prims) (d : Dict String Schema) : Schema → Val → Val → Prop
  /-- a string, for a primitive type or a union of primitive types -/
  | prim {s : Schema} {t : String} {v : Val} : P.parse s t = some v → Makes P d s (.str t) v
  | list {s t item : Schema} {rows : List (Val × Val)} : Strips d s d t → t = .list item ∨ t = .tuple [item] (some 0) →
      (∀ r ∈ rows, Makes P d item r.1 r.2) → Makes P d s (.list (rows.map Prod.fst)) (.list (rows.map Prod.snd))
  | tuple {s t : Schema} {items : List Schema} {rows : List (Schema × Val × Val)} : Strips d s d t →
      t = .tuple items none ∨ t = .call true items → rows.map Prod.fst = items → (∀ r ∈ rows, Makes P d r.1 r.2.1 r.2.2) →
      Makes P d s (.list (rows.map fun r => r.2.1)) (.list (rows.map fun r => r.2.2))
  /-- a dictionary of strings -/
  | dict {s k v : Schema} {rows : List (String × String × Val)} : Strips d s d (.dict k v) → (∀ r ∈ rows, P.parse v r.2.1 = some r.2.2) →
      Makes P d s (.dict (rows.map fun r => (r.1, .str r.2.1))) (.dict (rows.map fun r => (r.1, r.2.2)))
  /-- an instance of the class, or of one of the classes of a union -/
  | model {s : Schema} {cls : String} {r : Bool} {fields : List (String × Val)} {set : List String} : Strips d s d (.model cls r) →
      Makes P d s (.model cls fields set) (.model cls fields set)
  | union {s c : Schema} {cs : List Schema} {cls : String} {r : Bool} {fields : List (String × Val)} {set : List String} :
      Strips d s d (.union cs) → c ∈ cs → Strips d c d (.model cls r) → Makes P d s (.model cls fields set) (.model cls fields set)
  | tagged {s : Schema} {c : Option String × Schema} {discr : Option String} {cs : List (Option String × Schema)} {cls : String} {r : Bool}
      {fields : List (String × Val)} {set : List String} : Strips d s d (.tagged discr cs) → c ∈ cs → Strips d c.2 d (.model cls r) →
      Makes P d s (.model cls fields set) (.model cls fields set)
  | raw {s : Schema} {n : Node} : Strips d s d (.isInst true) → Makes P d s (.raw n) (.raw n)
  /-- `None`, for an optional type -/
  | none {s : Schema} : s.Nullable d → Makes P d s .none .none

/-- A field with its type and its default; `hidden`: it is not part of the XML (`NoXml`), and of `field` only the name and the alias
matter. -/
structure Typed where
  field : Field
  ty : Schema
  default : Option Val
  hidden : Bool := false

/-- A computed field with its type and its property: the value as a function of the fields. -/
structure Derived where
  field : Field
  ty : Schema
  get : List (String × Val) → Val

/-- The name under which pydantic looks for the data of the field. -/
def Typed.key (t : Typed) : String := t.field.alias.getD t.field.name

/-- The types of a class, with the definitions in scope: of its fields and computed fields, or of its root. -/
inductive Types where
  | fields (d : Dict String Schema) (ts : List Typed) (cs : List Derived)
  | root (d : Dict String Schema) (s : Ser) (ty : Schema) (default : Option Val)

/-- The classes have the fields of the types, the computed ones last; the fields do not compete for places, have different names and
keys, no custom validators and serializers, and none is the attribute `xsi:nil`. Computed fields do not depend on what `Val.bare`
removes. -/
def Env.HasTypes (env : Env) (types : String → Option Types) : Prop :=
  (∀ cls d ts cs, types cls = some (.fields d ts cs) → ∃ m, env.model cls = some m ∧
    m.body = .fields ((ts.filter fun t => !t.hidden).map Typed.field ++ cs.map Derived.field) ∧
    Tidy ((ts.filter fun t => !t.hidden).map fun t => t.field.ser) ∧
    (∀ t ∈ ts, t.hidden = false → t.field.validator = none ∧ t.field.serializer = none ∧ Slot.attr Elem.nilAttr ∉ t.field.ser.slots) ∧
    (ts.map (fun t => t.field.name) ++ cs.map fun c => c.field.name).Nodup ∧ (ts.map Typed.key).Nodup ∧
    Tidy (cs.map fun c => c.field.ser.stored) ∧
    (∀ c ∈ cs, c.field.ser.computed = true ∧ c.field.validator = none ∧ c.field.serializer = none ∧
      Slot.attr Elem.nilAttr ∉ c.field.ser.slots ∧
      ∀ fs fs' : List (String × Val), Val.bareItems fs = Val.bareItems fs' → (c.get fs).bare = (c.get fs').bare) ∧
    (∀ t ∈ ts, t.hidden = false → ∀ a ∈ t.field.ser.slots, ∀ c ∈ cs, ∀ b ∈ c.field.ser.slots, ¬a.Competes b)) ∧
  (∀ cls d s ty df, types cls = some (.root d s ty df) → ∃ m, env.model cls = some m ∧ m.body = .root s ∧
    Tidy [s] ∧ Slot.attr Elem.nilAttr ∉ s.slots)

/-- pydantic follows the types. Validating: every field gets the value made out of its data, or its default if there is no data; computed fields
are functions of the fields.
Encoding: item by item and field by field, a root model as its root. Primitive values are read back from their string form. -/
structure Env.Follows (env : Env) (P : Prims) (types : String → Option Types) : Prop where
  fields : ∀ cls d ts cs, types cls = some (.fields d ts cs) → ∀ (data : Dict String Val) (value : String → Val),
    (∀ t ∈ ts, (∃ y, data.get? t.key = some y ∧ Makes P d t.ty y (value t.field.name)) ∨
      (data.get? t.key = none ∧ t.default = some (value t.field.name))) →
    ∃ set, env.validate cls (.dict data) = .ok (ts.map (fun t => (t.field.name, value t.field.name)) ++
      cs.map (fun c => (c.field.name, c.get (ts.map fun t => (t.field.name, value t.field.name)))), set)
  root : ∀ cls d s ty df, types cls = some (.root d s ty df) →
    (∀ y x, Makes P d ty y x → ∃ set, env.validate cls y = .ok ([("root", x)], set)) ∧
    (∀ x, df = some x → ∃ set, env.validate cls .undef = .ok ([("root", x)], set))
  json_fields : ∀ cls d ts cs, types cls = some (.fields d ts cs) → ∀ fields set,
    env.toJsonable (.model cls fields set) = .dict (fields.map fun kv => (kv.1, env.toJsonable kv.2))
  json_root : ∀ cls d s ty df, types cls = some (.root d s ty df) → ∀ x set,
    env.toJsonable (.model cls [("root", x)] set) = env.toJsonable x
  json_list : ∀ vs, env.toJsonable (.list vs) = .list (vs.map env.toJsonable)
  json_dict : ∀ d, env.toJsonable (.dict d) = .dict (d.map fun kv => (kv.1, env.toJsonable kv.2))
  json_str : ∀ s, env.toJsonable (.str s) = .str s
  json_none : env.toJsonable .none = .none
  prim : ∀ s v, P.Is s v → v ≠ .none ∧ P.parse s (encodePrimitive env (env.toJsonable v)) = some v ∧
    P.parse s (pyStr env (env.toJsonable v)) = some v

/-- A value of a field of a type, or an instance of a class. -/
inductive Held where
  /-- `void`: what is written for the value is read as nothing. -/
  | field (d : Dict String Schema) (s : Ser) (ty : Schema) (v : Val) (void : Bool)
  | inst (cls : String) (v : Val)

/-- The instances, and the values of fields, that come back: values of their types, with the following exceptions. What is read as nothing
(`None`, empty lists, empty strings without `empty_as_string`, and with `skip_empty` all that is empty) has to be the default of the field, and
cannot be an item of a list. A missing attribute must not be written, and a missing text must not be the empty string. With `skip_empty`
instances in fields, lists and tuples must not be empty themselves: the third flag says that something is written for sure. The second is
`false` if there may be computed fields, which are written but not read: then no class forbids what is not read. -/
inductive Sound (env : Env) (P : Prims) (types : String → Option Types) (eas : Bool) : Flags → Bool → Bool → Held → Prop
  /-- primitive values -/
  | text {fl : Flags} {wh so : Bool} {d : Dict String Schema} {ty : Schema} {nillable : Bool} {v : Val} : P.Is ty v →
      eas = true ∨ encodePrimitive env (env.toJsonable v) ≠ "" → (so = true → encodePrimitive env (env.toJsonable v) ≠ "") →
      Sound env P types eas fl wh so (.field d (.text false nillable) ty v false)
  | textEmpty {fl : Flags} {wh : Bool} {d : Dict String Schema} {ty : Schema} {nillable : Bool} {v : Val} : P.Is ty v →
      eas = false → encodePrimitive env (env.toJsonable v) = "" → Sound env P types eas fl wh false (.field d (.text false nillable) ty v true)
  | textNone {fl : Flags} {wh so : Bool} {d : Dict String Schema} {ty : Schema} {nillable : Bool} :
      eas = false ∨ (¬fl.NoneSkipped ∧ nillable = true) → (so = true → ¬fl.NoneSkipped ∧ nillable = true) →
      Sound env P types eas fl wh so (.field d (.text false nillable) ty .none true)
  | attr {fl : Flags} {wh so : Bool} {d : Dict String Schema} {ty : Schema} {name : String} {v : Val} : P.Is ty v →
      Sound env P types eas fl wh so (.field d (.attr name false) ty v false)
  | attrNone {fl : Flags} {wh : Bool} {d : Dict String Schema} {ty : Schema} {name : String} : fl.NoneSkipped →
      Sound env P types eas fl wh false (.field d (.attr name false) ty .none true)
  | elem {fl : Flags} {wh so : Bool} {d : Dict String Schema} {ty : Schema} {name : String} {nsmap : Option NsMap} {mode : Mode} {nillable : Bool}
      {v : Val} : P.Is ty v → (eas = true ∧ fl.skipEmpty = false) ∨ encodePrimitive env (env.toJsonable v) ≠ "" →
      Sound env P types eas fl wh so (.field d (.elem name nsmap mode false nillable) ty v false)
  | elemEmpty {fl : Flags} {wh so : Bool} {d : Dict String Schema} {ty : Schema} {name : String} {nsmap : Option NsMap} {mode : Mode}
      {nillable : Bool} {v : Val} : P.Is ty v → eas = false ∨ fl.skipEmpty = true → encodePrimitive env (env.toJsonable v) = "" →
      (so = true → fl.skipEmpty = false) → Sound env P types eas fl wh so (.field d (.elem name nsmap mode false nillable) ty v true)
  | elemNone {fl : Flags} {wh so : Bool} {d : Dict String Schema} {ty : Schema} {name : String} {nsmap : Option NsMap} {mode : Mode}
      {nillable : Bool} : eas = false ∨ fl.NoneSkipped ∨ nillable = true → (so = true → ¬fl.NoneSkipped) →
      Sound env P types eas fl wh so (.field d (.elem name nsmap mode false nillable) ty .none true)
  /-- unions of primitive types -/
  | primUnion {fl : Flags} {wh so : Bool} {d : Dict String Schema} {ty : Schema} {inner : Ser} {v : Val} {void : Bool} : inner.Leaf →
      Sound env P types eas fl wh so (.field d inner ty v void) → Sound env P types eas fl wh so (.field d (.primUnion false inner) ty v void)
  /-- dictionaries of primitive values -/
  | attrs {fl : Flags} {wh so : Bool} {d : Dict String Schema} {ty k vt : Schema} {a : AttrsSer} {items : List (String × Val)} :
      a.computed = false → Strips d ty d (.dict k vt) → a.Readable items → (∀ kv ∈ items, P.Is vt kv.2) → (so = true → items ≠ []) →
      Sound env P types eas fl wh so (.field d (.attrs a) ty (.dict items) false)
  | mapElem {fl : Flags} {wh so : Bool} {d : Dict String Schema} {ty k vt : Schema} {a : AttrsSer} {name : String} {mode : Mode}
      {items : List (String × Val)} : a.computed = false → Strips d ty d (.dict k vt) → a.Readable items → (∀ kv ∈ items, P.Is vt kv.2) →
      (fl.skipEmpty = true → items ≠ []) → Sound env P types eas fl wh so (.field d (.mapElem a name mode) ty (.dict items) false)
  | mapElemEmpty {fl : Flags} {wh : Bool} {d : Dict String Schema} {ty : Schema} {a : AttrsSer} {name : String} {mode : Mode} :
      a.computed = false → (∀ ns, a.space = some ns → ns ≠ "" ∧ '\n' ∉ ns.toList) → fl.skipEmpty = true →
      Sound env P types eas fl wh false (.field d (.mapElem a name mode) ty (.dict []) true)
  /-- raw elements, with the name of the field and without processing instructions -/
  | raw {fl : Flags} {wh so : Bool} {d : Dict String Schema} {ty : Schema} {name : String} {mode : Mode} {n : Node} :
      Strips d ty d (.isInst true) → n.tag = name → n.NoPIs → n.isComment = false → (fl.skipEmpty = true → ¬n.plain.Empty name) →
      Sound env P types eas fl wh so (.field d (.raw name mode false) ty (.raw n) false)
  | rawNone {fl : Flags} {wh : Bool} {d : Dict String Schema} {ty : Schema} {name : String} {mode : Mode} :
      Sound env P types eas fl wh false (.field d (.raw name mode false) ty .none true)
  /-- instances of the class of the field, or of one of its classes -/
  | model {fl : Flags} {wh so : Bool} {d : Dict String Schema} {ty : Schema} {p : Proxy} {r : Bool} {v : Val} : p.computed = false →
      Strips d ty d (.model p.cls r) → Sound env P types eas fl wh fl.skipEmpty (.inst p.cls v) →
      Sound env P types eas fl wh so (.field d (.proxy p) ty v false)
  | modelNone {fl : Flags} {wh so : Bool} {d : Dict String Schema} {ty : Schema} {p : Proxy} : p.computed = false →
      (so = true → fl.excludeNone = false ∧ p.nillable = true) → Sound env P types eas fl wh so (.field d (.proxy p) ty .none true)
  | union {fl : Flags} {wh so : Bool} {d : Dict String Schema} {ty c : Schema} {cs : List Schema} {title : Title} {pre post : List Proxy}
      {p : Proxy} {r : Bool} {v : Val} : Strips d ty d (.union cs) → c ∈ cs → Strips d c d (.model p.cls r) → p.computed = false →
      (∀ q ∈ pre, q.cls ≠ p.cls ∧ q.name ≠ p.name) → Sound env P types eas fl wh fl.skipEmpty (.inst p.cls v) →
      Sound env P types eas fl wh so (.field d (.modelUnion title false (pre ++ p :: post)) ty v false)
  | unionNone {fl : Flags} {wh : Bool} {d : Dict String Schema} {ty : Schema} {title : Title} {alts : List Proxy} :
      Sound env P types eas fl wh false (.field d (.modelUnion title false alts) ty .none true)
  | tagged {fl : Flags} {wh so : Bool} {d d' : Dict String Schema} {ty : Schema} {discr attrName tag : String} {o : Option String} {mode : Mode}
      {cs : List (Option String × Schema)} {c : Option String × Schema} {r : Bool} {pre post : List (String × Proxy)} {p : Proxy}
      {ts : List Typed} {cs' : List Derived} {t : Typed} {fields : List (String × Val)} {set : List String} :
      Strips d ty d (.tagged o cs) → c ∈ cs → Strips d c.2 d (.model p.cls r) → p.computed = false → tag ≠ "" →
      (∀ q ∈ pre, q.1 ≠ tag) → types p.cls = some (.fields d' ts cs') → t ∈ ts → t.hidden = false →
      t.field.ser = .attr attrName false → t.field.name = discr → t.field.exclude = false → (fl.excludeUnset = true → discr ∈ set) → Dict.get? fields discr = some (.str tag) →
      Sound env P types eas fl wh fl.skipEmpty (.inst p.cls (.model p.cls fields set)) →
      Sound env P types eas fl wh so (.field d (.tagged false discr attrName mode (pre ++ (tag, p) :: post)) ty (.model p.cls fields set) false)
  /-- lists and tuples -/
  | list {fl : Flags} {wh so : Bool} {d : Dict String Schema} {ty t item : Schema} {title : Title} {inner : Ser} {v : Val} {vs : List Val} :
      Strips d ty d t → t = .list item ∨ t = .tuple [item] (some 0) → inner.Item →
      (∀ x ∈ v :: vs, Sound env P types eas fl wh fl.skipEmpty (.field d inner item x false)) →
      Sound env P types eas fl wh so (.field d (.homog title false inner) ty (.list (v :: vs)) false)
  | listEmpty {fl : Flags} {wh : Bool} {d : Dict String Schema} {ty : Schema} {title : Title} {inner : Ser} {v : Val} : v = .none ∨ v = .list [] →
      inner.Item → Sound env P types eas fl wh false (.field d (.homog title false inner) ty v true)
  | tuple {fl : Flags} {wh so : Bool} {d : Dict String Schema} {ty t : Schema} {title : Title} {rows : List (Ser × Schema × Val)} :
      Strips d ty d t → t = .tuple (rows.map fun r => r.2.1) none ∨ t = .call true (rows.map fun r => r.2.1) → rows ≠ [] →
      (∀ r ∈ rows, r.1.Item) → (∀ r ∈ rows, Sound env P types eas fl wh fl.skipEmpty (.field d r.1 r.2.1 r.2.2 false)) →
      Sound env P types eas fl wh so (.field d (.hetero title false (rows.map Prod.fst)) ty (.list (rows.map fun r => r.2.2)) false)
  | tupleNone {fl : Flags} {wh : Bool} {d : Dict String Schema} {ty : Schema} {title : Title} {inners : List Ser} : inners ≠ [] →
      (∀ s ∈ inners, s.Item) → Sound env P types eas fl wh false (.field d (.hetero title false inners) ty .none true)
  /-- wrapped fields -/
  | wrap {fl : Flags} {wh so so' : Bool} {d : Dict String Schema} {ty : Schema} {t : String} {path : List String} {nsmap : Option NsMap}
      {mode : Mode} {inner : Ser} {v : Val} {void : Bool} : v ≠ .none → (fl.skipEmpty = true → v.len? ≠ some 0) →
      Sound env P types eas fl wh so' (.field d inner ty v void) →
      Sound env P types eas fl wh so (.field d (.wrap (t :: path) nsmap mode false inner) ty v void)
  | wrapNone {fl : Flags} {wh : Bool} {d : Dict String Schema} {ty : Schema} {t : String} {path : List String} {nsmap : Option NsMap} {mode : Mode}
      {inner : Ser} {v : Val} : v = .none ∨ (fl.skipEmpty = true ∧ v.len? = some 0) → inner.Silent eas →
      Sound env P types eas fl wh false (.field d (.wrap (t :: path) nsmap mode false inner) ty v true)
  /-- instances: a field that is not written, as it is not part of the XML, excluded or (with `exclude_unset`) not set, or that is read as
  nothing, has its default; the values of computed fields can be written -/
  | fields {fl : Flags} {wh so : Bool} {cls : String} {m : ModelSer} {d : Dict String Schema} {rows : List (Typed × Val × Option Bool × Bool)}
      {more : List (Derived × Option Bool × Bool)} {set : List String} {stored : List (String × Val)} :
      types cls = some (.fields d (rows.map Prod.fst) (more.map Prod.fst)) → env.model cls = some m →
      (wh = false → m.extraForbid = false) → (more ≠ [] → wh = false) → stored = rows.map (fun r => (r.1.field.name, r.2.1)) →
      (∀ r ∈ rows, r.2.2.1 = none ↔ r.1.hidden = true ∨ r.1.field.exclude = true ∨ (fl.excludeUnset = true ∧ r.1.field.name ∉ set)) →
      (∀ r ∈ rows, r.2.2.1 = none → r.1.hidden = true ∨ r.1.field.ser.Silent eas) →
      (∀ r ∈ rows, r.2.2.1 ≠ some false → ∃ x, r.1.default = some x ∧ x.bare = r.2.1.bare) →
      (so = true → (∃ r ∈ rows, r.2.2.1 ≠ none ∧ r.2.2.2 = true) ∨ ∃ c ∈ more, c.2.1 ≠ none ∧ c.2.2 = true) →
      (∀ r ∈ rows, ∀ b, r.2.2.1 = some b → Sound env P types eas (m.flagsIn fl) wh r.2.2.2 (.field d r.1.field.ser r.1.ty r.2.1 b)) →
      (∀ c ∈ more, c.2.1 = none ↔ c.1.field.exclude = true ∨ (fl.excludeUnset = true ∧ c.1.field.name ∉ set)) →
      (∀ c ∈ more, c.2.1 = none → c.1.field.ser.stored.Silent eas) →
      (∀ c ∈ more, ∀ b, c.2.1 = some b → Sound env P types eas (m.flagsIn fl) wh c.2.2 (.field d c.1.field.ser.stored c.1.ty (c.1.get stored) b)) →
      Sound env P types eas fl wh so (.inst cls (.model cls (stored ++ more.map fun c => (c.1.field.name, c.1.get stored)) set))
  | root {fl : Flags} {wh so : Bool} {cls : String} {m : ModelSer} {d : Dict String Schema} {s : Ser} {ty : Schema} {df : Option Val} {v : Val}
      {void : Bool} {set : List String} : types cls = some (.root d s ty df) → env.model cls = some m →
      (wh = false → m.extraForbid = false) → (fl.excludeUnset = true → "root" ∈ set) →
      (void = true → ∃ x, df = some x ∧ x.bare = v.bare) → Sound env P types eas (m.flagsIn fl) wh so (.field d s ty v void) →
      Sound env P types eas fl wh so (.inst cls (.model cls [("root", v)] set))
  /-- something without computed fields inside something with computed fields -/
  | whole {fl : Flags} {so : Bool} {x : Held} : Sound env P types eas fl true so x → Sound env P types eas fl false so x

end PXml
