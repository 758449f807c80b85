import Verif.Spec

/-!
# Specification of writable instances

Which values a class can write, in terms of its fields, the value and its encoding (the `mode='json'` dump) only: elements, names and
search modes do not occur.
-/

namespace PXml

/-- What is written: a field with a value and its encoding, or an instance of a class. -/
inductive Written where
  | field (s : Ser) (v enc : Val)
  | model (m : ModelSer) (v enc : Val)

/-- The encoding is a dictionary. -/
def Val.IsDict (v : Val) : Prop := ∃ d, v = .dict d

/-- The entry of the encoding of an instance. -/
def Val.entry? (v : Val) (name : String) : Option Val :=
  match v with
  | .dict d => Dict.get? d name
  | _ => Option.none

/-- The field is written: it is not excluded, and with `exclude_unset` it has been set. -/
def Field.Included (fl : Flags) (set : List String) (f : Field) : Prop :=
  f.exclude = false ∧ (fl.excludeUnset = true → f.name ∈ set)

/-- The value has the shape its field, or its class, prescribes. -/
inductive Shaped (env : Env) : Flags → Written → Prop
  /-- texts, attributes and elements take every value -/
  | text {fl : Flags} {c nillable : Bool} {v enc : Val} : Shaped env fl (.field (.text c nillable) v enc)
  | attr {fl : Flags} {name : String} {c : Bool} {v enc : Val} : Shaped env fl (.field (.attr name c) v enc)
  | elem {fl : Flags} {name : String} {nsmap : Option NsMap} {mode : Mode} {c nillable : Bool} {v enc : Val} :
      Shaped env fl (.field (.elem name nsmap mode c nillable) v enc)
  /-- attributes: nothing, or a dictionary -/
  | attrs {fl : Flags} {a : AttrsSer} {v enc : Val} : v = .none ∨ enc.IsDict → Shaped env fl (.field (.attrs a) v enc)
  /-- a dictionary in an element of its own: the same, but with `skip_empty` it must have a length -/
  | mapElem {fl : Flags} {a : AttrsSer} {name : String} {mode : Mode} {v enc : Val} :
      (fl.skipEmpty = false → v = .none ∨ enc.IsDict) →
      (fl.skipEmpty = true → v.len? = some 0 ∨ v.len?.isSome = true ∧ enc.IsDict) →
      Shaped env fl (.field (.mapElem a name mode) v enc)
  /-- a raw element: nothing, or a native element -/
  | rawNone {fl : Flags} {name : String} {mode : Mode} {c : Bool} {enc : Val} : Shaped env fl (.field (.raw name mode c) .none enc)
  | raw {fl : Flags} {name : String} {mode : Mode} {c : Bool} {node : Node} {enc : Val} :
      Shaped env fl (.field (.raw name mode c) (.raw node) enc)
  /-- a sub-model: nothing, or an instance of the right shape -/
  | proxyNone {fl : Flags} {p : Proxy} {m : ModelSer} {enc : Val} : env.model p.cls = some m → Shaped env fl (.field (.proxy p) .none enc)
  | proxy {fl : Flags} {p : Proxy} {m : ModelSer} {v enc : Val} : env.model p.cls = some m → Shaped env fl (.model m v enc) →
      Shaped env fl (.field (.proxy p) v enc)
  | primUnion {fl : Flags} {c : Bool} {inner : Ser} {v enc : Val} : Shaped env fl (.field inner v enc) →
      Shaped env fl (.field (.primUnion c inner) v enc)
  /-- a union of models: an instance of one of the classes, or anything else (of which nothing is written) -/
  | modelUnion {fl : Flags} {title : Title} {cls : String} {c : Bool} {pre post : List Proxy} {p : Proxy} {fields : List (String × Val)}
      {set : List String} {enc : Val} : p.cls = cls → (∀ q ∈ pre, q.cls ≠ cls) →
      Shaped env fl (.field (.proxy p) (.model cls fields set) enc) →
      Shaped env fl (.field (.modelUnion title c (pre ++ p :: post)) (.model cls fields set) enc)
  | modelUnionOther {fl : Flags} {title : Title} {c : Bool} {alts : List Proxy} {v enc : Val} :
      (∀ p ∈ alts, ∀ fields set, v ≠ .model p.cls fields set) → Shaped env fl (.field (.modelUnion title c alts) v enc)
  /-- a tagged union: the encoding is a dictionary, with a known tag or without one -/
  | tagged {fl : Flags} {c : Bool} {discr attrName tag : String} {mode : Mode} {alts : List (String × Proxy)} {p : Proxy} {v enc : Val} :
      enc.entry? discr = some (.str tag) → tag ≠ "" → Dict.get? alts tag = some p → Shaped env fl (.field (.proxy p) v enc) →
      Shaped env fl (.field (.tagged c discr attrName mode alts) v enc)
  | taggedNone {fl : Flags} {c : Bool} {discr attrName : String} {mode : Mode} {alts : List (String × Proxy)} {v enc : Val} : enc.IsDict →
      enc.entry? discr = Option.none ∨ enc.entry? discr = some .none ∨ enc.entry? discr = some (.str "") →
      Shaped env fl (.field (.tagged c discr attrName mode alts) v enc)
  /-- a wrapped field: nothing, an empty value with `skip_empty`, or what is wrapped -/
  | wrapNone {fl : Flags} {path : List String} {nsmap : Option NsMap} {mode : Mode} {c : Bool} {inner : Ser} {v enc : Val} :
      v = .none ∨ (fl.skipEmpty = true ∧ v.len? = some 0) → Shaped env fl (.field (.wrap path nsmap mode c inner) v enc)
  | wrap {fl : Flags} {path : List String} {nsmap : Option NsMap} {mode : Mode} {c : Bool} {inner : Ser} {v enc : Val} :
      Shaped env fl (.field inner v enc) → Shaped env fl (.field (.wrap path nsmap mode c inner) v enc)
  /-- a list: nothing, or a list whose items (without those that are left out with `skip_empty`) have the right shape -/
  | homogNone {fl : Flags} {title : Title} {c : Bool} {inner : Ser} {enc : Val} : Shaped env fl (.field (.homog title c inner) .none enc)
  | homog {fl : Flags} {title : Title} {c : Bool} {inner : Ser} {vs encs : List Val} :
      (∀ (i : Nat) (v enc : Val), vs[i]? = some v → encs[i]? = some enc → (fl.skipEmpty = true → v ≠ .none) →
        Shaped env fl (.field inner v enc)) →
      Shaped env fl (.field (.homog title c inner) (.list vs) (.list encs))
  /-- a tuple: nothing, the empty tuple with `skip_empty`, or a tuple of exactly the declared length -/
  | heteroNone {fl : Flags} {title : Title} {c : Bool} {inners : List Ser} {enc : Val} :
      Shaped env fl (.field (.hetero title c inners) .none enc)
  | heteroEmpty {fl : Flags} {title : Title} {c : Bool} {inners : List Ser} {encs : List Val} : fl.skipEmpty = true →
      Shaped env fl (.field (.hetero title c inners) (.list []) (.list encs))
  | hetero {fl : Flags} {title : Title} {c : Bool} {inners : List Ser} {vs encs : List Val} : vs.length = inners.length →
      (∀ (i : Nat) (s : Ser) (v enc : Val), inners[i]? = some s → vs[i]? = some v → encs[i]? = some enc → Shaped env fl (.field s v enc)) →
      Shaped env fl (.field (.hetero title c inners) (.list vs) (.list encs))
  /-- an instance: every field that is written has a value and an encoding, of the right shape (fields with a custom serializer
  need a value only) -/
  | fields {fl : Flags} {m : ModelSer} {cls : String} {fs : List Field} {fields : List (String × Val)} {set : List String} {enc : Val}
      (x y : Field → Val) : m.body = .fields fs →
      (∀ f ∈ fs, f.Included fl set → Dict.get? fields f.name = some (x f)) →
      (∀ f ∈ fs, f.Included fl set → f.serializer = Option.none → enc.entry? f.name = some (y f)) →
      (∀ f ∈ fs, f.Included fl set → f.serializer = Option.none →
        Shaped env { fl with skipEmpty := m.skipEmpty.getD fl.skipEmpty } (.field f.ser (x f) (y f))) →
      Shaped env fl (.model m (.model cls fields set) enc)
  | rootUnset {fl : Flags} {m : ModelSer} {cls : String} {s : Ser} {fields : List (String × Val)} {set : List String} {enc : Val} :
      m.body = .root s → fl.excludeUnset = true → "root" ∉ set → Shaped env fl (.model m (.model cls fields set) enc)
  | root {fl : Flags} {m : ModelSer} {cls : String} {s : Ser} {fields : List (String × Val)} {set : List String} {x enc : Val} :
      m.body = .root s → Dict.get? fields "root" = some x →
      Shaped env { fl with skipEmpty := m.skipEmpty.getD fl.skipEmpty } (.field s x enc) →
      Shaped env fl (.model m (.model cls fields set) enc)
  | none {fl : Flags} {m : ModelSer} {enc : Val} : Shaped env fl (.model m .none enc)

/-- Custom serializers do not raise. -/
def Env.SerializersSucceed (env : Env) : Prop :=
  ∀ cls m fs, env.model cls = some m → m.body = .fields fs → ∀ f ∈ fs, ∀ g, f.serializer = some g →
    ∀ (self : Val) (e : Elem) (v : Val), ∃ e', g self e v = .ok e'

/-- Custom serializers end. -/
def Env.SerializersTerminate (env : Env) : Prop :=
  ∀ cls m fs, env.model cls = some m → m.body = .fields fs → ∀ f ∈ fs, ∀ g, f.serializer = some g →
    ∀ (self : Val) (e : Elem) (v : Val), g self e v ≠ .diverge

end PXml
