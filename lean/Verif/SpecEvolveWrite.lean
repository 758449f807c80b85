import Verif.SpecEvolve

/-!
# Newer versions of the declarations: writing

Specification for C85: the newer version of a program has additional fields, and an instance is the newer version of an older one in
which the additional fields have not been used.
-/

namespace PXml

/-- Neither a collection nor an instance. -/
def Val.isPlain : Val → Bool
  | .list _ | .model _ _ _ => false
  | _ => true

/-- A field that may be added: anything but a mapping in an element of its own (which is written for `None` as well) and a tagged union
(which cannot be `None`).  Classes used directly must be built. -/
inductive Ser.Addable (env : Env) : Ser → Prop
  | text {c nillable : Bool} : Addable env (.text c nillable)
  | attr {name : String} {c : Bool} : Addable env (.attr name c)
  | attrs {a : AttrsSer} : Addable env (.attrs a)
  | elem {name : String} {nsmap : Option NsMap} {mode : Mode} {c nillable : Bool} : Addable env (.elem name nsmap mode c nillable)
  | raw {name : String} {mode : Mode} {c : Bool} : Addable env (.raw name mode c)
  | proxy {p : Proxy} : (env.model p.cls).isSome → Addable env (.proxy p)
  | primUnion {c : Bool} {s : Ser} : Addable env s → Addable env (.primUnion c s)
  | modelUnion {title : Title} {c : Bool} {alts : List Proxy} : Addable env (.modelUnion title c alts)
  | wrap {path : List String} {nsmap : Option NsMap} {mode : Mode} {c : Bool} {s : Ser} : Addable env (.wrap path nsmap mode c s)
  | homog {title : Title} {c : Bool} {s : Ser} : Addable env (.homog title c s)
  | hetero {title : Title} {c : Bool} {ss : List Ser} : Addable env (.hetero title c ss)

/-- The newer version of a class: the same settings and fields, and additional fields at any place, whose names are `added`.  (Fields with
a custom serializer are not considered.) -/
def ModelSer.Extends (K : Nat) (added : List String) (env' : Env) (m m' : ModelSer) : Prop :=
  m'.elementName = m.elementName ∧ m'.nsmap = m.nsmap ∧ m'.skipEmpty = m.skipEmpty ∧
    match m.body, m'.body with
    | .fields fs, .fields fs' =>
      Inserted (fun f f' => f'.name = f.name ∧ f'.exclude = f.exclude ∧ f'.ser = f.ser ∧ f.serializer = none ∧ f'.serializer = none)
        (fun f' => f'.name ∈ added ∧ f'.serializer = none ∧ f'.ser.Addable env' ∧ f'.ser.nesting ≤ K) fs fs'
    | .root s, .root s' => s' = s
    | _, _ => False

/-- The newer version of a program; `added` are the names of the additional fields of each class. -/
structure Env.Extends (K : Nat) (added : String → List String) (env env' : Env) : Prop where
  backend : env'.backend = env.backend
  reprOf : env'.reprOf = env.reprOf
  models : ∀ cls m, env.model cls = some m → ∃ m', env'.model cls = some m' ∧ m.Extends K (added cls) env' m'

/-- An additional field has not been used, as the flags `exclude_none` and `exclude_unset` see it: it has not been set, or it is `None`. -/
def Unused (exclNone exclUnset : Bool) (fs : Dict String Val) (set : List String) (enc : Dict String Val) (name : String) : Prop :=
  (exclUnset = true ∧ name ∉ set) ∨ (exclNone = true ∧ fs.get? name = some .none ∧ enc.get? name = some .none)

/-- `v'` with the JSON form `enc'` is the newer version of `v` with the JSON form `enc`, as the value of a field: all instances in it, at
any depth, have kept their data and do not use the additional fields of the class they are written as. -/
inductive Newer (env : Env) (added : String → List String) (exclNone exclUnset : Bool) : Ser → Val → Val → Val → Val → Prop
  | same {s : Ser} {v enc : Val} : v.isPlain = true → Newer env added exclNone exclUnset s v enc v enc
  | primUnion {c : Bool} {s : Ser} {v enc v' enc' : Val} : Newer env added exclNone exclUnset s v enc v' enc' →
      Newer env added exclNone exclUnset (.primUnion c s) v enc v' enc'
  | wrap {path : List String} {nsmap : Option NsMap} {mode : Mode} {c : Bool} {s : Ser} {v enc v' enc' : Val} :
      Newer env added exclNone exclUnset s v enc v' enc' → Newer env added exclNone exclUnset (.wrap path nsmap mode c s) v enc v' enc'
  | homog {title : Title} {c : Bool} {s : Ser} {vs encs vs' encs' : List Val} : vs'.length = vs.length → encs'.length = encs.length →
      (∀ (i : Nat) (v enc v' enc' : Val), vs[i]? = some v → encs[i]? = some enc → vs'[i]? = some v' → encs'[i]? = some enc' →
        Newer env added exclNone exclUnset s v enc v' enc') →
      Newer env added exclNone exclUnset (.homog title c s) (.list vs) (.list encs) (.list vs') (.list encs')
  | hetero {title : Title} {c : Bool} {ss : List Ser} {vs encs vs' encs' : List Val} : vs'.length = vs.length → encs'.length = encs.length →
      (∀ (i : Nat) (s : Ser) (v enc v' enc' : Val), ss[i]? = some s → vs[i]? = some v → encs[i]? = some enc → vs'[i]? = some v' →
        encs'[i]? = some enc' → Newer env added exclNone exclUnset s v enc v' enc') →
      Newer env added exclNone exclUnset (.hetero title c ss) (.list vs) (.list encs) (.list vs') (.list encs')
  | modelUnion {title : Title} {c : Bool} {alts : List Proxy} {cls : String} {fs fs' : Dict String Val} {set set' : List String}
      {enc enc' : Val} :
      (∀ p, alts.find? (fun p => p.cls = cls) = some p →
        Newer env added exclNone exclUnset (.proxy p) (.model cls fs set) enc (.model cls fs' set') enc') →
      Newer env added exclNone exclUnset (.modelUnion title c alts) (.model cls fs set) enc (.model cls fs' set') enc'
  | tagged {c : Bool} {discr attrName : String} {mode : Mode} {alts : List (String × Proxy)} {cls : String}
      {fs fs' d d' : Dict String Val} {set set' : List String} :
      d'.get? discr = d.get? discr →
      (∀ tag p, d.get? discr = some (.str tag) → Dict.get? alts tag = some p →
        Newer env added exclNone exclUnset (.proxy p) (.model cls fs set) (.dict d) (.model cls fs' set') (.dict d')) →
      Newer env added exclNone exclUnset (.tagged c discr attrName mode alts) (.model cls fs set) (.dict d) (.model cls fs' set') (.dict d')
  | fields {p : Proxy} {m : ModelSer} {decl : List Field} {cls : String} {fs fs' d d' : Dict String Val} {set set' : List String} :
      env.model p.cls = some m → m.body = .fields decl →
      (∀ f ∈ decl, (fs.get? f.name).isSome → (fs'.get? f.name).isSome) → (∀ f ∈ decl, (d.get? f.name).isSome → (d'.get? f.name).isSome) →
      (∀ f ∈ decl, ∀ v enc v' enc', fs.get? f.name = some v → d.get? f.name = some enc → fs'.get? f.name = some v' →
        d'.get? f.name = some enc' → Newer env added exclNone exclUnset f.ser v enc v' enc') →
      (∀ f ∈ decl, f.name ∈ set' ↔ f.name ∈ set) →
      (∀ name ∈ added p.cls, Unused exclNone exclUnset fs' set' d' name) →
      Newer env added exclNone exclUnset (.proxy p) (.model cls fs set) (.dict d) (.model cls fs' set') (.dict d')
  | root {p : Proxy} {m : ModelSer} {s : Ser} {cls : String} {fs fs' : Dict String Val} {enc enc' : Val} {set set' : List String} :
      env.model p.cls = some m → m.body = .root s →
      ((fs.get? "root").isSome → (fs'.get? "root").isSome) →
      (∀ v v', fs.get? "root" = some v → fs'.get? "root" = some v' → Newer env added exclNone exclUnset s v enc v' enc') →
      ("root" ∈ set' ↔ "root" ∈ set) →
      Newer env added exclNone exclUnset (.proxy p) (.model cls fs set) enc (.model cls fs' set') enc'

end PXml
