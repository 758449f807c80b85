import Verif.SpecTyped

/-!
# Specification of output that leaves out nothing that matters (C86)
-/

namespace PXml

/-- The first value is the second or somewhere inside of it. -/
inductive Val.Part : Val → Val → Prop
  | refl {v : Val} : Part v v
  | item {v w : Val} {vs : List Val} : w ∈ vs → Part v w → Part v (.list vs)
  | entry {v w : Val} {k : String} {d : List (String × Val)} : (k, w) ∈ d → Part v w → Part v (.dict d)
  | field {v w : Val} {cls k : String} {fields : List (String × Val)} {set : List String} : (k, w) ∈ fields → Part v w →
      Part v (.model cls fields set)

/-- In the instance and in all instances inside of it, a field that was not set has its default (as pydantic sees to it), and it is read
as nothing if nothing is written; the root of a root model is set. Computed fields that do not count as set are read as nothing too. -/
def Val.UnsetDefault (types : String → Option Types) (v : Val) : Prop :=
  ∀ cls fields set, Val.Part (.model cls fields set) v →
    match types cls with
    | some (.fields _ ts cs) =>
      (∀ t ∈ ts, t.field.name ∉ set → (t.hidden = true ∨ t.field.ser.Silent false) ∧
        ∃ x, t.default = some x ∧ ∀ y, (t.field.name, y) ∈ fields → x.bare = y.bare) ∧
      ∀ c ∈ cs, c.field.name ∉ set → c.field.ser.stored.Silent false
    | some (.root ..) => "root" ∈ set
    | Option.none => True

/-- The members of a discriminated union, wherever they are inside the value, have set their discriminator. -/
def Ser.DiscriminatorSet (v : Val) : Ser → Prop
  | .tagged _ discr _ _ alts => ∀ tp ∈ alts, ∀ fields set, Val.Part (.model tp.2.cls fields set) v → discr ∈ set
  | _ => True

/-- The same for all fields of all classes. -/
def DiscriminatorsSet (types : String → Option Types) (v : Val) : Prop :=
  ∀ cls, match types cls with
    | some (.fields _ ts cs) => (∀ t ∈ ts, t.field.ser.Everywhere (Ser.DiscriminatorSet v)) ∧
        ∀ c ∈ cs, c.field.ser.stored.Everywhere (Ser.DiscriminatorSet v)
    | some (.root _ s _ _) => s.Everywhere (Ser.DiscriminatorSet v)
    | none => True

end PXml
