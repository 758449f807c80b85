import Verif.SpecCompile

/-!
# Specification of programs that define classes (C57, C70)

Which classes a program can complete, in terms of the declarations only.
-/

namespace PXml

/-- The classes among which a type chooses by a discriminator, by itself or inside lists and tuples. -/
inductive Schema.Chooses (d : Dict String Schema) : Schema → String → Prop
  | tagged {s discr cs c cls r} : Strips d s d (.tagged discr cs) → c ∈ cs → Strips d c.2 d (.model cls r) → Chooses d s cls
  | list {s item cls} : Strips d s d (.list item) → Chooses d item cls → Chooses d s cls
  | tuple {s items v item cls} : Strips d s d (.tuple items v) → item ∈ items → Chooses d item cls → Chooses d s cls
  | namedTuple {s b items item cls} : Strips d s d (.call b items) → item ∈ items → Chooses d item cls → Chooses d s cls

/-- The classes among which a field of the class chooses by a discriminator. -/
def ClassDef.Chooses (d : Dict String Schema) (cd : ClassDef) (cls : String) : Prop :=
  match cd.body with
  | .fields fs cs => (∃ f ∈ fs, f.noXml = false ∧ f.schema.Chooses d cls) ∨ ∃ c ∈ cs, c.schema.Chooses d cls
  | .root s _ => s.Chooses d cls

/-- A field of this type at this place is the attribute. -/
def Schema.AttrAt (d : Dict String Schema) (p : Place) (s : Schema) (attr : String) : Prop :=
  p.location = some .attribute ∧ ((∃ ty, Strips d s d (.prim ty)) ∨ Strips d s d (.isInst false)) ∧
  ∃ tag, p.given = some tag ∧ attr = p.attrName tag

/-- The class declares the discriminator as a field or computed field that is the attribute. -/
def Classes.Keyed (classes : Classes) (cls discr attr : String) : Prop :=
  ∃ cd r d fs cs, classes cls = some cd ∧ Strips [] cd.schema d (.model cls r) ∧ cd.body = .fields fs cs ∧
    match (fs.filter fun f => !f.noXml).find? fun f => f.name = discr with
    | some f => f.schema.AttrAt d (f.place cd) attr
    | none => ∃ c, cs.find? (fun c => c.name = discr) = some c ∧ c.schema.AttrAt d (c.place cd) attr

/-- The classes that can be completed: all generic parameters are given, all fields have an XML representation, and the classes
among which the fields choose by a discriminator can be completed, too. -/
inductive Constructible (classes : Classes) : String → Prop
  | mk {cls cd r d} : classes cls = some cd → cd.complete = true → Strips [] cd.schema d (.model cls r) →
      cd.Supported classes classes.Keyed d → (∀ c, cd.Chooses d c → Constructible classes c) → Constructible classes cls

/-- The declarations are such as Python and pydantic make them: names are not empty, namespace maps are dictionaries, the core
schema of a class leads to the class, and all definitions are at the top of it. -/
def Classes.Standard (classes : Classes) : Prop :=
  ∀ cls cd, classes cls = some cd → cd.Proper ∧ cd.Plain ∧ ∃ r d, Strips [] cd.schema d (.model cls r) ∧ PlainDefs d

/-- A program: every class is stated once, before it is rebuilt. -/
inductive Program : List Event → Prop
  | nil : Program []
  | statement {es c k} : Program es → (∀ k', .statement c k' ∉ es) → Program (es ++ [.statement c k])
  | rebuild {es c k k'} : Program es → .statement c k' ∈ es → Program (es ++ [.rebuild c k])

end PXml
