import Verif.Serializer

/-!
# Specification of classes with a field `root` in place of root models
-/

namespace PXml

/-- Two validations have the same verdict: the same fields and set fields of the instance, or an error in both (of whatever text and location). -/
inductive SameValidation : Except VErr (List (String × Val) × List String) → Except VErr (List (String × Val) × List String) → Prop
  | valid (x : List (String × Val) × List String) : SameValidation (.ok x) (.ok x)
  | invalid (e e' : VErr) : SameValidation (.error e) (.error e')

/-- `class C(RootXmlModel): root: T` and `class C(BaseXmlModel): root: T`: the field named `root` is read and written as the root is. -/
def ModelSer.IsRootAsField (m m' : ModelSer) : Prop :=
  ∃ s, m.body = .root s ∧ m' = { m with body := .fields [{ name := "root", ser := s }] }

/-- The classes of `env'` are those of `env`, but that some root models have become classes with one field named `root`.  Validation has the same verdict, on
the value `v` of the root as on the data `{'root': v}`, and without a value as on `{}`. -/
structure Env.RootsAsFields (env env' : Env) : Prop where
  backend : env'.backend = env.backend
  classes : ∀ cls, (env'.model cls = env.model cls ∧ ∀ d, SameValidation (env.validate cls d) (env'.validate cls d)) ∨
    ∃ m m', env.model cls = some m ∧ env'.model cls = some m' ∧ m.IsRootAsField m' ∧
      (∀ v, v ≠ .none → SameValidation (env.validate cls v) (env'.validate cls (.dict [("root", v)]))) ∧
      SameValidation (env.validate cls .undef) (env'.validate cls (.dict []))

end PXml
