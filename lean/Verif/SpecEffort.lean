import Verif.Spec
import Verif.Threaded

/-!
# Specification of the effort of reading (C64)
-/

namespace PXml

mutual
/-- The number of elements of a document (its root included); processing instructions count, comments do not. -/
def Node.elementCount : Node → Nat
  | .elem _ _ _ _ _ children _ => Node.elementCountList children + 1
  | .comment _ _ => 0
  | .pi _ _ => 1
def Node.elementCountList : List Node → Nat
  | [] => 0
  | n :: ns => n.elementCount + Node.elementCountList ns
end


namespace Threaded

variable {C W : Type}

/-- No field of any class is, or contains, a union of model classes without discriminator. -/
def TEnv.NoUnions (E : TEnv C W) : Prop := ∀ cls m, E.model cls = some m → m.Everywhere Ser.NotUnion

/-- Custom validators of fields only use the reader interface of the element. -/
def TEnv.ValidatorsRead (E : TEnv C W) : Prop :=
  ∀ cls m fs, E.model cls = some m → m.body = .fields fs → ∀ f ∈ fs, ∀ v, f.validator = some v → ∀ e : Elem, e.Reads (v e).2

/-- The same environment, which also notes down every call of `model_validate`: its context, its class and its data. -/
def TEnv.noted (E : TEnv C W) : TEnv C (W × List (Option C × String × Val)) :=
  { backend := E.backend
    model := E.model
    validate := fun c cls v w => ((E.validate c cls v w.1).1, ((E.validate c cls v w.1).2, w.2 ++ [(c, cls, v)])) }

end Threaded
end PXml
