import Verif.SpecPlace
import Verif.SpecLossless

/-! # Vocabulary of C91: the instances inside an instance, and the elements inside an element -/

namespace PXml

/-- The node is an element inside the other one, at any depth. -/
inductive Node.Inside : Node → Node → Prop
  | child {x node : Node} : x ∈ node.children → x.isComment = false → Inside x node
  | deeper {x k node : Node} : k ∈ node.children → k.isComment = false → Inside x k → Inside x node

/-- Validation makes no instances of models of its own: what it returns holds instances only that were in the data.  (So it is as long as
pydantic does not revalidate instances, and defaults and validators of the user bring no others.) -/
def Env.KeepsInstances (env : Env) : Prop :=
  ∀ cls data a set, env.validate cls data = .ok (a, set) → ∀ kv ∈ a, ∀ c b s, Val.Part (.model c b s) kv.2 → Val.Part (.model c b s) data

end PXml
