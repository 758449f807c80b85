import Verif.Spec
import Verif.Text

/-!
# Specification of reading and writing text (C68)
-/

namespace PXml

/-- A text without characters is the same as no text: `<a></a>` and `<a/>`. -/
def dropEmpty : Option String → Option String
  | some s => if s = "" then none else some s
  | none => none

mutual
/-- What the text of a document says about a tree: tags, attributes, texts and children.  Prefix declarations, line numbers and the
difference between no text and an empty one are left aside. -/
def Node.said : Node → Node
  | .elem tag attrib _ text tail children _ => .elem tag attrib [] (dropEmpty text) (dropEmpty tail) (Node.saidList children) none
  | .comment text tail => .comment (dropEmpty text) (dropEmpty tail)
  | .pi text tail => .pi (dropEmpty text) (dropEmpty tail)
def Node.saidList : List Node → List Node
  | [] => []
  | n :: ns => n.said :: Node.saidList ns
end

/-- The XML library reads what it has printed: the parsed tree says the same as the printed one. -/
def Reparses (print : Node → Except PyErr String) (parse : String → Except PyErr Node) (tree : Node) : Prop :=
  ∃ s tree', print tree = .ok s ∧ parse s = .ok tree' ∧ tree'.said = tree.said

end PXml
