import Verif.Spec

/-! # Vocabulary of C106: a document with other line numbers -/

namespace PXml

mutual
/-- The document with other line numbers: what was on line `l` is on line `move l`. -/
def Node.moveLines (move : Int → Int) : Node → Node
  | .elem tag attrib nsmap text tail children line => .elem tag attrib nsmap text tail (Node.moveLinesList move children) (line.map move)
  | .comment text tail => .comment text tail
  | .pi text tail => .pi text tail
/-- The same for all of them. -/
def Node.moveLinesList (move : Int → Int) : List Node → List Node
  | [] => []
  | n :: ns => n.moveLines move :: Node.moveLinesList move ns
end

/-- Line numbers stay line numbers, and an unknown line stays unknown. -/
def LineMove (move : Int → Int) : Prop := move (-1) = -1 ∧ ∀ l, 0 ≤ l → 0 ≤ move l

/-- Line numbers are not negative. -/
def Node.Numbered (doc : Node) : Prop := ∀ l ∈ doc.lines, 0 ≤ l

end PXml
