import Verif.Spec

/-! # Vocabulary of C108: what strict search sees of a document -/

namespace PXml

mutual
/-- The document with the children of each element only up to the first one, comments aside, whose tag is not in `K`. -/
def Node.cutForeign (K : List String) : Node → Node
  | .elem tag attrib nsmap text tail children line => .elem tag attrib nsmap text tail (Node.cutForeignList K children) line
  | n => n
/-- The nodes up to the first one, comments aside, whose tag is not in `K`. -/
def Node.cutForeignList (K : List String) : List Node → List Node
  | [] => []
  | n :: ns =>
    if n.isComment then n :: Node.cutForeignList K ns
    else if n.tag ∈ K then n.cutForeign K :: Node.cutForeignList K ns
    else []
end

mutual
/-- In each element the children with tags that are not in `K`, comments aside, come after all others. -/
def Node.ForeignLast (K : List String) : Node → Prop
  | .elem _ _ _ _ _ children _ => Node.ForeignLastList K children
  | _ => True
/-- The same for a list of siblings. -/
def Node.ForeignLastList (K : List String) : List Node → Prop
  | [] => True
  | n :: ns => n.ForeignLast K ∧ Node.ForeignLastList K ns ∧ (n.isComment = false → n.tag ∉ K → ∀ x ∈ ns, x.tag ∉ K)
end

end PXml
