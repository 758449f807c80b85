import Verif.Spec
import Verif.SpecText

/-!
# Specification of where texts are read (C69)
-/

namespace PXml

mutual
/-- The field takes the text of the element it is declared in (of the model's own element, or of the wrapper's). -/
def Ser.OwnText : Ser → Prop
  | .text computed _ => computed = false
  | .primUnion _ inner => inner.OwnText
  | .homog _ _ inner => inner.OwnText
  | .hetero _ _ inners => Ser.OwnTextAny inners
  | .wrap [] _ _ _ inner => inner.OwnText
  | _ => False
def Ser.OwnTextAny : List Ser → Prop
  | [] => False
  | s :: ss => s.OwnText ∨ Ser.OwnTextAny ss
end

/-- The class takes the text of its own element. -/
def ModelSer.OwnText (m : ModelSer) : Prop :=
  match m.body with
  | .fields fs => ∃ f ∈ fs, f.ser.OwnText
  | .root s => s.OwnText

/-- The field takes no text but that of elements with tags in `K`. -/
def Ser.TextsIn (env : Env) (K : List String) : Ser → Prop
  | .elem name _ _ _ _ => name ∈ K
  | .proxy p => ∀ m, env.model p.cls = some m → m.OwnText → p.name ∈ K
  | .wrap path _ _ _ inner => inner.OwnText → ∀ t ∈ path.getLast?, t ∈ K
  | _ => True

mutual
/-- The document with `f` applied to all tails and to the texts of the elements with tags outside `K`.  As in `Node.said`, prefix
declarations, line numbers and empty texts are left aside. -/
def Node.without (K : List String) (f : Option String → Option String) : Node → Node
  | .elem tag attrib _ text tail children _ =>
    .elem tag attrib [] (if tag ∈ K then dropEmpty text else f text) (f tail) (Node.withoutList K f children) none
  | .comment text tail => .comment (dropEmpty text) (f tail)
  | .pi text tail => .pi (dropEmpty text) (f tail)
def Node.withoutList (K : List String) (f : Option String → Option String) : List Node → List Node
  | [] => []
  | n :: ns => n.without K f :: Node.withoutList K f ns
end

/-- The documents differ in white space only: in blank tails, and in blank texts of elements with tags outside `K`. -/
def Node.SameButBlank (K : List String) (doc1 doc2 : Node) : Prop := doc1.without K dropBlank = doc2.without K dropBlank

/-- The documents differ in tails and in texts of elements with tags outside `K` only. -/
def Node.SameButTexts (K : List String) (doc1 doc2 : Node) : Prop :=
  doc1.without K (fun _ => none) = doc2.without K (fun _ => none)

end PXml
