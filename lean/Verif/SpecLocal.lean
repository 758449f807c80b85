import Verif.Spec

/-! # Vocabulary of C84: which part of a document a field depends on -/

namespace PXml

mutual
/-- The node without its line numbers. -/
def Node.unlined : Node → Node
  | .elem tag attrib nsmap text tail children _ => .elem tag attrib nsmap text tail (Node.unlinedList children) none
  | n => n
def Node.unlinedList : List Node → List Node
  | [] => []
  | n :: ns => n.unlined :: Node.unlinedList ns
end

/-- Lists of children that differ only in line numbers and in what is inside the elements with the tag `t`: their attributes, texts and
children. -/
inductive Node.SameBeside (t : String) : List Node → List Node → Prop
  | nil : SameBeside t [] []
  | same {n n' : Node} {ns ns' : List Node} : n.unlined = n'.unlined → SameBeside t ns ns' → SameBeside t (n :: ns) (n' :: ns')
  | inside {a a' : Dict String String} {m m' : NsMap} {x x' y y' : Option String} {cs cs' : List Node} {l l' : Option Int}
      {ns ns' : List Node} : SameBeside t ns ns' → SameBeside t (.elem t a m x y cs l :: ns) (.elem t a' m' x' y' cs' l' :: ns')

/-- Documents that differ only in line numbers and in what is inside the children of the root with the tag `t`. -/
inductive Node.SameOutside (t : String) : Node → Node → Prop
  | elem {tag : String} {attrib : Dict String String} {m m' : NsMap} {text y y' : Option String} {cs cs' : List Node} {l l' : Option Int} :
      Node.SameBeside t cs cs' → SameOutside t (.elem tag attrib m text y cs l) (.elem tag attrib m' text y' cs' l')

/-- The field does not look for children with the tag `t` of the element it is read from.  (Models it contains may do so in theirs.) -/
inductive Ser.Avoids (t : String) : Ser → Prop
  | text {c nl : Bool} : Avoids t (.text c nl)
  | attr {name : String} {c : Bool} : Avoids t (.attr name c)
  | attrs {a : AttrsSer} : Avoids t (.attrs a)
  | elem {name : String} {ns : Option NsMap} {mode : Mode} {c nl : Bool} : name ≠ t → Avoids t (.elem name ns mode c nl)
  | mapElem {a : AttrsSer} {name : String} {mode : Mode} : name ≠ t → Avoids t (.mapElem a name mode)
  | raw {name : String} {mode : Mode} {c : Bool} : name ≠ t → Avoids t (.raw name mode c)
  | proxy {p : Proxy} : p.name ≠ t → Avoids t (.proxy p)
  | primUnion {c : Bool} {s : Ser} : Avoids t s → Avoids t (.primUnion c s)
  | modelUnion {title : Title} {c : Bool} {alts : List Proxy} : (∀ p ∈ alts, p.name ≠ t) → Avoids t (.modelUnion title c alts)
  | tagged {c : Bool} {d a : String} {mode : Mode} {alts : List (String × Proxy)} : (∀ p ∈ alts, p.2.name ≠ t) →
      Avoids t (.tagged c d a mode alts)
  | wrap {x : String} {path : List String} {ns : Option NsMap} {mode : Mode} {c : Bool} {s : Ser} : x ≠ t →
      Avoids t (.wrap (x :: path) ns mode c s)
  | homog {title : Title} {c : Bool} {s : Ser} : Avoids t s → Avoids t (.homog title c s)
  | hetero {title : Title} {c : Bool} {ss : List Ser} : (∀ s ∈ ss, Avoids t s) → Avoids t (.hetero title c ss)

/-- The field is read from one child with the tag `t`: a primitive, mapping, raw element or sub-model with this tag, or anything in a
wrapper whose path begins with it. -/
inductive Ser.Inside (t : String) : Ser → Prop
  | elem {ns : Option NsMap} {mode : Mode} {c nl : Bool} : Inside t (.elem t ns mode c nl)
  | mapElem {a : AttrsSer} {mode : Mode} : Inside t (.mapElem a t mode)
  | raw {mode : Mode} {c : Bool} : Inside t (.raw t mode c)
  | proxy {p : Proxy} : p.name = t → Inside t (.proxy p)
  | primUnion {c : Bool} {s : Ser} : Inside t s → Inside t (.primUnion c s)
  | wrap {path : List String} {ns : Option NsMap} {mode : Mode} {c : Bool} {s : Ser} : Inside t (.wrap (t :: path) ns mode c s)

end PXml
