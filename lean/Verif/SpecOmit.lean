import Verif.SpecRoundTrip

/-!
# Specification of documents with things left out (C83)
-/

namespace PXml

mutual
/-- The first document is the second with attributes, texts and elements left out: whatever is there is where and what it is in the second. -/
inductive Node.Part : Node → Node → Prop
  | elem {tag : String} {attrs attrs' : Dict String String} {nsmap : NsMap} {text text' tail : Option String} {cs cs' : List Node}
      {line : Option Int} : attrs.Sublist attrs' → text = none ∨ text = text' → Node.Parts cs cs' →
      Node.Part (.elem tag attrs nsmap text tail cs line) (.elem tag attrs' nsmap text' tail cs' line)
/-- The same for the children of an element. -/
inductive Node.Parts : List Node → List Node → Prop
  | nil : Node.Parts [] []
  | drop {cs cs' : List Node} (c' : Node) : Node.Parts cs cs' → Node.Parts cs (c' :: cs')
  | keep {c c' : Node} {cs cs' : List Node} : Node.Part c c' → Node.Parts cs cs' → Node.Parts (c :: cs) (c' :: cs')
end

/-- The second flags leave out everything the first do, and maybe more. -/
structure Flags.Le (fl fl' : Flags) : Prop where
  skipEmpty : fl.skipEmpty = true → fl'.skipEmpty = true
  excludeNone : fl.excludeNone = true → fl'.excludeNone = true
  excludeUnset : fl.excludeUnset = true → fl'.excludeUnset = true

mutual
/-- The places in the element of its class a field must not find occupied: its text, its attributes, and the wrapper element. -/
def Ser.exclusive : Ser → List Slot
  | .text _ nillable => if nillable then [.text, .attr Elem.nilAttr] else [.text]
  | .attr name _ => [.attr name]
  | .attrs _ => [.attrs]
  | .primUnion _ inner => inner.exclusive
  | .wrap [] _ _ _ inner => inner.exclusive
  | .wrap (t :: _) _ _ _ _ => [.child t]
  | .homog _ _ inner => inner.exclusive
  | .hetero _ _ inners => Ser.exclusiveList inners
  | _ => []
def Ser.exclusiveList : List Ser → List Slot
  | [] => []
  | s :: ss => s.exclusive ++ Ser.exclusiveList ss
end

mutual
/-- A field with raw elements, which may have any name, beside the other fields. -/
def Ser.wild : Ser → Bool
  | .raw _ _ _ => true
  | .primUnion _ inner => inner.wild
  | .wrap [] _ _ _ inner => inner.wild
  | .homog _ _ inner => inner.wild
  | .hetero _ _ inners => Ser.wildList inners
  | _ => false
def Ser.wildList : List Ser → Bool
  | [] => false
  | s :: ss => s.wild || Ser.wildList ss
end

mutual
/-- Items of collections are elements of their own. -/
def Ser.Apart : Ser → Prop
  | .primUnion _ inner => inner.Apart
  | .wrap _ _ _ _ inner => inner.Apart
  | .homog _ _ inner => inner.Apart ∧ inner.exclusive = []
  | .hetero _ _ inners => Ser.ApartList inners ∧ Ser.exclusiveList inners = []
  | _ => True
def Ser.ApartList : List Ser → Prop
  | [] => True
  | s :: ss => s.Apart ∧ Ser.ApartList ss
end

/-- Texts, attributes and wrapper elements are not shared with fields before, in particular there are no wrapper elements after raw elements. -/
def Env.Unshared (env : Env) : Prop :=
  ∀ cls m, env.model cls = some m →
    match m.body with
    | .fields fs => (∀ f ∈ fs, f.ser.Apart) ∧
        fs.Pairwise fun f g => (∀ x ∈ f.ser.slots, ∀ y ∈ g.ser.exclusive, ¬x.Competes y) ∧ (f.ser.wild = true → ∀ t, .child t ∉ g.ser.exclusive)
    | .root s => s.Apart

end PXml
