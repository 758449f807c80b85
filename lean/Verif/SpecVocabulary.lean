import Verif.Spec

/-!
# Specification: what may stand where in a document
-/

namespace PXml

/-- Which attributes, child elements and texts elements of a given tag may have. -/
structure Vocabulary where
  /-- elements with the tag may have the attribute -/
  attr : String → String → Prop
  /-- elements with the first tag may have children with the second -/
  child : String → String → Prop
  /-- elements with the tag may have text -/
  text : String → Prop
  /-- elements with the tag may have any children with any content -/
  free : String → Prop := fun _ => False

mutual
/-- Everything in the document is in the vocabulary.  There is no text after elements, and there are no comments or processing
instructions, except where any children are allowed. -/
def Node.Speaks (V : Vocabulary) : Node → Prop
  | .elem tag attrib _ text tail children _ =>
    (∀ k ∈ Dict.keys attrib, V.attr tag k) ∧ (text ≠ none → V.text tag) ∧ tail = none ∧ Node.SpeakIn V tag children
  | .comment _ _ => False
  | .pi _ _ => False
/-- The nodes are in the vocabulary, as children of an element with the tag. -/
def Node.SpeakIn (V : Vocabulary) (tag : String) : List Node → Prop
  | [] => True
  | n :: ns => (¬V.free tag → V.child tag n.tag ∧ n.Speaks V) ∧ Node.SpeakIn V tag ns
end

/-- The nested elements of a path are in the vocabulary, inside of an element with the tag. -/
def Vocabulary.Path (V : Vocabulary) : String → List String → Prop
  | _, [] => True
  | t, s :: ss => V.child t s ∧ V.Path s ss

/-- The vocabulary has what an element of the class at the field needs. -/
def Proxy.DeclaredIn (V : Vocabulary) (At : String → String → Prop) (t : String) (p : Proxy) : Prop :=
  V.child t p.name ∧ (p.nillable = true → V.attr p.name Elem.nilAttr) ∧ At p.cls p.name

mutual
/-- The vocabulary has everything that the field declares for elements with the tag it stands in.  `At` holds of the classes and the
tags of their elements.  Raw elements have arbitrary tags and content. -/
def Ser.DeclaredIn (V : Vocabulary) (At : String → String → Prop) (t : String) : Ser → Prop
  | .text _ nillable => V.text t ∧ (nillable = true → V.attr t Elem.nilAttr)
  | .attr name _ => V.attr t name
  | .elem name _ _ _ nillable => V.child t name ∧ V.text name ∧ (nillable = true → V.attr name Elem.nilAttr)
  | .attrs a => ∀ k, V.attr t (QName.uri ⟨k, a.space⟩)
  | .mapElem a name _ => V.child t name ∧ ∀ k, V.attr name (QName.uri ⟨k, a.space⟩)
  | .raw _ _ _ => V.free t
  | .proxy p => p.DeclaredIn V At t
  | .primUnion _ inner => inner.DeclaredIn V At t
  | .modelUnion _ _ alts => ∀ p ∈ alts, p.DeclaredIn V At t
  | .tagged _ _ _ _ alts => ∀ r ∈ alts, r.2.DeclaredIn V At t
  | .wrap path _ _ _ inner => V.Path t path ∧ inner.DeclaredIn V At (path.getLast?.getD t)
  | .homog _ _ inner => inner.DeclaredIn V At t
  | .hetero _ _ inners => Ser.AllDeclaredIn V At t inners
def Ser.AllDeclaredIn (V : Vocabulary) (At : String → String → Prop) (t : String) : List Ser → Prop
  | [] => True
  | s :: ss => s.DeclaredIn V At t ∧ Ser.AllDeclaredIn V At t ss
end

/-- The vocabulary has everything that the class declares for elements with the tag. -/
def ModelSer.DeclaredIn (V : Vocabulary) (At : String → String → Prop) (t : String) (m : ModelSer) : Prop :=
  match m.body with
  | .fields fs => ∀ f ∈ fs, f.ser.DeclaredIn V At t
  | .root s => s.DeclaredIn V At t

/-- The vocabulary has everything that the classes declare for elements at which `At` places them. -/
def Env.DeclaredIn (env : Env) (V : Vocabulary) (At : String → String → Prop) : Prop :=
  ∀ cls t m, At cls t → env.model cls = some m → m.DeclaredIn V At t

end PXml
