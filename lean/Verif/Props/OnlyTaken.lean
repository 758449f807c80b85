import Verif.Lemmas.OnlyTaken
import Verif.Props.FieldOrder

/-!
# C88: in unordered mode a class reads nothing but what its fields take

The specification is in `Verif/SpecFieldOrder.lean`.
-/

namespace PXml

open Elem

/-- C88: documents that agree on what the fields of a class take are read alike, up to the line numbers in errors, if the fields look for
their elements in unordered mode: the order of the children, other elements, other attributes and so on play no part. -/
theorem C88_only_what_is_taken (env : Env) (hv : env.ValidatorsRead) (eas : Bool) (n : Nat) (cls : String) (m : ModelSer)
    (hm : env.model cls = some m) (hx : m.extraForbid = false) (hno : ∀ fs, m.body = .fields fs → ∀ f ∈ fs, f.validator = none)
    (hu : ∀ s ∈ m.sers, s.Unordered env) (root root' : Node) (h : root.AgreeFor env m.sers root') :
    (fromXmlTree env eas n cls root).1.noLines = (fromXmlTree env eas n cls root').1.noLines := by
  have fresh : ∀ r : Node, (fromNative env.backend r).next = 0 ∧ (fromNative env.backend r).text = r.rootText ∧
      (fromNative env.backend r).attrib = some r.rootAttrs ∧
      (fromNative env.backend r).unread = (r.children.filter fun c => !c.isComment).map (fromNative env.backend) := by
    intro r
    have hn : (fromNative env.backend r).next = 0 := by cases r <;> simp [fromNative]
    refine ⟨hn, ?_, ?_, ?_⟩
    · cases r <;> simp [fromNative, Node.rootText]
    · cases r <;> simp [fromNative, Node.rootAttrs]
    · simp only [unread, hn, List.drop_zero]
      cases r with
      | elem tag attrib nsmap text tail cs line => simp only [fromNative, Node.children, fromNativeList_eq]
      | comment => simp [fromNative, Node.children]
      | pi => simp [fromNative, Node.children]
  let X : View := ⟨∃ s ∈ m.sers, s.Takes env .text, fun k => ∃ s ∈ m.sers, s.Takes env (.attr k), fun t => ∃ s ∈ m.sers, s.GoesTo env t⟩
  have hs : SameIn X (fromNative env.backend root) (fromNative env.backend root') := by
    obtain ⟨n1, t1, a1, u1⟩ := fresh root
    obtain ⟨n2, t2, a2, u2⟩ := fresh root'
    have hk : ∀ r : Node, ∀ t, ofTag t ((r.children.filter fun c => !c.isComment).map (fromNative env.backend)) =
        (r.children.filter fun c => !c.isComment && c.tag = t).map (fromNative env.backend) := by
      intro r t
      simp only [ofTag, List.filter_map, List.filter_filter, Function.comp_def, fromNative_tag, Bool.and_comm]
    refine ⟨?_, ?_, ?_, ?_, ?_, ?_, by omega, by omega⟩
    · intro ht; rw [t1, t2]; exact h.text ht
    · intro k hk; rw [a1, a2]; exact h.attr k hk
    · intro ha; rw [a1, a2, h.attrs ha]
    · intro t ht; rw [u1, u2, hk, hk, h.children t ht]
    · intro t ht
      obtain ⟨s, hs, ht⟩ := ht
      have := h.single s hs t ht
      rw [u1]
      simp only [ofTag, List.filter_map, List.length_map]
      simpa [Function.comp_def, fromNative_tag] using this
    · intro c _; simp [lastSeen, n1, n2]
  have hw : ∀ s ∈ m.sers, s.Within env X := fun s hs => ⟨fun x => ⟨s, hs, x⟩, fun _ x => ⟨s, hs, x⟩, fun _ x => ⟨s, hs, x⟩⟩
  have key := deserModel_within hv eas n cls m hx hno hu hw [] ⟨fromNative env.backend root, []⟩ ⟨fromNative env.backend root', []⟩ hs
  unfold fromXmlTree
  simp only [hm, ← h.tag]
  split
  · exact key.lines_eq
  · rfl

namespace Ex

/-- `orderDoc` with its children in another order, a comment, repeated unknown elements and an unknown attribute. -/
def otherDoc : Node :=
  el "person" (some "text") [el "mail" (some "a@b.c"), .comment (some "!") none, el "junk" none [el "name" (some "Bob")], el "name" (some "Ann"),
    el "junk" none, el "contact" none [el "phones" none [el "phone" (some "5")]], el "home" (some "Main St") [] [("zip", "1")]]
    [("x", "1"), ("id", "7")]

theorem takes_attr {env : Env} {name k : String} (h : (Ser.attr name false).Takes env (.attr k)) : k = name := by cases h; rfl

theorem docs_agree : orderDoc.AgreeFor orderEnv (person .unordered).sers otherDoc := by
  have hs : ∀ s ∈ (person .unordered).sers, ∃ f, (∃ fs, (person .unordered).body = .fields fs ∧ f ∈ fs) ∧ f.ser = s := by
    intro s hs
    simp only [ModelSer.sers] at hs
    obtain ⟨f, hf, rfl⟩ := List.mem_map.1 hs
    exact ⟨f, ⟨_, rfl, hf⟩, rfl⟩
  refine ⟨rfl, ?_, ?_, ?_, ?_, ?_⟩
  · rintro ⟨s, h, ht⟩
    obtain ⟨f, ⟨fs, hb, hf⟩, rfl⟩ := hs s h
    exact absurd ht (person_takes f fs hb hf).1
  · rintro k ⟨s, h, ht⟩
    obtain ⟨f, ⟨fs, hb, hf⟩, rfl⟩ := hs s h
    have := (person_takes f fs hb hf).2.1 k ht
    simp only [person, Body.fields.injEq] at hb
    subst hb
    simp only [List.mem_cons, List.not_mem_nil, or_false] at hf
    rcases hf with rfl | rfl | rfl | rfl | rfl | rfl | rfl <;> simp at this
    cases ht
    rfl
  · intro h
    obtain ⟨s, h, ht⟩ := h "other"
    obtain ⟨f, ⟨fs, hb, hf⟩, rfl⟩ := hs s h
    have := (person_takes f fs hb hf).2.1 _ ht
    simp only [person, Body.fields.injEq] at hb
    subst hb
    simp only [List.mem_cons, List.not_mem_nil, or_false] at hf
    rcases hf with rfl | rfl | rfl | rfl | rfl | rfl | rfl <;> simp at this
    exact absurd (takes_attr ht) (by decide)
  · rintro t ⟨s, h, ht⟩
    obtain ⟨f, ⟨fs, hb, hf⟩, rfl⟩ := hs s h
    obtain ⟨_, rfl⟩ := (person_takes f fs hb hf).2.2 t ht
    simp only [person, Body.fields.injEq] at hb
    subst hb
    simp only [List.mem_cons, List.not_mem_nil, or_false] at hf
    rcases hf with rfl | rfl | rfl | rfl | rfl | rfl | rfl <;> rfl
  · intro s h
    obtain ⟨f, ⟨fs, hb, hf⟩, rfl⟩ := hs s h
    exact orderDoc_single f fs hb hf

example : (fromXmlTree orderEnv false 9 "Person" orderDoc).1.noLines = (fromXmlTree orderEnv false 9 "Person" otherDoc).1.noLines :=
  C88_only_what_is_taken orderEnv orderEnv_validators false 9 "Person" (person .unordered) rfl rfl
    (fun fs hb f hf => (person_independent fs hb).validator f hf)
    (by
      intro s hs
      simp only [ModelSer.sers] at hs
      obtain ⟨f, hf, rfl⟩ := List.mem_map.1 hs
      exact (person_independent _ rfl).unordered f hf)
    orderDoc otherDoc docs_agree

end Ex
end PXml
