import Verif.Spec
import Verif.Lemmas.Dict
import Verif.Lemmas.Rel
import Verif.Props.Search

/-! Content of trees and what the elementary reader operations do to it. -/

namespace PXml
namespace Elem

theorem contentList_eq (l : List Elem) : contentList l = l.flatMap content := by
  induction l with
  | nil => rfl
  | cons c l ih => simp [contentList, ih]

theorem content_eq (e : Elem) : e.content = e.own ++ e.elements.flatMap content := by
  cases e; simp [content, own, contentList_eq]

theorem content_next (e : Elem) (n : Nat) : ({ e with next := n } : Elem).content = e.content := by
  simp [content_eq, own]

theorem content_line (e : Elem) (n : Int) : ({ e with line := n } : Elem).content = e.content := by
  simp [content_eq, own]

theorem perm_swap (l : List Elem) (i j : Nat) : (swap l i j).Perm l := by
  by_cases hi : i < l.length
  · by_cases hj : j < l.length
    · have key : ∀ i j, i ≤ j → j < l.length → (swap l i j).Perm l := by
        intro i j hij hj
        have h1 := drop_swap hij hj l[j] (List.getElem?_eq_getElem hj)
        have h2 : (swap l i j).drop i = l[j] :: (swap l i j).drop (i + 1) := by
          have hl : i < (swap l i j).length := by rw [swap_length]; omega
          rw [List.drop_eq_getElem_cons hl]
          congr 1
          have := swap_getElem? (l := l) (i := i) (j := j) (by omega) hj i
          simp only [if_true, List.getElem?_eq_getElem hl, List.getElem?_eq_getElem hj, Option.some.injEq] at this
          exact this
        have h3 : (l.take i ++ (swap l i j).drop i).Perm (l.take i ++ l.drop i) :=
          List.Perm.append_left _ (by rw [h2]; exact h1)
        rw [← take_swap hij hj, List.take_append_drop, take_swap hij hj, List.take_append_drop] at h3
        exact h3
      rcases Nat.le_total i j with h | h
      · exact key i j h hj
      · have : swap l i j = swap l j i := by
          apply List.ext_getElem?
          intro k
          rw [swap_getElem? hi hj, swap_getElem? hj hi]
          split
          · rename_i h1; subst h1; split
            · rename_i h2; subst h2; rfl
            · rfl
          · rfl
        rw [this]; exact key j i h hi
    · unfold swap
      rw [List.getElem?_eq_none (by omega : l.length ≤ j)]
      split
      · simp_all
      · rfl
  · unfold swap
    rw [List.getElem?_eq_none (by omega : l.length ≤ i)]

theorem eta (e : Elem) :
    e = ⟨e.tag, e.nsmap, e.text, e.tail, e.attrib, e.elements, e.next, e.line⟩ := by cases e; rfl

/-- What a search does: the children are permuted, the cursor moves forward within the children. -/
theorem search_spec (e : Elem) (tag : String) (mode : Mode) (step : Bool) :
    ∃ l n, (e.search tag mode step).2 = { e with elements := l, next := n } ∧ l.Perm e.elements ∧ e.next ≤ n ∧
      (n ≤ e.elements.length ∨ n = e.next) := by
  cases mode with
  | strict =>
    simp only [search, strictSearch]
    split
    · rename_i c hc
      have := (List.getElem?_eq_some_iff.1 hc).1
      split
      · cases step
        · exact ⟨e.elements, e.next, eta e, List.Perm.refl _, Nat.le_refl _, .inr rfl⟩
        · exact ⟨e.elements, e.next + 1, rfl, List.Perm.refl _, by omega, .inl (by omega)⟩
      · exact ⟨e.elements, e.next, eta e, List.Perm.refl _, Nat.le_refl _, .inr rfl⟩
    · exact ⟨e.elements, e.next, eta e, List.Perm.refl _, Nat.le_refl _, .inr rfl⟩
  | ordered =>
    simp only [search, orderedSearch]
    split
    · rename_i i hm
      have h1 := (firstMatch_some hm).1
      have := firstMatch_lt hm
      cases step
      · exact ⟨e.elements, e.next, eta e, List.Perm.refl _, Nat.le_refl _, .inr rfl⟩
      · exact ⟨e.elements, i + 1, rfl, List.Perm.refl _, by omega, .inl (by omega)⟩
    · exact ⟨e.elements, e.next, eta e, List.Perm.refl _, Nat.le_refl _, .inr rfl⟩
  | unordered =>
    simp only [search, unorderedSearch]
    split
    · rename_i i hm
      have h1 := (firstMatch_some hm).1
      have := firstMatch_lt hm
      cases step
      · exact ⟨swap e.elements e.next i, e.next, by simp, perm_swap _ _ _, Nat.le_refl _, .inr rfl⟩
      · exact ⟨swap e.elements e.next i, e.next + 1, by simp, perm_swap _ _ _, by omega, .inl (by omega)⟩
    · exact ⟨e.elements, e.next, eta e, List.Perm.refl _, Nat.le_refl _, .inr rfl⟩

theorem flatMap_set_perm {α : Type} {l : List Elem} {i : Nat} {c c' : Elem} (f : Elem → List α) (t : List α)
    (hc : l[i]? = some c) (h : (f c).Perm (t ++ f c')) :
    (l.flatMap f).Perm (t ++ (l.set i c').flatMap f) := by
  induction l generalizing i with
  | nil => simp at hc
  | cons x l ih =>
    cases i with
    | zero =>
      simp at hc; subst hc
      simp only [List.flatMap_cons, List.set_cons_zero, ← List.append_assoc]
      exact h.append_right _
    | succ i =>
      simp only [List.getElem?_cons_succ] at hc
      simp only [List.flatMap_cons, List.set_cons_succ]
      refine ((ih hc).append_left _).trans ?_
      rw [← List.append_assoc, ← List.append_assoc]
      exact List.perm_append_comm.append_right _

/-- Reading removes pieces of content and nothing else. -/
def Conserves (e e' : Elem) : Prop := ∃ taken, e.content.Perm (taken ++ e'.content)

theorem conserves_rel : ElemRel Conserves where
  refl e := ⟨[], List.Perm.refl _⟩
  trans := by
    rintro a b c ⟨t1, h1⟩ ⟨t2, h2⟩
    exact ⟨t1 ++ t2, h1.trans (by simpa using h2.append_left t1)⟩
  popText e := by
    refine ⟨e.text.toList.map .text, ?_⟩
    simp [popText, content_eq, own]
  popAttrib e k := by
    unfold popAttrib
    split
    · cases hg : (e.attrib.getD []).get? k with
      | none =>
        refine ⟨[], ?_⟩
        simp only [List.nil_append, content_eq, own, Option.getD_some]
        rw [Dict.erase_of_not_mem ((Dict.get?_eq_none_iff _ _).1 hg)]
      | some v =>
        refine ⟨[.attr k v], ?_⟩
        simp only [content_eq, own, Option.getD_some]
        have := (Dict.perm_erase hg).map (fun kv : String × String => Piece.attr kv.1 kv.2)
        refine List.Perm.trans ?_ (List.perm_append_comm.trans (List.Perm.refl _))
        have h2 : ∀ (a b c : List Piece) x, (a ++ x :: b ++ c).Perm (a ++ b ++ c ++ [x]) := by
          intro a b c x
          have : (a ++ x :: b ++ c).Perm (x :: (a ++ b ++ c)) := by simp
          exact this.trans (List.perm_append_singleton _ _).symm
        exact ((this.append_left _).append_right _).trans (h2 _ _ _ _)
    · exact ⟨[], List.Perm.refl _⟩
  popAttributes e := by
    refine ⟨(e.attrib.getD []).map fun kv => .attr kv.1 kv.2, ?_⟩
    simp only [popAttributes, content_eq, own, Option.getD_none, List.map_nil, List.append_nil]
    rw [← List.append_assoc]
    exact List.perm_append_comm.append_right _
  search e tag mode step := by
    obtain ⟨l, n, h1, h2, _⟩ := search_spec e tag mode step
    refine ⟨[], ?_⟩
    rw [h1]
    simp only [List.nil_append, content_eq, own]
    exact (h2.symm.flatMap_right _).append_left _
  child e i c c' hc := by
    rintro ⟨t, h⟩
    refine ⟨t, ?_⟩
    simp only [content_eq, own, setChild]
    refine ((flatMap_set_perm content t hc h).append_left _).trans ?_
    rw [← List.append_assoc, ← List.append_assoc]
    exact List.perm_append_comm.append_right _
  stepForward e _ := ⟨[], by simp [stepForward, content_next]⟩
  applySnapshot e s := by
    rintro ⟨t, h⟩
    exact ⟨t, by simpa [applySnapshot, content_line] using h⟩
  hollow e i c hc := by
    refine ⟨c.content, ?_⟩
    simp only [content_eq e, content_eq (e.setChild _ _)]
    refine ((flatMap_set_perm content c.content (c' := c.hollow) hc ?_).append_left _).trans ?_
    · rw [content_eq c.hollow]; simp [hollow, own]
    · simp only [setChild, own]
      rw [← List.append_assoc, ← List.append_assoc]
      exact List.perm_append_comm.append_right _

/-- The child elements and their tags stay, the cursor never moves backwards. -/
def SameChildren (e e' : Elem) : Prop :=
  e'.tag = e.tag ∧ e'.line = e.line ∧ (e'.elements.map Elem.tag).Perm (e.elements.map Elem.tag) ∧ e.next ≤ e'.next

theorem map_tag_set {l : List Elem} {i : Nat} {c c' : Elem} (hc : l[i]? = some c) (ht : c'.tag = c.tag) :
    (l.set i c').map Elem.tag = l.map Elem.tag := by
  apply List.ext_getElem?
  intro k
  simp only [List.getElem?_map, List.getElem?_set]
  split
  · rename_i h; subst h
    split
    · rw [hc]; simp [ht]
    · rename_i hk; exact absurd (List.getElem?_eq_some_iff.1 hc).1 hk
  · rfl

theorem sameChildren_rel : ElemRel SameChildren where
  refl e := ⟨rfl, rfl, List.Perm.refl _, Nat.le_refl _⟩
  trans h1 h2 := ⟨h2.1.trans h1.1, h2.2.1.trans h1.2.1, h2.2.2.1.trans h1.2.2.1, Nat.le_trans h1.2.2.2 h2.2.2.2⟩
  popText e := ⟨rfl, rfl, List.Perm.refl _, Nat.le_refl _⟩
  popAttrib e k := by
    unfold popAttrib
    split <;> exact ⟨rfl, rfl, List.Perm.refl _, Nat.le_refl _⟩
  popAttributes e := ⟨rfl, rfl, List.Perm.refl _, Nat.le_refl _⟩
  search e tag mode step := by
    obtain ⟨l, n, h1, h2, h3, _⟩ := search_spec e tag mode step
    rw [h1]; exact ⟨rfl, rfl, h2.map _, h3⟩
  child e i c c' hc h := ⟨rfl, rfl, by simp only [setChild]; rw [map_tag_set hc h.1], Nat.le_refl _⟩
  stepForward e _ := ⟨rfl, rfl, List.Perm.refl _, Nat.le_succ _⟩
  applySnapshot e s h := ⟨h.1, rfl, h.2.2⟩
  hollow e i c hc := ⟨rfl, rfl, by simp only [setChild]; rw [map_tag_set hc (c' := c.hollow) rfl], Nat.le_refl _⟩

/-- The cursors stay within the children. -/
theorem good_rel : ElemRel (fun e e' => e.Good → e'.Good) where
  refl e := id
  trans h1 h2 := h2 ∘ h1
  popText e := fun ⟨h1, h2⟩ => ⟨h1, h2⟩
  popAttrib e k := by
    unfold popAttrib
    split
    · exact fun ⟨h1, h2⟩ => ⟨h1, h2⟩
    · exact id
  popAttributes e := fun ⟨h1, h2⟩ => ⟨h1, h2⟩
  search e tag mode step := by
    rintro ⟨h1, h2⟩
    obtain ⟨l, n, h3, h4, h5, h6⟩ := search_spec e tag mode step
    rw [h3]
    refine ⟨?_, fun c hc => h2 c (h4.mem_iff.1 hc)⟩
    simp only [h4.length_eq]
    rcases h6 with h6 | h6 <;> omega
  child e i c c' hc h := by
    rintro ⟨h1, h2⟩
    refine ⟨by simpa [setChild] using h1, ?_⟩
    intro x hx
    rcases List.mem_or_eq_of_mem_set hx with hx | rfl
    · exact h2 x hx
    · exact h (h2 c (List.mem_of_getElem? hc))
  stepForward e hlt := fun ⟨h1, h2⟩ => ⟨hlt, h2⟩
  applySnapshot e s h := by
    intro hg
    obtain ⟨h1, h2⟩ := h hg
    exact ⟨h1, h2⟩
  hollow e i c hc := by
    rintro ⟨h1, h2⟩
    refine ⟨by simpa [setChild] using h1, ?_⟩
    intro x hx
    rcases List.mem_or_eq_of_mem_set hx with hx | rfl
    · exact h2 x hx
    · exact ⟨by simp [hollow], by simp [hollow]⟩

end Elem

theorem fromNative_good (b : Backend) (n : Node) : (fromNative b n).Good := by
  have key : ∀ k, (∀ n : Node, sizeOf n ≤ k → (fromNative b n).Good) ∧
      (∀ ns : List Node, sizeOf ns ≤ k → ∀ c ∈ fromNativeList b ns, c.Good) := by
    intro k
    induction k with
    | zero =>
      refine ⟨fun n hn => ?_, fun ns hns => ?_⟩
      · cases n <;> simp at hn
      · cases ns <;> simp at hns
    | succ k ih =>
      refine ⟨fun n hn => ?_, fun ns hns => ?_⟩
      · cases n with
        | elem tag attrib nsmap text tail children line =>
          simp only [fromNative]
          simp at hn
          exact ⟨by simp, ih.2 children (by omega)⟩
        | comment a b => exact ⟨by simp [fromNative], by simp [fromNative]⟩
        | pi a b => exact ⟨by simp [fromNative], by simp [fromNative]⟩
      · cases ns with
        | nil => simp [fromNativeList]
        | cons n ns =>
          simp at hns
          unfold fromNativeList
          split
          · exact ih.2 ns (by omega)
          · intro c hc
            rcases List.mem_cons.1 hc with rfl | hc
            · exact ih.1 n (by omega)
            · exact ih.2 ns (by omega) c hc
  exact (key _).1 n (Nat.le_refl _)

end PXml
