import Verif.Lemmas.SimOrder

/-! What a search finds. -/

namespace PXml

open Elem

namespace Elem

theorem find?_split {p : Elem → Bool} {l pre post : List Elem} {c : Elem} (hl : l = pre ++ c :: post) (hc : p c = true)
    (hpre : ∀ x ∈ pre, p x = false) : l.find? p = some c := by
  subst hl
  rw [List.find?_append]
  have : pre.find? p = none := by simpa using hpre
  simp [this, hc]

theorem candidate_none {e : Elem} {t : String} {m : Mode} (h : e.candidate t m = none) (step : Bool) :
    e.search t m step = (none, e) := by
  cases m with
  | strict =>
    simp only [candidate, unread] at h
    simp only [search, strictSearch]
    rw [List.head?_drop] at h
    cases hc : e.elements[e.next]? with
    | none => rfl
    | some c =>
      rw [hc] at h
      simp only [Option.filter_eq_none_iff, Option.some.injEq, decide_eq_true_eq, forall_eq'] at h
      simp [h]
  | ordered =>
    have : e.firstMatch t = none := by
      rw [firstMatch_none_iff]
      simpa [candidate, unread] using h
    simp [search, orderedSearch, this]
  | unordered =>
    have : e.firstMatch t = none := by
      rw [firstMatch_none_iff]
      simpa [candidate, unread] using h
    simp [search, unorderedSearch, this]

theorem firstMatch_candidate {e : Elem} {t : String} {c : Elem} (h : e.unread.find? (fun c => c.tag = t) = some c) :
    ∃ i, e.firstMatch t = some i ∧ e.elements[i]? = some c := by
  cases hm : e.firstMatch t with
  | none =>
    rw [firstMatch_none_iff] at hm
    have := List.mem_of_find?_eq_some h
    have h2 := List.find?_some h
    exact absurd (by simpa using h2) (hm c this)
  | some i =>
    obtain ⟨pre, d, post, h1, h2, h3, h4⟩ := firstMatch_split hm
    have := find?_split (p := fun c => decide (c.tag = t)) h1 (by simpa using h3) (by simpa using h4)
    rw [h] at this
    injection this with this
    subst this
    refine ⟨i, rfl, ?_⟩
    have h5 : e.unread[pre.length]? = some c := by rw [h1]; simp
    rw [unread, List.getElem?_drop] at h5
    rw [h2]; exact h5

theorem candidate_tag {e : Elem} {t : String} {m : Mode} {c : Elem} (h : e.candidate t m = some c) : c.tag = t := by
  cases m <;> simp only [candidate] at h
  · simpa using (Option.filter_eq_some_iff.1 h).2
  · simpa using List.find?_some h
  · simpa using List.find?_some h

theorem candidate_mem {e : Elem} {t : String} {m : Mode} {c : Elem} (h : e.candidate t m = some c) : c ∈ e.unread := by
  cases m <;> simp only [candidate] at h
  · exact List.mem_of_mem_head? (Option.filter_eq_some_iff.1 h).1
  · exact List.mem_of_find?_eq_some h
  · exact List.mem_of_find?_eq_some h

theorem candidate_some {e : Elem} {t : String} {m : Mode} {c : Elem} (h : e.candidate t m = some c) (step : Bool) :
    ∃ i e', e.search t m step = (some i, e') ∧ e'.elements[i]? = some c := by
  cases m with
  | strict =>
    simp only [candidate, unread, List.head?_drop] at h
    obtain ⟨h1, h2⟩ := Option.filter_eq_some_iff.1 h
    simp only [decide_eq_true_eq] at h2
    simp only [search, strictSearch, h1, h2, if_true]
    refine ⟨_, _, rfl, ?_⟩
    split <;> exact h1
  | ordered =>
    obtain ⟨i, h1, h2⟩ := firstMatch_candidate h
    simp only [search, orderedSearch, h1]
    refine ⟨_, _, rfl, ?_⟩
    split <;> exact h2
  | unordered =>
    obtain ⟨i, h1, h2⟩ := firstMatch_candidate h
    simp only [search, unorderedSearch, h1]
    refine ⟨_, _, rfl, ?_⟩
    have hi := firstMatch_lt h1
    have hn := (firstMatch_some h1).1
    rw [swap_getElem? (by omega) hi]
    simp [h2]

/-- Looking without stepping finds the same element again, and does not change what a search finds. -/
theorem peek_again {e e' : Elem} {t : String} {m : Mode} {i : Nat} (h : e.search t m false = (some i, e')) (step : Bool) :
    e'.search t m step = e.search t m step := by
  cases m with
  | strict =>
    suffices he : e' = e by rw [he]
    simp only [search, strictSearch] at h
    split at h
    · split at h
      · injection h with h1 h2; exact h2.symm
      · cases h
    · cases h
  | ordered =>
    suffices he : e' = e by rw [he]
    simp only [search, orderedSearch] at h
    split at h
    · injection h with h1 h2; exact h2.symm
    · cases h
  | unordered =>
    simp only [search, unorderedSearch] at h ⊢
    cases hm : e.firstMatch t with
    | none => rw [hm] at h; cases h
    | some j =>
      rw [hm] at h
      simp only [Bool.false_eq_true, if_false] at h
      injection h with h1 h2
      injection h1 with h1
      have hj := firstMatch_lt hm
      obtain ⟨hn, ⟨c, hc, hct⟩, _⟩ := firstMatch_some hm
      have hk : (swap e.elements e.next j)[e.next]? = some c := by
        rw [swap_getElem? (by omega) hj]; simp [hc]
      have : e'.firstMatch t = some e'.next := by
        subst h2
        simp only [firstMatch]
        have hd : (swap e.elements e.next j).drop e.next = c :: (swap e.elements e.next j).drop (e.next + 1) := by
          obtain ⟨hlt, rfl⟩ := List.getElem?_eq_some_iff.1 hk
          exact List.drop_eq_getElem_cons hlt
        rw [hd, firstFrom, if_pos hct]
      rw [this]
      subst h2
      simp only [swap_self]

end Elem
end PXml
