import Verif.Element

/-! Structural induction on elements and basic facts about searches. -/

namespace PXml

/-- Induction on elements: the children are smaller. -/
theorem Elem.induct {P : Elem → Prop} (h : ∀ e : Elem, (∀ c ∈ e.elements, P c) → P e) (e : Elem) : P e := by
  have : ∀ n, ∀ e : Elem, sizeOf e ≤ n → P e := by
    intro n
    induction n with
    | zero => intro e he; cases e; simp at he
    | succ n ih =>
      intro e he
      apply h
      intro c hc
      apply ih
      have h1 := List.sizeOf_lt_of_mem hc
      cases e
      simp at he h1
      omega
  exact this _ e (Nat.le_refl _)

namespace Elem

theorem firstFrom_spec (tag : String) (l : List Elem) (k : Nat) :
    (∀ i, firstFrom tag l k = some i →
      k ≤ i ∧ (∃ c, l[i - k]? = some c ∧ c.tag = tag) ∧ ∀ j, j < i - k → ∀ c, l[j]? = some c → c.tag ≠ tag) ∧
    (firstFrom tag l k = none → ∀ c ∈ l, c.tag ≠ tag) := by
  induction l generalizing k with
  | nil => simp [firstFrom]
  | cons c l ih =>
    unfold firstFrom
    by_cases h : c.tag = tag
    · simp only [h, if_true]
      constructor
      · intro i hi
        simp only [Option.some.injEq] at hi; subst hi
        simp [h]
      · simp
    · simp only [h, if_false]
      constructor
      · intro i hi
        obtain ⟨h1, ⟨c', h2, h3⟩, h4⟩ := (ih (k+1)).1 i hi
        refine ⟨by omega, ⟨c', ?_, h3⟩, ?_⟩
        · have : i - k = (i - (k+1)) + 1 := by omega
          rw [this]; simpa using h2
        · intro j hj c'' hc''
          cases j with
          | zero => simp at hc''; subst hc''; exact h
          | succ j => exact h4 j (by omega) c'' (by simpa using hc'')
      · intro hi c' hc'
        rcases List.mem_cons.1 hc' with rfl | hc'
        · exact h
        · exact (ih (k+1)).2 hi c' hc'

/-- A successful `firstMatch` is the first unread child with the tag. -/
theorem firstMatch_some {e : Elem} {tag : String} {i : Nat} (h : e.firstMatch tag = some i) :
    e.next ≤ i ∧ (∃ c, e.elements[i]? = some c ∧ c.tag = tag) ∧
      ∀ j, e.next ≤ j → j < i → ∀ c, e.elements[j]? = some c → c.tag ≠ tag := by
  obtain ⟨h1, ⟨c, h2, h3⟩, h4⟩ := (firstFrom_spec tag _ _).1 i h
  refine ⟨h1, ⟨c, ?_, h3⟩, ?_⟩
  · rw [List.getElem?_drop] at h2
    have : e.next + (i - e.next) = i := by omega
    rwa [this] at h2
  · intro j hj hji c hc
    apply h4 (j - e.next) (by omega) c
    rw [List.getElem?_drop]
    have : e.next + (j - e.next) = j := by omega
    rwa [this]

theorem firstMatch_none {e : Elem} {tag : String} (h : e.firstMatch tag = none) :
    ∀ c ∈ e.elements.drop e.next, c.tag ≠ tag := (firstFrom_spec tag _ _).2 h

theorem firstMatch_none_iff {e : Elem} {tag : String} :
    e.firstMatch tag = none ↔ ∀ c ∈ e.elements.drop e.next, c.tag ≠ tag := by
  refine ⟨firstMatch_none, fun h => ?_⟩
  cases hm : e.firstMatch tag with
  | none => rfl
  | some i =>
    obtain ⟨h1, ⟨c, h2, h3⟩, _⟩ := firstMatch_some hm
    refine absurd h3 (h c ?_)
    rw [List.mem_iff_getElem?]
    exact ⟨i - e.next, by rw [List.getElem?_drop]; have : e.next + (i - e.next) = i := by omega
                          rwa [this]⟩

theorem firstMatch_lt {e : Elem} {tag : String} {i : Nat} (h : e.firstMatch tag = some i) : i < e.elements.length := by
  obtain ⟨_, ⟨c, h2, _⟩, _⟩ := firstMatch_some h
  exact (List.getElem?_eq_some_iff.1 h2).1

theorem swap_length (l : List Elem) (i j : Nat) : (swap l i j).length = l.length := by
  unfold swap; split <;> simp

theorem swap_eq {l : List Elem} {i j : Nat} (hi : i < l.length) (hj : j < l.length) :
    swap l i j = (l.set i l[j]).set j l[i] := by
  unfold swap
  rw [List.getElem?_eq_getElem hi, List.getElem?_eq_getElem hj]

theorem swap_getElem? {l : List Elem} {i j : Nat} (hi : i < l.length) (hj : j < l.length) (k : Nat) :
    (swap l i j)[k]? = if k = i then l[j]? else if k = j then l[i]? else l[k]? := by
  rw [swap_eq hi hj]
  by_cases h1 : k = j
  · subst h1
    by_cases h2 : k = i
    · subst h2; simp [hi]
    · simp [h2, hj, hi]
  · by_cases h2 : k = i
    · subst h2; simp [hi, hj, Ne.symm h1]
    · simp [h1, h2, Ne.symm h1, Ne.symm h2]

theorem swap_self (l : List Elem) (i : Nat) : swap l i i = l := by
  unfold swap
  split
  · rename_i a b h1 h2
    rw [h1] at h2; cases h2
    simp only [List.set_set]
    obtain ⟨h, rfl⟩ := List.getElem?_eq_some_iff.1 h1
    exact List.set_getElem_self h
  · rfl

end Elem
end PXml
