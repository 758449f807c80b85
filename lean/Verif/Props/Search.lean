import Verif.Spec
import Verif.Lemmas.Elem

/-!
# Search modes (C03, C04, C05)
-/

namespace PXml

open Elem

/-! ## C03 strict search -/

/-- C03: in strict mode the next unread child is taken if it has the tag: the reader moves past exactly it. -/
theorem C03_strict_hit (e : Elem) (tag : String) (c : Elem) (rest : List Elem)
    (h : e.unread = c :: rest) (ht : c.tag = tag) :
    e.lookup tag .strict = (some c, { e with next := e.next + 1 }) ∧
      ({ e with next := e.next + 1 } : Elem).unread = rest := by
  have hc : e.elements[e.next]? = some c := by
    have : (e.elements.drop e.next)[0]? = some c := by rw [show e.elements.drop e.next = _ from h]; rfl
    simpa [List.getElem?_drop] using this
  constructor
  · simp [lookup, popElement, search, strictSearch, hc, ht]
  · have : e.elements.drop (e.next + 1) = (e.elements.drop e.next).drop 1 := by simp
    simp only [unread, this]
    rw [show e.elements.drop e.next = _ from h]; rfl

/-- C03: otherwise (the next unread child has another tag, or there is none) nothing is taken and nothing changes. -/
theorem C03_strict_miss (e : Elem) (tag : String) (h : ∀ c rest, e.unread = c :: rest → c.tag ≠ tag) :
    e.lookup tag .strict = (none, e) := by
  have : e.popElement tag .strict = (none, e) := by
    simp only [popElement, search, strictSearch]
    split
    · rename_i c hc
      obtain ⟨hlt, hc⟩ := List.getElem?_eq_some_iff.1 hc
      have hd : e.unread = c :: e.elements.drop (e.next + 1) := by
        rw [unread, List.drop_eq_getElem_cons hlt, hc]
      simp [h c _ hd]
    · rfl
  simp [lookup, this]

/-- The two cases of C03 are met: a document with two children, read by tag. -/
example : let e : Elem := { tag := "r", elements := [{ tag := "a" }, { tag := "b" }] }
    (e.unread = { tag := "a" } :: [{ tag := "b" }]) ∧ (∀ c rest, e.unread = c :: rest → c.tag ≠ "b") := by
  refine ⟨rfl, ?_⟩
  intro c rest h
  simp only [unread, List.drop] at h
  injection h with h1 h2
  subst h1; decide

/-! ## C04 ordered search -/

/-- C04: in ordered mode the first unread child with the tag is taken; the children before it are skipped. -/
theorem C04_ordered_hit (e : Elem) (tag : String) (skipped : List Elem) (c : Elem) (rest : List Elem)
    (h : e.unread = skipped ++ c :: rest) (hs : ∀ s ∈ skipped, s.tag ≠ tag) (ht : c.tag = tag) :
    ∃ e', e.lookup tag .ordered = (some c, e') ∧ e'.elements = e.elements ∧ e'.unread = rest ∧
      e'.next = e.next + skipped.length + 1 := by
  have hc : e.elements[e.next + skipped.length]? = some c := by
    have : (e.elements.drop e.next)[skipped.length]? = some c := by
      rw [show e.elements.drop e.next = _ from h]; simp
    simpa [List.getElem?_drop] using this
  have hm : e.firstMatch tag = some (e.next + skipped.length) := by
    cases hm : e.firstMatch tag with
    | none =>
      exact absurd ht (firstMatch_none hm c (by rw [show e.elements.drop e.next = _ from h]; simp))
    | some i =>
      obtain ⟨h1, ⟨c', h2, h3⟩, h4⟩ := firstMatch_some hm
      by_cases hlt : e.next + skipped.length < i
      · exact absurd ht (h4 _ (by omega) hlt c hc)
      · by_cases hgt : i < e.next + skipped.length
        · have : (e.elements.drop e.next)[i - e.next]? = some c' := by
            rw [List.getElem?_drop]; have : e.next + (i - e.next) = i := by omega
            rwa [this]
          rw [show e.elements.drop e.next = _ from h, List.getElem?_append_left (by omega)] at this
          exact absurd h3 (hs c' (List.mem_of_getElem? this))
        · congr; omega
  refine ⟨{ e with next := e.next + skipped.length + 1 }, ?_, rfl, ?_, rfl⟩
  · simp [lookup, popElement, search, orderedSearch, hm, hc]
  · have : e.elements.drop (e.next + skipped.length + 1) = (e.elements.drop e.next).drop (skipped.length + 1) := by
      simp [Nat.add_assoc]
    simp only [unread, this]
    rw [show e.elements.drop e.next = _ from h]
    simp

/-- C04: if no unread child has the tag nothing is taken and nothing changes. -/
theorem C04_ordered_miss (e : Elem) (tag : String) (h : ∀ c ∈ e.unread, c.tag ≠ tag) :
    e.lookup tag .ordered = (none, e) := by
  have : e.firstMatch tag = none := firstMatch_none_iff.2 h
  simp [lookup, popElement, search, orderedSearch, this]

/-- One ordered or strict lookup moves past an initial segment of the unread children whose last one is the child
taken. -/
theorem lookup_sequential (e : Elem) (tag : String) (mode : Mode) (hm : mode ≠ .unordered) :
    ∃ skipped, e.unread = skipped ++ (e.lookup tag mode).1.toList ++ (e.lookup tag mode).2.unread ∧
      (e.lookup tag mode).2.elements = e.elements ∧
      (∀ c, (e.lookup tag mode).1 = some c → c.tag = tag) := by
  have split : ∀ l : List Elem, (∀ c ∈ l, c.tag ≠ tag) ∨
      ∃ s c r, l = s ++ c :: r ∧ (∀ x ∈ s, x.tag ≠ tag) ∧ c.tag = tag := by
    intro l
    induction l with
    | nil => left; simp
    | cons x l ih =>
      by_cases hx : x.tag = tag
      · right; exact ⟨[], x, l, rfl, by simp, hx⟩
      · rcases ih with ih | ⟨s, c, r, rfl, h1, h2⟩
        · left; intro c hc; rcases List.mem_cons.1 hc with rfl | hc
          · exact hx
          · exact ih c hc
        · right; refine ⟨x :: s, c, r, rfl, ?_, h2⟩
          intro y hy; rcases List.mem_cons.1 hy with rfl | hy
          · exact hx
          · exact h1 y hy
  cases mode with
  | strict =>
    cases hu : e.unread with
    | nil =>
      rw [C03_strict_miss e tag (by simp [hu])]
      exact ⟨[], by simp [hu]⟩
    | cons c rest =>
      by_cases hc : c.tag = tag
      · rw [(C03_strict_hit e tag c rest hu hc).1]
        exact ⟨[], by simp [(C03_strict_hit e tag c rest hu hc).2, hc]⟩
      · rw [C03_strict_miss e tag (by simp only [hu, List.cons.injEq]; rintro _ _ ⟨rfl, _⟩; exact hc)]
        exact ⟨[], by simp [hu]⟩
  | ordered =>
    rcases split e.unread with h | ⟨s, c, r, h1, h2, h3⟩
    · rw [C04_ordered_miss e tag h]; exact ⟨[], by simp⟩
    · obtain ⟨e', h4, h5, h6, _⟩ := C04_ordered_hit e tag s c r h1 h2 h3
      rw [h4]; exact ⟨s, by simp [h1, h6, h5, h3]⟩
  | unordered => exact absurd rfl hm

/-- C04: over any history of strict and ordered lookups the children taken form a subsequence, in document order, of
the children unread at the start, and what is still unread is the remaining suffix; so a skipped child is never
taken later, no child is taken twice, and the list of children itself never changes. -/
theorem C04_history_in_document_order (ls : List (String × Mode)) (hls : ∀ l ∈ ls, l.2 ≠ .unordered) (e : Elem) :
    ∃ passed, e.unread = passed ++ (e.lookups ls).2.unread ∧ (e.lookups ls).1.Sublist passed ∧
      (e.lookups ls).2.elements = e.elements := by
  induction ls generalizing e with
  | nil => exact ⟨[], by simp [lookups]⟩
  | cons l ls ih =>
    obtain ⟨tag, mode⟩ := l
    obtain ⟨sk, h1, h2, _⟩ := lookup_sequential e tag mode (hls (tag, mode) (by simp))
    obtain ⟨ps, h3, h4, h5⟩ := ih (fun l hl => hls l (by simp [hl])) (e.lookup tag mode).2
    refine ⟨sk ++ (e.lookup tag mode).1.toList ++ ps, ?_, ?_, ?_⟩
    · rw [h1, h3]; simp [lookups]
    · simp only [lookups]
      exact ((List.sublist_append_right sk _).append h4)
    · simp only [lookups, h5, h2]

example : let e : Elem := { tag := "r", elements := [{ tag := "x" }, { tag := "a" }, { tag := "b" }] }
    (e.lookups [("a", .ordered), ("x", .ordered), ("b", .strict)]).1.map Elem.tag = ["a", "b"] := by decide

/-! ## C05 unordered search -/

theorem take_swap {l : List Elem} {i j : Nat} (hij : i ≤ j) (hj : j < l.length) :
    (swap l i j).take i = l.take i := by
  apply List.ext_getElem?
  intro k
  simp only [List.getElem?_take]
  split
  · rw [swap_getElem? (by omega) hj]
    have h1 : k ≠ i := by omega
    have h2 : k ≠ j := by omega
    simp [h1, h2]
  · rfl

theorem drop_swap {l : List Elem} {i j : Nat} (hij : i ≤ j) (hj : j < l.length) (c : Elem) (hc : l[j]? = some c) :
    (c :: (swap l i j).drop (i + 1)).Perm (l.drop i) := by
  have hi : i < l.length := by omega
  rcases Nat.eq_or_lt_of_le hij with rfl | hlt
  · rw [swap_self]
    rw [List.drop_eq_getElem_cons hi]
    rw [List.getElem?_eq_getElem hi] at hc
    simp only [Option.some.injEq] at hc; subst hc
    exact List.Perm.refl _
  · -- l.drop i = l[i] :: mid ++ c :: post
    have h1 : l.drop i = l[i] :: l.drop (i + 1) := List.drop_eq_getElem_cons hi
    obtain ⟨mid, post, hmp, hml⟩ : ∃ mid post, l.drop (i + 1) = mid ++ c :: post ∧ mid.length = j - (i + 1) := by
      refine ⟨(l.drop (i+1)).take (j - (i+1)), l.drop (j+1), ?_, ?_⟩
      · conv => lhs; rw [← List.take_append_drop (j - (i+1)) (l.drop (i+1))]
        congr 1
        rw [List.drop_drop]
        have : i + 1 + (j - (i + 1)) = j := by omega
        rw [this, List.drop_eq_getElem_cons hj]
        rw [List.getElem?_eq_getElem hj] at hc
        simp only [Option.some.injEq] at hc; rw [hc]
      · simp; omega
    have h2 : (swap l i j).drop (i + 1) = mid ++ l[i] :: post := by
      rw [swap_eq hi hj]
      rw [List.drop_set]
      rw [if_neg (by omega)]
      rw [List.drop_set_of_lt (by omega)]
      rw [hmp, ← hml]
      simp
    rw [h2, h1, hmp]
    refine (List.Perm.cons c List.perm_middle).trans ?_
    refine (List.Perm.swap _ _ _).trans ?_
    exact List.Perm.cons _ List.perm_middle.symm

/-- C05: in unordered mode a lookup succeeds exactly when some unread child has the tag. -/
theorem C05_unordered_succeeds_iff (e : Elem) (tag : String) :
    (e.lookup tag .unordered).1.isSome = true ↔ ∃ c ∈ e.unread, c.tag = tag := by
  cases hm : e.firstMatch tag with
  | none =>
    have h := firstMatch_none hm
    simp only [lookup, popElement, search, unorderedSearch, hm, unread]
    simp only [Option.isSome_none, Bool.false_eq_true, false_iff, not_exists, not_and]
    exact h
  | some i =>
    obtain ⟨h1, ⟨c, h2, h3⟩, _⟩ := firstMatch_some hm
    have hi := firstMatch_lt hm
    have hsw := swap_getElem? (l := e.elements) (i := e.next) (j := i) (by omega) hi e.next
    simp only [if_true] at hsw
    constructor
    · intro _
      refine ⟨c, ?_, h3⟩
      rw [unread, List.mem_iff_getElem?]
      exact ⟨i - e.next, by rw [List.getElem?_drop]; have : e.next + (i - e.next) = i := by omega
                            rwa [this]⟩
    · intro _
      simp [lookup, popElement, search, unorderedSearch, hm, hsw, h2]

/-- C05: a failed lookup changes nothing. -/
theorem C05_unordered_miss (e : Elem) (tag : String) (h : (e.lookup tag .unordered).1 = none) :
    (e.lookup tag .unordered).2 = e := by
  cases hm : e.firstMatch tag with
  | none => simp [lookup, popElement, search, unorderedSearch, hm]
  | some i =>
    have hi := firstMatch_lt hm
    obtain ⟨h1, ⟨c, h2, h3⟩, _⟩ := firstMatch_some hm
    have hsw := swap_getElem? (l := e.elements) (i := e.next) (j := i) (by omega) hi e.next
    simp [lookup, popElement, search, unorderedSearch, hm, hsw, h2] at h

/-- C05: a successful lookup takes the first unread child with the tag; no child is lost or duplicated: the children
passed are the old ones plus the child taken, and the unread ones are the old ones without it. -/
theorem C05_unordered_hit (e : Elem) (tag : String) (c : Elem) (h : (e.lookup tag .unordered).1 = some c) :
    c.tag = tag ∧ e.unread.find? (fun x => x.tag = tag) = some c ∧
      (e.lookup tag .unordered).2.seen = e.seen ++ [c] ∧
      (c :: (e.lookup tag .unordered).2.unread).Perm e.unread := by
  cases hm : e.firstMatch tag with
  | none => simp [lookup, popElement, search, unorderedSearch, hm] at h
  | some i =>
    have hi := firstMatch_lt hm
    obtain ⟨h1, ⟨c', h2, h3⟩, h4⟩ := firstMatch_some hm
    have hn : e.next < e.elements.length := by omega
    have hsw := swap_getElem? (l := e.elements) (i := e.next) (j := i) hn hi e.next
    simp only [if_true] at hsw
    simp only [lookup, popElement, search, unorderedSearch, hm, hsw, h2, Option.some.injEq, if_true] at h ⊢
    subst h
    refine ⟨h3, ?_, ?_, ?_⟩
    · rw [List.find?_eq_some_iff_append]
      refine ⟨by simp [h3], (e.unread).take (i - e.next), (e.unread).drop (i - e.next + 1), ?_, ?_⟩
      · have hlt : i - e.next < e.unread.length := by simp [unread]; omega
        have : e.unread[i - e.next] = c' := by
          have hh : e.next + (i - e.next) = i := by omega
          have : e.unread[i - e.next]? = some c' := by rw [unread, List.getElem?_drop, hh, h2]
          rw [List.getElem?_eq_getElem hlt] at this
          simpa using this
        conv => lhs; rw [← List.take_append_drop (i - e.next) e.unread]
        rw [List.drop_eq_getElem_cons hlt, this]
      · intro x hx
        obtain ⟨j, hj⟩ := List.mem_iff_getElem?.1 hx
        rw [List.getElem?_take] at hj
        split at hj
        · rename_i hjlt
          rw [unread, List.getElem?_drop] at hj
          have := h4 (e.next + j) (by omega) (by omega) x hj
          simp [this]
        · simp at hj
    · simp only [seen]
      rw [List.take_add_one, take_swap h1 hi, hsw, h2]
      rfl
    · exact drop_swap h1 hi c' h2

/-- C05: over any history of lookups, in any mixture of modes, no child is taken twice and none disappears except
those skipped by ordered lookups: what was unread is, up to order, what was taken, what was skipped and what still
is unread. -/
theorem C05_history_conserves (ls : List (String × Mode)) (e : Elem) :
    ∃ skipped, e.unread.Perm ((e.lookups ls).1 ++ skipped ++ (e.lookups ls).2.unread) ∧
      ((∀ l ∈ ls, l.2 = .unordered) → skipped = []) := by
  induction ls generalizing e with
  | nil => exact ⟨[], by simp [lookups]⟩
  | cons l ls ih =>
    obtain ⟨tag, mode⟩ := l
    have step : ∃ sk, e.unread.Perm ((e.lookup tag mode).1.toList ++ sk ++ (e.lookup tag mode).2.unread) ∧
        (mode = .unordered → sk = []) := by
      by_cases hm : mode = .unordered
      · subst hm
        refine ⟨[], ?_, fun _ => rfl⟩
        cases hl : (e.lookup tag .unordered).1 with
        | none => rw [C05_unordered_miss e tag hl]; simp
        | some c => simpa using (C05_unordered_hit e tag c hl).2.2.2.symm
      · obtain ⟨sk, h1, _⟩ := lookup_sequential e tag mode hm
        refine ⟨sk, ?_, fun h => absurd h hm⟩
        rw [h1]
        exact (List.perm_append_comm).append_right _
    obtain ⟨sk, h1, h1'⟩ := step
    obtain ⟨sk2, h2, h2'⟩ := ih (e.lookup tag mode).2
    refine ⟨sk ++ sk2, ?_, ?_⟩
    · refine h1.trans ?_
      refine (h2.append_left _).trans ?_
      simp only [lookups, List.append_assoc]
      refine List.Perm.append_left _ ?_
      rw [← List.append_assoc, ← List.append_assoc (lookups ls (e.lookup tag mode).2).1]
      exact List.perm_append_comm.append_right _
    · intro h
      rw [h1' (h (tag, mode) (by simp)), h2' (fun l hl => h l (by simp [hl]))]; rfl

/-- A history for C05: three unordered lookups find children in any order. -/
example : let e : Elem := { tag := "r", elements := [{ tag := "a" }, { tag := "b" }, { tag := "c" }] }
    (e.lookups [("c", .unordered), ("a", .unordered), ("b", .unordered)]).1.map Elem.tag = ["c", "a", "b"] := by decide

/-- C03, C04, C05: a lookup made on behalf of a wrapped field first reconsiders the child taken last: if it has the
tag it is used again and nothing changes; otherwise the lookup is the one of the search mode. -/
theorem C03_C04_C05_look_behind (e : Elem) (tag : String) (mode : Mode) (hn : e.next ≤ e.elements.length) :
    (∀ c, e.seen.getLast? = some c → c.tag = tag →
        e.findElement tag mode = .ok (some (e.next - 1), e) ∧ e.elements[e.next - 1]? = some c) ∧
    ((∀ c, e.seen.getLast? = some c → c.tag ≠ tag) → e.findElement tag mode = .ok (e.popElement tag mode)) := by
  by_cases h0 : e.next = 0
  · have hr : e.seen = [] := by simp [seen, h0]
    simp [hr, findElement, lookBehind, h0, popElement, bind, Except.bind]
  · have hlt : e.next - 1 < e.elements.length := by omega
    have hlast : e.seen.getLast? = some e.elements[e.next - 1] := by
      have hlen : e.seen.length = e.next := by simp [seen]; omega
      rw [List.getLast?_eq_getElem?, hlen, seen, List.getElem?_take, if_pos (by omega), List.getElem?_eq_getElem hlt]
    rw [hlast]
    simp only [Option.some.injEq, forall_eq']
    constructor
    · intro ht
      simp [findElement, lookBehind, h0, List.getElem?_eq_getElem hlt, ht, bind, Except.bind]
    · intro ht
      simp [findElement, lookBehind, h0, List.getElem?_eq_getElem hlt, ht, popElement, bind, Except.bind]

end PXml
