import Verif.Lemmas.SimEq
import Verif.Lemmas.SimUnordered
import Verif.SpecFieldOrder

/-! Unordered reading of elements that agree on a part only. -/

namespace PXml

open Elem

/-- A part of an element: its text, some of its attributes, its children with some of the tags. -/
structure View where
  text : Prop
  attr : String → Prop
  tag : String → Prop

/-- What a field takes. -/
def Ser.view (env : Env) (s : Ser) : View := ⟨s.Takes env .text, fun k => s.Takes env (.attr k), s.GoesTo env⟩

namespace Elem

/-- The elements of a list with the tag. -/
abbrev ofTag (t : String) (l : List Elem) : List Elem := l.filter fun c => c.tag = t

/-- The entries of a dictionary with the key. -/
abbrev entries (k : String) (d : Dict String String) : Dict String String := d.filter fun kv => kv.1 = k

theorem entries_erase (j k : String) (d : Dict String String) :
    entries j (d.erase k) = if j = k then (entries j d).tail else entries j d := by
  induction d with
  | nil => split <;> rfl
  | cons kv d ih =>
    obtain ⟨a, b⟩ := kv
    by_cases h : a = k
    · subst h
      simp only [Dict.erase, if_true]
      by_cases hj : j = a
      · simp [entries, hj]
      · simp [entries, hj, Ne.symm hj]
    · simp only [Dict.erase, h, if_false]
      by_cases hj : j = k
      · simp only [hj, if_true] at ih ⊢
        simp only [entries, List.filter_cons, h, decide_false, Bool.false_eq_true, if_false]
        exact ih
      · simp only [hj, if_false] at ih ⊢
        simp only [entries, List.filter_cons]
        simp only [entries] at ih
        rw [ih]

theorem getAttrib_entries (e : Elem) (k : String) : e.getAttrib k = (entries k (e.attrib.getD [])).head?.map Prod.snd := by
  unfold getAttrib
  induction e.attrib.getD [] with
  | nil => rfl
  | cons kv d ih =>
    obtain ⟨a, b⟩ := kv
    by_cases h : a = k
    · simp [Dict.get?, entries, h]
    · simp only [Dict.get?, h, if_false, entries, List.filter_cons, decide_false, Bool.false_eq_true]
      exact ih

/-- The elements agree on the part. -/
structure SameIn (X : View) (e1 e2 : Elem) : Prop where
  text : X.text → e1.text = e2.text
  attr : ∀ k, X.attr k → entries k (e1.attrib.getD []) = entries k (e2.attrib.getD [])
  attrs : (∀ k, X.attr k) → e1.attrib = e2.attrib
  kids : ∀ t, X.tag t → ofTag t e1.unread = ofTag t e2.unread
  once : ∀ t, X.tag t → (ofTag t e1.unread).length ≤ 1
  last : ∀ c, X.tag c.tag → (e1.lastSeen = some c ↔ e2.lastSeen = some c)
  fit1 : e1.next ≤ e1.elements.length
  fit2 : e2.next ≤ e2.elements.length

/-- The child passed last does not belong to the part. -/
def Quiet (X : View) (e : Elem) : Prop := ∀ c, e.lastSeen = some c → ¬ X.tag c.tag

variable {X : View} {e1 e2 e3 e : Elem}

theorem SameIn.trans (h : SameIn X e1 e2) (h' : SameIn X e2 e3) : SameIn X e1 e3 where
  text x := (h.text x).trans (h'.text x)
  attr k x := (h.attr k x).trans (h'.attr k x)
  attrs x := (h.attrs x).trans (h'.attrs x)
  kids t x := (h.kids t x).trans (h'.kids t x)
  once := h.once
  last c x := (h.last c x).trans (h'.last c x)
  fit1 := h.fit1
  fit2 := h'.fit2

theorem SameIn.once2 (h : SameIn X e1 e2) (t : String) (x : X.tag t) : (ofTag t e2.unread).length ≤ 1 := h.kids t x ▸ h.once t x

theorem ofTag_perm {l l' : List Elem} (h : l.Perm l') (t : String) (hl : (ofTag t l).length ≤ 1) : ofTag t l = ofTag t l' := by
  have hp : (ofTag t l).Perm (ofTag t l') := h.filter _
  generalize ofTag t l = a at hp hl
  generalize ofTag t l' = b at hp
  match a, hl with
  | [], _ => exact (hp.nil_eq).symm ▸ rfl
  | [x], _ => exact (List.singleton_perm.1 hp).symm ▸ rfl

/-- A search that finds nothing. -/
theorem unordered_none {t : String} {step : Bool} {e' : Elem} (h : e.search t .unordered step = (none, e')) :
    e' = e ∧ ∀ c ∈ e.unread, c.tag ≠ t := by
  simp only [search, unorderedSearch] at h
  cases hm : e.firstMatch t with
  | some i => rw [hm] at h; simp at h
  | none =>
    rw [hm] at h
    simp only [Prod.mk.injEq, true_and] at h
    exact ⟨h.symm, firstMatch_none hm⟩

/-- A search that finds a child. -/
theorem unordered_some (hf : e.next ≤ e.elements.length) {t : String} {step : Bool} {i : Nat} {e' : Elem}
    (h : e.search t .unordered step = (some i, e')) :
    ∃ c rest, c.tag = t ∧ e.unread.Perm (c :: rest) ∧ i = e.next ∧
      e' = { e with elements := e.seen ++ c :: rest, next := if step then e.next + 1 else e.next } := by
  simp only [search, unorderedSearch] at h
  cases hm : e.firstMatch t with
  | none => rw [hm] at h; simp at h
  | some j =>
    rw [hm] at h
    simp only [Prod.mk.injEq, Option.some.injEq] at h
    obtain ⟨pre, c, post, h1, h2, h3, h4⟩ := firstMatch_split hm
    have h5 : e.elements = e.seen ++ (pre ++ c :: post) := by rw [← h1]; exact (List.take_append_drop _ _).symm
    have h6 : e.seen.length = e.next := by simp only [seen, List.length_take]; omega
    obtain ⟨rest, h7, h8⟩ := swap_append e.seen pre c post
    refine ⟨c, rest, h3, ?_, h.1.symm, ?_⟩
    · rw [h1]
      exact List.perm_middle.trans (h8.symm.cons c)
    · rw [← h.2, h2, show e.next = e.seen.length from h6.symm, h5, h7]

/-- After a step over the found child, which may be changed. -/
theorem passed_child (hf : e.next ≤ e.elements.length) (c c' : Elem) (rest : List Elem) :
    let e' : Elem := { e with elements := e.seen ++ c :: rest, next := e.next + 1 }
    e'.elements[e.next]? = some c ∧ (e'.setChild e.next c').unread = rest ∧ (e'.setChild e.next c').lastSeen = some c' ∧
      (e'.setChild e.next c').next ≤ (e'.setChild e.next c').elements.length := by
  have h6 : e.seen.length = e.next := by simp only [seen, List.length_take]; omega
  have hset : (e.seen ++ c :: rest).set e.next c' = e.seen ++ c' :: rest := by
    rw [List.set_append_right _ _ (by omega), h6, Nat.sub_self]; rfl
  refine ⟨?_, ?_, ?_, ?_⟩
  · show (e.seen ++ c :: rest)[e.next]? = some c
    rw [List.getElem?_append_right (by omega), h6, Nat.sub_self]; rfl
  · simp only [setChild, unread, hset]
    rw [List.drop_append, List.drop_of_length_le (by omega), h6]
    simp
  · simp only [setChild, lastSeen, hset, Nat.add_one_ne_zero, if_false, Nat.add_sub_cancel]
    rw [List.getElem?_append_right (by omega), h6, Nat.sub_self]; rfl
  · simp only [setChild, hset, List.length_append, List.length_cons, h6]; omega

/-- After bringing the found child forward without a step. -/
theorem brought_child (hf : e.next ≤ e.elements.length) (c : Elem) (rest : List Elem) :
    let e' : Elem := { e with elements := e.seen ++ c :: rest, next := e.next }
    e'.elements[e.next]? = some c ∧ e'.unread = c :: rest ∧ e'.lastSeen = e.lastSeen ∧ e'.next ≤ e'.elements.length := by
  have h6 : e.seen.length = e.next := by simp only [seen, List.length_take]; omega
  refine ⟨?_, ?_, ?_, ?_⟩
  · show (e.seen ++ c :: rest)[e.next]? = some c
    rw [List.getElem?_append_right (by omega), h6, Nat.sub_self]; rfl
  · simp only [unread]
    rw [List.drop_append, List.drop_of_length_le (by omega), h6]
    simp
  · simp only [lastSeen]
    split
    · rfl
    · rw [List.getElem?_append_left (by omega)]
      simp only [seen, List.getElem?_take]
      rw [if_pos (by omega)]
  · simp only [List.length_append, List.length_cons, h6]; omega

/-- Changing the child passed last. -/
theorem setLast {c : Elem} (h : e.lastSeen = some c) (c' : Elem) :
    e.elements[e.next - 1]? = some c ∧ (e.setChild (e.next - 1) c').unread = e.unread ∧
      (e.setChild (e.next - 1) c').lastSeen = some c' ∧
      (e.setChild (e.next - 1) c').elements.length = e.elements.length := by
  unfold lastSeen at h
  split at h
  · cases h
  · rename_i h0
    have hl := (List.getElem?_eq_some_iff.1 h).1
    refine ⟨h, ?_, ?_, by simp [setChild]⟩
    · simp only [setChild, unread]
      rw [List.drop_set]
      rw [if_pos (by omega)]
    · simp only [setChild, lastSeen, h0, if_false]
      rw [List.getElem?_set_self (by omega)]

theorem ofTag_cons_ne {t : String} {c : Elem} (h : c.tag ≠ t) (l : List Elem) : ofTag t (c :: l) = ofTag t l := by
  simp [ofTag, h]

theorem ofTag_cons_eq {t : String} {c : Elem} (h : c.tag = t) (l : List Elem) : ofTag t (c :: l) = c :: ofTag t l := by
  simp [ofTag, h]

/-- What a search for an element of the part finds, if there is at most one such element. -/
theorem ofTag_found {t : String} {c : Elem} {rest : List Elem} (hc : c.tag = t) (hp : e.unread.Perm (c :: rest))
    (h1 : (ofTag t e.unread).length ≤ 1) : ofTag t e.unread = [c] ∧ ofTag t rest = [] := by
  have := ofTag_perm hp t h1
  rw [ofTag_cons_eq hc] at this
  rw [this] at h1 ⊢
  simp only [List.length_cons] at h1
  have h0 : ofTag t rest = [] := List.length_eq_zero_iff.1 (by omega)
  exact ⟨by rw [h0], h0⟩

/-- Both searches miss, or both find the same child. -/
theorem SameIn.search (h : SameIn X e1 e2) {t : String} (ht : X.tag t) (step : Bool) :
    (∃ e1' e2', e1.search t .unordered step = (none, e1') ∧ e2.search t .unordered step = (none, e2') ∧ SameIn X e1' e2') ∨
    ∃ i1 e1' i2 e2' c, e1.search t .unordered step = (some i1, e1') ∧ e2.search t .unordered step = (some i2, e2') ∧
      e1'.elements[i1]? = some c ∧ e2'.elements[i2]? = some c ∧ c.tag = t ∧
      (step = true → ∀ c', c'.tag = t → SameIn X (e1'.setChild i1 c') (e2'.setChild i2 c')) ∧
      (step = false → SameIn X e1' e2') := by
  have hk := h.kids t ht
  have miss : ∀ {e e' : Elem} {i : Nat}, e.next ≤ e.elements.length → e.search t .unordered step = (some i, e') →
      ofTag t e.unread ≠ [] := by
    intro e e' i hf hs h0
    obtain ⟨c, rest, hc, hp, _⟩ := unordered_some hf hs
    have : c ∈ ofTag t e.unread := List.mem_filter.2 ⟨hp.symm.subset List.mem_cons_self, by simp [hc]⟩
    rw [h0] at this
    cases this
  have none0 : ∀ {e e' : Elem}, e.search t .unordered step = (none, e') → ofTag t e.unread = [] := by
    intro e e' hs
    refine List.filter_eq_nil_iff.2 fun c hc => ?_
    simpa using (unordered_none hs).2 c hc
  cases hs1 : e1.search t .unordered step with
  | mk o1 e1' =>
    cases hs2 : e2.search t .unordered step with
    | mk o2 e2' =>
      cases o1 with
      | none =>
        cases o2 with
        | some i2 => exact absurd (hk ▸ none0 hs1) (miss h.fit2 hs2)
        | none =>
          refine .inl ⟨e1', e2', rfl, rfl, ?_⟩
          rw [(unordered_none hs1).1, (unordered_none hs2).1]
          exact h
      | some i1 =>
        cases o2 with
        | none => exact absurd (hk.trans (none0 hs2)) (miss h.fit1 hs1)
        | some i2 =>
          obtain ⟨c1, rest1, hc1, hp1, rfl, rfl⟩ := unordered_some h.fit1 hs1
          obtain ⟨c2, rest2, hc2, hp2, rfl, rfl⟩ := unordered_some h.fit2 hs2
          obtain ⟨f1, g1⟩ := ofTag_found hc1 hp1 (h.once t ht)
          obtain ⟨f2, g2⟩ := ofTag_found hc2 hp2 (h.once2 t ht)
          have hcc : c1 = c2 := by
            rw [f1, f2] at hk
            exact (List.cons.inj hk).1
          subst hcc
          have hrest : ∀ u, X.tag u → ofTag u rest1 = ofTag u rest2 ∧ (ofTag u rest1).length ≤ 1 := by
            intro u hu
            by_cases hut : c1.tag = u
            · have : t = u := hc1.symm.trans hut
              subst this
              rw [g1, g2]
              exact ⟨rfl, by simp⟩
            · have a1 := ofTag_perm hp1 u (h.once u hu)
              have a2 := ofTag_perm hp2 u (h.once2 u hu)
              rw [ofTag_cons_ne hut] at a1 a2
              rw [← a1, ← a2]
              exact ⟨h.kids u hu, h.once u hu⟩
          refine .inr ⟨_, _, _, _, c1, rfl, rfl, ?_, ?_, hc1, ?_, ?_⟩
          · cases step
            · exact (brought_child h.fit1 c1 rest1).1
            · exact (passed_child h.fit1 c1 c1 rest1).1
          · cases step
            · exact (brought_child h.fit2 c1 rest2).1
            · exact (passed_child h.fit2 c1 c1 rest2).1
          · rintro rfl c' hc'
            obtain ⟨_, u1, l1, n1⟩ := passed_child h.fit1 c1 c' rest1
            obtain ⟨_, u2, l2, n2⟩ := passed_child h.fit2 c1 c' rest2
            refine ⟨h.text, h.attr, h.attrs, ?_, ?_, ?_, n1, n2⟩
            · intro u hu
              simp only [if_true]
              rw [u1, u2]
              exact (hrest u hu).1
            · intro u hu
              simp only [if_true]
              rw [u1]
              exact (hrest u hu).2
            · intro c hc
              simp only [if_true]
              rw [l1, l2]
          · rintro rfl
            obtain ⟨_, u1, l1, n1⟩ := brought_child h.fit1 c1 rest1
            obtain ⟨_, u2, l2, n2⟩ := brought_child h.fit2 c1 rest2
            refine ⟨h.text, h.attr, h.attrs, ?_, ?_, ?_, n1, n2⟩
            · intro u hu
              simp only [Bool.false_eq_true, if_false]
              rw [u1, u2]
              rw [← ofTag_perm hp1 u (h.once u hu), ← ofTag_perm hp2 u (h.once2 u hu)]
              exact h.kids u hu
            · intro u hu
              simp only [Bool.false_eq_true, if_false]
              rw [u1, ← ofTag_perm hp1 u (h.once u hu)]
              exact h.once u hu
            · intro c hc
              simp only [Bool.false_eq_true, if_false]
              rw [l1, l2]
              exact h.last c hc

theorem lookBehind_fit (hf : e.next ≤ e.elements.length) (t : String) :
    e.lookBehind t = .ok (match e.lastSeen with | some c => decide (c.tag = t) | none => false) := by
  unfold lookBehind lastSeen
  split
  · rfl
  · rw [List.getElem?_eq_getElem (by omega)]

/-- The same for wrappers. -/
theorem SameIn.find (h : SameIn X e1 e2) {t : String} (ht : X.tag t) :
    (∃ e1' e2', e1.findElement t .unordered = .ok (none, e1') ∧ e2.findElement t .unordered = .ok (none, e2') ∧ SameIn X e1' e2') ∨
    ∃ i1 e1' i2 e2' c, e1.findElement t .unordered = .ok (some i1, e1') ∧ e2.findElement t .unordered = .ok (some i2, e2') ∧
      e1'.elements[i1]? = some c ∧ e2'.elements[i2]? = some c ∧ c.tag = t ∧
      ∀ c', c'.tag = t → SameIn X (e1'.setChild i1 c') (e2'.setChild i2 c') := by
  by_cases hl : ∃ c, e1.lastSeen = some c ∧ c.tag = t
  · obtain ⟨c, hc, rfl⟩ := hl
    have hc2 := (h.last c ht).1 hc
    refine .inr ⟨e1.next - 1, e1, e2.next - 1, e2, c, ?_, ?_, (setLast hc c).1, (setLast hc2 c).1, rfl, ?_⟩
    · simp [findElement, lookBehind_fit h.fit1, hc, bind, Except.bind]
    · simp [findElement, lookBehind_fit h.fit2, hc2, bind, Except.bind]
    · intro c' hc'
      obtain ⟨_, u1, l1, n1⟩ := setLast hc c'
      obtain ⟨_, u2, l2, n2⟩ := setLast hc2 c'
      refine ⟨h.text, h.attr, h.attrs, ?_, ?_, ?_, ?_, ?_⟩
      · intro u hu; rw [u1, u2]; exact h.kids u hu
      · intro u hu; rw [u1]; exact h.once u hu
      · intro x hx; rw [l1, l2]
      · rw [n1]; exact h.fit1
      · rw [n2]; exact h.fit2
  · have hb : ∀ {e : Elem}, e.next ≤ e.elements.length → (¬ ∃ c, e.lastSeen = some c ∧ c.tag = t) →
        e.findElement t .unordered = .ok (e.search t .unordered true) := by
      intro e hf hn
      have : e.lookBehind t = .ok false := by
        rw [lookBehind_fit hf]
        cases hls : e.lastSeen with
        | none => rfl
        | some c =>
          have : c.tag ≠ t := fun hct => hn ⟨c, hls, hct⟩
          simp [this]
      simp [findElement, this, bind, Except.bind]
    have hl2 : ¬ ∃ c, e2.lastSeen = some c ∧ c.tag = t := by
      rintro ⟨c, hc, rfl⟩
      exact hl ⟨c, (h.last c ht).2 hc, rfl⟩
    rw [hb h.fit1 hl, hb h.fit2 hl2]
    rcases h.search ht true with ⟨e1', e2', a, b, s⟩ | ⟨i1, e1', i2, e2', c, a, b, c1, c2, hc, s, _⟩
    · exact .inl ⟨e1', e2', by rw [a], by rw [b], s⟩
    · exact .inr ⟨i1, e1', i2, e2', c, by rw [a], by rw [b], c1, c2, hc, s rfl⟩

theorem SameIn.popText (h : SameIn X e1 e2) : SameIn X e1.popText.2 e2.popText.2 :=
  ⟨fun _ => rfl, h.attr, h.attrs, h.kids, h.once, h.last, h.fit1, h.fit2⟩

theorem SameIn.popAttrib (h : SameIn X e1 e2) (k : String) : SameIn X (e1.popAttrib k).2 (e2.popAttrib k).2 := by
  have key : ∀ e : Elem, ∀ j, entries j ((e.popAttrib k).2.attrib.getD []) =
      if j = k then (entries j (e.attrib.getD [])).tail else entries j (e.attrib.getD []) := by
    intro e j
    unfold Elem.popAttrib
    split
    · simp only [Option.getD_some, entries_erase]
    · rename_i ht
      have : e.attrib.getD [] = [] := by
        cases ha : e.attrib with
        | none => rfl
        | some d => cases d with
          | nil => rfl
          | cons _ _ => rw [ha] at ht; simp [truthyMap] at ht
      rw [this]
      split <;> rfl
  have k1 : ∀ e : Elem, (e.popAttrib k).2.text = e.text ∧ (e.popAttrib k).2.elements = e.elements ∧ (e.popAttrib k).2.next = e.next := by
    intro e
    unfold Elem.popAttrib
    split <;> exact ⟨rfl, rfl, rfl⟩
  obtain ⟨a1, b1, c1⟩ := k1 e1
  obtain ⟨a2, b2, c2⟩ := k1 e2
  refine ⟨?_, ?_, ?_, ?_, ?_, ?_, ?_, ?_⟩
  · rw [a1, a2]; exact h.text
  · intro j hj
    rw [key, key, h.attr j hj]
  · intro ha
    unfold Elem.popAttrib
    rw [h.attrs ha]
    split
    · rfl
    · exact h.attrs ha
  · simp only [unread, b1, c1, b2, c2]; exact h.kids
  · simp only [unread, b1, c1]; exact h.once
  · simp only [lastSeen, b1, c1, b2, c2]; exact h.last
  · rw [b1, c1]; exact h.fit1
  · rw [b2, c2]; exact h.fit2

theorem SameIn.popAttributes (h : SameIn X e1 e2) : SameIn X e1.popAttributes.2 e2.popAttributes.2 :=
  ⟨h.text, fun _ _ => rfl, fun _ => rfl, h.kids, h.once, h.last, h.fit1, h.fit2⟩

/-- Nothing in the part has changed. -/
structure Kept (X : View) (e0 e : Elem) : Prop where
  same : SameIn X e0 e
  quiet : Quiet X e

variable {e0 : Elem}

theorem Kept.search (h : Kept X e0 e) {t : String} (ht : ¬ X.tag t) (step : Bool) :
    (∃ e', e.search t .unordered step = (none, e') ∧ Kept X e0 e') ∨
    ∃ i e' c, e.search t .unordered step = (some i, e') ∧ e'.elements[i]? = some c ∧ c.tag = t ∧
      (step = true → ∀ c', c'.tag = t → Kept X e0 (e'.setChild i c')) ∧ (step = false → Kept X e0 e') := by
  cases hs : e.search t .unordered step with
  | mk o e' =>
    cases o with
    | none => exact .inl ⟨e', rfl, (unordered_none hs).1 ▸ h⟩
    | some i =>
      have hfit := h.same.fit2
      obtain ⟨c, rest, hc, hp, rfl, rfl⟩ := unordered_some hfit hs
      have hne : ∀ u, X.tag u → c.tag ≠ u := fun u hu hcu => ht (by rw [← hc, hcu]; exact hu)
      have hk : ∀ u, X.tag u → ofTag u e0.unread = ofTag u rest := by
        intro u hu
        rw [h.same.kids u hu, ofTag_perm hp u (h.same.once2 u hu), ofTag_cons_ne (hne u hu)]
      refine .inr ⟨_, _, c, rfl, ?_, hc, ?_, ?_⟩
      · cases step
        · exact (brought_child hfit c rest).1
        · exact (passed_child hfit c c rest).1
      · rintro rfl c' hc'
        obtain ⟨_, u1, l1, n1⟩ := passed_child hfit c c' rest
        have hq : ¬ X.tag c'.tag := hc' ▸ ht
        refine ⟨⟨h.same.text, h.same.attr, h.same.attrs, ?_, h.same.once, ?_, h.same.fit1, n1⟩, ?_⟩
        · intro u hu
          simp only [if_true]
          rw [u1]
          exact hk u hu
        · intro x hx
          simp only [if_true]
          rw [l1]
          constructor
          · intro hl
            exact absurd hx (h.quiet x ((h.same.last x hx).1 hl))
          · intro hl
            cases hl
            exact absurd hx hq
        · intro x hx
          simp only [if_true] at hx
          rw [l1] at hx
          cases hx
          exact hq
      · rintro rfl
        obtain ⟨_, u1, l1, n1⟩ := brought_child hfit c rest
        refine ⟨⟨h.same.text, h.same.attr, h.same.attrs, ?_, h.same.once, ?_, h.same.fit1, n1⟩, ?_⟩
        · intro u hu
          simp only [Bool.false_eq_true, if_false]
          rw [u1, ofTag_cons_ne (hne u hu)]
          exact hk u hu
        · intro x hx
          simp only [Bool.false_eq_true, if_false]
          rw [l1]
          exact h.same.last x hx
        · intro x hx
          simp only [Bool.false_eq_true, if_false] at hx
          rw [l1] at hx
          exact h.quiet x hx

theorem Kept.find (h : Kept X e0 e) {t : String} (ht : ¬ X.tag t) :
    (∃ e', e.findElement t .unordered = .ok (none, e') ∧ Kept X e0 e') ∨
    ∃ i e' c, e.findElement t .unordered = .ok (some i, e') ∧ e'.elements[i]? = some c ∧ c.tag = t ∧
      ∀ c', c'.tag = t → Kept X e0 (e'.setChild i c') := by
  by_cases hl : ∃ c, e.lastSeen = some c ∧ c.tag = t
  · obtain ⟨c, hc, rfl⟩ := hl
    refine .inr ⟨e.next - 1, e, c, ?_, (setLast hc c).1, rfl, ?_⟩
    · simp [findElement, lookBehind_fit h.same.fit2, hc, bind, Except.bind]
    · intro c' hc'
      obtain ⟨_, u1, l1, n1⟩ := setLast hc c'
      have hq : ¬ X.tag c'.tag := hc' ▸ ht
      refine ⟨⟨h.same.text, h.same.attr, h.same.attrs, ?_, h.same.once, ?_, h.same.fit1, ?_⟩, ?_⟩
      · intro u hu; rw [u1]; exact h.same.kids u hu
      · intro x hx
        rw [l1]
        constructor
        · intro hl
          exact absurd hx (h.quiet x ((h.same.last x hx).1 hl))
        · intro hl
          cases hl
          exact absurd hx hq
      · rw [n1]; exact h.same.fit2
      · intro x hx
        rw [l1] at hx
        cases hx
        exact hq
  · have : e.lookBehind t = .ok false := by
      rw [lookBehind_fit h.same.fit2]
      cases hls : e.lastSeen with
      | none => rfl
      | some c =>
        have : c.tag ≠ t := fun hct => hl ⟨c, hls, hct⟩
        simp [this]
    have hb : e.findElement t .unordered = .ok (e.search t .unordered true) := by simp [findElement, this, bind, Except.bind]
    rw [hb]
    rcases h.search ht true with ⟨e', a, s⟩ | ⟨i, e', c, a, c1, hc, s, _⟩
    · exact .inl ⟨e', by rw [a], s⟩
    · exact .inr ⟨i, e', c, by rw [a], c1, hc, s rfl⟩

theorem Kept.popText (h : Kept X e0 e) (hx : ¬ X.text) : Kept X e0 e.popText.2 :=
  ⟨⟨fun x => absurd x hx, h.same.attr, h.same.attrs, h.same.kids, h.same.once, h.same.last, h.same.fit1, h.same.fit2⟩, h.quiet⟩

theorem Kept.popAttrib (h : Kept X e0 e) {k : String} (hk : ¬ X.attr k) : Kept X e0 (e.popAttrib k).2 := by
  have k1 : ∀ e : Elem, (e.popAttrib k).2.text = e.text ∧ (e.popAttrib k).2.elements = e.elements ∧ (e.popAttrib k).2.next = e.next := by
    intro e
    unfold Elem.popAttrib
    split <;> exact ⟨rfl, rfl, rfl⟩
  obtain ⟨a1, b1, c1⟩ := k1 e
  refine ⟨⟨?_, ?_, fun ha => absurd (ha k) hk, ?_, h.same.once, ?_, h.same.fit1, ?_⟩, ?_⟩
  · rw [a1]; exact h.same.text
  · intro j hj
    rw [h.same.attr j hj]
    unfold Elem.popAttrib
    split
    · simp only [Option.getD_some, entries_erase]
      rw [if_neg]
      rintro rfl
      exact hk hj
    · rfl
  · simp only [unread, b1, c1]; exact h.same.kids
  · simp only [lastSeen, b1, c1]; exact h.same.last
  · rw [b1, c1]; exact h.same.fit2
  · intro x hx
    simp only [lastSeen, b1, c1] at hx
    exact h.quiet x hx

theorem Kept.popAttributes (h : Kept X e0 e) (hk : ∀ k, ¬ X.attr k) : Kept X e0 e.popAttributes.2 :=
  ⟨⟨h.same.text, fun j hj => absurd hj (hk j), fun ha => absurd (ha "") (hk ""), h.same.kids, h.same.once, h.same.last, h.same.fit1,
    h.same.fit2⟩, h.quiet⟩

end Elem

/-- The field takes nothing of the part. -/
structure Ser.Spares (env : Env) (X : View) (s : Ser) : Prop where
  text : s.Takes env .text → ¬ X.text
  attr : ∀ k, s.Takes env (.attr k) → ¬ X.attr k
  tag : ∀ t, s.GoesTo env t → ¬ X.tag t

theorem Ser.Spares.of {env : Env} {X : View} {s s' : Ser} (h : s.Spares env X) (hs : ∀ x, s'.Takes env x → s.Takes env x) :
    s'.Spares env X :=
  ⟨fun x => h.text (hs _ x), fun k x => h.attr k (hs _ x), fun t x => h.tag t (x.imp (hs _) fun ⟨n, y⟩ => ⟨n, hs _ y⟩)⟩

/-- The field takes nothing outside of the part. -/
structure Ser.Within (env : Env) (X : View) (s : Ser) : Prop where
  text : s.Takes env .text → X.text
  attr : ∀ k, s.Takes env (.attr k) → X.attr k
  tag : ∀ t, s.GoesTo env t → X.tag t

theorem Ser.Within.of {env : Env} {X : View} {s s' : Ser} (h : s.Within env X) (hs : ∀ x, s'.Takes env x → s.Takes env x) :
    s'.Within env X :=
  ⟨fun x => h.text (hs _ x), fun k x => h.attr k (hs _ x), fun t x => h.tag t (x.imp (hs _) fun ⟨n, y⟩ => ⟨n, hs _ y⟩)⟩

theorem homogLoop_kept {I : Elem → Prop} {f : Loc → St → Out Val × St} (h : ∀ l st, I st.el → I (f l st).2.el) (loc : Loc) (n idx : Nat)
    (acc : List Val) (errs : Dict ErrKey VErr) (st : St) (hs : I st.el) : I (homogLoop f loc n idx acc errs st).2.el := by
  induction n generalizing idx acc errs st with
  | zero => exact hs
  | succ n ih =>
    unfold homogLoop
    have hs := h (loc ++ [.idx idx]) st hs
    cases hr : f (loc ++ [.idx idx]) st with
    | mk o st' =>
      rw [hr] at hs
      cases o with
      | ok v =>
        simp only
        split
        · exact hs
        · exact ih _ _ _ _ hs
      | verr e => exact ih _ _ _ _ hs
      | crash e => exact hs
      | diverge => exact hs

theorem heteroLoop_kept {I : Elem → Prop} {f : Ser → Loc → St → Out Val × St} (ss : List Ser)
    (h : ∀ s ∈ ss, ∀ l st, I st.el → I (f s l st).2.el) (loc : Loc) (idx : Nat)
    (acc : List Val) (errs : Dict ErrKey VErr) (st : St) (hs : I st.el) : I (heteroLoop f loc ss idx acc errs st).2.el := by
  induction ss generalizing idx acc errs st with
  | nil => exact hs
  | cons s ss ih =>
    have ih := ih fun s hs => h s (List.mem_cons_of_mem _ hs)
    unfold heteroLoop
    have hs := h s List.mem_cons_self (loc ++ [.idx idx]) st hs
    cases hr : f s (loc ++ [.idx idx]) st with
    | mk o st' =>
      rw [hr] at hs
      cases o with
      | ok v => exact ih _ _ _ _ hs
      | verr e => exact ih _ _ _ _ hs
      | crash e => exact hs
      | diverge => exact hs

/-- A sub-model takes its element. -/
theorem proxy_goesTo {env : Env} {p : Proxy} {m : ModelSer} (hc : p.computed = false) (hm : env.model p.cls = some m) :
    (Ser.proxy p).GoesTo env p.name := .inr ⟨_, .proxy hc hm⟩

section
variable {env : Env} {X : View}

theorem taggedLoop_kept {e0 : Elem} {f : Proxy → St → Out Val × St} (loc : Loc) (a : String) (alts : List (String × Proxy))
    (h : ∀ p ∈ alts, ∀ st, Kept X e0 st.el → Kept X e0 (f p.2 st).2.el) (ht : ∀ p ∈ alts, ¬ X.tag p.2.name) (st : St)
    (hs : Kept X e0 st.el) : Kept X e0 (taggedLoop f loc a .unordered alts st).2.el := by
  induction alts generalizing st with
  | nil => exact hs
  | cons p alts ih =>
    have ih := ih (fun p hp => h p (List.mem_cons_of_mem _ hp)) (fun p hp => ht p (List.mem_cons_of_mem _ hp))
    have hp := h p List.mem_cons_self
    have htp := ht p List.mem_cons_self
    obtain ⟨tag, p⟩ := p
    unfold taggedLoop
    rcases hs.search htp false with ⟨e', a, s⟩ | ⟨i, e', c, a, c1, hc, _, s⟩
    · rw [a]; exact ih _ s
    · rw [a]
      simp only [c1]
      split
      · exact hp _ (s rfl)
      · exact ih _ (s rfl)

variable (hv : env.ValidatorsRead)
include hv

/-- A field that takes nothing of a part leaves it as it is.  (A sub-model whose class is unknown raises at once.) -/
theorem deser_kept (eas : Bool) (n : Nat) (s : Ser) (hu : s.Unordered env) (hsp : s.Spares env X)
    (loc : Loc) {e0 : Elem} (st : St) (hst : Kept X e0 st.el) : Kept X e0 (deser env eas n s loc st).2.el := by
  have hv' : env.ValidatorsRespect SameChildren := hv.respect sameChildren_rel
  induction n generalizing s loc st with
  | zero => exact hst
  | succ n ih =>
    have hk : ∀ s l st, SameChildren st.el (deser env eas n s l st).2.el :=
      fun s l st => deser_rel sameChildren_rel env hv' eas n s l st
    change Kept X e0 (deserStep env eas (deser env eas n) n s loc st).2.el
    have hchild : ∀ (u : String), ¬ X.tag u → ∀ {f : St → Out Val × St}, KeepsTag f →
        Kept X e0 (match st.el.popElement u .unordered with
          | (none, el) => (.ok .none, { st with el := el })
          | (some i, el) => onChild { st with el := el } i f : Out Val × St).2.el := by
      intro u hu f hf
      simp only [popElement]
      rcases hst.search hu true with ⟨e', a, s⟩ | ⟨i, e', c, a, c1, hc, s, _⟩
      · rw [a]; exact s
      · rw [a]
        simp only [onChild, c1]
        exact s rfl _ ((hf _).trans hc)
    unfold deserStep
    cases hu with
    | @text c nl =>
      simp only [deserText]
      cases c with
      | true => exact hst
      | false =>
        have hx := hsp.text .text
        simp only [Bool.false_eq_true, if_false]
        cases nl with
        | false => exact hst.popText hx
        | true =>
          have ha := hsp.attr nilAttr .nil
          have h2 : Kept X e0 (st.el.popAttrib nilAttr).2 := hst.popAttrib ha
          simp only [if_true, isNil]
          cases decide ((st.el.popAttrib nilAttr).1 = some "true") with
          | true => exact h2
          | false => exact h2.popText hx
    | @attr nm c =>
      simp only
      cases c with
      | true => exact hst
      | false =>
        have h2 : Kept X e0 (st.el.popAttrib nm).2 := hst.popAttrib (hsp.attr nm .attr)
        simp only [Bool.false_eq_true, if_false]
        cases hp : st.el.popAttrib nm with
        | mk o e' =>
          rw [hp] at h2
          cases o <;> exact h2
    | @attrs a =>
      simp only [deserAttrs]
      split
      · exact hst
      · rename_i hc
        have h2 : Kept X e0 st.el.popAttributes.2 := hst.popAttributes fun k => hsp.attr k (.attrs (by simpa using hc))
        cases hp : st.el.popAttributes with
        | mk o e' =>
          rw [hp] at h2
          cases o <;> exact h2
    | @elem nm ns c nl =>
      simp only
      cases c with
      | true => exact hst
      | false =>
        exact hchild nm (hsp.tag nm (.inr ⟨_, .elem⟩)) fun st => (deserText_rel sameChildren_rel eas _ nl ⟨st.el, _⟩).1
    | @mapElem a nm =>
      simp only
      split
      · exact hst
      · rename_i hc
        exact hchild nm (hsp.tag nm (.inr ⟨_, .mapElem (by simpa using hc)⟩))
          fun st => (deserAttrs_rel sameChildren_rel a ⟨st.el, _⟩).1
    | @raw nm c =>
      simp only
      cases c with
      | true => exact hst
      | false =>
        simp only [Bool.false_eq_true, if_false, popElementRemove, popElement]
        rcases hst.search (hsp.tag nm (.inl .raw)) true with ⟨e', a, s⟩ | ⟨i, e', c, a, c1, hc, s, _⟩
        · rw [a]; exact s
        · rw [a]
          simp only [c1]
          exact s rfl _ hc
    | @proxy p hp =>
      simp only
      cases hm : env.model p.cls with
      | none => exact hst
      | some m =>
        simp only
        split
        · exact hst
        · rename_i hc
          rw [hp]
          refine hchild p.name (hsp.tag _ (proxy_goesTo (by simpa using hc) hm)) ?_
          intro st
          have hn := (sameChildren_rel.isNil st.el).1
          cases hn1 : st.el.isNil with
          | mk b1 el1 =>
            rw [hn1] at hn
            simp only [hn1]
            cases b1 with
            | true => exact hn
            | false => exact (deserModel_rel sameChildren_rel env hk p.cls m (fun fs hb => hv' p.cls m fs hm hb) loc ⟨el1, _⟩).1.trans hn
    | @primUnion c s hs =>
      simp only
      cases c with
      | true => exact hst
      | false => exact ih s hs (hsp.of fun _ => .primUnion) loc st hst
    | @tagged c d a alts halts =>
      simp only
      cases c with
      | true => exact hst
      | false =>
        have htk : ∀ p ∈ alts, ∀ x, (Ser.proxy p.2).Takes env x → (Ser.tagged false d a .unordered alts).Takes env x :=
          fun p hp x hx => .tagged hp hx
        refine taggedLoop_kept loc a alts (fun p hp st h => ih (.proxy p.2) (.proxy (halts p hp).1) (hsp.of (htk p hp)) loc st h) ?_ st hst
        intro p hp
        obtain ⟨_, h2, h3⟩ := halts p hp
        obtain ⟨m, hm⟩ := Option.isSome_iff_exists.1 h3
        exact (hsp.of (htk p hp)).tag _ (proxy_goesTo h2 hm)
    | @wrap t path ns c s =>
      simp only
      cases c with
      | true => exact hst
      | false =>
        simp only [Bool.false_eq_true, if_false]
        have hd : KeepsTag (descend .unordered (fun c => deser env eas n s loc ⟨c.el, c.sm.set loc c.el.line⟩) path) :=
          fun st => (descend_rel sameChildren_rel (f := fun c => deser env eas n s loc ⟨c.el, c.sm.set loc c.el.line⟩)
            (fun st => hk s loc ⟨st.el, _⟩) .unordered path st).1
        unfold descend
        rcases hst.find (hsp.tag t (.inr ⟨_, .wrap⟩)) with ⟨e', a, s⟩ | ⟨i, e', c, a, c1, hc, s⟩
        · rw [a]; exact s
        · rw [a]
          simp only [onChild, c1]
          exact s _ ((hd _).trans hc)
    | @homog title c s hs =>
      simp only
      cases c with
      | true => exact hst
      | false =>
        have := homogLoop_kept (I := Kept X e0) (f := fun loc st => deser env eas n s loc st)
          (fun l st h => ih s hs (hsp.of fun _ => .homog) l st h) loc n 0 [] [] st hst
        simp only [Bool.false_eq_true, if_false]
        cases hr : homogLoop (fun loc st => deser env eas n s loc st) loc n 0 [] [] st with
        | mk o st' =>
          rw [hr] at this
          cases o <;> exact this
    | @hetero title c ss hs =>
      simp only
      cases c with
      | true => exact hst
      | false =>
        have := heteroLoop_kept (I := Kept X e0) (f := deser env eas n) ss
          (fun s hs' l st h => ih s (hs s hs') (hsp.of fun _ => .hetero hs') l st h) loc 0 [] [] st hst
        simp only [Bool.false_eq_true, if_false]
        cases hr : heteroLoop (deser env eas n) loc ss 0 [] [] st with
        | mk o st' =>
          rw [hr] at this
          cases o <;> exact this

/-- A field is read alike from elements that agree on what it takes. -/
theorem deser_within (eas : Bool) (n : Nat) (s : Ser) (hu : s.Unordered env) (hw : s.Within env X) (loc : Loc) :
    Agree (fun _ => True) (SameIn X) (fun _ => True) (fun _ => -1) (deser env eas n s loc) (deser env eas n s loc) := by
  have hv' : env.ValidatorsRespect SameChildren := hv.respect sameChildren_rel
  have S := eqSim env eas hv
  induction n generalizing s loc with
  | zero => intro s1 s2 _ h; exact ⟨trivial, h⟩
  | succ n ih =>
    have hks : ∀ s l st, SameChildren st.el (deser env eas n s l st).2.el :=
      fun s l st => deser_rel sameChildren_rel env hv' eas n s l st
    have hk : ∀ s l, KeepsTag (deser env eas n s l) := fun s l st => (hks s l st).1
    have hq : ∀ s l, Agree (fun _ => True) Eq (fun _ => True) (fun _ => -1) (deser env eas n s l) (deser env eas n s l) := fun s l s1 s2 _ h =>
      deser_agree S (env_allowed_all env) n s (allowed_all s) l s1 s2 (fun _ => trivial) h
    intro s1 s2 _ h
    change OutRel _ _ (deserStep env eas (deser env eas n) n s loc s1).1 (deserStep env eas (deser env eas n) n s loc s2).1 ∧
      StRel _ _ (deserStep env eas (deser env eas n) n s loc s1).2 (deserStep env eas (deser env eas n) n s loc s2).2
    have hsm : ∀ {f : St → Out Val × St}, Agree (fun _ => True) Eq (fun _ => True) (fun _ => -1) f f →
        Agree (fun _ => True) Eq (fun _ => True) (fun _ => -1) (fun c => f ⟨c.el, c.sm.set loc c.el.line⟩)
          (fun c => f ⟨c.el, c.sm.set loc c.el.line⟩) := by
      intro f hfg s1 s2 hX h
      exact hfg _ _ trivial ⟨h.1, smRel_any _ _⟩
    have hon : ∀ {f : St → Out Val × St}, Agree (fun _ => True) Eq (fun _ => True) (fun _ => -1) f f → KeepsTag f →
        ∀ {e1' e2' : Elem} {i1 i2 : Nat} {c : Elem} {t : String}, e1'.elements[i1]? = some c → e2'.elements[i2]? = some c → c.tag = t →
        (∀ c', c'.tag = t → SameIn X (e1'.setChild i1 c') (e2'.setChild i2 c')) →
        OutRel (fun _ => True) (fun _ => -1) (onChild { s1 with el := e1' } i1 f).1 (onChild { s2 with el := e2' } i2 f).1 ∧
          StRel (SameIn X) (fun _ => -1) (onChild { s1 with el := e1' } i1 f).2 (onChild { s2 with el := e2' } i2 f).2 := by
      intro f hf hkf e1' e2' i1 i2 c t h1 h2 ht hs
      obtain ⟨a, b, _⟩ := hf ⟨c, s1.sm⟩ ⟨c, s2.sm⟩ trivial ⟨rfl, smRel_any _ _⟩
      unfold onChild
      simp only [h1, h2]
      refine ⟨a, ?_, smRel_any _ _⟩
      show SameIn X (e1'.setChild i1 _) (e2'.setChild i2 _)
      rw [← b]
      exact hs _ ((hkf _).trans ht)
    have hchild : ∀ (u : String), X.tag u → ∀ {f : St → Out Val × St}, Agree (fun _ => True) Eq (fun _ => True) (fun _ => -1) f f →
        KeepsTag f →
        let q1 := (match s1.el.popElement u .unordered with
          | (none, el) => (.ok .none, { s1 with el := el })
          | (some i, el) => onChild { s1 with el := el } i f : Out Val × St)
        let q2 := (match s2.el.popElement u .unordered with
          | (none, el) => (.ok .none, { s2 with el := el })
          | (some i, el) => onChild { s2 with el := el } i f : Out Val × St)
        OutRel (fun _ => True) (fun _ => -1) q1.1 q2.1 ∧ StRel (SameIn X) (fun _ => -1) q1.2 q2.2 := by
      intro u hu f hf hkf
      simp only [popElement]
      rcases h.1.search hu true with ⟨e1', e2', a, b, s⟩ | ⟨i1, e1', i2, e2', c, a, b, c1, c2, hc, s, _⟩
      · rw [a, b]; exact ⟨⟨rfl, trivial⟩, s, smRel_any _ _⟩
      · rw [a, b]; exact hon hf hkf c1 c2 hc (s rfl)
    unfold deserStep
    cases hu with
    | @text c nl =>
      simp only [deserText]
      cases c with
      | true => exact ⟨⟨rfl, trivial⟩, h⟩
      | false =>
        have key : ∀ (e1' e2' : Elem), SameIn X e1' e2' →
            OutRel (fun _ => True) (fun _ => -1) (.ok (textVal eas e1'.text)) (.ok (textVal eas e2'.text)) ∧
              StRel (SameIn X) (fun _ => -1) { s1 with el := e1'.popText.2 } { s2 with el := e2'.popText.2 } := by
          intro e1' e2' h'
          exact ⟨⟨by rw [h'.text (hw.text .text)], trivial⟩, h'.popText, smRel_any _ _⟩
        simp only [Bool.false_eq_true, if_false]
        cases nl with
        | false => exact key _ _ h.1
        | true =>
          have h2 := h.1.popAttrib nilAttr
          have h1 : (s1.el.popAttrib nilAttr).1 = (s2.el.popAttrib nilAttr).1 := by
            rw [popAttrib_fst, popAttrib_fst, getAttrib_entries, getAttrib_entries, h.1.attr _ (hw.attr _ .nil)]
          simp only [if_true, isNil, h1]
          cases decide ((s2.el.popAttrib nilAttr).1 = some "true") with
          | true => exact ⟨⟨rfl, trivial⟩, h2, smRel_any _ _⟩
          | false => exact key _ _ h2
    | @attr nm c =>
      simp only
      cases c with
      | true => exact ⟨⟨rfl, trivial⟩, h⟩
      | false =>
        simp only [Bool.false_eq_true, if_false]
        have h2 := h.1.popAttrib nm
        have h1 : (s1.el.popAttrib nm).1 = (s2.el.popAttrib nm).1 := by
          rw [popAttrib_fst, popAttrib_fst, getAttrib_entries, getAttrib_entries, h.1.attr _ (hw.attr _ .attr)]
        cases hp1 : s1.el.popAttrib nm with
        | mk o1 e1 =>
          cases hp2 : s2.el.popAttrib nm with
          | mk o2 e2 =>
            rw [hp1, hp2] at h1 h2
            simp only at h1 h2
            subst h1
            cases o1 with
            | none => exact ⟨⟨rfl, trivial⟩, h2, smRel_any _ _⟩
            | some v => exact ⟨⟨rfl, trivial⟩, h2, smRel_any _ _⟩
    | @attrs a =>
      simp only [deserAttrs]
      split
      · exact ⟨⟨rfl, trivial⟩, h⟩
      · rename_i hc
        have ha := h.1.attrs fun k => hw.attr k (.attrs (by simpa using hc))
        have h2 := h.1.popAttributes
        simp only [popAttributes] at h2 ⊢
        rw [ha]
        cases s2.el.attrib with
        | none => exact ⟨⟨rfl, trivial⟩, h2, smRel_any _ _⟩
        | some d => exact ⟨⟨rfl, trivial⟩, h2, smRel_any _ _⟩
    | @elem nm ns c nl =>
      simp only
      cases c with
      | true => exact ⟨⟨rfl, trivial⟩, h⟩
      | false =>
        exact hchild nm (hw.tag nm (.inr ⟨_, .elem⟩)) (hsm fun s1 s2 _ h => deserText_agree S _ nl s1 s2 (fun _ => trivial) h)
          fun st => (deserText_rel sameChildren_rel eas _ nl ⟨st.el, _⟩).1
    | @mapElem a nm =>
      simp only
      split
      · exact ⟨⟨rfl, trivial⟩, h⟩
      · rename_i hc
        exact hchild nm (hw.tag nm (.inr ⟨_, .mapElem (by simpa using hc)⟩)) (hsm (deserAttrs_agree S trivial a))
          fun st => (deserAttrs_rel sameChildren_rel a ⟨st.el, _⟩).1
    | @raw nm c =>
      simp only
      cases c with
      | true => exact ⟨⟨rfl, trivial⟩, h⟩
      | false =>
        simp only [Bool.false_eq_true, if_false, popElementRemove, popElement]
        rcases h.1.search (hw.tag nm (.inl .raw)) true with ⟨e1', e2', a, b, s⟩ | ⟨i1, e1', i2, e2', c, a, b, c1, c2, hc, s, _⟩
        · rw [a, b]; exact ⟨⟨rfl, trivial⟩, s, smRel_any _ _⟩
        · rw [a, b]
          simp only [c1, c2]
          exact ⟨⟨rfl, trivial⟩, s rfl _ hc, smRel_any _ _⟩
    | @proxy p hp =>
      simp only
      cases hm : env.model p.cls with
      | none => exact ⟨rfl, h⟩
      | some m =>
        simp only
        split
        · exact ⟨⟨rfl, trivial⟩, h⟩
        · rename_i hc
          rw [hp]
          refine hchild p.name (hw.tag _ (proxy_goesTo (by simpa using hc) hm)) ?_ ?_
          · intro t1 t2 _ ht
            have he := ht.1
            cases t1 with
            | mk te1 tsm1 =>
            cases t2 with
            | mk te2 tsm2 =>
            simp only at he
            subst he
            simp only
            cases hn1 : te1.isNil with
            | mk b1 el1 =>
              cases b1 with
              | true => exact ⟨⟨rfl, trivial⟩, rfl, smRel_any _ _⟩
              | false =>
                exact deserModel_agree S _ (fun s hs l s1 s2 _ h => deser_agree S (env_allowed_all env) n s hs l s1 s2 (fun _ => trivial) h) hk
                  p.cls m hm (env_allowed_all env _ _ hm) loc _ _ (fun _ => trivial) ⟨rfl, smRel_any _ _⟩
          · intro st
            have hn := (sameChildren_rel.isNil st.el).1
            cases hn1 : st.el.isNil with
            | mk b1 el1 =>
              rw [hn1] at hn
              simp only [hn1]
              cases b1 with
              | true => exact hn
              | false =>
                exact (deserModel_rel sameChildren_rel env hks p.cls m (fun fs hb => hv' p.cls m fs hm hb) loc ⟨el1, _⟩).1.trans hn
    | @primUnion c s hs =>
      simp only
      cases c with
      | true => exact ⟨⟨rfl, trivial⟩, h⟩
      | false => exact ih s hs (hw.of fun _ => .primUnion) loc s1 s2 trivial h
    | @tagged c d a alts halts =>
      simp only
      cases c with
      | true => exact ⟨⟨rfl, trivial⟩, h⟩
      | false =>
        have htk : ∀ p ∈ alts, ∀ x, (Ser.proxy p.2).Takes env x → (Ser.tagged false d a .unordered alts).Takes env x :=
          fun p hp x hx => .tagged hp hx
        have hr : ∀ p ∈ alts, Agree (fun _ => True) (SameIn X) (fun _ => True) (fun _ => -1) (deser env eas n (.proxy p.2) loc)
            (deser env eas n (.proxy p.2) loc) := fun p hp => ih (.proxy p.2) (.proxy (halts p hp).1) (hw.of (htk p hp)) loc
        have hg : ∀ p ∈ alts, X.tag p.2.name := by
          intro p hp
          obtain ⟨_, h2, h3⟩ := halts p hp
          obtain ⟨m, hm⟩ := Option.isSome_iff_exists.1 h3
          exact (hw.of (htk p hp)).tag _ (proxy_goesTo h2 hm)
        simp only [Bool.false_eq_true, if_false]
        clear htk hchild hon hw halts
        induction alts generalizing s1 s2 with
        | nil => exact ⟨⟨rfl, trivial⟩, h⟩
        | cons p alts ih2 =>
          have hp := hr p List.mem_cons_self
          have hgp := hg p List.mem_cons_self
          have ih2 := fun s1 s2 h => ih2 s1 s2 h (fun p hp => hr p (List.mem_cons_of_mem _ hp)) (fun p hp => hg p (List.mem_cons_of_mem _ hp))
          obtain ⟨tag, p⟩ := p
          unfold taggedLoop
          rcases h.1.search hgp false with ⟨e1', e2', a, b, s⟩ | ⟨i1, e1', i2, e2', c, a, b, c1, c2, hc, _, s⟩
          · rw [a, b]; exact ih2 _ _ ⟨s, smRel_any _ _⟩
          · rw [a, b]
            simp only [c1, c2]
            split
            · exact hp _ _ trivial ⟨s rfl, smRel_any _ _⟩
            · exact ih2 _ _ ⟨s rfl, smRel_any _ _⟩
    | @wrap t path ns c s =>
      simp only
      cases c with
      | true => exact ⟨⟨rfl, trivial⟩, h⟩
      | false =>
        simp only [Bool.false_eq_true, if_false]
        have hd : KeepsTag (descend .unordered (fun c => deser env eas n s loc ⟨c.el, c.sm.set loc c.el.line⟩) path) :=
          fun st => (descend_rel sameChildren_rel (f := fun c => deser env eas n s loc ⟨c.el, c.sm.set loc c.el.line⟩)
            (fun st => hks s loc ⟨st.el, _⟩) .unordered path st).1
        have ha : Agree (fun _ => True) Eq (fun _ => True) (fun _ => -1)
            (descend .unordered (fun c => deser env eas n s loc ⟨c.el, c.sm.set loc c.el.line⟩) path)
            (descend .unordered (fun c => deser env eas n s loc ⟨c.el, c.sm.set loc c.el.line⟩) path) := by
          intro q1 q2 _ hq'
          exact descend_agree S (hsm (hq s loc)) (fun st => hk s loc ⟨st.el, _⟩) (fun st => hk s loc ⟨st.el, _⟩) .unordered path
            (fun _ _ => trivial) (fun _ _ => trivial) q1 q2 (fun _ => trivial) hq'
        unfold descend
        rcases h.1.find (hw.tag t (.inr ⟨_, .wrap⟩)) with ⟨e1', e2', a, b, s⟩ | ⟨i1, e1', i2, e2', c, a, b, c1, c2, hc, s⟩
        · rw [a, b]; exact ⟨⟨rfl, trivial⟩, s, smRel_any _ _⟩
        · rw [a, b]; exact hon ha hd c1 c2 hc s
    | @homog title c s hs =>
      simp only
      cases c with
      | true => exact ⟨⟨rfl, trivial⟩, h⟩
      | false =>
        simp only [Bool.false_eq_true, if_false]
        obtain ⟨h1, h2⟩ := homogLoop_agree (fun l => ih s hs (hw.of fun _ => .homog) l) (fun l => hk s l) loc n 0 [] (by simp)
          (errs1 := []) (errs2 := []) rfl trivial h
        cases hf : homogLoop (fun loc st => deser env eas n s loc st) loc n 0 [] [] s1 with
        | mk o1 s1' =>
          cases hg : homogLoop (fun loc st => deser env eas n s loc st) loc n 0 [] [] s2 with
          | mk o2 s2' =>
            rw [hf, hg] at h1 h2
            simp only at h1 h2
            cases o1 <;> cases o2 <;> simp only [LoopRel] at h1
            · obtain ⟨h3, h4, h5⟩ := h1
              simp only [homogFinish]
              rw [isEmpty_lines h5, ← h3]
              split
              · split
                · exact ⟨⟨rfl, trivial⟩, h2⟩
                · exact ⟨⟨rfl, trivial⟩, h2⟩
              · refine ⟨?_, h2⟩
                simp only [OutRel, intoValidationError_lines]
                rw [h5]
            · exact ⟨h1, h2⟩
            · exact ⟨h1, h2⟩
            · exact ⟨trivial, h2⟩
    | @hetero title c ss hs =>
      simp only
      cases c with
      | true => exact ⟨⟨rfl, trivial⟩, h⟩
      | false =>
        simp only [Bool.false_eq_true, if_false]
        obtain ⟨h1, h2⟩ := heteroLoop_agree (X := fun _ => True) ss (fun s hs' l => ih s (hs s hs') (hw.of fun _ => .hetero hs') l)
          (fun s l => hk s l) loc 0 [] (by simp) (errs1 := []) (errs2 := []) rfl trivial h
        cases hf : heteroLoop (deser env eas n) loc ss 0 [] [] s1 with
        | mk o1 s1' =>
          cases hg : heteroLoop (deser env eas n) loc ss 0 [] [] s2 with
          | mk o2 s2' =>
            rw [hf, hg] at h1 h2
            simp only at h1 h2
            cases o1 <;> cases o2 <;> simp only [LoopRel] at h1
            · obtain ⟨h3, h4, h5⟩ := h1
              simp only [heteroFinish]
              rw [isEmpty_lines h5, ← h3]
              split
              · split
                · exact ⟨⟨rfl, trivial⟩, h2⟩
                · exact ⟨⟨rfl, trivial⟩, h2⟩
              · refine ⟨?_, h2⟩
                simp only [OutRel, intoValidationError_lines]
                rw [h5]
            · exact ⟨h1, h2⟩
            · exact ⟨h1, h2⟩
            · exact ⟨trivial, h2⟩

end

end PXml
