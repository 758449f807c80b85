import Verif.Lemmas.SimOrder

/-! Simulation between trees that differ behind foreign elements (strict mode). -/

namespace PXml
namespace Elem

mutual
/-- What a strict reader that only looks for the tags `K` can tell about an element. -/
def cut (K : String → Bool) : Elem → Elem
  | ⟨tag, _, text, _, attrib, elements, next, line⟩ => ⟨tag, none, text, none, attrib, cutList K elements, next, line⟩
def cutList (K : String → Bool) : List Elem → List Elem
  | [] => []
  | c :: cs => if K c.tag then cut K c :: cutList K cs else []
end

variable {K : String → Bool}

theorem cut_eq (e : Elem) : e.cut K = ⟨e.tag, none, e.text, none, e.attrib, cutList K e.elements, e.next, e.line⟩ := by
  cases e
  rfl

theorem cut_tag (e : Elem) : (e.cut K).tag = e.tag := by rw [cut_eq]

theorem cutList_some {l : List Elem} {i : Nat} {d : Elem} (h : (cutList K l)[i]? = some d) : ∃ c, l[i]? = some c ∧ d = cut K c := by
  induction l generalizing i with
  | nil => simp [cutList] at h
  | cons x l ih =>
    unfold cutList at h
    split at h
    · cases i with
      | zero => exact ⟨x, rfl, by simpa using h.symm⟩
      | succ i => exact ih (by simpa using h)
    · simp at h

theorem cutList_get {l : List Elem} {i : Nat} {c : Elem} (hi : i ≤ (cutList K l).length) (hc : l[i]? = some c) (hk : K c.tag = true) :
    (cutList K l)[i]? = some (cut K c) := by
  induction l generalizing i with
  | nil => cases hc
  | cons x l ih =>
    unfold cutList at hi ⊢
    cases i with
    | zero =>
      cases hc
      simp [hk]
    | succ i =>
      split at hi
      · rename_i hx
        simp only [hx, if_true, List.getElem?_cons_succ]
        exact ih (by simpa using hi) (by simpa using hc)
      · simp at hi

theorem cutList_set {l : List Elem} {i : Nat} {c : Elem} (hc : l[i]? = some c) (c' : Elem) (ht : c'.tag = c.tag) :
    cutList K (l.set i c') = (cutList K l).set i (cut K c') := by
  induction l generalizing i with
  | nil => rfl
  | cons x l ih =>
    cases i with
    | zero =>
      cases hc
      simp only [List.set_cons_zero, cutList, ht]
      split <;> rfl
    | succ i =>
      simp only [List.set_cons_succ, cutList]
      split
      · rw [ih (by simpa using hc)]
        rfl
      · rfl

/-- The cursors have not passed a foreign element. -/
inductive Held (K : String → Bool) : Elem → Prop
  | mk {e : Elem} : e.next ≤ (cutList K e.elements).length → (∀ c ∈ e.elements, Held K c) → Held K e

theorem Held.next {e : Elem} (h : Held K e) : e.next ≤ (cutList K e.elements).length := by
  cases h
  assumption

theorem Held.child {e c : Elem} (h : Held K e) (hc : c ∈ e.elements) : Held K c := by
  cases h with
  | mk _ h => exact h c hc

theorem Held.congr {e e' : Elem} (h : Held K e) (h1 : e'.next = e.next) (h2 : e'.elements = e.elements) : Held K e' :=
  .mk (by rw [h1, h2]; exact h.next) (fun c hc => h.child (h2 ▸ hc))

theorem Held.setChild {e c c' : Elem} {i : Nat} (h : Held K e) (hc : e.elements[i]? = some c) (ht : c'.tag = c.tag) (h' : Held K c') :
    Held K (e.setChild i c') := by
  refine .mk ?_ fun x hx => ?_
  · simp only [Elem.setChild, cutList_set hc c' ht, List.length_set]
    exact h.next
  · rcases List.mem_or_eq_of_mem_set hx with hx | rfl
    · exact h.child hx
    · exact h'

/-- The relation. -/
def CutRel (K : String → Bool) (e1 e2 : Elem) : Prop := e1.cut K = e2.cut K ∧ Held K e1 ∧ Held K e2

theorem cutRel_iff {e1 e2 : Elem} : CutRel K e1 e2 ↔ (Held K e1 ∧ Held K e2) ∧ e1.tag = e2.tag ∧ e1.text = e2.text ∧ e1.attrib = e2.attrib ∧
    e1.line = e2.line ∧ e1.next = e2.next ∧ cutList K e1.elements = cutList K e2.elements := by
  unfold CutRel
  rw [cut_eq, cut_eq]
  simp only [mk.injEq, true_and]
  constructor
  · rintro ⟨⟨h1, h2, h3, h4, h5, h6⟩, h7⟩
    exact ⟨h7, h1, h2, h3, h6, h5, h4⟩
  · rintro ⟨h7, h1, h2, h3, h6, h5, h4⟩
    exact ⟨⟨h1, h2, h3, h4, h5, h6⟩, h7⟩

/-- Children at a place in front of the first foreign one. -/
theorem cutRel_hit {e1 e2 : Elem} (h : CutRel K e1 e2) {i : Nat} (hi : i < (cutList K e1.elements).length) : Hit (CutRel K) e1 i e2 i := by
  obtain ⟨⟨g1, g2⟩, ht, hx, ha, hl, hn, he⟩ := cutRel_iff.1 h
  obtain ⟨c1, k1, d1⟩ := cutList_some (List.getElem?_eq_getElem hi)
  obtain ⟨c2, k2, d2⟩ := cutList_some (List.getElem?_eq_getElem (he ▸ hi : i < (cutList K e2.elements).length))
  have hd : cut K c1 = cut K c2 := by
    rw [← d1, ← d2]
    simp only [he]
  refine ⟨c1, c2, k1, k2, ⟨hd, g1.child (List.mem_of_getElem? k1), g2.child (List.mem_of_getElem? k2)⟩, ?_⟩
  rintro c1' c2' ⟨h3, h4, h5⟩ t1 t2
  refine cutRel_iff.2 ⟨⟨g1.setChild k1 t1 h4, g2.setChild k2 t2 h5⟩, ht, hx, ha, hl, hn, ?_⟩
  simp only [Elem.setChild, cutList_set k1 c1' t1, cutList_set k2 c2' t2, he, h3]

/-- The child at the cursor, if it has a known tag. -/
theorem cutRel_at {e1 e2 : Elem} (h : CutRel K e1 e2) {c : Elem} (hc : e1.elements[e1.next]? = some c) (hk : K c.tag = true) :
    e1.next < (cutList K e1.elements).length ∧ ∃ c2, e2.elements[e2.next]? = some c2 ∧ c2.tag = c.tag := by
  obtain ⟨⟨g1, g2⟩, ht, hx, ha, hl, hn, he⟩ := cutRel_iff.1 h
  have h1 := cutList_get g1.next hc hk
  refine ⟨(List.getElem?_eq_some_iff.1 h1).1, ?_⟩
  rw [he, hn] at h1
  obtain ⟨c2, k2, d2⟩ := cutList_some h1
  exact ⟨c2, k2, by rw [← cut_tag (K := K) c2, ← d2, cut_tag]⟩

theorem cutRel_symm {e1 e2 : Elem} (h : CutRel K e1 e2) : CutRel K e2 e1 := ⟨h.1.symm, h.2.2, h.2.1⟩

theorem strictSearch_none {e : Elem} {t : String} {step : Bool} (h : ∀ c, e.elements[e.next]? = some c → c.tag ≠ t) :
    e.strictSearch t step = (none, e) := by
  unfold strictSearch
  cases hc : e.elements[e.next]? with
  | none => rfl
  | some c => simp [h c hc]

theorem cutRel_search {e1 e2 : Elem} (h : CutRel K e1 e2) {t : String} (ht : K t = true) (step : Bool) :
    SearchRel (CutRel K) (e1.search t .strict step) (e2.search t .strict step) := by
  simp only [search]
  by_cases hc : ∃ c, e1.elements[e1.next]? = some c ∧ c.tag = t
  · obtain ⟨c, k1, hct⟩ := hc
    obtain ⟨hlt, c2, k2, hct2⟩ := cutRel_at h k1 (hct ▸ ht)
    obtain ⟨⟨g1, g2⟩, htag, hx, ha, hl, hn, he⟩ := cutRel_iff.1 h
    have hct2' : c2.tag = t := hct2.trans hct
    simp only [strictSearch, k1, k2, hct, hct2', if_true]
    cases step with
    | false => exact ⟨h, hn ▸ cutRel_hit h hlt⟩
    | true =>
      have hE : CutRel K { e1 with next := e1.next + 1 } { e2 with next := e2.next + 1 } := by
        refine cutRel_iff.2 ⟨⟨.mk hlt fun c hc => g1.child hc, .mk ?_ fun c hc => g2.child hc⟩, htag, hx, ha, hl, ?_, he⟩
        · show e2.next + 1 ≤ _
          rw [← hn, ← he]
          exact hlt
        · show e1.next + 1 = e2.next + 1
          rw [hn]
      refine ⟨hE, ?_⟩
      have := cutRel_hit hE (i := e1.next) hlt
      simp only [if_true]
      exact hn ▸ this
  · have hc2 : ¬ ∃ c, e2.elements[e2.next]? = some c ∧ c.tag = t := by
      rintro ⟨c, k, hct⟩
      obtain ⟨_, c2, k2, hct2⟩ := cutRel_at (cutRel_symm h) k (hct ▸ ht)
      exact hc ⟨c2, k2, hct2.trans hct⟩
    rw [strictSearch_none fun c k hct => hc ⟨c, k, hct⟩, strictSearch_none fun c k hct => hc2 ⟨c, k, hct⟩]
    exact h

theorem cutRel_find {e1 e2 : Elem} (h : CutRel K e1 e2) {t : String} (ht : K t = true) :
    (∃ x, e1.findElement t .strict = .error x ∧ e2.findElement t .strict = .error x) ∨
    (∃ r1 r2, e1.findElement t .strict = .ok r1 ∧ e2.findElement t .strict = .ok r2 ∧ SearchRel (CutRel K) r1 r2) := by
  obtain ⟨⟨g1, g2⟩, htag, hx, ha, hl, hn, he⟩ := cutRel_iff.1 h
  have hsr := cutRel_search h ht true
  right
  unfold findElement lookBehind
  by_cases h0 : e1.next = 0
  · simp only [← hn, h0, if_true]
    exact ⟨_, _, rfl, rfl, hsr⟩
  · have hlt : e1.next - 1 < (cutList K e1.elements).length := by
      have := g1.next
      omega
    have hh := cutRel_hit h hlt
    obtain ⟨c1, c2, k1, k2, hcc, _⟩ := id hh
    have htt : c1.tag = c2.tag := by
      rw [← cut_tag (K := K) c1, hcc.1, cut_tag]
    simp only [← hn, h0, if_false, k1, k2, htt]
    by_cases hc : c2.tag = t
    · simp only [hc, decide_true]
      exact ⟨_, _, rfl, rfl, h, hh⟩
    · simp only [hc, decide_false]
      exact ⟨_, _, rfl, rfl, hsr⟩

/-- Stepping over the element at the cursor, if it is one that is looked for. -/
theorem cutRel_step {e1 e2 : Elem} (h : CutRel K e1 e2) {t : String} (ht : K t = true) (hs : (e1.search t .strict true).1 ≠ none) :
    CutRel K e1.stepForward e2.stepForward := by
  have hc : ∃ c, e1.elements[e1.next]? = some c ∧ c.tag = t := by
    refine Classical.byContradiction fun hc => hs ?_
    simp only [search]
    rw [strictSearch_none fun c k hct => hc ⟨c, k, hct⟩]
  obtain ⟨c, k, hct⟩ := hc
  obtain ⟨hlt, _⟩ := cutRel_at h k (hct ▸ ht)
  obtain ⟨⟨g1, g2⟩, htag, hx, ha, hl, hn, he⟩ := cutRel_iff.1 h
  refine cutRel_iff.2 ⟨⟨.mk hlt fun c hc => g1.child hc, .mk ?_ fun c hc => g2.child hc⟩, htag, hx, ha, hl, ?_, he⟩
  · show e2.next + 1 ≤ (cutList K e2.elements).length
    rw [← hn, ← he]
    exact hlt
  · show e1.next + 1 = e2.next + 1
    rw [hn]

end Elem

open Elem

/-- In strict mode, trees that agree up to the first foreign elements are read alike. -/
theorem cutSim (env : Env) (eas : Bool) (K : String → Bool) (hforbid : env.NoForbid) (hno : env.NoValidators) :
    Sim env env eas (.tags fun t m => K t = true ∧ m = .strict) False True False (CutRel K) (fun _ => True) id where
  models := rfl
  line e1 e2 h := (cutRel_iff.1 h).2.2.2.2.1
  lines sm1 sm2 h loc := lines_id h loc
  text e1 e2 _ h := by
    obtain ⟨⟨g1, g2⟩, ht, hx, ha, hl, hn, he⟩ := cutRel_iff.1 h
    exact ⟨by rw [hx], trivial, cutRel_iff.2 ⟨⟨g1.congr rfl rfl, g2.congr rfl rfl⟩, ht, rfl, ha, hl, hn, he⟩⟩
  owns _ _ _ _ := trivial
  nil := trivial
  attrib e1 e2 k _ h := by
    obtain ⟨⟨g1, g2⟩, ht, hx, ha, hl, hn, he⟩ := cutRel_iff.1 h
    rw [cutRel_iff]
    refine ⟨by rw [popAttrib_fst, popAttrib_fst, getAttrib, getAttrib, ha], fun _ _ => trivial, ?_⟩
    unfold popAttrib
    rw [ha]
    split
    · exact ⟨⟨g1.congr rfl rfl, g2.congr rfl rfl⟩, ht, hx, rfl, hl, hn, he⟩
    · exact ⟨⟨g1, g2⟩, ht, hx, ha, hl, hn, he⟩
  attributes _ e1 e2 h := by
    obtain ⟨⟨g1, g2⟩, ht, hx, ha, hl, hn, he⟩ := cutRel_iff.1 h
    exact ⟨ha, fun _ _ _ => trivial, cutRel_iff.2 ⟨⟨g1.congr rfl rfl, g2.congr rfl rfl⟩, ht, hx, rfl, hl, hn, he⟩⟩
  search e1 e2 t m step hT h := by
    obtain ⟨ht, rfl⟩ := hT
    exact cutRel_search h ht step
  find e1 e2 t m hT h := by
    obtain ⟨ht, rfl⟩ := hT
    exact cutRel_find h ht
  step _ e1 e2 h hs := by
    obtain ⟨t, m, ⟨ht, rfl⟩, hs⟩ := hs
    exact cutRel_step h ht hs
  snapshot e1 e2 s1 s2 h hs' := by
    obtain ⟨⟨g1, g2⟩, ht, hx, ha, hl, hn, he⟩ := cutRel_iff.1 hs'
    obtain ⟨_, _, _, _, hl', _⟩ := cutRel_iff.1 h
    exact cutRel_iff.2 ⟨⟨g1.congr rfl rfl, g2.congr rfl rfl⟩, ht, hx, ha, hl', hn, he⟩
  rawElem hr := hr.elim
  none := trivial
  list _ _ := trivial
  model _ _ _ := trivial
  validate cls m d _ _ := rfl
  extra hf := hf.elim
  forbids cls m hm hf := by rw [hforbid cls m hm] at hf; cases hf
  validators cls m fs hm hb f hf v hv := by rw [hno cls m fs hm hb f hf] at hv; cases hv
  keeps cls m fs hm hb f hf v hv := by rw [hno cls m fs hm hb f hf] at hv; cases hv

end PXml
