import Verif.Lemmas.SimMeta

/-! Simulation between trees that agree in the attributes with names in a given list. -/

namespace PXml

/-- The attributes named in the list, in the order of the list. -/
def pick (K : List String) (d : Dict String String) : Dict String String := K.filterMap fun k => (d.get? k).map (k, ·)

theorem get?_pick (K : List String) (d : Dict String String) (k : String) (h : k ∈ K) : (pick K d).get? k = d.get? k := by
  induction K with
  | nil => cases h
  | cons a K ih =>
    simp only [pick, List.filterMap_cons]
    by_cases ha : a = k
    · subst ha
      cases hd : d.get? a with
      | some v => simp [Dict.get?_cons]
      | none =>
        simp only [Option.map_none]
        by_cases hk : a ∈ K
        · rw [← hd]; exact ih hk
        · rw [Dict.get?_eq_none_iff]
          intro hm
          simp only [Dict.keys, List.mem_map, List.mem_filterMap, Prod.exists] at hm
          obtain ⟨_, v, ⟨x, hx, hx'⟩, rfl⟩ := hm
          cases hg : d.get? x with
          | none => rw [hg] at hx'; cases hx'
          | some w => rw [hg] at hx'; simp at hx'; exact hk (hx'.1 ▸ hx)
    · have hk : k ∈ K := by
        rcases List.mem_cons.1 h with h | h
        · exact absurd h.symm ha
        · exact h
      cases hd : d.get? a with
      | none => exact ih hk
      | some v =>
        simp only [Option.map_some, Dict.get?_cons, ha, if_false]
        exact ih hk

theorem pick_congr {K : List String} {d d' : Dict String String} (h : ∀ k ∈ K, d.get? k = d'.get? k) : pick K d = pick K d' := by
  induction K with
  | nil => rfl
  | cons k K ih =>
    have h1 := ih fun x hx => h x (List.mem_cons_of_mem _ hx)
    simp only [pick, List.filterMap_cons, h k (List.mem_cons_self ..)] at h1 ⊢
    rw [h1]

theorem get?_of_pick {K : List String} {d d' : Dict String String} (h : pick K d = pick K d') {k : String} (hk : k ∈ K) :
    d.get? k = d'.get? k := by rw [← get?_pick K d k hk, h, get?_pick K d' k hk]

namespace Elem

variable (K : List String)

mutual
/-- The tree with the attributes outside `K` left out. -/
def onlyAttrs : Elem → Elem
  | ⟨tag, nsmap, text, tail, attrib, elements, next, line⟩ =>
    ⟨tag, nsmap, text, tail, some (pick K (attrib.getD [])), onlyAttrsList elements, next, line⟩
def onlyAttrsList : List Elem → List Elem
  | [] => []
  | c :: cs => onlyAttrs c :: onlyAttrsList cs
end

mutual
/-- No attribute occurs twice. -/
def once : Elem → Prop
  | ⟨_, _, _, _, attrib, elements, _, _⟩ => (attrib.getD []).WF ∧ onceList elements
def onceList : List Elem → Prop
  | [] => True
  | c :: cs => once c ∧ onceList cs
end

theorem onceList_iff (l : List Elem) : onceList l ↔ ∀ c ∈ l, c.once := by
  induction l with
  | nil => simp [onceList]
  | cons c l ih => simp [onceList, ih]

theorem once_iff (e : Elem) : e.once ↔ (e.attrib.getD []).WF ∧ ∀ c ∈ e.elements, c.once := by
  cases e; simp [once, onceList_iff]

theorem onlyAttrsList_eq (l : List Elem) : onlyAttrsList K l = l.map (onlyAttrs K) := by
  induction l with
  | nil => rfl
  | cons c l ih => simp [onlyAttrsList, ih]

theorem onlyAttrs_eq (e : Elem) : e.onlyAttrs K =
    { e with attrib := some (pick K (e.attrib.getD [])), elements := e.elements.map (onlyAttrs K) } := by
  cases e; simp [onlyAttrs, onlyAttrsList_eq]

theorem onlyAttrs_tag (e : Elem) : (e.onlyAttrs K).tag = e.tag := by rw [onlyAttrs_eq]

theorem firstFrom_onlyAttrs (t : String) (l : List Elem) (k : Nat) :
    firstFrom t (l.map (onlyAttrs K)) k = firstFrom t l k := by
  induction l generalizing k with
  | nil => rfl
  | cons c l ih => simp only [List.map_cons, firstFrom, onlyAttrs_tag, ih]

theorem swap_onlyAttrs (l : List Elem) (i j : Nat) :
    swap (l.map (onlyAttrs K)) i j = (swap l i j).map (onlyAttrs K) := by
  unfold swap
  simp only [List.getElem?_map]
  cases l[i]? <;> cases l[j]? <;> simp [List.map_set]

theorem search_onlyAttrs (e : Elem) (t : String) (m : Mode) (step : Bool) :
    (e.onlyAttrs K).search t m step = ((e.search t m step).1, (e.search t m step).2.onlyAttrs K) := by
  have hf : (e.onlyAttrs K).firstMatch t = e.firstMatch t := by
    simp only [firstMatch, onlyAttrs_eq, ← List.map_drop, firstFrom_onlyAttrs]
  cases m with
  | strict =>
    simp only [search, strictSearch]
    rw [onlyAttrs_eq]
    simp only [List.getElem?_map]
    cases e.elements[e.next]? with
    | none => simp [onlyAttrs_eq]
    | some c =>
      simp only [Option.map_some, onlyAttrs_tag]
      split
      · cases step <;> simp [onlyAttrs_eq]
      · simp [onlyAttrs_eq]
  | ordered =>
    simp only [search, orderedSearch, hf]
    cases e.firstMatch t with
    | none => simp
    | some i => cases step <;> simp [onlyAttrs_eq]
  | unordered =>
    simp only [search, unorderedSearch, hf]
    cases e.firstMatch t with
    | none => simp
    | some i => rw [onlyAttrs_eq]; simp only [swap_onlyAttrs]; simp [onlyAttrs_eq]

theorem findElement_onlyAttrs (e : Elem) (t : String) (m : Mode) :
    (e.onlyAttrs K).findElement t m = (e.findElement t m).map fun r => (r.1, r.2.onlyAttrs K) := by
  have hl : (e.onlyAttrs K).lookBehind t = e.lookBehind t := by
    simp only [lookBehind, onlyAttrs_eq, List.getElem?_map]
    split
    · rfl
    · cases e.elements[e.next - 1]? with
      | none => rfl
      | some c => simp [onlyAttrs_eq]
  simp only [findElement, hl]
  cases e.lookBehind t with
  | error x => rfl
  | ok b =>
    cases b with
    | true => simp [Except.map, bind, Except.bind, onlyAttrs_eq]
    | false => simp only [bind, Except.bind, search_onlyAttrs, Except.map]; rfl

theorem onlyAttrs_getElem? (e : Elem) (i : Nat) :
    (e.onlyAttrs K).elements[i]? = (e.elements[i]?).map (onlyAttrs K) := by
  rw [onlyAttrs_eq]; simp

theorem onlyAttrs_setChild (e : Elem) (i : Nat) (c : Elem) :
    (e.setChild i c).onlyAttrs K = (e.onlyAttrs K).setChild i (c.onlyAttrs K) := by
  simp [onlyAttrs_eq, setChild, List.map_set]

theorem popAttrib_attrib (e : Elem) (k : String) : ((e.popAttrib k).2.attrib.getD []) = (e.attrib.getD []).erase k := by
  unfold popAttrib
  split
  · rfl
  · rename_i h
    cases ha : e.attrib with
    | none => simp [Dict.erase]
    | some d => cases d with
      | nil => simp [Dict.erase]
      | cons => simp [ha, truthyMap] at h

theorem popAttrib_elements (e : Elem) (k : String) : (e.popAttrib k).2 = { e with attrib := (e.popAttrib k).2.attrib } := by
  unfold popAttrib
  split
  · rfl
  · cases e; rfl

theorem once_congr {e e' : Elem} (h1 : e.attrib.getD [] = e'.attrib.getD []) (h2 : e.elements = e'.elements) (h : e.once) :
    e'.once := by
  rw [once_iff] at h ⊢
  rw [← h1, ← h2]
  exact h

theorem once_child {e c : Elem} (h : e.once) (hc : c ∈ e.elements) : c.once := ((once_iff e).1 h).2 c hc

theorem once_setChild {e c : Elem} (h : e.once) (hc : c.once) (i : Nat) : (e.setChild i c).once := by
  rw [once_iff] at h ⊢
  refine ⟨h.1, fun x hx => ?_⟩
  rcases List.mem_or_eq_of_mem_set hx with hx | rfl
  · exact h.2 x hx
  · exact hc

theorem once_rel : ElemRel (fun e e' => e.once → e'.once) where
  refl e := id
  trans h1 h2 := h2 ∘ h1
  popText e := once_congr rfl rfl
  popAttrib e k h := by
    rw [once_iff] at h ⊢
    rw [popAttrib_attrib, popAttrib_elements]
    exact ⟨Dict.wf_erase h.1 k, h.2⟩
  popAttributes e h := by
    rw [once_iff] at h ⊢
    exact ⟨Dict.wf_nil, h.2⟩
  search e tag mode step := by
    obtain ⟨l, n, h3, h4, _⟩ := search_spec e tag mode step
    rw [h3, once_iff, once_iff]
    exact fun h => ⟨h.1, fun c hc => h.2 c (h4.mem_iff.1 hc)⟩
  child e i c c' hc h hh := once_setChild hh (h (once_child hh (List.mem_of_getElem? hc))) i
  stepForward e hlt := once_congr rfl rfl
  applySnapshot e s h hg := once_congr (e := s) rfl rfl (h hg)
  hollow e i c hc hh := once_setChild hh ((once_iff _).2 ⟨by simp [hollow, Dict.wf_nil], by simp [hollow]⟩) i

/-- The relation: equal up to attributes outside `K` (and their order). -/
def AttrsRel (e1 e2 : Elem) : Prop := e1.onlyAttrs K = e2.onlyAttrs K ∧ e1.once ∧ e2.once

variable {K}

theorem attrsRel_hit {e1 e2 : Elem} (h : AttrsRel K e1 e2) {i : Nat} (hi : ∃ c, e1.elements[i]? = some c) :
    Hit (AttrsRel K) e1 i e2 i := by
  obtain ⟨c1, hc1⟩ := hi
  obtain ⟨h1, h2, h3⟩ := h
  have h4 := congrArg (fun e : Elem => e.elements[i]?) h1
  simp only [onlyAttrs_getElem?, hc1, Option.map_some] at h4
  cases hc2 : e2.elements[i]? with
  | none => rw [hc2] at h4; cases h4
  | some c2 =>
    rw [hc2] at h4
    simp only [Option.map_some, Option.some.injEq] at h4
    refine ⟨c1, c2, hc1, hc2, ⟨h4, once_child h2 (List.mem_of_getElem? hc1), once_child h3 (List.mem_of_getElem? hc2)⟩, ?_⟩
    rintro c1' c2' ⟨h5, h6, h7⟩ _ _
    refine ⟨?_, once_setChild h2 h6 i, once_setChild h3 h7 i⟩
    rw [onlyAttrs_setChild, onlyAttrs_setChild, h1, h5]

theorem attrsRel_search {e1 e2 : Elem} (h : AttrsRel K e1 e2) (t : String) (m : Mode) (step : Bool) :
    SearchRel (AttrsRel K) (e1.search t m step) (e2.search t m step) := by
  obtain ⟨h1, h2, h3⟩ := h
  have h4 : ((e1.search t m step).1, (e1.search t m step).2.onlyAttrs K) =
      ((e2.search t m step).1, (e2.search t m step).2.onlyAttrs K) := by
    rw [← search_onlyAttrs, ← search_onlyAttrs, h1]
  have h5 := once_rel.search e1 t m step h2
  have h6 := once_rel.search e2 t m step h3
  cases hs1 : e1.search t m step with
  | mk o1 e1' =>
    cases hs2 : e2.search t m step with
    | mk o2 e2' =>
      rw [hs1, hs2] at h4
      rw [hs1] at h5
      rw [hs2] at h6
      simp only [Prod.mk.injEq] at h4
      obtain ⟨rfl, h4⟩ := h4
      cases o1 with
      | none => exact ⟨h4, h5, h6⟩
      | some i =>
        obtain ⟨c, hc, _⟩ := search_index hs1
        exact ⟨⟨h4, h5, h6⟩, attrsRel_hit ⟨h4, h5, h6⟩ ⟨c, hc⟩⟩

theorem attrsRel_find {e1 e2 : Elem} (h : AttrsRel K e1 e2) (t : String) (m : Mode) :
    (∃ x, e1.findElement t m = .error x ∧ e2.findElement t m = .error x) ∨
    (∃ r1 r2, e1.findElement t m = .ok r1 ∧ e2.findElement t m = .ok r2 ∧ SearchRel (AttrsRel K) r1 r2) := by
  obtain ⟨h1, h2, h3⟩ := h
  have h4 : (e1.findElement t m).map (fun r => (r.1, r.2.onlyAttrs K)) =
      (e2.findElement t m).map (fun r => (r.1, r.2.onlyAttrs K)) := by
    rw [← findElement_onlyAttrs, ← findElement_onlyAttrs, h1]
  cases hs1 : e1.findElement t m with
  | error x =>
    cases hs2 : e2.findElement t m with
    | error y => rw [hs1, hs2] at h4; simp [Except.map] at h4; subst h4; exact .inl ⟨x, rfl, rfl⟩
    | ok r => rw [hs1, hs2] at h4; simp [Except.map] at h4
  | ok r1 =>
    cases hs2 : e2.findElement t m with
    | error y => rw [hs1, hs2] at h4; simp [Except.map] at h4
    | ok r2 =>
      refine .inr ⟨r1, r2, rfl, rfl, ?_⟩
      have h5 := once_rel.findElement hs1 h2
      have h6 := once_rel.findElement hs2 h3
      rw [hs1, hs2] at h4
      simp only [Except.map, Except.ok.injEq, Prod.mk.injEq] at h4
      obtain ⟨o1, e1'⟩ := r1
      obtain ⟨o2, e2'⟩ := r2
      simp only at h4 h5 h6
      obtain ⟨rfl, h4⟩ := h4
      cases o1 with
      | none => exact ⟨h4, h5, h6⟩
      | some i =>
        obtain ⟨c, hc, _⟩ := findElement_index hs1
        exact ⟨⟨h4, h5, h6⟩, attrsRel_hit ⟨h4, h5, h6⟩ ⟨c, hc⟩⟩

theorem attrsRel_get? {e1 e2 : Elem} (h : AttrsRel K e1 e2) {k : String} (hk : k ∈ K) :
    (e1.attrib.getD []).get? k = (e2.attrib.getD []).get? k := by
  have h1 := congrArg Elem.attrib h.1
  simp only [onlyAttrs_eq, Option.some.injEq] at h1
  exact get?_of_pick h1 hk

theorem popAttrib_fst_get? (e : Elem) (k : String) : (e.popAttrib k).1 = (e.attrib.getD []).get? k := by
  unfold popAttrib
  split
  · rfl
  · rename_i h
    cases ha : e.attrib with
    | none => simp
    | some d => cases d with
      | nil => simp
      | cons => simp [ha, truthyMap] at h

/-- A pick of a dictionary with a key removed. -/
theorem pick_erase {d d' : Dict String String} (hd : d.WF) (hd' : d'.WF) (h : pick K d = pick K d') (k : String) :
    pick K (d.erase k) = pick K (d'.erase k) := by
  apply pick_congr
  intro k' hk'
  by_cases hk : k = k'
  · subst hk; rw [Dict.get?_erase_self hd, Dict.get?_erase_self hd']
  · rw [Dict.get?_erase_ne _ hk, Dict.get?_erase_ne _ hk]; exact get?_of_pick h hk'

end Elem

open Elem

/-- Trees that agree in the attributes that are looked for are read alike. -/
theorem attrsSim (env : Env) (eas : Bool) (K : List String) (hnil : nilAttr ∈ K) (hforbid : ∀ cls m, env.model cls = some m → m.extraForbid = false)
    (hno : ∀ cls m fs, env.model cls = some m → m.body = .fields fs → ∀ f ∈ fs, f.validator = none) :
    Sim env env eas ⟨fun _ _ => True, (· ∈ K), False, fun _ => True, fun _ => True⟩ False True False (AttrsRel K) (fun _ => True) id where
  models := rfl
  line e1 e2 h := by
    have := congrArg Elem.line h.1
    simpa [onlyAttrs_eq] using this
  lines sm1 sm2 h loc := lines_id h loc
  text e1 e2 _ h := by
    have h1 := congrArg Elem.text h.1
    simp only [onlyAttrs_eq] at h1
    refine ⟨by rw [h1], trivial, ?_, once_rel.popText e1 h.2.1, once_rel.popText e2 h.2.2⟩
    have h2 := congrArg (fun e : Elem => e.popText.2) h.1
    simpa [popText, onlyAttrs_eq] using h2
  owns _ _ _ _ := trivial
  nil := hnil
  attrib e1 e2 k hk h := by
    refine ⟨?_, fun _ _ => trivial, ?_, once_rel.popAttrib e1 k h.2.1, once_rel.popAttrib e2 k h.2.2⟩
    · rw [popAttrib_fst_get?, popAttrib_fst_get?, attrsRel_get? h hk]
    · have h1 := congrArg Elem.attrib h.1
      simp only [onlyAttrs_eq, Option.some.injEq] at h1
      have h2 := pick_erase ((once_iff _).1 h.2.1).1 ((once_iff _).1 h.2.2).1 h1 k
      have h3 := congrArg (fun e : Elem => { e with attrib := some (pick K ((e1.attrib.getD []).erase k)) }) h.1
      simp only [onlyAttrs_eq] at h3
      rw [onlyAttrs_eq, onlyAttrs_eq, popAttrib_attrib, popAttrib_attrib, popAttrib_elements e1, popAttrib_elements e2, ← h2]
      exact h3
  attributes h := h.elim
  search e1 e2 t m step _ h := attrsRel_search h t m step
  find e1 e2 t m _ h := attrsRel_find h t m
  step _ e1 e2 h _ := by
    refine ⟨?_, once_congr (e := e1) rfl rfl h.2.1, once_congr (e := e2) rfl rfl h.2.2⟩
    have h2 := congrArg Elem.stepForward h.1
    simpa [stepForward, onlyAttrs_eq] using h2
  snapshot e1 e2 s1 s2 h hs := by
    refine ⟨?_, once_congr (e := s1) rfl rfl hs.2.1, once_congr (e := s2) rfl rfl hs.2.2⟩
    have h1 := congrArg Elem.line h.1
    have h2 := congrArg (fun e : Elem => { e with line := e1.line }) hs.1
    simp only [onlyAttrs_eq] at h1
    simpa [applySnapshot, onlyAttrs_eq, h1] using h2
  rawElem h := h.elim
  none := trivial
  list _ _ := trivial
  model _ _ _ := trivial
  validate _ _ _ _ _ := rfl
  extra h := h.elim
  forbids cls m hm hf := by rw [hforbid cls m hm] at hf; cases hf
  validators cls m fs hm hb f hf v hv := by rw [hno cls m fs hm hb f hf] at hv; cases hv
  keeps cls m fs hm hb f hf v hv := by rw [hno cls m fs hm hb f hf] at hv; cases hv

end PXml
