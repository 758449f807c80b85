import Verif.Lemmas.SimEq
import Verif.SpecLocal

/-! Reading elements that differ inside the children with one tag only. -/

namespace PXml

open Elem

namespace Elem

/-- Everything but the children with the tag `t` is the same, or related by `Q`. -/
def Beside (Q : Elem → Elem → Prop) (t : String) (e1 e2 : Elem) : Prop :=
  e1.tag = e2.tag ∧ e1.text = e2.text ∧ e1.attrib = e2.attrib ∧ e1.next = e2.next ∧ e1.elements.length = e2.elements.length ∧
    ∀ (i : Nat) (c1 c2 : Elem), e1.elements[i]? = some c1 → e2.elements[i]? = some c2 → Q c1 c2 ∨ (c1.tag = t ∧ c2.tag = t)

variable {Q : Elem → Elem → Prop} {t : String} {e1 e2 : Elem}

theorem firstFrom_tags {l1 l2 : List Elem} (h : l1.map Elem.tag = l2.map Elem.tag) (u : String) (k : Nat) :
    firstFrom u l1 k = firstFrom u l2 k := by
  induction l1 generalizing l2 k with
  | nil => cases l2 with
    | nil => rfl
    | cons _ _ => simp at h
  | cons a l1 ih => cases l2 with
    | nil => simp at h
    | cons b l2 =>
      simp only [List.map_cons, List.cons.injEq] at h
      simp only [firstFrom, h.1, ih h.2]

theorem Beside.tags (hQ : ∀ a b, Q a b → a.tag = b.tag) (h : Beside Q t e1 e2) :
    e1.elements.map Elem.tag = e2.elements.map Elem.tag := by
  obtain ⟨_, _, _, _, hl, hc⟩ := h
  apply List.ext_getElem?
  intro i
  simp only [List.getElem?_map]
  by_cases hi : i < e1.elements.length
  · have hi2 : i < e2.elements.length := hl ▸ hi
    have := hc i _ _ (List.getElem?_eq_getElem hi) (List.getElem?_eq_getElem hi2)
    rw [List.getElem?_eq_getElem hi, List.getElem?_eq_getElem hi2]
    simp only [Option.map_some, Option.some.injEq]
    rcases this with h | ⟨h1, h2⟩
    · exact hQ _ _ h
    · rw [h1, h2]
  · have hi2 : ¬ i < e2.elements.length := hl ▸ hi
    rw [List.getElem?_eq_none (by omega), List.getElem?_eq_none (by omega)]

theorem Beside.firstMatch (hQ : ∀ a b, Q a b → a.tag = b.tag) (h : Beside Q t e1 e2) (u : String) :
    e1.firstMatch u = e2.firstMatch u := by
  unfold Elem.firstMatch
  rw [h.2.2.2.1]
  apply firstFrom_tags
  rw [List.map_drop, List.map_drop, h.tags hQ]

theorem Beside.pair (h : Beside Q t e1 e2) {i : Nat} {c1 : Elem} (h1 : e1.elements[i]? = some c1) :
    ∃ c2, e2.elements[i]? = some c2 ∧ (Q c1 c2 ∨ (c1.tag = t ∧ c2.tag = t)) := by
  have hi := (List.getElem?_eq_some_iff.1 h1).1
  have hi2 : i < e2.elements.length := h.2.2.2.2.1 ▸ hi
  exact ⟨_, List.getElem?_eq_getElem hi2, h.2.2.2.2.2 i _ _ h1 (List.getElem?_eq_getElem hi2)⟩

theorem Beside.setChild (h : Beside Q t e1 e2) (i : Nat) {c1 c2 : Elem} (hc : Q c1 c2 ∨ (c1.tag = t ∧ c2.tag = t)) :
    Beside Q t (e1.setChild i c1) (e2.setChild i c2) := by
  obtain ⟨h1, h2, h3, h4, hl, h5⟩ := h
  refine ⟨h1, h2, h3, h4, by simp [Elem.setChild, hl], ?_⟩
  intro j d1 d2 hd1 hd2
  simp only [Elem.setChild, List.getElem?_set] at hd1 hd2
  by_cases hij : i = j
  · simp only [if_pos hij] at hd1 hd2
    split at hd1
    · split at hd2
      · cases hd1; cases hd2; exact hc
      · cases hd2
    · cases hd1
  · simp only [if_neg hij] at hd1 hd2
    exact h5 j d1 d2 hd1 hd2

theorem Beside.swap (h : Beside Q t e1 e2) (i j : Nat) :
    Beside Q t { e1 with elements := Elem.swap e1.elements i j } { e2 with elements := Elem.swap e2.elements i j } := by
  have hl := h.2.2.2.2.1
  unfold Elem.swap
  cases ha : e1.elements[i]? with
  | none =>
    have : e2.elements[i]? = none := by rw [List.getElem?_eq_none_iff] at ha ⊢; omega
    rw [this]
    exact h
  | some a =>
    obtain ⟨a2, ha2, pa⟩ := h.pair ha
    rw [ha2]
    cases hb : e1.elements[j]? with
    | none =>
      have : e2.elements[j]? = none := by rw [List.getElem?_eq_none_iff] at hb ⊢; omega
      rw [this]
      exact h
    | some b =>
      obtain ⟨b2, hb2, pb⟩ := h.pair hb
      rw [hb2]
      exact (h.setChild i pb).setChild j pa

theorem Beside.setNext (h : Beside Q t e1 e2) (k : Nat) : Beside Q t { e1 with next := k } { e2 with next := k } :=
  ⟨h.1, h.2.1, h.2.2.1, rfl, h.2.2.2.2⟩

theorem Beside.popAttrib (h : Beside Q t e1 e2) (k : String) :
    (e1.popAttrib k).1 = (e2.popAttrib k).1 ∧ Beside Q t (e1.popAttrib k).2 (e2.popAttrib k).2 := by
  obtain ⟨ht, hx, ha, hr⟩ := h
  unfold Elem.popAttrib
  rw [ha]
  split
  · exact ⟨rfl, ht, hx, rfl, hr⟩
  · exact ⟨rfl, ht, hx, ha, hr⟩

/-- Both searches find the child at the same place. -/
theorem Beside.search (hQ : ∀ a b, Q a b → a.tag = b.tag) (h : Beside Q t e1 e2) (u : String) (m : Mode) (step : Bool) :
    (e1.search u m step).1 = (e2.search u m step).1 ∧ Beside Q t (e1.search u m step).2 (e2.search u m step).2 := by
  have hn := h.2.2.2.1
  cases m with
  | strict =>
    simp only [Elem.search, strictSearch]
    have ht : (e1.elements[e1.next]?).map Elem.tag = (e2.elements[e2.next]?).map Elem.tag := by
      rw [← List.getElem?_map, ← List.getElem?_map, h.tags hQ, hn]
    cases h1 : e1.elements[e1.next]? with
    | none =>
      rw [h1] at ht
      cases h2 : e2.elements[e2.next]? with
      | none => exact ⟨rfl, h⟩
      | some _ => rw [h2] at ht; cases ht
    | some c1 =>
      rw [h1] at ht
      cases h2 : e2.elements[e2.next]? with
      | none => rw [h2] at ht; cases ht
      | some c2 =>
        rw [h2] at ht
        simp only [Option.map_some, Option.some.injEq] at ht
        simp only [ht]
        split
        · refine ⟨by rw [hn], ?_⟩
          cases step
          · exact h
          · simp only [if_true, hn]; exact h.setNext _
        · exact ⟨rfl, h⟩
  | ordered =>
    simp only [Elem.search, orderedSearch, h.firstMatch hQ]
    split
    · refine ⟨rfl, ?_⟩
      cases step
      · exact h
      · simp only [if_true]; exact h.setNext _
    · exact ⟨rfl, h⟩
  | unordered =>
    simp only [Elem.search, unorderedSearch, h.firstMatch hQ]
    split
    · refine ⟨by rw [hn], ?_⟩
      simp only [hn]
      exact (h.swap _ _).setNext _
    · exact ⟨rfl, h⟩

theorem Beside.lookBehind (hQ : ∀ a b, Q a b → a.tag = b.tag) (h : Beside Q t e1 e2) (u : String) :
    e1.lookBehind u = e2.lookBehind u := by
  unfold Elem.lookBehind
  rw [h.2.2.2.1]
  split
  · rfl
  · have ht : (e1.elements[e2.next - 1]?).map Elem.tag = (e2.elements[e2.next - 1]?).map Elem.tag := by
      rw [← List.getElem?_map, ← List.getElem?_map, h.tags hQ]
    cases h1 : e1.elements[e2.next - 1]? <;> cases h2 : e2.elements[e2.next - 1]? <;> rw [h1, h2] at ht <;> simp_all

theorem Beside.find (hQ : ∀ a b, Q a b → a.tag = b.tag) (h : Beside Q t e1 e2) (u : String) (m : Mode) :
    (∃ x, e1.findElement u m = .error x ∧ e2.findElement u m = .error x) ∨
    ∃ o e1' e2', e1.findElement u m = .ok (o, e1') ∧ e2.findElement u m = .ok (o, e2') ∧ Beside Q t e1' e2' := by
  unfold findElement
  rw [h.lookBehind hQ]
  cases e2.lookBehind u with
  | error x => exact .inl ⟨x, rfl, rfl⟩
  | ok b =>
    refine .inr ?_
    cases b with
    | true => exact ⟨some (e2.next - 1), e1, e2, by simp [bind, Except.bind, h.2.2.2.1], by simp [bind, Except.bind], h⟩
    | false =>
      obtain ⟨h1, h2⟩ := h.search hQ u m true
      refine ⟨(e2.search u m true).1, (e1.search u m true).2, (e2.search u m true).2, ?_, ?_, h2⟩
      · rw [← h1]; rfl
      · rfl

end Elem

/-- Outcomes agree up to lines. -/
abbrev BesideAlike (E : Elem → Elem → Prop) (f g : St → Out Val × St) : Prop :=
  Agree (fun _ => True) E (fun _ => True) (fun _ => -1) f g

section
variable {env : Env} {eas : Bool} {Q : Elem → Elem → Prop} {t : String}

theorem stRel {E : Elem → Elem → Prop} {e1 e2 : Elem} (h : E e1 e2) (sm1 sm2 : SMap) : StRel E (fun _ => -1) ⟨e1, sm1⟩ ⟨e2, sm2⟩ :=
  ⟨h, smRel_any _ _⟩

/-- Work on a child found outside of `t`. -/
theorem onChild_beside {f g : St → Out Val × St} (hfg : BesideAlike Q f g) {s1 s2 : St} (h : Beside Q t s1.el s2.el) {i : Nat} {c1 : Elem}
    (hc : s1.el.elements[i]? = some c1) (ht : c1.tag ≠ t) :
    OutRel (fun _ => True) (fun _ => -1) (onChild s1 i f).1 (onChild s2 i g).1 ∧
      StRel (Beside Q t) (fun _ => -1) (onChild s1 i f).2 (onChild s2 i g).2 := by
  obtain ⟨c2, hc2, hq⟩ := h.pair hc
  have hq : Q c1 c2 := hq.resolve_right fun hh => ht hh.1
  unfold onChild
  simp only [hc, hc2]
  obtain ⟨h1, h2, _⟩ := hfg ⟨c1, s1.sm⟩ ⟨c2, s2.sm⟩ trivial (stRel hq _ _)
  exact ⟨h1, h.setChild i (.inl h2), smRel_any _ _⟩

/-- Work on a child with the tag `t`. -/
theorem onChild_inside {f g : St → Out Val × St} (hf : KeepsTag f) (hg : KeepsTag g) (hQ : ∀ a b, Q a b → a.tag = b.tag) {s1 s2 : St}
    (h : Beside Q t s1.el s2.el) {i : Nat} {c1 : Elem} (hc : s1.el.elements[i]? = some c1) (ht : c1.tag = t) :
    Beside Q t (onChild s1 i f).2.el (onChild s2 i g).2.el := by
  obtain ⟨c2, hc2, hq⟩ := h.pair hc
  have ht2 : c2.tag = t := by
    rcases hq with hq | hq
    · rw [← hQ _ _ hq, ht]
    · exact hq.2
  unfold onChild
  simp only [hc, hc2]
  refine h.setChild i (.inr ⟨?_, ?_⟩)
  · rw [hf, ht]
  · rw [hg, ht2]

theorem unionLoop_beside {f g : Proxy → St → Out Val × St} (title : Title) (ps : List Proxy)
    (h : ∀ p ∈ ps, BesideAlike (Beside Q t) (f p) (g p)) {errs1 errs2 : Dict ErrKey VErr} (he : ErrsRel (fun _ => -1) errs1 errs2) :
    BesideAlike (Beside Q t) (unionLoop f title ps errs1) (unionLoop g title ps errs2) := by
  induction ps generalizing errs1 errs2 with
  | nil =>
    intro s1 s2 _ hs
    unfold unionLoop
    rw [isEmpty_lines he]
    split
    · exact ⟨⟨rfl, trivial⟩, hs⟩
    · refine ⟨?_, ?_, hs.2⟩
      · simp only [OutRel, intoValidationError_lines]
        rw [he]
      · simp only [stepForward, hs.1.2.2.2.1]
        exact hs.1.setNext _
  | cons p ps ih =>
    have ih := fun {e1 e2} he => ih (errs1 := e1) (errs2 := e2) (fun t ht => h t (by simp [ht])) he
    intro s1 s2 _ hs
    obtain ⟨h1, h2⟩ := h p (by simp) ⟨s1.el.createSnapshot, s1.sm⟩ ⟨s2.el.createSnapshot, s2.sm⟩ trivial hs
    unfold unionLoop
    cases hf : f p ⟨s1.el.createSnapshot, s1.sm⟩ with
    | mk o1 s1' =>
      cases hg : g p ⟨s2.el.createSnapshot, s2.sm⟩ with
      | mk o2 s2' =>
        rw [hf, hg] at h1 h2
        simp only at h1 h2
        cases o1 <;> cases o2 <;> simp only [OutRel] at h1
        · obtain ⟨rfl, hP⟩ := h1
          simp only
          split
          · exact ih he _ _ trivial ⟨hs.1, h2.2⟩
          · exact ⟨⟨rfl, trivial⟩, h2.1, h2.2⟩
        · rename_i e1 e2
          have ht : e1.title = e2.title := by have := congrArg VErr.title h1; exact this
          simp only
          rw [ht]
          exact ih (errs_set_lines he _ h1) _ _ trivial ⟨hs.1, h2.2⟩
        · exact ⟨h1, hs.1, h2.2⟩
        · exact ⟨trivial, hs.1, h2.2⟩

variable (S : Sim env env eas .any True True True Q (fun _ => True) (fun _ => -1)) (hQ : ∀ a b, Q a b → a.tag = b.tag)
include S hQ

theorem taggedLoop_beside {f g : Proxy → St → Out Val × St} (loc : Loc) (a : String) (mode : Mode)
    (ps : List (String × Proxy)) (h : ∀ p ∈ ps, BesideAlike (Beside Q t) (f p.2) (g p.2)) (hT : ∀ p ∈ ps, p.2.name ≠ t) :
    BesideAlike (Beside Q t) (taggedLoop f loc a mode ps) (taggedLoop g loc a mode ps) := by
  induction ps with
  | nil => intro s1 s2 _ hs; exact ⟨⟨rfl, trivial⟩, hs⟩
  | cons p ps ih =>
    have ih := ih (fun t ht => h t (by simp [ht])) (fun t ht => hT t (by simp [ht]))
    intro s1 s2 _ hs
    obtain ⟨tag, p⟩ := p
    obtain ⟨h3, h4⟩ := hs.1.search hQ p.name mode false
    unfold taggedLoop
    cases h1 : s1.el.search p.name mode false with
    | mk o1 e1 =>
      cases h2 : s2.el.search p.name mode false with
      | mk o2 e2 =>
        rw [h1, h2] at h3 h4
        simp only at h3 h4
        subst h3
        cases o1 with
        | none => exact ih { s1 with el := e1 } { s2 with el := e2 } trivial (stRel h4 _ _)
        | some i =>
          obtain ⟨c1, hc1, hct, _⟩ := search_index h1
          obtain ⟨c2, hc2, hq⟩ := h4.pair hc1
          have hq : Q c1 c2 := hq.resolve_right fun hh => hT (tag, p) (by simp) (hct ▸ hh.1)
          have ha : c1.getAttrib a = c2.getAttrib a := by
            rw [← popAttrib_fst, ← popAttrib_fst]; exact (S.attrib c1 c2 a trivial hq).1
          simp only [hc1, hc2, ha]
          split
          · exact h (tag, p) (by simp) _ _ trivial (stRel h4 _ _)
          · exact ih { s1 with el := e1 } { s2 with el := e2 } trivial (stRel h4 _ _)

/-- A field that does not look for `t` is read alike. -/
theorem deser_avoids (hraw : ∀ c1 c2, Q c1 c2 → toNative env.backend c1.detached = toNative env.backend c2.detached ∧ Q c1.hollow c2.hollow)
    (n : Nat) (s : Ser) (hs : s.Avoids t) (loc : Loc) :
    BesideAlike (Beside Q t) (deser env eas n s loc) (deser env eas n s loc) := by
  have hv : env.ValidatorsRespect SameChildren := S.keeps
  induction n generalizing s loc with
  | zero => intro s1 s2 _ h; exact ⟨trivial, h⟩
  | succ n ih =>
    have hk : ∀ s l, KeepsTag (deser env eas n s l) :=
      fun s l st => (deser_rel sameChildren_rel env hv eas n s l st).1
    have hq : ∀ s l, BesideAlike Q (deser env eas n s l) (deser env eas n s l) := fun s l s1 s2 _ h =>
      deser_agree S (env_allowed_all env) n s (allowed_all s) l s1 s2 (fun _ => trivial) h
    intro s1 s2 _ h
    change OutRel _ _ (deserStep env eas (deser env eas n) n s loc s1).1 (deserStep env eas (deser env eas n) n s loc s2).1 ∧
      StRel _ _ (deserStep env eas (deser env eas n) n s loc s1).2 (deserStep env eas (deser env eas n) n s loc s2).2
    have hsm : ∀ {f g : St → Out Val × St}, BesideAlike Q f g →
        BesideAlike Q (fun c => f ⟨c.el, c.sm.set loc c.el.line⟩) (fun c => g ⟨c.el, c.sm.set loc c.el.line⟩) := by
      intro f g hfg s1 s2 hX h
      exact hfg _ _ trivial (stRel h.1 _ _)
    have hchild : ∀ (u : String) (m : Mode), u ≠ t → ∀ {f g : St → Out Val × St}, BesideAlike Q f g →
        let q1 := (match s1.el.popElement u m with
          | (none, el) => (.ok .none, { s1 with el := el })
          | (some i, el) => onChild { s1 with el := el } i f : Out Val × St)
        let q2 := (match s2.el.popElement u m with
          | (none, el) => (.ok .none, { s2 with el := el })
          | (some i, el) => onChild { s2 with el := el } i g : Out Val × St)
        OutRel (fun _ => True) (fun _ => -1) q1.1 q2.1 ∧ StRel (Beside Q t) (fun _ => -1) q1.2 q2.2 := by
      intro u m hu f g hfg
      obtain ⟨h3, h4⟩ := h.1.search hQ u m true
      simp only [popElement]
      cases h1 : s1.el.search u m true with
      | mk o1 e1 =>
        cases h2 : s2.el.search u m true with
        | mk o2 e2 =>
          rw [h1, h2] at h3 h4
          simp only at h3 h4
          subst h3
          cases o1 with
          | none => exact ⟨⟨rfl, trivial⟩, stRel h4 _ _⟩
          | some i =>
            obtain ⟨c, hc, hct, _⟩ := search_index h1
            exact onChild_beside (s1 := ⟨e1, s1.sm⟩) (s2 := ⟨e2, s2.sm⟩) hfg h4 hc (hct ▸ hu)
    unfold deserStep
    cases hs with
    | @text c nl =>
      have key : ∀ (e1' e2' : Elem), Beside Q t e1' e2' →
          OutRel (fun _ => True) (fun _ => -1) (.ok (textVal eas e1'.text)) (.ok (textVal eas e2'.text)) ∧
            StRel (Beside Q t) (fun _ => -1) { s1 with el := e1'.popText.2 } { s2 with el := e2'.popText.2 } := by
        intro e1' e2' h'
        obtain ⟨ht, hx, ha⟩ := h'
        exact ⟨⟨by rw [hx], trivial⟩, ⟨ht, rfl, ha⟩, smRel_any _ _⟩
      simp only [deserText]
      by_cases hcc : c = true
      · simp only [hcc, if_true]
        exact ⟨⟨rfl, trivial⟩, h⟩
      · simp only [hcc, Bool.false_eq_true, if_false]
        cases nl with
        | false => exact key _ _ h.1
        | true =>
          obtain ⟨h1, h2⟩ := h.1.popAttrib nilAttr
          simp only [if_true, isNil, h1]
          cases decide ((s2.el.popAttrib nilAttr).1 = some "true") with
          | true => exact ⟨⟨rfl, trivial⟩, stRel h2 _ _⟩
          | false => exact key _ _ h2
    | @attr nm c =>
      simp only
      by_cases hcc : c = true
      · simp only [hcc, if_true]
        exact ⟨⟨rfl, trivial⟩, h⟩
      · simp only [hcc, Bool.false_eq_true, if_false]
        obtain ⟨h1, h2⟩ := h.1.popAttrib nm
        cases hp1 : s1.el.popAttrib nm with
        | mk o1 e1 =>
          cases hp2 : s2.el.popAttrib nm with
          | mk o2 e2 =>
            rw [hp1, hp2] at h1 h2
            simp only at h1 h2
            subst h1
            cases o1 with
            | none => exact ⟨⟨rfl, trivial⟩, stRel h2 _ _⟩
            | some v => exact ⟨⟨rfl, trivial⟩, stRel h2 _ _⟩
    | @attrs a =>
      obtain ⟨ht, hx, ha, hn, hl, hc⟩ := h.1
      simp only [deserAttrs, popAttributes, ha]
      split
      · exact ⟨⟨rfl, trivial⟩, h⟩
      · cases s2.el.attrib with
        | none => exact ⟨⟨rfl, trivial⟩, ⟨ht, hx, rfl, hn, hl, hc⟩, smRel_any _ _⟩
        | some d => exact ⟨⟨rfl, trivial⟩, ⟨ht, hx, rfl, hn, hl, hc⟩, smRel_any _ _⟩
    | @elem nm ns m c nl hne =>
      simp only
      split
      · exact ⟨⟨rfl, trivial⟩, h⟩
      · exact hchild nm m hne (hsm fun s1 s2 _ h => deserText_agree S _ nl s1 s2 (fun _ => trivial) h)
    | @mapElem a nm m hne =>
      simp only
      split
      · exact ⟨⟨rfl, trivial⟩, h⟩
      · exact hchild nm m hne (hsm (deserAttrs_agree S trivial a))
    | @raw nm m c hne =>
      simp only
      split
      · exact ⟨⟨rfl, trivial⟩, h⟩
      · obtain ⟨h3, h4⟩ := h.1.search hQ nm m true
        simp only [popElementRemove, popElement]
        cases h1 : s1.el.search nm m true with
        | mk o1 e1 =>
          cases h2 : s2.el.search nm m true with
          | mk o2 e2 =>
            rw [h1, h2] at h3 h4
            simp only at h3 h4
            subst h3
            cases o1 with
            | none => exact ⟨⟨rfl, trivial⟩, stRel h4 _ _⟩
            | some i =>
              obtain ⟨c1, hc1, hct, _⟩ := search_index h1
              obtain ⟨c2, hc2, hq⟩ := h4.pair hc1
              have hq : Q c1 c2 := hq.resolve_right fun hh => hne (hct ▸ hh.1)
              obtain ⟨r1, r2⟩ := hraw c1 c2 hq
              simp only [hc1, hc2]
              exact ⟨⟨by rw [r1], trivial⟩, stRel (h4.setChild i (.inl r2)) _ _⟩
    | @proxy p hne =>
      simp only
      cases hm : env.model p.cls with
      | none => exact ⟨rfl, h⟩
      | some m =>
        simp only
        split
        · exact ⟨⟨rfl, trivial⟩, h⟩
        · refine hchild p.name p.mode hne ?_
          intro t1 t2 _ ht
          obtain ⟨h1, h2⟩ := S.isNil ht.1
          cases hn1 : t1.el.isNil with
          | mk b1 el1 =>
            cases hn2 : t2.el.isNil with
            | mk b2 el2 =>
              rw [hn1, hn2] at h1 h2
              simp only at h1 h2
              subst h1
              simp only [hn1, hn2]
              cases b1 with
              | true => exact ⟨⟨rfl, trivial⟩, stRel h2 _ _⟩
              | false =>
                exact deserModel_agree S _ (fun s hs l s1 s2 _ h => deser_agree S (env_allowed_all env) n s hs l s1 s2 (fun _ => trivial) h) hk
                  p.cls m hm (env_allowed_all env _ _ hm) loc _ _ (fun _ => trivial) (stRel h2 _ _)
    | @primUnion c s hs =>
      simp only
      split
      · exact ⟨⟨rfl, trivial⟩, h⟩
      · exact ih s hs loc s1 s2 trivial h
    | @modelUnion title c alts hne =>
      simp only
      split
      · exact ⟨⟨rfl, trivial⟩, h⟩
      · exact unionLoop_beside title alts (fun p hp => ih (.proxy p) (.proxy (hne p hp)) loc) (errs1 := []) (errs2 := []) rfl s1 s2 trivial h
    | @tagged c d a m alts hne =>
      simp only
      split
      · exact ⟨⟨rfl, trivial⟩, h⟩
      · exact taggedLoop_beside S hQ loc a m alts (fun p hp => ih (.proxy p.2) (.proxy (hne p hp)) loc) hne s1 s2 trivial h
    | @wrap x path ns m c s hne =>
      simp only
      split
      · exact ⟨⟨rfl, trivial⟩, h⟩
      · have hd : BesideAlike Q (descend m (fun c => deser env eas n s loc ⟨c.el, c.sm.set loc c.el.line⟩) path)
            (descend m (fun c => deser env eas n s loc ⟨c.el, c.sm.set loc c.el.line⟩) path) := by
          intro q1 q2 _ hq'
          exact descend_agree S (hsm (hq s loc)) (fun st => hk s loc ⟨st.el, _⟩) (fun st => hk s loc ⟨st.el, _⟩) m path
            (fun _ _ => trivial) (fun _ _ => trivial) q1 q2 (fun _ => trivial) hq'
        unfold descend
        rcases h.1.find hQ x m with ⟨y, h1, h2⟩ | ⟨o, e1, e2, h1, h2, h3⟩
        · rw [h1, h2]; exact ⟨rfl, h⟩
        · rw [h1, h2]
          cases o with
          | none => exact ⟨⟨rfl, trivial⟩, stRel h3 _ _⟩
          | some i =>
            obtain ⟨c, hc, hct⟩ := findElement_index h1
            exact onChild_beside (s1 := ⟨e1, s1.sm⟩) (s2 := ⟨e2, s2.sm⟩) hd h3 hc (hct ▸ hne)
    | @homog title c s hs =>
      simp only
      split
      · exact ⟨⟨rfl, trivial⟩, h⟩
      · obtain ⟨h1, h2⟩ := homogLoop_agree (fun l => ih s hs l) (fun l => hk s l) loc n 0 [] (by simp) (errs1 := []) (errs2 := []) rfl
          trivial h
        cases hf : homogLoop (fun loc st => deser env eas n s loc st) loc n 0 [] [] s1 with
        | mk o1 s1' =>
          cases hg : homogLoop (fun loc st => deser env eas n s loc st) loc n 0 [] [] s2 with
          | mk o2 s2' =>
            rw [hf, hg] at h1 h2
            simp only at h1 h2
            cases o1 <;> cases o2 <;> simp only [LoopRel] at h1
            · obtain ⟨h3, h4, h5⟩ := h1
              simp only [homogFinish]
              rw [isEmpty_lines h5, ← h3]
              split
              · split
                · exact ⟨⟨rfl, trivial⟩, h2⟩
                · exact ⟨⟨rfl, trivial⟩, h2⟩
              · refine ⟨?_, h2⟩
                simp only [OutRel, intoValidationError_lines]
                rw [h5]
            · exact ⟨h1, h2⟩
            · exact ⟨h1, h2⟩
            · exact ⟨trivial, h2⟩
    | @hetero title c ss hs =>
      simp only
      split
      · exact ⟨⟨rfl, trivial⟩, h⟩
      · obtain ⟨h1, h2⟩ := heteroLoop_agree (X := fun _ => True) ss (fun s hs' l => ih s (hs s hs') l) (fun s l => hk s l) loc 0 [] (by simp)
          (errs1 := []) (errs2 := []) rfl trivial h
        cases hf : heteroLoop (deser env eas n) loc ss 0 [] [] s1 with
        | mk o1 s1' =>
          cases hg : heteroLoop (deser env eas n) loc ss 0 [] [] s2 with
          | mk o2 s2' =>
            rw [hf, hg] at h1 h2
            simp only at h1 h2
            cases o1 <;> cases o2 <;> simp only [LoopRel] at h1
            · obtain ⟨h3, h4, h5⟩ := h1
              simp only [heteroFinish]
              rw [isEmpty_lines h5, ← h3]
              split
              · split
                · exact ⟨⟨rfl, trivial⟩, h2⟩
                · exact ⟨⟨rfl, trivial⟩, h2⟩
              · refine ⟨?_, h2⟩
                simp only [OutRel, intoValidationError_lines]
                rw [h5]
            · exact ⟨h1, h2⟩
            · exact ⟨h1, h2⟩
            · exact ⟨trivial, h2⟩

/-- A field that is read from a child with the tag `t` changes nothing else. -/
theorem deser_inside (n : Nat) (s : Ser) (hs : s.Inside t) (loc : Loc) {s1 s2 : St} (h : Beside Q t s1.el s2.el) :
    Beside Q t (deser env eas n s loc s1).2.el (deser env eas n s loc s2).2.el := by
  have hv : env.ValidatorsRespect SameChildren := S.keeps
  induction n generalizing s loc with
  | zero => exact h
  | succ n ih =>
    have hk : ∀ s l st, SameChildren st.el (deser env eas n s l st).2.el :=
      fun s l st => deser_rel sameChildren_rel env hv eas n s l st
    change Beside Q t (deserStep env eas (deser env eas n) n s loc s1).2.el (deserStep env eas (deser env eas n) n s loc s2).2.el
    have hchild : ∀ (m : Mode) {f : St → Out Val × St}, KeepsTag f →
        let q1 := (match s1.el.popElement t m with
          | (none, el) => (.ok .none, { s1 with el := el })
          | (some i, el) => onChild { s1 with el := el } i f : Out Val × St)
        let q2 := (match s2.el.popElement t m with
          | (none, el) => (.ok .none, { s2 with el := el })
          | (some i, el) => onChild { s2 with el := el } i f : Out Val × St)
        Beside Q t q1.2.el q2.2.el := by
      intro m f hf
      obtain ⟨h3, h4⟩ := h.search hQ t m true
      simp only [popElement]
      cases h1 : s1.el.search t m true with
      | mk o1 e1 =>
        cases h2 : s2.el.search t m true with
        | mk o2 e2 =>
          rw [h1, h2] at h3 h4
          simp only at h3 h4
          subst h3
          cases o1 with
          | none => exact h4
          | some i =>
            obtain ⟨c, hc, hct, _⟩ := search_index h1
            exact onChild_inside (s1 := ⟨e1, s1.sm⟩) (s2 := ⟨e2, s2.sm⟩) hf hf hQ h4 hc hct
    unfold deserStep
    cases hs with
    | @elem ns m c nl =>
      simp only
      by_cases hcc : c = true
      · simp only [hcc, if_true]; exact h
      · simp only [hcc, if_false, Bool.false_eq_true]
        exact hchild m fun st => (deserText_rel sameChildren_rel eas _ nl ⟨st.el, _⟩).1
    | @mapElem a m =>
      simp only
      by_cases hcc : a.computed = true
      · simp only [hcc, if_true]; exact h
      · simp only [hcc, if_false, Bool.false_eq_true]
        exact hchild m fun st => (deserAttrs_rel sameChildren_rel a ⟨st.el, _⟩).1
    | @raw m c =>
      simp only
      by_cases hcc : c = true
      · simp only [hcc, if_true]; exact h
      · simp only [hcc, if_false, Bool.false_eq_true]
        obtain ⟨h3, h4⟩ := h.search hQ t m true
        simp only [popElementRemove, popElement]
        cases h1 : s1.el.search t m true with
        | mk o1 e1 =>
          cases h2 : s2.el.search t m true with
          | mk o2 e2 =>
            rw [h1, h2] at h3 h4
            simp only at h3 h4
            subst h3
            cases o1 with
            | none => exact h4
            | some i =>
              obtain ⟨c1, hc1, hct, _⟩ := search_index h1
              obtain ⟨c2, hc2, hct2, _⟩ := search_index h2
              simp only [hc1, hc2]
              exact h4.setChild i (.inr ⟨hct, hct2⟩)
    | @proxy p hp =>
      simp only
      cases hm : env.model p.cls with
      | none => exact h
      | some m =>
        simp only
        by_cases hcc : p.computed = true
        · simp only [hcc, if_true]; exact h
        · simp only [hcc, if_false, Bool.false_eq_true]
          rw [hp]
          refine hchild p.mode ?_
          intro st
          have hn := (sameChildren_rel.isNil st.el).1
          cases hn1 : st.el.isNil with
          | mk b1 el1 =>
            rw [hn1] at hn
            simp only [hn1]
            cases b1 with
            | true => exact hn
            | false => exact (deserModel_rel sameChildren_rel env hk p.cls m (fun fs hb => hv p.cls m fs hm hb) loc ⟨el1, _⟩).1.trans hn
    | @primUnion c s hs =>
      simp only
      by_cases hcc : c = true
      · simp only [hcc, if_true]; exact h
      · simp only [hcc, if_false, Bool.false_eq_true]
        exact ih s hs loc
    | @wrap path ns m c s =>
      simp only
      by_cases hcc : c = true
      · simp only [hcc, if_true]; exact h
      · simp only [hcc, if_false, Bool.false_eq_true]
        have hd : KeepsTag (descend m (fun c => deser env eas n s loc ⟨c.el, c.sm.set loc c.el.line⟩) path) :=
          fun st => (descend_rel sameChildren_rel (f := fun c => deser env eas n s loc ⟨c.el, c.sm.set loc c.el.line⟩)
            (fun st => hk s loc ⟨st.el, _⟩) m path st).1
        unfold descend
        rcases h.find hQ t m with ⟨y, h1, h2⟩ | ⟨o, e1, e2, h1, h2, h3⟩
        · rw [h1, h2]; exact h
        · rw [h1, h2]
          cases o with
          | none => exact h3
          | some i =>
            obtain ⟨c, hc, hct⟩ := findElement_index h1
            exact onChild_inside (s1 := ⟨e1, s1.sm⟩) (s2 := ⟨e2, s2.sm⟩) hd hd hQ h3 hc hct

end

end PXml
