import Verif.Lemmas.Content

/-! Reading raises nothing but validation errors. -/

namespace PXml

open Elem

@[simp] theorem Out.isCrash_ok {α : Type} (a : α) : (Out.ok a).isCrash = false := rfl
@[simp] theorem Out.isCrash_verr {α : Type} (e : VErr) : (Out.verr e : Out α).isCrash = false := rfl
@[simp] theorem Out.isCrash_crash {α : Type} (e : PyErr) : (Out.crash e : Out α).isCrash = true := rfl
@[simp] theorem Out.isCrash_diverge {α : Type} : (Out.diverge : Out α).isCrash = false := rfl

/-- `f` raises no exception on elements with good cursors and keeps the cursors good. -/
def Safe {α : Type} (f : St → Out α × St) : Prop := ∀ st, st.el.Good → (f st).1.isCrash = false ∧ (f st).2.el.Good

theorem search_index {e : Elem} {tag : String} {mode : Mode} {step : Bool} {i : Nat} {e' : Elem}
    (h : e.search tag mode step = (some i, e')) : ∃ c, e'.elements[i]? = some c ∧ c.tag = tag ∧ c ∈ e.elements := by
  cases mode with
  | strict =>
    simp only [search, strictSearch] at h
    split at h
    · rename_i c hc
      split at h
      · rename_i ht
        cases h
        refine ⟨c, ?_, ht, List.mem_of_getElem? hc⟩
        split <;> exact hc
      · cases h
    · cases h
  | ordered =>
    simp only [search, orderedSearch] at h
    split at h
    · rename_i i hm
      cases h
      obtain ⟨_, ⟨c, h2, h3⟩, _⟩ := firstMatch_some hm
      refine ⟨c, ?_, h3, List.mem_of_getElem? h2⟩
      split <;> exact h2
    · cases h
  | unordered =>
    simp only [search, unorderedSearch] at h
    split at h
    · rename_i i hm
      cases h
      obtain ⟨h1, ⟨c, h2, h3⟩, _⟩ := firstMatch_some hm
      have hi := firstMatch_lt hm
      refine ⟨c, ?_, h3, List.mem_of_getElem? h2⟩
      simp only
      rw [swap_getElem? (by omega) hi]
      simpa using h2
    · cases h

theorem search_good {e : Elem} {tag : String} {mode : Mode} {step : Bool} (h : e.Good) :
    (e.search tag mode step).2.Good := good_rel.search e tag mode step h

theorem Elem.Good.child {e : Elem} (h : e.Good) {i : Nat} {c : Elem} (hc : e.elements[i]? = some c) : c.Good := by
  cases h with | mk _ h2 => exact h2 c (List.mem_of_getElem? hc)

theorem findElement_ok {e : Elem} (h : e.Good) (tag : String) (mode : Mode) :
    ∃ r, e.findElement tag mode = .ok r ∧ r.2.Good ∧ ∀ i, r.1 = some i → ∃ c, r.2.elements[i]? = some c := by
  obtain ⟨h1, h2⟩ := h
  unfold findElement lookBehind
  by_cases h0 : e.next = 0
  · simp only [h0, if_true, bind, Except.bind]
    refine ⟨_, rfl, search_good ⟨h1, h2⟩, ?_⟩
    intro i hi
    obtain ⟨c, hc, _⟩ := search_index (show e.search tag mode true = (some i, (e.search tag mode true).2) by
      rw [← hi])
    exact ⟨c, hc⟩
  · have hlt : e.next - 1 < e.elements.length := by omega
    simp only [h0, if_false, List.getElem?_eq_getElem hlt, bind, Except.bind]
    by_cases ht : e.elements[e.next - 1].tag = tag
    · simp only [ht, decide_true, if_true]
      refine ⟨_, rfl, ⟨h1, h2⟩, ?_⟩
      rintro i ⟨⟩
      exact ⟨_, List.getElem?_eq_getElem hlt⟩
    · simp only [ht, decide_false]
      refine ⟨_, rfl, search_good ⟨h1, h2⟩, ?_⟩
      intro i hi
      obtain ⟨c, hc, _⟩ := search_index (show e.search tag mode true = (some i, (e.search tag mode true).2) by
        rw [← hi])
      exact ⟨c, hc⟩

theorem onChild_safe {α : Type} {f : St → Out α × St} (h : Safe f) {st : St} (hg : st.el.Good) {i : Nat} {c : Elem}
    (hc : st.el.elements[i]? = some c) : (onChild st i f).1.isCrash = false ∧ (onChild st i f).2.el.Good := by
  unfold onChild
  rw [hc]
  have := h ⟨c, st.sm⟩ (hg.child hc)
  exact ⟨this.1, good_rel.child _ _ c _ hc (fun _ => this.2) hg⟩

theorem descend_safe {f : St → Out Val × St} (h : Safe f) (mode : Mode) (path : List String) :
    Safe (descend mode f path) := by
  induction path with
  | nil => exact h
  | cons t ts ih =>
    intro st hg
    unfold descend
    obtain ⟨r, h1, h2, h3⟩ := findElement_ok hg t mode
    rw [h1]
    obtain ⟨o, el⟩ := r
    cases o with
    | none => exact ⟨rfl, h2⟩
    | some i =>
      obtain ⟨c, hc⟩ := h3 i rfl
      exact onChild_safe ih (st := ⟨el, st.sm⟩) h2 hc

theorem homogLoop_safe {f : Loc → St → Out Val × St} (h : ∀ l, Safe (f l)) (loc : Loc) (n idx : Nat)
    (acc : List Val) (errs : Dict ErrKey VErr) : Safe (homogLoop f loc n idx acc errs) := by
  induction n generalizing idx acc errs with
  | zero => intro st hg; exact ⟨rfl, hg⟩
  | succ n ih =>
    intro st hg
    unfold homogLoop
    have hs := h (loc ++ [.idx idx]) st hg
    cases hr : f (loc ++ [.idx idx]) st with
    | mk o st' =>
      rw [hr] at hs
      cases o with
      | ok v =>
        simp only
        split
        · exact ⟨rfl, hs.2⟩
        · exact ih _ _ _ _ hs.2
      | verr e => exact ih _ _ _ _ hs.2
      | crash e => exact absurd hs.1 (by simp)
      | diverge => exact ⟨rfl, hs.2⟩

theorem heteroLoop_safe {f : Ser → Loc → St → Out Val × St} (loc : Loc) (ss : List Ser)
    (h : ∀ s ∈ ss, ∀ l, Safe (f s l)) (idx : Nat) (acc : List Val) (errs : Dict ErrKey VErr) :
    Safe (heteroLoop f loc ss idx acc errs) := by
  induction ss generalizing idx acc errs with
  | nil => intro st hg; exact ⟨rfl, hg⟩
  | cons s ss ih =>
    have ih := ih (fun t ht => h t (by simp [ht]))
    intro st hg
    unfold heteroLoop
    have hs := h s (by simp) (loc ++ [.idx idx]) st hg
    cases hr : f s (loc ++ [.idx idx]) st with
    | mk o st' =>
      rw [hr] at hs
      cases o with
      | ok v => exact ih _ _ _ _ hs.2
      | verr e => exact ih _ _ _ _ hs.2
      | crash e => exact absurd hs.1 (by simp)
      | diverge => exact ⟨rfl, hs.2⟩

theorem unionLoop_safe {f : Proxy → St → Out Val × St}
    (hv : ∀ p st e st', f p st = (.verr e, st') → st.el.next < st.el.elements.length) (title : Title)
    (ps : List Proxy) (h : ∀ p ∈ ps, Safe (f p)) (errs : Dict ErrKey VErr) (st : St)
    (he : errs ≠ [] → st.el.next < st.el.elements.length) (hg : st.el.Good) :
    (unionLoop f title ps errs st).1.isCrash = false ∧ (unionLoop f title ps errs st).2.el.Good := by
  induction ps generalizing errs st with
  | nil =>
    unfold unionLoop
    split
    · exact ⟨rfl, hg⟩
    · rename_i hne; exact ⟨rfl, good_rel.stepForward _ (he (by simpa using hne)) hg⟩
  | cons p ps ih =>
    have ih := ih (fun t ht => h t (by simp [ht]))
    unfold unionLoop
    have hs := h p (by simp) ⟨st.el.createSnapshot, st.sm⟩ hg
    cases hr : f p ⟨st.el.createSnapshot, st.sm⟩ with
    | mk o st' =>
      rw [hr] at hs
      cases o with
      | ok v =>
        simp only
        split
        · exact ih _ { st with sm := st'.sm } he hg
        · exact ⟨rfl, good_rel.applySnapshot st.el _ (fun _ => hs.2) hg⟩
      | verr e =>
        exact ih _ { st with sm := st'.sm } (fun _ => hv p ⟨st.el.createSnapshot, st.sm⟩ _ _ hr) hg
      | crash e => exact absurd hs.1 (by simp)
      | diverge => exact ⟨rfl, hg⟩

theorem taggedLoop_safe {f : Proxy → St → Out Val × St} (loc : Loc) (a : String) (mode : Mode)
    (ps : List (String × Proxy)) (h : ∀ p ∈ ps, Safe (f p.2)) : Safe (taggedLoop f loc a mode ps) := by
  induction ps with
  | nil => intro st hg; exact ⟨rfl, hg⟩
  | cons p ps ih =>
    have ih := ih (fun t ht => h t (by simp [ht]))
    have hp := h p (by simp)
    obtain ⟨tag, p⟩ := p
    intro st hg
    unfold taggedLoop
    have hs := search_good (tag := p.name) (mode := mode) (step := false) hg
    split
    · rename_i i el hse
      rw [hse] at hs
      obtain ⟨c, hc, _⟩ := search_index hse
      rw [hc]
      simp only
      split
      · exact hp ⟨el, _⟩ hs
      · exact ih { st with el := el } hs
    · rename_i el hse
      rw [hse] at hs
      exact ih { st with el := el } hs

theorem deserFields_safe {f : Ser → Loc → St → Out Val × St} (fs : List Field)
    (h : ∀ fd ∈ fs, ∀ l, Safe (f fd.ser l))
    (hv : ∀ fd ∈ fs, ∀ v, fd.validator = some v → ∀ e : Elem, e.Good → (v e).1.isCrash = false ∧ (v e).2.Good)
    (res : Dict String Val) (errs : Dict ErrKey VErr) : Safe (deserFields f fs res errs) := by
  induction fs generalizing res errs with
  | nil => intro st hg; exact ⟨rfl, hg⟩
  | cons fd fs ih =>
    have ih := ih (fun t ht => h t (by simp [ht])) (fun t ht => hv t (by simp [ht]))
    intro st hg
    unfold deserFields
    simp only
    cases hval : fd.validator with
    | some v =>
      have hs := hv fd (List.mem_cons_self ..) v hval st.el hg
      simp only
      cases hr : v st.el with
      | mk o el' =>
        rw [hr] at hs
        simp only
        cases o with
        | ok v => exact ih _ _ ⟨el', _⟩ hs.2
        | verr e => exact ih _ _ ⟨el', _⟩ hs.2
        | crash e => exact absurd hs.1 (by simp)
        | diverge => exact ⟨rfl, hs.2⟩
    | none =>
      simp only
      have hs := h fd (by simp) [.name fd.name] { st with sm := st.sm.set [.name fd.name] st.el.line } hg
      cases hr : f fd.ser [.name fd.name] { st with sm := st.sm.set [.name fd.name] st.el.line } with
      | mk o st' =>
        rw [hr] at hs
        cases o with
        | ok v => exact ih _ _ _ hs.2
        | verr e => exact ih _ _ _ hs.2
        | crash e => exact absurd hs.1 (by simp)
        | diverge => exact ⟨rfl, hs.2⟩

theorem validateModel_noCrash (env : Env) (cls : String) (m : ModelSer) (d : Val) (st : St) :
    (validateModel env cls m d st).isCrash = false := by
  unfold validateModel
  split
  · rfl
  · split <;> rfl

theorem deserModel_safe (env : Env) {f : Ser → Loc → St → Out Val × St} (P : Ser → Prop)
    (h : ∀ s, s.Everywhere P → ∀ l, Safe (f s l)) (cls : String) (m : ModelSer) (hm : m.Everywhere P)
    (hv : ∀ fs, m.body = .fields fs → ∀ fd ∈ fs, ∀ v, fd.validator = some v → ∀ e : Elem, e.Good →
      (v e).1.isCrash = false ∧ (v e).2.Good)
    (loc : Loc) : Safe (deserModel env f cls m loc) := by
  intro st hg
  unfold deserModel
  unfold ModelSer.Everywhere at hm
  split
  · rename_i fs hb
    rw [hb] at hm
    have hs := deserFields_safe fs (fun fd hfd => h _ (hm fd hfd)) (hv fs hb) [] [] st hg
    cases hr : deserFields f fs [] [] st with
    | mk o st' =>
      rw [hr] at hs
      cases o with
      | ok v =>
        simp only
        split
        · exact ⟨validateModel_noCrash .., hs.2⟩
        · exact ⟨rfl, hs.2⟩
      | verr e => exact hs
      | crash e => exact absurd hs.1 (by simp)
      | diverge => exact hs
  · rename_i s hb
    rw [hb] at hm
    have hs := h s hm loc st hg
    cases hr : f s loc st with
    | mk o st' =>
      rw [hr] at hs
      cases o with
      | ok v => exact ⟨validateModel_noCrash .., hs.2⟩
      | verr e => exact ⟨rfl, hs.2⟩
      | crash e => exact absurd hs.1 (by simp)
      | diverge => exact ⟨rfl, hs.2⟩

theorem deserText_safe (eas c nl : Bool) : Safe (deserText eas c nl) := by
  intro st hg
  refine ⟨?_, deserText_rel good_rel eas c nl st hg⟩
  unfold deserText
  split
  · rfl
  · split <;> rfl

theorem deserAttrs_safe (a : AttrsSer) : Safe (deserAttrs a) := by
  intro st hg
  refine ⟨?_, deserAttrs_rel good_rel a st hg⟩
  unfold deserAttrs
  split
  · rfl
  · split <;> rfl

theorem deser_safe (env : Env) (hE : env.Everywhere (Ser.Resolved env)) (hv : env.ValidatorsSafe) (eas : Bool)
    (n : Nat) (s : Ser) (hs : s.Everywhere (Ser.Resolved env)) (loc : Loc) : Safe (deser env eas n s loc) := by
  induction n generalizing s loc with
  | zero => intro st hg; exact ⟨rfl, hg⟩
  | succ n ih =>
    intro st hg
    have hp : ∀ p st e st', deser env eas n (.proxy p) loc st = (.verr e, st') →
        st.el.next < st.el.elements.length := fun p st e st' h => deser_proxy_verr h
    change (deserStep env eas (deser env eas n) n s loc st).1.isCrash = false ∧
      (deserStep env eas (deser env eas n) n s loc st).2.el.Good
    generalize deser env eas n = F at ih hp ⊢
    unfold deserStep
    obtain ⟨hs1, hs2⟩ := hs
    cases s with
    | text c nl => exact deserText_safe eas c nl st hg
    | attr nm c =>
      simp only
      split
      · exact ⟨rfl, hg⟩
      · have hs := good_rel.popAttrib st.el nm hg
        cases hn : st.el.popAttrib nm with
        | mk b el => rw [hn] at hs; cases b <;> exact ⟨rfl, hs⟩
    | elem nm ns m c nl =>
      simp only
      split
      · exact ⟨rfl, hg⟩
      · have hs := search_good (tag := nm) (mode := m) (step := true) hg
        split
        · rename_i el hp; rw [show st.el.search nm m true = _ from hp] at hs; exact ⟨rfl, hs⟩
        · rename_i i el hp; rw [show st.el.search nm m true = _ from hp] at hs
          obtain ⟨c', hc', _⟩ := search_index hp
          exact onChild_safe (f := fun c_1 => deserText eas c nl ⟨c_1.el, c_1.sm.set loc c_1.el.line⟩)
            (fun st hg => deserText_safe eas c nl _ hg) (st := ⟨el, st.sm⟩) hs hc'
    | attrs a => exact deserAttrs_safe a st hg
    | mapElem a nm m =>
      simp only
      split
      · exact ⟨rfl, hg⟩
      · have hs := search_good (tag := nm) (mode := m) (step := true) hg
        split
        · rename_i el hp; rw [show st.el.search nm m true = _ from hp] at hs; exact ⟨rfl, hs⟩
        · rename_i i el hp; rw [show st.el.search nm m true = _ from hp] at hs
          obtain ⟨c', hc', _⟩ := search_index hp
          exact onChild_safe (f := fun c => deserAttrs a ⟨c.el, c.sm.set loc c.el.line⟩)
            (fun st hg => deserAttrs_safe a _ hg) (st := ⟨el, st.sm⟩) hs hc'
    | raw nm m c =>
      simp only
      split
      · exact ⟨rfl, hg⟩
      · unfold popElementRemove popElement
        have hs := search_good (tag := nm) (mode := m) (step := true) hg
        cases hp : st.el.search nm m true with
        | mk o el =>
          rw [hp] at hs
          cases o with
          | none => exact ⟨rfl, hs⟩
          | some i =>
            simp only
            cases hc : el.elements[i]? with
            | none => exact ⟨rfl, hs⟩
            | some c => exact ⟨rfl, good_rel.hollow _ _ c hc hs⟩
    | proxy p =>
      simp only
      simp only [Ser.Resolved] at hs1
      split
      · rename_i h0; rw [h0] at hs1; simp at hs1
      · rename_i m hm
        split
        · exact ⟨rfl, hg⟩
        · have hs := search_good (tag := p.name) (mode := p.mode) (step := true) hg
          split
          · rename_i el hp; rw [show st.el.search p.name p.mode true = _ from hp] at hs; exact ⟨rfl, hs⟩
          · rename_i i el hp; rw [show st.el.search p.name p.mode true = _ from hp] at hs
            obtain ⟨c', hc', _⟩ := search_index hp
            refine onChild_safe (st := ⟨el, st.sm⟩) ?_ hs hc'
            intro c hcg
            have hs := good_rel.isNil c.el hcg
            simp only
            cases hn : c.el.isNil with
            | mk b el' =>
              rw [hn] at hs
              cases b with
              | true => exact ⟨rfl, hs⟩
              | false =>
                exact deserModel_safe env _ (fun s hs l => ih s hs l) p.cls m (hE _ _ hm)
                  (fun fs hb => hv _ _ fs hm hb) loc ⟨el', _⟩ hs
    | primUnion c inner =>
      simp only
      split
      · exact ⟨rfl, hg⟩
      · exact ih _ (hs2 _ (by simp [Ser.subs])) _ _ hg
    | modelUnion t c alts =>
      simp only
      split
      · exact ⟨rfl, hg⟩
      · exact unionLoop_safe hp t alts (fun p hp => ih (.proxy p) (hs2 _ (by simp [Ser.subs, hp])) loc) [] st (by simp) hg
    | tagged c d a m alts =>
      simp only
      split
      · exact ⟨rfl, hg⟩
      · exact taggedLoop_safe loc a m alts
          (fun p hp => ih (.proxy p.2) (hs2 _ (by simp only [Ser.subs, List.mem_map]; exact ⟨p, hp, rfl⟩)) loc) st hg
    | wrap path ns m c inner =>
      simp only
      split
      · exact ⟨rfl, hg⟩
      · exact descend_safe (f := fun c => F inner loc ⟨c.el, c.sm.set loc c.el.line⟩)
          (fun st hg => ih inner (hs2 _ (by simp [Ser.subs])) loc _ hg) m path st hg
    | homog t c inner =>
      simp only
      split
      · exact ⟨rfl, hg⟩
      · have hs := homogLoop_safe (fun l => ih inner (hs2 _ (by simp [Ser.subs])) l) loc n 0 [] [] st hg
        cases hr : homogLoop (fun loc st => F inner loc st) loc n 0 [] [] st with
        | mk o st' =>
          rw [hr] at hs
          cases o with
          | ok r =>
            refine ⟨?_, hs.2⟩
            simp only [homogFinish]; split
            · split <;> rfl
            · rfl
          | verr e => exact hs
          | crash e => exact absurd hs.1 (by simp)
          | diverge => exact hs
    | hetero t c inners =>
      simp only
      split
      · exact ⟨rfl, hg⟩
      · have hs := heteroLoop_safe loc inners (fun s hs l => ih s (hs2 _ (by simpa [Ser.subs] using hs)) l) 0 [] [] st hg
        cases hr : heteroLoop F loc inners 0 [] [] st with
        | mk o st' =>
          rw [hr] at hs
          cases o with
          | ok r =>
            refine ⟨?_, hs.2⟩
            simp only [heteroFinish]; split
            · split <;> rfl
            · rfl
          | verr e => exact hs
          | crash e => exact absurd hs.1 (by simp)
          | diverge => exact hs

end PXml
