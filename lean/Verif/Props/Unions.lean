import Verif.Lemmas.SimEq
import Verif.Lemmas.Candidate
import Verif.Example

/-!
# Unions of models (C11, C12) and tagged unions (C33)

`alone p` is the reading of the element by the alternative `p` as if it were the only one.
-/

namespace PXml

open Elem

/-- The alternative did not find its element, or failed to validate. -/
def Out.NoValue (o : Out Val) : Prop := o = .ok .none ∨ ∃ e, o = .verr e

theorem noValue_congr {o o' : Out Val} (h : o.noLines = o'.noLines) (ho : o.NoValue) : o'.NoValue := by
  rcases ho with rfl | ⟨e, rfl⟩
  · exact .inl (noLines_ok.1 h.symm)
  · obtain ⟨e', he, _⟩ := noLines_verr h.symm
    exact .inr ⟨e', he⟩

/-- The outcome of an alternative does not depend on the lines seen before. -/
def Indep (rec : Proxy → St → Out Val × St) : Prop := ∀ p el sm sm',
  (rec p ⟨el, sm⟩).1.noLines = (rec p ⟨el, sm'⟩).1.noLines ∧ (rec p ⟨el, sm⟩).2.el = (rec p ⟨el, sm'⟩).2.el

theorem unionLoop_first {rec : Proxy → St → Out Val × St} (hi : Indep rec) (title : Title) (pre : List Proxy) (p : Proxy)
    (post : List Proxy) {v : Val} (hn : v.isNone = false) (el : Elem) (sm0 : SMap)
    (hpre : ∀ q ∈ pre, (rec q ⟨el, sm0⟩).1.NoValue) (hp : (rec p ⟨el, sm0⟩).1 = .ok v) (errs : Dict ErrKey VErr) (sm : SMap) :
    (unionLoop rec title (pre ++ p :: post) errs ⟨el, sm⟩).1 = .ok v ∧
    (unionLoop rec title (pre ++ p :: post) errs ⟨el, sm⟩).2.el = el.applySnapshot (rec p ⟨el, sm0⟩).2.el := by
  induction pre generalizing errs sm with
  | nil =>
    obtain ⟨h1, h2⟩ := hi p el sm0 sm
    rw [hp] at h1
    have h1 := noLines_ok.1 h1.symm
    simp only [List.nil_append, unionLoop, createSnapshot]
    cases hr : rec p ⟨el, sm⟩ with
    | mk o st' =>
      rw [hr] at h1 h2
      simp only at h1 h2
      subst h1
      simp only [hn]
      exact ⟨rfl, by simp [h2]⟩
  | cons q pre ih =>
    have hq := noValue_congr (hi q el sm0 sm).1 (hpre q (by simp))
    have ih := ih fun r hr => hpre r (by simp [hr])
    simp only [List.cons_append, unionLoop, createSnapshot]
    cases hr : rec q ⟨el, sm⟩ with
    | mk o st' =>
      rw [hr] at hq
      rcases hq with h | ⟨e, h⟩ <;> simp only at h <;> subst h
      · exact ih _ _
      · exact ih _ _

theorem unionLoop_found {rec : Proxy → St → Out Val × St} (hi : Indep rec) (title : Title) (alts : List Proxy) {v : Val}
    (hn : v.isNone = false) (el : Elem) (sm0 : SMap) (errs : Dict ErrKey VErr) (sm : SMap)
    (h : (unionLoop rec title alts errs ⟨el, sm⟩).1 = .ok v) :
    ∃ pre p post, alts = pre ++ p :: post ∧ (∀ q ∈ pre, (rec q ⟨el, sm0⟩).1.NoValue) ∧ (rec p ⟨el, sm0⟩).1 = .ok v := by
  induction alts generalizing errs sm with
  | nil =>
    simp only [unionLoop] at h
    split at h
    · injection h with h; subst h; cases hn
    · cases h
  | cons q alts ih =>
    simp only [unionLoop, createSnapshot] at h
    have hq := hi q el sm sm0
    cases hr : rec q ⟨el, sm⟩ with
    | mk o st' =>
      rw [hr] at h hq
      obtain ⟨h1, h2⟩ := hq
      simp only at h h1
      cases o with
      | ok w =>
        have hw := noLines_ok.1 h1.symm
        cases hwn : w.isNone with
        | true =>
          simp only [hwn, if_true] at h
          obtain ⟨pre, p, post, h3, h4, h5⟩ := ih _ _ h
          refine ⟨q :: pre, p, post, by simp [h3], ?_, h5⟩
          intro r hr'
          rcases List.mem_cons.1 hr' with rfl | hr'
          · exact .inl (by rw [hw]; cases w <;> simp_all [Val.isNone])
          · exact h4 r hr'
        | false =>
          simp only [hwn] at h
          injection h with h
          subst h
          exact ⟨[], q, alts, rfl, by simp, hw⟩
      | verr e =>
        obtain ⟨e', he, _⟩ := noLines_verr h1.symm
        obtain ⟨pre, p, post, h3, h4, h5⟩ := ih _ _ h
        refine ⟨q :: pre, p, post, by simp [h3], ?_, h5⟩
        intro r hr'
        rcases List.mem_cons.1 hr' with rfl | hr'
        · exact .inr ⟨e', he⟩
        · exact h4 r hr'
      | crash e => cases h
      | diverge => cases h

theorem failures_cons_ok (v : Val) (l : List (Out Val)) : failures (.ok v :: l) = failures l := by simp [failures]
theorem failures_cons_verr (e : VErr) (l : List (Out Val)) : failures (.verr e :: l) = e :: failures l := by simp [failures]

theorem unionLoop_errors {rec : Proxy → St → Out Val × St} (hi : Indep rec) (title : Title) (alts : List Proxy)
    (el : Elem) (sm0 : SMap) (hall : ∀ q ∈ alts, (rec q ⟨el, sm0⟩).1.NoValue) (errs : List VErr) (sm : SMap)
    (hnd : ((errs ++ failures (alts.map fun q => (rec q ⟨el, sm0⟩).1)).map fun e => e.title.text).Nodup) :
    let r := unionLoop rec title alts (errs.map fun e => (some (.name e.title.text), e)) ⟨el, sm⟩
    let fails := errs ++ failures (alts.map fun q => (rec q ⟨el, sm0⟩).1)
    r.1.noLines = (if fails = [] then .ok .none else .verr ⟨title, fails.flatMap fun e => e.under (.name e.title.text)⟩ : Out Val).noLines
      ∧ r.2.el = (if fails = [] then el else el.stepForward) := by
  induction alts generalizing errs sm with
  | nil =>
    simp only [List.map_nil, failures, List.filterMap_nil, List.append_nil, unionLoop]
    cases errs with
    | nil => exact ⟨rfl, rfl⟩
    | cons e errs =>
      simp only [List.map_cons, List.isEmpty_cons, Bool.false_eq_true, if_false, reduceCtorEq, and_true]
      simp [intoValidationError, List.flatMap_map, VErr.under]
  | cons q alts ih =>
    have hq := hall q (by simp)
    have hqi := (hi q el sm0 sm).1
    have ih := ih fun r hr => hall r (by simp [hr])
    simp only [unionLoop, createSnapshot]
    cases hr : rec q ⟨el, sm⟩ with
    | mk o st' =>
      rw [hr] at hqi
      simp only at hqi
      rcases hq with h | ⟨e, h⟩
      · rw [h] at hqi
        have := noLines_ok.1 hqi.symm
        subst this
        simp only [List.map_cons, h, failures_cons_ok] at hnd ⊢
        exact ih errs _ hnd
      · rw [h] at hqi
        obtain ⟨e', he, hl⟩ := noLines_verr hqi.symm
        subst he
        simp only [List.map_cons, h, failures_cons_verr] at hnd ⊢
        have ht : e'.title = e.title := by
          have := congrArg VErr.title hl
          simpa only [VErr.lines_title] using this
        have hu : (e'.under (.name e'.title.text)).map (fun l => { l with line := l.line.map fun _ => -1 }) =
            (e.under (.name e.title.text)).map fun l => { l with line := l.line.map fun _ => -1 } := by
          have := congrArg VErr.errs hl
          simp only [VErr.lines] at this
          rw [ht]
          simp only [VErr.under, List.map_map]
          have h3 := congrArg (List.map fun l : LineErr => { l with loc := .name e.title.text :: l.loc }) this
          simpa [List.map_map, Function.comp_def] using h3
        have hset : Dict.set (errs.map fun e => ((some (.name e.title.text), e) : ErrKey × VErr)) (some (.name e'.title.text)) e' =
            (errs ++ [e']).map fun e => (some (.name e.title.text), e) := by
          rw [dict_set_new]
          · simp
          · intro kv hkv
            obtain ⟨x, hx, rfl⟩ := List.mem_map.1 hkv
            simp only [ne_eq, Option.some.injEq, LocPart.name.injEq]
            intro hxe
            rw [List.map_append, List.nodup_append] at hnd
            exact hnd.2.2 x.title.text (List.mem_map_of_mem (f := fun e : VErr => e.title.text) hx) e.title.text (by simp) (hxe.trans (congrArg Title.text ht))
        rw [hset]
        have h2 := ih (errs ++ [e']) st'.sm (by simpa [ht] using hnd)
        simp only [List.append_assoc, List.singleton_append] at h2
        have hne : ∀ x : VErr, errs ++ x :: failures (alts.map fun q => (rec q ⟨el, sm0⟩).1) ≠ [] := by simp
        simp only [hne, if_false] at h2 ⊢
        refine ⟨?_, h2.2⟩
        rw [h2.1]
        simp only [Out.noLines, Out.lines, VErr.lines, List.flatMap_append, List.flatMap_cons, List.map_append, hu]

section
variable (env : Env) (hv : env.ValidatorsRead) (eas : Bool) (n : Nat) (title : Title) (alts : List Proxy) (loc : Loc)
  (st : St)
include hv

theorem indep_deser : Indep fun p st => deser env eas n (.proxy p) loc st :=
  fun p el sm sm' => deser_sm hv eas n (.proxy p) loc el sm sm'

/-- C11: if `p` is the first alternative that finds its element and validates, the union yields its value, and what is
consumed is exactly what `p` alone consumes: failed attempts of earlier alternatives leave no trace in the element. -/
theorem C11_first_success (pre : List Proxy) (p : Proxy) (post : List Proxy) (v : Val) (halts : alts = pre ++ p :: post)
    (hpre : ∀ q ∈ pre, (deser env eas n (.proxy q) loc st).1.NoValue)
    (hp : (deser env eas n (.proxy p) loc st).1 = .ok v) (hn : v ≠ .none) :
    (deser env eas (n + 1) (.modelUnion title false alts) loc st).1 = .ok v ∧
    (deser env eas (n + 1) (.modelUnion title false alts) loc st).2.el = (deser env eas n (.proxy p) loc st).2.el := by
  obtain ⟨el, sm⟩ := st
  subst halts
  have h := unionLoop_first (indep_deser env hv eas n loc) title pre p post (v := v) (by cases v <;> simp_all [Val.isNone])
    el sm hpre hp [] sm
  have hl : (deser env eas n (.proxy p) loc ⟨el, sm⟩).2.el.line = el.line :=
    deser_rel line_rel env (hv.respect line_rel) eas n (.proxy p) loc ⟨el, sm⟩
  change (unionLoop _ _ _ _ _).1 = _ ∧ (unionLoop _ _ _ _ _).2.el = _
  refine ⟨h.1, h.2.trans ?_⟩
  rw [applySnapshot, ← hl]
  exact (Elem.eta _).symm

/-- C11: a value of the union is always the value of its first successful alternative. -/
theorem C11_only_success (v : Val) (hn : v ≠ .none)
    (h : (deser env eas (n + 1) (.modelUnion title false alts) loc st).1 = .ok v) :
    ∃ pre p post, alts = pre ++ p :: post ∧ (∀ q ∈ pre, (deser env eas n (.proxy q) loc st).1.NoValue) ∧
      (deser env eas n (.proxy p) loc st).1 = .ok v := by
  obtain ⟨el, sm⟩ := st
  exact unionLoop_found (indep_deser env hv eas n loc) title alts (by cases v <;> simp_all [Val.isNone]) el sm [] sm h

/-- C12: if no alternative finds its element, the field is absent and nothing is consumed. -/
theorem C12_absent (h : ∀ q ∈ alts, (deser env eas n (.proxy q) loc st).1 = .ok .none) :
    (deser env eas (n + 1) (.modelUnion title false alts) loc st).1 = .ok .none ∧
    (deser env eas (n + 1) (.modelUnion title false alts) loc st).2.el = st.el := by
  obtain ⟨el, sm⟩ := st
  have hf : failures (alts.map fun q => (deser env eas n (.proxy q) loc ⟨el, sm⟩).1) = [] := by
    simp only [failures, List.filterMap_eq_nil_iff, List.mem_map, forall_exists_index, and_imp, forall_apply_eq_imp_iff₂]
    intro q hq
    rw [h q hq]
  have h1 := unionLoop_errors (indep_deser env hv eas n loc) title alts el sm (fun q hq => .inl (h q hq)) [] sm
    (by simp [hf])
  simp only [hf, List.append_nil, if_true, List.map_nil] at h1
  exact ⟨noLines_ok.1 h1.1, h1.2⟩

/-- C12 (partial: the failed alternatives have different names, see `C12_counterexample`): if some alternative finds its
element but none validates, one error is raised with the errors of every failed alternative, in declaration order, each
below the name of the alternative; the reader steps over the element. -/
theorem C12_errors_partial (h : ∀ q ∈ alts, (deser env eas n (.proxy q) loc st).1.NoValue)
    (hne : failures (alts.map fun q => (deser env eas n (.proxy q) loc st).1) ≠ [])
    (hnd : ((failures (alts.map fun q => (deser env eas n (.proxy q) loc st).1)).map fun e => e.title.text).Nodup) :
    (deser env eas (n + 1) (.modelUnion title false alts) loc st).1.noLines =
      (Out.verr ⟨title, (failures (alts.map fun q => (deser env eas n (.proxy q) loc st).1)).flatMap
        fun e => e.under (.name e.title.text)⟩ : Out Val).noLines ∧
    (deser env eas (n + 1) (.modelUnion title false alts) loc st).2.el = st.el.stepForward := by
  obtain ⟨el, sm⟩ := st
  have h1 := unionLoop_errors (indep_deser env hv eas n loc) title alts el sm h [] sm (by simpa using hnd)
  simp only [List.nil_append, hne, if_false, List.map_nil] at h1
  exact h1
end

/-! ## The name of an alternative -/

theorem deserFields_ne_verr (rec : Ser → Loc → St → Out Val × St) (fs : List Field) (res : Dict String Val)
    (errs : Dict ErrKey VErr) (st : St) (e : VErr) : (deserFields rec fs res errs st).1 ≠ .verr e := by
  induction fs generalizing res errs st with
  | nil => simp [deserFields]
  | cons f fs ih =>
    unfold deserFields
    simp only
    split
    · exact ih _ _ _
    · exact ih _ _ _
    · simp
    · simp

/-- C12: the errors of a failed alternative carry the name of its class, if pydantic names its errors so. -/
theorem C12_names (env : Env) (eas : Bool) (n : Nat) (loc : Loc) (st : St) (p : Proxy) (m : ModelSer) (e : VErr)
    (hm : env.model p.cls = some m) (hval : ∀ d e, env.validate p.cls d = .error e → e.title.text = m.name)
    (h : (deser env eas (n + 1) (.proxy p) loc st).1 = .verr e) : e.title.text = m.name := by
  have hvm : ∀ d st e, validateModel env p.cls m d st = .verr e → e.title.text = m.name := by
    intro d st e he
    unfold validateModel at he
    split at he
    · rename_i e' hx
      injection he with he
      subst he
      split at hx
      · unfold checkExtra at hx
        split at hx
        · cases hx
        · injection hx with hx; subst hx; rfl
      · cases hx
    · split at he
      · cases he
      · rename_i x hx
        injection he with he
        subst he
        exact hval d x hx
  have hdm : ∀ st, (deserModel env (deser env eas n) p.cls m loc st).1 = .verr e → e.title.text = m.name := by
    intro st he
    unfold deserModel at he
    split at he
    · cases hf : deserFields (deser env eas n) _ [] [] st with
      | mk o st' =>
        rw [hf] at he
        cases o with
        | ok r =>
          simp only at he
          split at he
          · exact hvm _ _ _ he
          · injection he with he; subst he; rfl
        | verr x => exact absurd (by rw [hf]) (deserFields_ne_verr (deser env eas n) _ [] [] st x)
        | crash x => cases he
        | diverge => cases he
    · cases hf : deser env eas n _ loc st with
      | mk o st' =>
        rw [hf] at he
        cases o with
        | ok r => exact hvm _ _ _ he
        | verr x => injection he with he; subst he; rfl
        | crash x => cases he
        | diverge => cases he
  change (deserStep env eas (deser env eas n) n (.proxy p) loc st).1 = _ at h
  simp only [deserStep, hm] at h
  split at h
  · cases h
  · split at h
    · cases h
    · simp only [onChild] at h
      split at h
      · cases h
      · simp only at h
        split at h
        · cases h
        · exact hdm _ h

/-! ## Tagged unions -/

theorem sm_set_set (sm : SMap) (k : Loc) (l : Int) : (sm.set k l).set k l = sm.set k l := by
  induction sm with
  | nil => simp [Dict.set]
  | cons x sm ih =>
    obtain ⟨k', l'⟩ := x
    simp only [Dict.set]
    split
    · simp [Dict.set]
    · rename_i h
      simp [Dict.set, h, ih]

/-- Reading a sub-model after looking at its element. -/
theorem proxy_after_peek (env : Env) (eas : Bool) (n : Nat) (loc : Loc) (p : Proxy) (st : St) (hc : p.computed = false)
    {i : Nat} {el' : Elem} (h : st.el.search p.name p.mode false = (some i, el')) {c : Elem} (hcand : st.el.candidate p.name p.mode = some c) :
    deser env eas (n + 1) (.proxy p) loc ⟨el', st.sm.set loc c.line⟩ = deser env eas (n + 1) (.proxy p) loc st ∨
      env.model p.cls = none := by
  cases hm : env.model p.cls with
  | none => exact .inr rfl
  | some m =>
    refine .inl ?_
    change deserStep env eas (deser env eas n) n (.proxy p) loc _ = deserStep env eas (deser env eas n) n (.proxy p) loc _
    have h2 := peek_again h true
    obtain ⟨j, e2, h3, h4⟩ := candidate_some hcand true
    simp only [deserStep, hm, hc, Bool.false_eq_true, if_false, popElement, h2, h3, onChild, h4, sm_set_set]

/-- C33: in a discriminated union over one element name, the alternative is selected by the discriminator attribute of the
candidate element, in every search mode and whatever the order of the alternatives: the field is read exactly as the
selected alternative alone would be read; nothing of the others is run. -/
theorem C33_selects (env : Env) (eas : Bool) (n : Nat) (loc : Loc) (st : St) (discr attrName name tag : String) (mode : Mode)
    (alts : List (String × Proxy)) (p : Proxy) (c : Elem) (hin : (tag, p) ∈ alts) (htags : (alts.map Prod.fst).Nodup)
    (hname : ∀ a ∈ alts, a.2.name = name) (hmode : p.mode = mode) (hcomp : p.computed = false)
    (hp : (env.model p.cls).isSome = true)
    (hc : st.el.candidate name mode = some c) (hattr : c.getAttrib attrName = some tag) :
    deser env eas (n + 2) (.tagged false discr attrName mode alts) loc st = deser env eas (n + 1) (.proxy p) loc st := by
  change taggedLoop (fun p st => deser env eas (n + 1) (.proxy p) loc st) loc attrName mode alts st = _
  obtain ⟨i, el', h1, h2⟩ := candidate_some hc false
  have hpn := hname _ hin
  simp only at hpn
  -- from a state reached by peeking, the loop selects `p`
  have key : ∀ (l : List (String × Proxy)) (st0 : St), l ⊆ alts → (tag, p) ∈ l → st0.sm = st.sm →
      st0.el.search name mode false = (some i, el') →
      taggedLoop (fun p st => deser env eas (n + 1) (.proxy p) loc st) loc attrName mode l st0 =
        deser env eas (n + 1) (.proxy p) loc st := by
    intro l
    induction l with
    | nil => intro _ _ h; simp at h
    | cons a l ih =>
      intro st0 hsub hmem hsm hpeek
      obtain ⟨t, q⟩ := a
      have hqn : q.name = name := hname (t, q) (hsub (by simp))
      simp only [taggedLoop, hqn, hpeek, h2]
      split
      · rename_i ht
        have htt : tag = t := by rw [hattr] at ht; simpa using ht
        have hqp : q = p := by
          have hq : (t, q) ∈ alts := hsub (by simp)
          rw [← htt] at hq
          exact nodup_fst_unique htags hq hin
        rw [hqp, hsm]
        have hx : st.el.search p.name p.mode false = (some i, el') := by rw [hpn, hmode]; exact h1
        have hy : st.el.candidate p.name p.mode = some c := by rw [hpn, hmode]; exact hc
        rcases proxy_after_peek env eas n loc p st hcomp hx hy with h | h
        · exact h
        · rw [h] at hp; cases hp
      · rename_i ht
        refine ih ⟨el', st0.sm⟩ (fun x hx => hsub (by simp [hx])) ?_ hsm (by rw [peek_again h1]; exact h1)
        rcases List.mem_cons.1 hmem with h | h
        · injection h with h3 h4
          rw [hattr, h3] at ht
          exact absurd rfl ht
        · exact h
  exact key alts st (fun _ h => h) hin rfl h1
where
  nodup_fst_unique {alts : List (String × Proxy)} (h : (alts.map Prod.fst).Nodup) {t : String} {q p : Proxy}
      (hq : (t, q) ∈ alts) (hp : (t, p) ∈ alts) : q = p := by
    induction alts with
    | nil => simp at hq
    | cons a l ih =>
      simp only [List.map_cons, List.nodup_cons] at h
      rcases List.mem_cons.1 hq with h1 | h1 <;> rcases List.mem_cons.1 hp with h2 | h2
      · rw [← h1] at h2; injection h2 with _ h2; exact h2.symm
      · subst h1; exact absurd (List.mem_map_of_mem h2) h.1
      · subst h2; exact absurd (List.mem_map_of_mem h1) h.1
      · exact ih h.2 h1 h2

/-- C33: in strict and ordered mode, if no alternative has a candidate element that carries its tag, the field is absent and
nothing is consumed. -/
theorem C33_absent (env : Env) (eas : Bool) (n : Nat) (loc : Loc) (st : St) (discr attrName : String) (mode : Mode)
    (alts : List (String × Proxy)) (hmode : mode ≠ .unordered)
    (h : ∀ a ∈ alts, ∀ c, st.el.candidate a.2.name mode = some c → c.getAttrib attrName ≠ some a.1) :
    deser env eas (n + 1) (.tagged false discr attrName mode alts) loc st = (.ok .none, st) := by
  change taggedLoop (fun p st => deser env eas n (.proxy p) loc st) loc attrName mode alts st = _
  induction alts with
  | nil => rfl
  | cons a l ih =>
    obtain ⟨t, q⟩ := a
    have ih := ih fun a ha => h a (by simp [ha])
    have hq := h (t, q) (by simp)
    simp only at hq
    simp only [taggedLoop]
    cases hc : st.el.candidate q.name mode with
    | none =>
      rw [candidate_none hc]
      exact ih
    | some c =>
      obtain ⟨i, el', h1, h2⟩ := candidate_some hc false
      have : el' = st.el := by
        cases mode with
        | strict =>
          simp only [search, strictSearch] at h1
          split at h1
          · split at h1
            · injection h1 with h1 h2; exact h2.symm
            · cases h1
          · cases h1
        | ordered =>
          simp only [search, orderedSearch] at h1
          split at h1
          · injection h1 with h1 h2; exact h2.symm
          · cases h1
        | unordered => exact absurd rfl hmode
      subst this
      simp only [h1, h2, if_neg (hq c hc)]
      exact ih

/-- C33: in every search mode, if the candidate element of a union over one element name carries none of the tags (or there
is no candidate), the field is absent; the children and the position of the reader are the same, up to the order of the
unread children. -/
theorem C33_absent_any_mode (env : Env) (eas : Bool) (n : Nat) (loc : Loc) (st : St) (discr attrName name : String)
    (mode : Mode) (alts : List (String × Proxy)) (hname : ∀ a ∈ alts, a.2.name = name)
    (h : ∀ c, st.el.candidate name mode = some c → ∀ a ∈ alts, c.getAttrib attrName ≠ some a.1) :
    let r := deser env eas (n + 1) (.tagged false discr attrName mode alts) loc st
    r.1 = .ok .none ∧ r.2.el.elements.Perm st.el.elements ∧ r.2.el.next = st.el.next ∧ r.2.el.text = st.el.text ∧
      r.2.el.attrib = st.el.attrib := by
  intro r
  change (fun r : Out Val × St => r.1 = .ok .none ∧ r.2.el.elements.Perm st.el.elements ∧ r.2.el.next = st.el.next ∧
    r.2.el.text = st.el.text ∧ r.2.el.attrib = st.el.attrib)
    (taggedLoop (fun p st => deser env eas n (.proxy p) loc st) loc attrName mode alts st)
  cases hc : st.el.candidate name mode with
  | none =>
    have key : ∀ l : List (String × Proxy), l ⊆ alts →
        taggedLoop (fun p st => deser env eas n (.proxy p) loc st) loc attrName mode l st = (.ok .none, st) := by
      intro l
      induction l with
      | nil => intro _; rfl
      | cons a l ih =>
        intro hsub
        obtain ⟨t, q⟩ := a
        have hqn : q.name = name := hname (t, q) (hsub (by simp))
        simp only [taggedLoop, hqn, candidate_none hc]
        exact ih fun x hx => hsub (by simp [hx])
    rw [key alts fun _ h => h]
    exact ⟨rfl, List.Perm.refl _, rfl, rfl, rfl⟩
  | some c =>
    obtain ⟨i, el', h1, h2⟩ := candidate_some hc false
    have hspec : el'.elements.Perm st.el.elements ∧ el'.next = st.el.next ∧ el'.text = st.el.text ∧ el'.attrib = st.el.attrib := by
      cases mode <;> simp only [search, strictSearch, orderedSearch, unorderedSearch] at h1
      · split at h1
        · split at h1 <;> injection h1 with h1 h3 <;> subst h3 <;> simp
        · cases h1
      · split at h1 <;> injection h1 with h1 h3 <;> subst h3 <;> simp
      · split at h1 <;> injection h1 with h1 h3 <;> subst h3 <;> simp [perm_swap]
    have key : ∀ (l : List (String × Proxy)) (st0 : St), l ⊆ alts →
        (st0.el.search name mode false = (some i, el')) → (st0.el = el' ∨ st0.el = st.el) →
        (taggedLoop (fun p st => deser env eas n (.proxy p) loc st) loc attrName mode l st0).1 = .ok .none ∧
        ((taggedLoop (fun p st => deser env eas n (.proxy p) loc st) loc attrName mode l st0).2.el = el' ∨
          (taggedLoop (fun p st => deser env eas n (.proxy p) loc st) loc attrName mode l st0).2.el = st.el) := by
      intro l
      induction l with
      | nil => intro st0 _ _ hel; exact ⟨rfl, hel⟩
      | cons a l ih =>
        intro st0 hsub hpeek _
        obtain ⟨t, q⟩ := a
        have hqn : q.name = name := hname (t, q) (hsub (by simp))
        have hne := h c hc (t, q) (hsub (by simp))
        simp only [taggedLoop, hqn, hpeek, h2, if_neg hne]
        exact ih ⟨el', st0.sm⟩ (fun x hx => hsub (by simp [hx])) (by rw [peek_again h1]; exact h1) (.inl rfl)
    obtain ⟨h3, h4⟩ := key alts st (fun _ h => h) h1 (.inr rfl)
    refine ⟨h3, ?_⟩
    rcases h4 with h4 | h4
    · rw [h4]; exact hspec
    · rw [h4]; exact ⟨List.Perm.refl _, rfl, rfl, rfl⟩

/-! ## Examples and counterexamples -/

namespace Ex

/-- An owner element with one pet, a cat. -/
def catElem : Elem := fromNative .lxml (el "owner" none [el "pet" none [el "lives" (some "9")] [("kind", "cat")]])

/-- The instance of the second alternative. -/
def catVal : Val := .model "Cat" [("kind", .str "cat"), ("lives", .str "9")] ["kind", "lives"]

def dogP : Proxy := { cls := "Dog", name := "pet" }
def catP : Proxy := { cls := "Cat", name := "pet" }

/-- `C11_first_success` applies: the first alternative fails after it has consumed the attribute `kind` of the element, the
second one yields the complete instance. -/
example : (deser (env) false 9 (.modelUnion "Owner" false [dogP, catP]) [] ⟨catElem, []⟩).1 = .ok catVal ∧
    (deser (env) false 9 (.modelUnion "Owner" false [dogP, catP]) [] ⟨catElem, []⟩).2.el =
      (deser (env) false 8 (.proxy catP) [] ⟨catElem, []⟩).2.el :=
  C11_first_success (env) (Env.NoValidators.read noValidators) false 8 "Owner" [dogP, catP] [] ⟨catElem, []⟩ [dogP] catP []
    catVal rfl (by intro q hq; simp only [List.mem_singleton] at hq; subst hq; exact .inr ⟨_, rfl⟩) rfl (by simp [catVal])

/-- `C12_errors_partial` applies: an element that fits neither alternative. -/
example :
    let bad : St := ⟨fromNative .lxml (el "owner" none [el "pet" none [] [("kind", "fish")]]), []⟩
    (deser (env) false 9 (.modelUnion "Owner" false [dogP, catP]) [] bad).1.noLines =
      .verr ⟨"Owner", [⟨"missing", "Field required", [.name "Dog", .name "name"], .dict [("kind", .str "fish")], some (-1)⟩,
        ⟨"missing", "Field required", [.name "Cat", .name "lives"], .dict [("kind", .str "fish")], some (-1)⟩]⟩ :=
  (C12_errors_partial (env) (Env.NoValidators.read noValidators) false 8 "Owner" [dogP, catP] [] _
    (by intro q hq
        simp only [List.mem_cons, List.not_mem_nil, or_false] at hq
        rcases hq with rfl | rfl <;> exact .inr ⟨_, rfl⟩)
    (by intro h; cases h) (by decide)).1

/-- Two classes of the same name from different modules. -/
def sameEnv : Env where
  backend := .lxml
  model
    | "a.Item" => some { name := "Item", elementName := "a", body := .fields [{ name := "x", ser := .attr "x" false }] }
    | "b.Item" => some { name := "Item", elementName := "b", body := .fields [{ name := "y", ser := .attr "y" false }] }
    | _ => none
  validate cls d := match d with
    | .dict fs => check "Item" (if cls = "a.Item" then [("x", true)] else [("y", true)]) fs
    | _ => .ok ([], [])
  toJsonable v := v
  reprOf _ := ""

/-- C12 is false for alternatives of the same name: only the errors of the last one are reported. -/
theorem C12_counterexample :
    let alts : List Proxy := [{ cls := "a.Item", name := "item" }, { cls := "b.Item", name := "item" }]
    let st : St := ⟨fromNative .lxml (el "r" none [el "item"]), []⟩
    (∀ q ∈ alts, ∃ e, (deser sameEnv false 8 (.proxy q) [] st).1 = .verr e ∧ e.errs.length = 1) ∧
      ∃ e, (deser sameEnv false 9 (.modelUnion "U" false alts) [] st).1 = .verr e ∧ e.errs.length = 1 ∧
        e.errs.map (·.loc) = [[.name "Item", .name "y"]] := by
  intro alts st
  refine ⟨?_, _, rfl, rfl, rfl⟩
  intro q hq
  simp only [alts, List.mem_cons, List.not_mem_nil, or_false] at hq
  rcases hq with rfl | rfl <;> exact ⟨_, rfl, rfl⟩

/-- `C33_selects` applies: the second alternative is selected, in unordered mode too. -/
example : deser (env) false 9 (.tagged false "kind" "kind" .strict [("dog", dogP), ("cat", catP)]) [] ⟨catElem, []⟩ =
    deser (env) false 8 (.proxy catP) [] ⟨catElem, []⟩ :=
  C33_selects (env) false 7 [] ⟨catElem, []⟩ "kind" "kind" "pet" "cat" .strict [("dog", dogP), ("cat", catP)] catP
    (fromNative .lxml (el "pet" none [el "lives" (some "9")] [("kind", "cat")])) (by simp) (by decide)
    (by simp [dogP, catP]) rfl rfl rfl rfl rfl

end Ex

end PXml
