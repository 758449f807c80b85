import Verif.Spec
import Verif.Lemmas.Elem

/-!
# What reading can do to an element

`ElemRel R`: the relation `R` between an element before and after is preserved by each elementary step of the
reader.  Then reading with any serializer preserves it.
-/

namespace PXml

open Elem

/-- A reflexive and transitive relation between the states of an element before and after that holds of every
elementary operation of the reader. -/
structure ElemRel (R : Elem → Elem → Prop) : Prop where
  refl : ∀ e, R e e
  trans : ∀ {a b c}, R a b → R b c → R a c
  popText : ∀ e : Elem, R e e.popText.2
  popAttrib : ∀ (e : Elem) k, R e (e.popAttrib k).2
  popAttributes : ∀ e : Elem, R e e.popAttributes.2
  search : ∀ (e : Elem) tag mode step, R e (e.search tag mode step).2
  child : ∀ (e : Elem) i c c', e.elements[i]? = some c → R c c' → R e (e.setChild i c')
  stepForward : ∀ e : Elem, e.next < e.elements.length → R e e.stepForward
  applySnapshot : ∀ e s : Elem, R e s → R e (e.applySnapshot s)
  hollow : ∀ (e : Elem) i c, e.elements[i]? = some c → R e (e.setChild i c.hollow)

/-- All custom validators of the model classes respect the relation. -/
def Env.ValidatorsRespect (env : Env) (R : Elem → Elem → Prop) : Prop :=
  ∀ cls m fs, env.model cls = some m → m.body = .fields fs → ∀ f ∈ fs, ∀ v, f.validator = some v →
    ∀ e, R e (v e).2

/-- Everything a reader of the element can do respects such a relation. -/
theorem ElemRel.of_reads {R : Elem → Elem → Prop} (hR : ElemRel R) {e e' : Elem} (h : e.Reads e') : R e e' := by
  induction h with
  | refl e => exact hR.refl e
  | trans _ _ h1 h2 => exact hR.trans h1 h2
  | popText e => exact hR.popText e
  | popAttrib e k => exact hR.popAttrib e k
  | popAttributes e => exact hR.popAttributes e
  | search e t m s => exact hR.search e t m s
  | child e i c c' hc _ h => exact hR.child e i c c' hc h
  | stepForward e h => exact hR.stepForward e h
  | applySnapshot e s _ h => exact hR.applySnapshot e s h
  | remove e i c hc => exact hR.hollow e i c hc

theorem Env.ValidatorsRead.respect {env : Env} (h : env.ValidatorsRead) {R : Elem → Elem → Prop} (hR : ElemRel R) :
    env.ValidatorsRespect R := fun cls m fs hm hb f hf v hv e => hR.of_reads (h cls m fs hm hb f hf v hv e)

theorem Env.NoValidators.read {env : Env} (h : env.NoValidators) : env.ValidatorsRead := by
  intro cls m fs hm hb f hf v hv
  rw [h cls m fs hm hb f hf] at hv; cases hv

theorem Env.NoValidators.respect {env : Env} (h : env.NoValidators) (R : Elem → Elem → Prop) :
    env.ValidatorsRespect R := by
  intro cls m fs hm hb f hf v hv
  rw [h cls m fs hm hb f hf] at hv; cases hv

section
variable {R : Elem → Elem → Prop} (hR : ElemRel R)
include hR

theorem ElemRel.isNil (e : Elem) : R e e.isNil.2 := by
  unfold Elem.isNil; exact hR.popAttrib e _

theorem ElemRel.findElement {e : Elem} {tag : String} {mode : Mode} {r} (h : e.findElement tag mode = .ok r) :
    R e r.2 := by
  unfold Elem.findElement at h
  cases hl : e.lookBehind tag with
  | error x => rw [hl] at h; cases h
  | ok b =>
    rw [hl] at h
    cases b with
    | true => cases h; exact hR.refl _
    | false => cases h; exact hR.search e tag mode true

theorem onChild_rel {α : Type} {f : St → Out α × St} (h : ∀ st, R st.el (f st).2.el) (st : St) (i : Nat) :
    R st.el (onChild st i f).2.el := by
  unfold onChild
  split
  · exact hR.refl _
  · rename_i c hc
    exact hR.child _ _ c _ hc (h ⟨c, st.sm⟩)

theorem descend_rel {f : St → Out Val × St} (h : ∀ st, R st.el (f st).2.el) (mode : Mode) (path : List String)
    (st : St) : R st.el (descend mode f path st).2.el := by
  induction path generalizing st with
  | nil => exact h st
  | cons t ts ih =>
    unfold descend
    split
    · exact hR.refl _
    · rename_i el hf; exact hR.findElement hf
    · rename_i i el hf
      exact hR.trans (hR.findElement hf) (onChild_rel hR ih { st with el := el } i)

theorem homogLoop_rel {f : Loc → St → Out Val × St} (h : ∀ l st, R st.el (f l st).2.el) (loc : Loc) (n idx : Nat)
    (acc : List Val) (errs : Dict ErrKey VErr) (st : St) : R st.el (homogLoop f loc n idx acc errs st).2.el := by
  induction n generalizing idx acc errs st with
  | zero => exact hR.refl _
  | succ n ih =>
    unfold homogLoop
    have hs := h (loc ++ [.idx idx]) st
    cases hr : f (loc ++ [.idx idx]) st with
    | mk o st' =>
      rw [hr] at hs
      cases o with
      | ok v =>
        simp only
        split
        · exact hs
        · exact hR.trans hs (ih _ _ _ _)
      | verr e => exact hR.trans hs (ih _ _ _ _)
      | crash e => exact hs
      | diverge => exact hs

theorem heteroLoop_rel {f : Ser → Loc → St → Out Val × St} (h : ∀ s l st, R st.el (f s l st).2.el) (loc : Loc)
    (ss : List Ser) (idx : Nat) (acc : List Val) (errs : Dict ErrKey VErr) (st : St) :
    R st.el (heteroLoop f loc ss idx acc errs st).2.el := by
  induction ss generalizing idx acc errs st with
  | nil => exact hR.refl _
  | cons s ss ih =>
    unfold heteroLoop
    have hs := h s (loc ++ [.idx idx]) st
    cases hr : f s (loc ++ [.idx idx]) st with
    | mk o st' =>
      rw [hr] at hs
      cases o with
      | ok v => exact hR.trans hs (ih _ _ _ _)
      | verr e => exact hR.trans hs (ih _ _ _ _)
      | crash e => exact hs
      | diverge => exact hs

theorem unionLoop_rel {f : Proxy → St → Out Val × St} (h : ∀ p st, R st.el (f p st).2.el)
    (hv : ∀ p st e st', f p st = (.verr e, st') → st.el.next < st.el.elements.length) (title : Title)
    (ps : List Proxy) (errs : Dict ErrKey VErr) (st : St)
    (he : errs ≠ [] → st.el.next < st.el.elements.length) :
    R st.el (unionLoop f title ps errs st).2.el := by
  induction ps generalizing errs st with
  | nil =>
    unfold unionLoop
    split
    · exact hR.refl _
    · rename_i hne; exact hR.stepForward _ (he (by simpa using hne))
  | cons p ps ih =>
    unfold unionLoop
    have hs := h p ⟨st.el.createSnapshot, st.sm⟩
    cases hr : f p ⟨st.el.createSnapshot, st.sm⟩ with
    | mk o st' =>
      rw [hr] at hs
      cases o with
      | ok v =>
        simp only
        split
        · exact ih _ { st with sm := st'.sm } he
        · exact hR.applySnapshot _ _ hs
      | verr e =>
        exact ih _ { st with sm := st'.sm } (fun _ => hv p ⟨st.el.createSnapshot, st.sm⟩ _ _ hr)
      | crash e => exact hR.refl _
      | diverge => exact hR.refl _

theorem taggedLoop_rel {f : Proxy → St → Out Val × St} (h : ∀ p st, R st.el (f p st).2.el) (loc : Loc) (a : String)
    (mode : Mode) (ps : List (String × Proxy)) (st : St) :
    R st.el (taggedLoop f loc a mode ps st).2.el := by
  induction ps generalizing st with
  | nil => exact hR.refl _
  | cons p ps ih =>
    obtain ⟨tag, p⟩ := p
    unfold taggedLoop
    have hs := hR.search st.el p.name mode false
    split
    · rename_i i el hp
      rw [hp] at hs
      split
      · exact hs
      · rename_i c hc
        split
        · exact hR.trans hs (h p ⟨el, _⟩)
        · exact hR.trans hs (ih { st with el := el })
    · rename_i el hp
      rw [hp] at hs
      exact hR.trans hs (ih { st with el := el })

theorem deserFields_rel {f : Ser → Loc → St → Out Val × St} (h : ∀ s l st, R st.el (f s l st).2.el)
    (fs : List Field) (hv : ∀ fd ∈ fs, ∀ v, fd.validator = some v → ∀ e, R e (v e).2)
    (res : Dict String Val) (errs : Dict ErrKey VErr) (st : St) :
    R st.el (deserFields f fs res errs st).2.el := by
  induction fs generalizing res errs st with
  | nil => exact hR.refl _
  | cons fd fs ih =>
    have ih := ih (fun g hg => hv g (List.mem_cons_of_mem _ hg))
    unfold deserFields
    simp only
    cases hval : fd.validator with
    | some v =>
      have hs := hv fd (List.mem_cons_self ..) v hval st.el
      simp only
      cases hr : v st.el with
      | mk o el' =>
        rw [hr] at hs
        simp only
        cases o with
        | ok v => exact hR.trans hs (ih _ _ { el := el', sm := _ })
        | verr e => exact hR.trans hs (ih _ _ { el := el', sm := _ })
        | crash e => exact hs
        | diverge => exact hs
    | none =>
      simp only
      have hs := h fd.ser [.name fd.name] { st with sm := st.sm.set [.name fd.name] st.el.line }
      cases hr : f fd.ser [.name fd.name] { st with sm := st.sm.set [.name fd.name] st.el.line } with
      | mk o st' =>
        rw [hr] at hs
        cases o with
        | ok v => exact hR.trans hs (ih _ _ st')
        | verr e => exact hR.trans hs (ih _ _ st')
        | crash e => exact hs
        | diverge => exact hs

theorem deserModel_rel (env : Env) {f : Ser → Loc → St → Out Val × St} (h : ∀ s l st, R st.el (f s l st).2.el)
    (cls : String) (m : ModelSer)
    (hv : ∀ fs, m.body = .fields fs → ∀ fd ∈ fs, ∀ v, fd.validator = some v → ∀ e, R e (v e).2)
    (loc : Loc) (st : St) : R st.el (deserModel env f cls m loc st).2.el := by
  unfold deserModel
  split
  · rename_i fs hb
    have hs := deserFields_rel hR h fs (hv fs hb) [] [] st
    cases hr : deserFields f fs [] [] st with
    | mk o st' =>
      rw [hr] at hs
      cases o with
      | ok v => simp only; split <;> exact hs
      | verr e => exact hs
      | crash e => exact hs
      | diverge => exact hs
  · rename_i s hb
    have hs := h s loc st
    cases hr : f s loc st with
    | mk o st' =>
      rw [hr] at hs
      cases o <;> exact hs

theorem deserText_rel (eas c nl : Bool) (st : St) : R st.el (deserText eas c nl st).2.el := by
  unfold deserText
  split
  · exact hR.refl _
  · cases nl with
    | false => exact hR.popText _
    | true =>
      simp only [if_true]
      have hs := hR.isNil st.el
      cases hn : st.el.isNil with
      | mk b el =>
        rw [hn] at hs
        cases b with
        | true => exact hs
        | false => exact hR.trans hs (hR.popText el)

theorem deserAttrs_rel (a : AttrsSer) (st : St) : R st.el (deserAttrs a st).2.el := by
  unfold deserAttrs
  split
  · exact hR.refl _
  · have hs := hR.popAttributes st.el
    cases hn : st.el.popAttributes with
    | mk b el =>
      rw [hn] at hs
      cases b <;> exact hs

end

/-- A validation error of a sub-model field means that the field found a child at or after the cursor. -/
theorem search_hit_lt {e : Elem} {tag : String} {mode : Mode} {step : Bool} {i : Nat} {e' : Elem}
    (h : e.search tag mode step = (some i, e')) : e.next < e.elements.length := by
  cases mode with
  | strict =>
    simp only [search, strictSearch] at h
    split at h
    · rename_i c hc; exact (List.getElem?_eq_some_iff.1 hc).1
    · cases h
  | ordered =>
    simp only [search, orderedSearch] at h
    split at h
    · rename_i i hm
      have := firstMatch_some hm
      obtain ⟨h1, ⟨c, h2, _⟩, _⟩ := this
      have := (List.getElem?_eq_some_iff.1 h2).1
      omega
    · cases h
  | unordered =>
    simp only [search, unorderedSearch] at h
    split at h
    · rename_i i hm
      have := firstMatch_some hm
      obtain ⟨h1, ⟨c, h2, _⟩, _⟩ := this
      have := (List.getElem?_eq_some_iff.1 h2).1
      omega
    · cases h

theorem deserStep_proxy_verr {env : Env} {eas : Bool} {f} {n : Nat} {p : Proxy} {loc : Loc} {st st' : St} {e : VErr}
    (h : deserStep env eas f n (.proxy p) loc st = (.verr e, st')) : st.el.next < st.el.elements.length := by
  simp only [deserStep] at h
  split at h
  · cases h
  · split at h
    · cases h
    · split at h
      · cases h
      · rename_i i el hp; exact search_hit_lt hp

theorem deser_proxy_verr {env : Env} {eas : Bool} {n : Nat} {p : Proxy} {loc : Loc} {st st' : St} {e : VErr}
    (h : deser env eas n (.proxy p) loc st = (.verr e, st')) : st.el.next < st.el.elements.length := by
  cases n with
  | zero => cases h
  | succ n => exact deserStep_proxy_verr h

/-- Reading preserves every relation respected by the elementary operations and by the custom validators. -/
theorem deser_rel {R : Elem → Elem → Prop} (hR : ElemRel R) (env : Env) (hv : env.ValidatorsRespect R) (eas : Bool)
    (n : Nat) (s : Ser) (loc : Loc) (st : St) : R st.el (deser env eas n s loc st).2.el := by
  induction n generalizing s loc st with
  | zero => exact hR.refl _
  | succ n ih =>
    have hp : ∀ p st e st', deser env eas n (.proxy p) loc st = (.verr e, st') →
        st.el.next < st.el.elements.length := fun p st e st' h => deser_proxy_verr h
    change R st.el (deserStep env eas (deser env eas n) n s loc st).2.el
    generalize deser env eas n = F at ih hp ⊢
    unfold deserStep
    cases s with
    | text c nl => exact deserText_rel hR eas c nl st
    | attr nm c =>
      simp only
      split
      · exact hR.refl _
      · have hs := hR.popAttrib st.el nm
        cases hn : st.el.popAttrib nm with
        | mk b el => rw [hn] at hs; cases b <;> exact hs
    | elem nm ns m c nl =>
      simp only
      split
      · exact hR.refl _
      · have hs := hR.search st.el nm m true
        split
        · rename_i el hp; rw [show st.el.search nm m true = _ from hp] at hs; exact hs
        · rename_i i el hp; rw [show st.el.search nm m true = _ from hp] at hs
          exact hR.trans hs (onChild_rel hR (fun c => deserText_rel hR eas _ nl ⟨c.el, c.sm.set loc c.el.line⟩) { st with el := el } i)
    | attrs a => exact deserAttrs_rel hR a st
    | mapElem a nm m =>
      simp only
      split
      · exact hR.refl _
      · have hs := hR.search st.el nm m true
        split
        · rename_i el hp; rw [show st.el.search nm m true = _ from hp] at hs; exact hs
        · rename_i i el hp; rw [show st.el.search nm m true = _ from hp] at hs
          exact hR.trans hs (onChild_rel hR (fun c => deserAttrs_rel hR a ⟨c.el, c.sm.set loc c.el.line⟩) { st with el := el } i)
    | raw nm m c =>
      simp only
      split
      · exact hR.refl _
      · unfold popElementRemove popElement
        have hs := hR.search st.el nm m true
        cases hp : st.el.search nm m true with
        | mk o el =>
          rw [hp] at hs
          cases o with
          | none => exact hs
          | some i =>
            simp only
            cases hc : el.elements[i]? with
            | none => exact hs
            | some c => exact hR.trans hs (hR.hollow _ _ c hc)
    | proxy p =>
      simp only
      split
      · exact hR.refl _
      · rename_i m hm
        split
        · exact hR.refl _
        · have hs := hR.search st.el p.name p.mode true
          split
          · rename_i el hp; rw [show st.el.search p.name p.mode true = _ from hp] at hs; exact hs
          · rename_i i el hp; rw [show st.el.search p.name p.mode true = _ from hp] at hs
            refine hR.trans hs (onChild_rel hR (fun c => ?_) { st with el := el } i)
            have hs := hR.isNil c.el
            cases hn : c.el.isNil with
            | mk b el' =>
              rw [hn] at hs
              cases b with
              | true => exact hs
              | false =>
                exact hR.trans hs (deserModel_rel hR env ih p.cls m (fun fs hb => hv _ _ fs hm hb) loc ⟨el', _⟩)
    | primUnion c inner =>
      simp only
      split
      · exact hR.refl _
      · exact ih _ _ _
    | modelUnion t c alts =>
      simp only
      split
      · exact hR.refl _
      · exact unionLoop_rel hR (fun p => ih (.proxy p) loc) hp t alts [] st (by simp)
    | tagged c d a m alts =>
      simp only
      split
      · exact hR.refl _
      · exact taggedLoop_rel hR (fun p => ih (.proxy p) loc) loc a m alts st
    | wrap path ns m c inner =>
      simp only
      split
      · exact hR.refl _
      · exact descend_rel hR (fun c => ih inner loc ⟨c.el, c.sm.set loc c.el.line⟩) m path st
    | homog t c inner =>
      simp only
      split
      · exact hR.refl _
      · have hs := homogLoop_rel hR (fun l => ih inner l) loc n 0 [] [] st
        cases hr : homogLoop (fun loc st => F inner loc st) loc n 0 [] [] st with
        | mk o st' =>
          rw [hr] at hs
          cases o <;> exact hs
    | hetero t c inners =>
      simp only
      split
      · exact hR.refl _
      · have hs := heteroLoop_rel hR ih loc inners 0 [] [] st
        cases hr : heteroLoop F loc inners 0 [] [] st with
        | mk o st' =>
          rw [hr] at hs
          cases o <;> exact hs

theorem deserModel_env_rel {R : Elem → Elem → Prop} (hR : ElemRel R) (env : Env) (hv : env.ValidatorsRespect R)
    (eas : Bool) (n : Nat) (cls : String) (m : ModelSer) (hm : env.model cls = some m) (loc : Loc) (st : St) :
    R st.el (deserModel env (deser env eas n) cls m loc st).2.el :=
  deserModel_rel hR env (deser_rel hR env hv eas n) cls m (fun fs hb => hv _ _ fs hm hb) loc st

/-- `from_xml_tree` preserves every such relation. -/
theorem fromXmlTree_rel {R : Elem → Elem → Prop} (hR : ElemRel R) (env : Env) (hv : env.ValidatorsRespect R)
    (eas : Bool) (n : Nat) (cls : String) (root : Node) :
    R (fromNative env.backend root) (fromXmlTree env eas n cls root).2 := by
  unfold fromXmlTree
  simp only
  split
  · exact hR.refl _
  · rename_i m hm
    split
    · exact deserModel_env_rel hR env hv eas n cls m hm [] ⟨_, []⟩
    · exact hR.refl _

end PXml
