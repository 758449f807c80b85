import Verif.Lemmas.Progress

/-! Every document can be read with enough fuel. -/

namespace PXml

open Elem

/-- The items of every list field are progressive. -/
def Ser.ListsProgress (eas : Bool) : Ser → Prop
  | .homog _ computed inner => computed = true ∨ inner.Everywhere (Ser.Progressive eas)
  | _ => True

/-- More fuel extends the family. -/
def Grows {α : Type} (f : Nat → St → Out α × St) : Prop := ∀ n m, n ≤ m → Ext (f n) (f m)

/-- With enough fuel the family terminates on every tree of at most `N` elements. -/
def Conv {α : Type} (N : Nat) (f : Nat → St → Out α × St) : Prop :=
  ∀ st, st.el.size ≤ N → ∃ n, (f n st).1.isDiv = false

theorem onChild_conv {α : Type} {N : Nat} {f : Nat → St → Out α × St} (h : Conv N f) (st : St) (i : Nat)
    (hs : ∀ c ∈ st.el.elements, c.size ≤ N) : ∃ n, (onChild st i (f n)).1.isDiv = false := by
  unfold onChild
  cases hc : st.el.elements[i]? with
  | none => exact ⟨0, rfl⟩
  | some c => exact h ⟨c, st.sm⟩ (hs c (List.mem_of_getElem? hc))

theorem descend_conv {N : Nat} {f : Nat → St → Out Val × St} (h : Conv N f) (mode : Mode) (path : List String) :
    Conv N (fun n => descend mode (f n) path) := by
  induction path with
  | nil => exact h
  | cons t ts ih =>
    intro st hst
    simp only [descend]
    cases hf : st.el.findElement t mode with
    | error e => exact ⟨0, rfl⟩
    | ok r =>
      obtain ⟨o, el⟩ := r
      cases o with
      | none => exact ⟨0, rfl⟩
      | some i =>
        have hle := size_rel.findElement hf
        simp only at hle
        exact onChild_conv ih ⟨el, st.sm⟩ i (fun c hc => by
          have := size_child hc
          simp only at this
          omega)

theorem homogLoop_conv {N : Nat} {f : Nat → Loc → St → Out Val × St} (hg : ∀ l, Grows (fun n => f n l))
    (h : ∀ l, Conv N (fun n => f n l)) (hsz : ∀ n l st, (f n l st).2.el.size ≤ st.el.size)
    (hp : ∀ n l st, (f n l st).1.delivers = true → (f n l st).2.el.left < st.el.left) (loc : Loc) (k : Nat) :
    ∀ (idx : Nat) (acc : List Val) (errs : Dict ErrKey VErr) (st : St), st.el.left ≤ k → st.el.size ≤ N →
      ∃ n, (homogLoop (f n) loc n idx acc errs st).1.isDiv = false := by
  induction k with
  | zero =>
    intro idx acc errs st hk hst
    obtain ⟨n1, hn1⟩ := h (loc ++ [.idx idx]) st hst
    refine ⟨n1 + 1, ?_⟩
    have hmono := hg (loc ++ [.idx idx]) n1 (n1 + 1) (by omega) st hn1
    have hps := hp n1 (loc ++ [.idx idx]) st
    simp only at hn1 hmono
    unfold homogLoop
    rw [hmono]
    cases hr : f n1 (loc ++ [.idx idx]) st with
    | mk o st' =>
      rw [hr] at hn1 hps
      cases o with
      | ok v =>
        simp only
        split
        · rfl
        · rename_i hv; have := hps (by simpa [Out.delivers] using hv); omega
      | verr e => have := hps rfl; omega
      | crash e => rfl
      | diverge => simp at hn1
  | succ k ih =>
    intro idx acc errs st hk hst
    obtain ⟨n1, hn1⟩ := h (loc ++ [.idx idx]) st hst
    have hps := hp n1 (loc ++ [.idx idx]) st
    have hss := hsz n1 (loc ++ [.idx idx]) st
    have cont : ∀ idx' acc' errs' st', st'.el.left ≤ k → st'.el.size ≤ N →
        ∃ n2, ∀ n, n2 ≤ n → ∀ g, (∀ l, Ext (f n2 l) (g l)) →
          (homogLoop g loc n idx' acc' errs' st').1.isDiv = false := by
      intro idx' acc' errs' st' h1 h2
      obtain ⟨n2, hn2⟩ := ih idx' acc' errs' st' h1 h2
      refine ⟨n2, fun n hn g hext => ?_⟩
      obtain ⟨d, rfl⟩ := Nat.exists_eq_add_of_le hn
      rw [homogLoop_ext hext loc n2 d idx' acc' errs' st' hn2]
      exact hn2
    cases hr : f n1 (loc ++ [.idx idx]) st with
    | mk o st' =>
      rw [hr] at hps hss
      have hmono : ∀ m, n1 ≤ m → f m (loc ++ [.idx idx]) st = (o, st') := by
        intro m hm
        rw [← hr]
        exact hg (loc ++ [.idx idx]) n1 m hm st hn1
      simp only at hn1 hss
      rw [hr] at hn1
      cases o with
      | ok v =>
        by_cases hv : v.isNone = true
        · refine ⟨n1 + 1, ?_⟩
          unfold homogLoop
          rw [hmono _ (by omega)]
          simp [hv]
        · have hlt := hps (by simpa [Out.delivers] using hv)
          obtain ⟨n2, hn2⟩ := cont (idx + 1) (acc ++ [v]) errs st' (by simp only at hlt; omega) (by omega)
          refine ⟨max n1 n2 + 1, ?_⟩
          unfold homogLoop
          rw [hmono _ (by omega)]
          simp only [hv]
          exact hn2 _ (by omega) _ (fun l => hg l n2 _ (by omega))
      | verr e =>
        have hlt := hps rfl
        obtain ⟨n2, hn2⟩ := cont (idx + 1) acc (errs ++ [(some (.idx idx), e)]) st' (by simp only at hlt; omega)
          (by omega)
        refine ⟨max n1 n2 + 1, ?_⟩
        unfold homogLoop
        rw [hmono _ (by omega)]
        exact hn2 _ (by omega) _ (fun l => hg l n2 _ (by omega))
      | crash e =>
        refine ⟨n1 + 1, ?_⟩
        unfold homogLoop
        rw [hmono _ (by omega)]
        rfl
      | diverge => simp at hn1

theorem heteroLoop_conv {N : Nat} {f : Nat → Ser → Loc → St → Out Val × St}
    (hg : ∀ s l, Grows (fun n => f n s l)) (hsz : ∀ n s l st, (f n s l st).2.el.size ≤ st.el.size) (loc : Loc)
    (ss : List Ser) (h : ∀ s ∈ ss, ∀ l, Conv N (fun n => f n s l)) (idx : Nat) (acc : List Val)
    (errs : Dict ErrKey VErr) (st : St) (hst : st.el.size ≤ N) :
    ∃ n, (heteroLoop (f n) loc ss idx acc errs st).1.isDiv = false := by
  induction ss generalizing idx acc errs st with
  | nil => exact ⟨0, rfl⟩
  | cons s ss ih =>
    have ih := ih (fun t ht => h t (by simp [ht]))
    obtain ⟨n1, hn1⟩ := h s (by simp) (loc ++ [.idx idx]) st hst
    have hss := hsz n1 s (loc ++ [.idx idx]) st
    have cont : ∀ idx' acc' errs' (st' : St), st'.el.size ≤ N →
        ∃ n2, ∀ n, n2 ≤ n → (heteroLoop (f n) loc ss idx' acc' errs' st').1.isDiv = false := by
      intro idx' acc' errs' st' h2
      obtain ⟨n2, hn2⟩ := ih idx' acc' errs' st' h2
      refine ⟨n2, fun n hn => ?_⟩
      rw [heteroLoop_ext (fun s l => hg s l n2 n hn) loc ss idx' acc' errs' st' hn2]
      exact hn2
    cases hr : f n1 s (loc ++ [.idx idx]) st with
    | mk o st' =>
      rw [hr] at hss
      have hmono : ∀ m, n1 ≤ m → f m s (loc ++ [.idx idx]) st = (o, st') := by
        intro m hm
        rw [← hr]
        exact hg s (loc ++ [.idx idx]) n1 m hm st hn1
      simp only at hn1 hss
      rw [hr] at hn1
      cases o with
      | ok v =>
        obtain ⟨n2, hn2⟩ := cont (idx + 1) (acc ++ [v]) errs st' (by omega)
        refine ⟨max n1 n2, ?_⟩
        unfold heteroLoop
        rw [hmono _ (by omega)]
        exact hn2 _ (by omega)
      | verr e =>
        obtain ⟨n2, hn2⟩ := cont (idx + 1) acc (errs ++ [(some (.idx idx), e)]) st' (by omega)
        refine ⟨max n1 n2, ?_⟩
        unfold heteroLoop
        rw [hmono _ (by omega)]
        exact hn2 _ (by omega)
      | crash e =>
        refine ⟨n1, ?_⟩
        unfold heteroLoop
        rw [hmono _ (by omega)]
        rfl
      | diverge => simp at hn1

theorem unionLoop_conv {N : Nat} {f : Nat → Proxy → St → Out Val × St} (hg : ∀ p, Grows (fun n => f n p))
    (h : ∀ p, Conv N (fun n => f n p)) (title : Title) (ps : List Proxy) (errs : Dict ErrKey VErr) (st : St)
    (hst : st.el.size ≤ N) : ∃ n, (unionLoop (f n) title ps errs st).1.isDiv = false := by
  induction ps generalizing errs st with
  | nil => refine ⟨0, ?_⟩; unfold unionLoop; split <;> rfl
  | cons p ps ih =>
    obtain ⟨n1, hn1⟩ := h p ⟨st.el.createSnapshot, st.sm⟩ hst
    have cont : ∀ errs' (st' : St), st'.el.size ≤ N →
        ∃ n2, ∀ n, n2 ≤ n → (unionLoop (f n) title ps errs' st').1.isDiv = false := by
      intro errs' st' h2
      obtain ⟨n2, hn2⟩ := ih errs' st' h2
      refine ⟨n2, fun n hn => ?_⟩
      rw [unionLoop_ext (fun p => hg p n2 n hn) title ps errs' st' hn2]
      exact hn2
    cases hr : f n1 p ⟨st.el.createSnapshot, st.sm⟩ with
    | mk o st' =>
      have hmono : ∀ m, n1 ≤ m → f m p ⟨st.el.createSnapshot, st.sm⟩ = (o, st') := by
        intro m hm
        rw [← hr]
        exact hg p n1 m hm _ hn1
      simp only at hn1
      rw [hr] at hn1
      cases o with
      | ok v =>
        by_cases hv : v.isNone = true
        · obtain ⟨n2, hn2⟩ := cont errs { st with sm := st'.sm } hst
          refine ⟨max n1 n2, ?_⟩
          unfold unionLoop
          rw [hmono _ (by omega)]
          simp only [hv, if_true]
          exact hn2 _ (by omega)
        · refine ⟨n1, ?_⟩
          unfold unionLoop
          rw [hmono _ (by omega)]
          simp [hv]
      | verr e =>
        obtain ⟨n2, hn2⟩ := cont (errs.set (some (.name e.title.text)) e) { st with sm := st'.sm } hst
        refine ⟨max n1 n2, ?_⟩
        unfold unionLoop
        rw [hmono _ (by omega)]
        exact hn2 _ (by omega)
      | crash e =>
        refine ⟨n1, ?_⟩
        unfold unionLoop
        rw [hmono _ (by omega)]
        rfl
      | diverge => simp at hn1

theorem taggedLoop_conv {N : Nat} {f : Nat → Proxy → St → Out Val × St} (h : ∀ p, Conv N (fun n => f n p))
    (loc : Loc) (a : String) (mode : Mode) (ps : List (String × Proxy)) (st : St) (hst : st.el.size ≤ N) :
    ∃ n, (taggedLoop (f n) loc a mode ps st).1.isDiv = false := by
  induction ps generalizing st with
  | nil => exact ⟨0, rfl⟩
  | cons p ps ih =>
    obtain ⟨tag, p⟩ := p
    have hs := size_rel.search st.el p.name mode false
    unfold taggedLoop
    cases hse : st.el.search p.name mode false with
    | mk o el =>
      rw [hse] at hs
      simp only at hs
      cases o with
      | none => exact ih { st with el := el } (by simp only; omega)
      | some i =>
        simp only
        cases hc : el.elements[i]? with
        | none => exact ⟨0, rfl⟩
        | some c =>
          simp only
          split
          · exact h p ⟨el, _⟩ (by simp only; omega)
          · exact ih { st with el := el } (by simp only; omega)

theorem deserFields_conv {N : Nat} {f : Nat → Ser → Loc → St → Out Val × St}
    (hg : ∀ s l, Grows (fun n => f n s l)) (hsz : ∀ n s l st, (f n s l st).2.el.size ≤ st.el.size)
    (fs : List Field) (h : ∀ fd ∈ fs, ∀ l, Conv N (fun n => f n fd.ser l))
    (hv : ∀ fd ∈ fs, ∀ v, fd.validator = some v → ∀ e : Elem, (v e).1.isDiv = false ∧ (v e).2.size ≤ e.size)
    (res : Dict String Val) (errs : Dict ErrKey VErr) (st : St) (hst : st.el.size ≤ N) :
    ∃ n, (deserFields (f n) fs res errs st).1.isDiv = false := by
  induction fs generalizing res errs st with
  | nil => exact ⟨0, rfl⟩
  | cons fd fs ih =>
    have ih := ih (fun t ht => h t (by simp [ht])) (fun t ht => hv t (by simp [ht]))
    have cont : ∀ res' errs' (st' : St), st'.el.size ≤ N →
        ∃ n2, ∀ n, n2 ≤ n → (deserFields (f n) fs res' errs' st').1.isDiv = false := by
      intro res' errs' st' h2
      obtain ⟨n2, hn2⟩ := ih res' errs' st' h2
      refine ⟨n2, fun n hn => ?_⟩
      rw [deserFields_ext (fun s l => hg s l n2 n hn) fs res' errs' st' hn2]
      exact hn2
    unfold deserFields
    simp only
    cases hval : fd.validator with
    | some v =>
      have hvs := hv fd (by simp) v hval st.el
      simp only
      cases hr : v st.el with
      | mk o el' =>
        rw [hr] at hvs
        simp only at hvs ⊢
        cases o with
        | ok v => obtain ⟨n2, hn2⟩ := cont _ _ ⟨el', _⟩ (by simp only; omega); exact ⟨n2, hn2 n2 (Nat.le_refl _)⟩
        | verr e => obtain ⟨n2, hn2⟩ := cont _ _ ⟨el', _⟩ (by simp only; omega); exact ⟨n2, hn2 n2 (Nat.le_refl _)⟩
        | crash e => exact ⟨0, rfl⟩
        | diverge => simp at hvs
    | none =>
      simp only
      generalize hst1 : ({ st with sm := st.sm.set [.name fd.name] st.el.line } : St) = st1
      have hsz1 : st1.el.size ≤ N := by rw [← hst1]; exact hst
      obtain ⟨n1, hn1⟩ := h fd (by simp) [.name fd.name] st1 hsz1
      have hss := hsz n1 fd.ser [.name fd.name] st1
      cases hr : f n1 fd.ser [.name fd.name] st1 with
      | mk o st' =>
        rw [hr] at hss
        have hmono : ∀ m, n1 ≤ m → f m fd.ser [.name fd.name] st1 = (o, st') := by
          intro m hm
          rw [← hr]
          exact hg fd.ser [.name fd.name] n1 m hm st1 hn1
        simp only at hn1 hss
        rw [hr] at hn1
        cases o with
        | ok v =>
          obtain ⟨n2, hn2⟩ := cont (if v.isNone then res else res.set (fd.alias.getD fd.name) v) errs st' (by omega)
          refine ⟨max n1 n2, ?_⟩
          rw [hmono _ (by omega)]
          exact hn2 _ (by omega)
        | verr e =>
          obtain ⟨n2, hn2⟩ := cont res (errs.set (some (.name fd.name)) e) st' (by omega)
          refine ⟨max n1 n2, ?_⟩
          rw [hmono _ (by omega)]
          exact hn2 _ (by omega)
        | crash e =>
          refine ⟨n1, ?_⟩
          rw [hmono _ (by omega)]
          rfl
        | diverge => simp at hn1

theorem validateModel_isDiv (env : Env) (cls : String) (m : ModelSer) (d : Val) (st : St) :
    (validateModel env cls m d st).isDiv = false := by
  unfold validateModel
  split
  · rfl
  · split <;> rfl

theorem deserModel_conv (env : Env) {N : Nat} {f : Nat → Ser → Loc → St → Out Val × St}
    (hg : ∀ s l, Grows (fun n => f n s l)) (hsz : ∀ n s l st, (f n s l st).2.el.size ≤ st.el.size)
    (P : Ser → Prop) (h : ∀ s, s.Everywhere P → ∀ l, Conv N (fun n => f n s l)) (cls : String) (m : ModelSer)
    (hm : m.Everywhere P)
    (hv : ∀ fs, m.body = .fields fs → ∀ fd ∈ fs, ∀ v, fd.validator = some v → ∀ e : Elem,
      (v e).1.isDiv = false ∧ (v e).2.size ≤ e.size) (loc : Loc) : Conv N (fun n => deserModel env (f n) cls m loc) := by
  intro st hst
  unfold deserModel
  unfold ModelSer.Everywhere at hm
  split
  · rename_i fs hb
    rw [hb] at hm
    obtain ⟨n, hn⟩ := deserFields_conv hg hsz fs (fun fd hfd => h _ (hm fd hfd)) (hv fs hb) [] [] st hst
    refine ⟨n, ?_⟩
    cases hr : deserFields (f n) fs [] [] st with
    | mk o st' =>
      rw [hr] at hn
      simp only [hr]
      cases o with
      | ok r =>
        simp only
        split
        · exact validateModel_isDiv ..
        · rfl
      | verr e => rfl
      | crash e => rfl
      | diverge => simp at hn
  · rename_i s hb
    rw [hb] at hm
    obtain ⟨n, hn⟩ := h s hm loc st hst
    refine ⟨n, ?_⟩
    simp only at hn
    cases hr : f n s loc st with
    | mk o st' =>
      rw [hr] at hn
      simp only [hr]
      cases o with
      | ok r => exact validateModel_isDiv ..
      | verr e => rfl
      | crash e => rfl
      | diverge => simp at hn

theorem deser_grows (env : Env) (eas : Bool) (s : Ser) (l : Loc) : Grows (fun n => deser env eas n s l) :=
  fun _ _ h st hd => deser_mono env eas h s l st hd

/-- With enough fuel every serializer terminates on every element. -/
theorem deser_conv {env : Env} (hv : env.ValidatorsShrink) (eas : Bool) (hE : env.Everywhere (Ser.ListsProgress eas))
    (N : Nat) (s : Ser) (hs : s.Everywhere (Ser.ListsProgress eas)) (loc : Loc) :
    Conv N (fun n => deser env eas n s loc) := by
  have hg := deser_grows env eas
  have hsz := fun n s l st => deser_size hv eas n s l st
  induction N using Nat.strongRecOn generalizing s loc with
  | _ N ihN =>
    induction hs generalizing loc with
    | @mk s hs1 hs2 ihs =>
      have hprox : ∀ p loc, Conv N (fun n => deser env eas n (.proxy p) loc) := by
        intro p loc st hst
        suffices h : ∃ n, (deserStep env eas (deser env eas n) n (.proxy p) loc st).1.isDiv = false by
          obtain ⟨n, hn⟩ := h; exact ⟨n + 1, hn⟩
        simp only [deserStep]
        cases hm : env.model p.cls with
        | none => exact ⟨0, rfl⟩
        | some m =>
          simp only
          by_cases hc : p.computed = true
          · exact ⟨0, by simp [hc]⟩
          · simp only [hc]
            have hle := size_rel.search st.el p.name p.mode true
            cases hse : st.el.popElement p.name p.mode with
            | mk o el =>
              rw [show st.el.search p.name p.mode true = _ from hse] at hle
              simp only at hle
              cases o with
              | none => exact ⟨0, rfl⟩
              | some i =>
                simp only [Bool.false_eq_true, if_false]
                have key : Conv (N - 1) (fun n c =>
                    (match c.el.isNil with
                    | (true, el) => (.ok .none, ⟨el, Dict.set c.sm loc c.el.line⟩)
                    | (false, el) =>
                      deserModel env (deser env eas n) p.cls m loc ⟨el, Dict.set c.sm loc c.el.line⟩ : Out Val × St)) := by
                  intro c hc
                  have hpos : 0 < N := by have := size_eq st.el; omega
                  have hn := size_rel.isNil c.el
                  cases hnil : c.el.isNil with
                  | mk b el' =>
                    rw [hnil] at hn
                    simp only [hnil] at hn ⊢
                    cases b with
                    | true => exact ⟨0, rfl⟩
                    | false =>
                      exact deserModel_conv env (fun s l => hg s l) hsz _
                        (fun s hs l => ihN (N - 1) (by omega) s hs l) p.cls m (hE _ _ hm)
                        (fun fs hb fd hfd v hval e =>
                          ⟨(hv _ _ fs hm hb fd hfd v hval e).1, (hv _ _ fs hm hb fd hfd v hval e).2.2⟩)
                        loc ⟨el', _⟩ (by simp only; omega)
                exact onChild_conv key ⟨el, st.sm⟩ i (fun c hc => by
                  have := size_child hc
                  simp only at this
                  omega)
      intro st hst
      suffices h : ∃ n, (deserStep env eas (deser env eas n) n s loc st).1.isDiv = false by
        obtain ⟨n, hn⟩ := h; exact ⟨n + 1, hn⟩
      cases s with
      | text c nl =>
        refine ⟨0, ?_⟩
        simp only [deserStep, deserText]
        split
        · rfl
        · split <;> rfl
      | attr nm c =>
        refine ⟨0, ?_⟩
        simp only [deserStep]
        split
        · rfl
        · split <;> rfl
      | elem nm ns m c nl =>
        refine ⟨0, ?_⟩
        simp only [deserStep, onChild]
        split
        · rfl
        · split
          · rfl
          · split
            · rfl
            · simp only [deserText]
              split
              · rfl
              · split <;> rfl
      | attrs a =>
        refine ⟨0, ?_⟩
        simp only [deserStep, deserAttrs]
        split
        · rfl
        · split <;> rfl
      | mapElem a nm m =>
        refine ⟨0, ?_⟩
        simp only [deserStep, onChild]
        split
        · rfl
        · split
          · rfl
          · split
            · rfl
            · simp only [deserAttrs]
              split
              · rfl
              · split <;> rfl
      | raw nm m c =>
        refine ⟨0, ?_⟩
        simp only [deserStep]
        split
        · rfl
        · split <;> rfl
      | proxy p =>
        obtain ⟨n, hn⟩ := hprox p loc st hst
        cases n with
        | zero => simp [deser] at hn
        | succ n => exact ⟨n, hn⟩
      | primUnion c inner =>
        simp only [deserStep]
        by_cases hc : c = true
        · exact ⟨0, by simp [hc]⟩
        · simp only [hc]
          exact ihs inner (by simp [Ser.subs]) loc st hst
      | modelUnion t c alts =>
        simp only [deserStep]
        by_cases hc : c = true
        · exact ⟨0, by simp [hc]⟩
        · simp only [hc]
          exact unionLoop_conv (f := fun n p st => deser env eas n (.proxy p) loc st) (fun p => hg _ _)
            (fun p => hprox p loc) t alts [] st hst
      | tagged c d a m alts =>
        simp only [deserStep]
        by_cases hc : c = true
        · exact ⟨0, by simp [hc]⟩
        · simp only [hc]
          exact taggedLoop_conv (f := fun n p st => deser env eas n (.proxy p) loc st)
            (fun p => hprox p loc) loc a m alts st hst
      | wrap path ns m c inner =>
        simp only [deserStep]
        by_cases hc : c = true
        · exact ⟨0, by simp [hc]⟩
        · simp only [hc]
          exact descend_conv (f := fun n c => deser env eas n inner loc ⟨c.el, c.sm.set loc c.el.line⟩)
            (fun st hst => ihs inner (by simp [Ser.subs]) loc ⟨st.el, _⟩ hst) m path st hst
      | homog t c inner =>
        simp only [deserStep]
        by_cases hc : c = true
        · exact ⟨0, by simp [hc]⟩
        · simp only [hc]
          have hpr : inner.Everywhere (Ser.Progressive eas) := by
            rcases hs1 with h | h
            · exact absurd h hc
            · exact h
          obtain ⟨n, hn⟩ := homogLoop_conv (f := fun n l st => deser env eas n inner l st) (fun l => hg _ _)
            (fun l => ihs inner (by simp [Ser.subs]) l) (fun n l st => hsz n inner l st)
            (fun n l st hd => deser_progress hv eas n inner hpr l st hd) loc st.el.left 0 [] [] st (Nat.le_refl _) hst
          refine ⟨n, ?_⟩
          cases hr : homogLoop (fun loc st => deser env eas n inner loc st) loc n 0 [] [] st with
          | mk o st' =>
            rw [hr] at hn
            cases o with
            | ok r =>
              simp only [Bool.false_eq_true, if_false, homogFinish]
              split
              · split <;> rfl
              · rfl
            | verr e => rfl
            | crash e => rfl
            | diverge => simp at hn
      | hetero t c inners =>
        simp only [deserStep]
        by_cases hc : c = true
        · exact ⟨0, by simp [hc]⟩
        · simp only [hc]
          obtain ⟨n, hn⟩ := heteroLoop_conv (f := fun n => deser env eas n) hg hsz loc inners
            (fun s hs l => ihs s (by simpa [Ser.subs] using hs) l) 0 [] [] st hst
          refine ⟨n, ?_⟩
          cases hr : heteroLoop (deser env eas n) loc inners 0 [] [] st with
          | mk o st' =>
            rw [hr] at hn
            cases o with
            | ok r =>
              simp only [Bool.false_eq_true, if_false, heteroFinish]
              split
              · split <;> rfl
              · rfl
            | verr e => rfl
            | crash e => rfl
            | diverge => simp at hn

theorem deserModel_terminates {env : Env} (hv : env.ValidatorsShrink) (eas : Bool)
    (hE : env.Everywhere (Ser.ListsProgress eas)) (cls : String) (m : ModelSer) (hm : env.model cls = some m)
    (loc : Loc) (st : St) : ∃ n, (deserModel env (deser env eas n) cls m loc st).1.isDiv = false :=
  deserModel_conv env (fun s l => deser_grows env eas s l) (fun n s l st => deser_size hv eas n s l st) _
    (fun s hs l => deser_conv hv eas hE st.el.size s hs l) cls m (hE _ _ hm)
    (fun fs hb fd hfd v hval e =>
      ⟨(hv _ _ fs hm hb fd hfd v hval e).1, (hv _ _ fs hm hb fd hfd v hval e).2.2⟩) loc st (Nat.le_refl _)

end PXml
