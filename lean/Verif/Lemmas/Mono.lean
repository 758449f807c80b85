import Verif.Serializer

/-! More fuel never changes the outcome of a terminating run. -/

namespace PXml

/-- `isDiv o`: the outcome is "out of fuel". -/
def Out.isDiv {α : Type} : Out α → Bool
  | .diverge => true
  | _ => false

@[simp] theorem Out.isDiv_ok {α : Type} (a : α) : (Out.ok a).isDiv = false := rfl
@[simp] theorem Out.isDiv_verr {α : Type} (e : VErr) : (Out.verr e : Out α).isDiv = false := rfl
@[simp] theorem Out.isDiv_crash {α : Type} (e : PyErr) : (Out.crash e : Out α).isDiv = false := rfl
@[simp] theorem Out.isDiv_diverge {α : Type} : (Out.diverge : Out α).isDiv = true := rfl

/-- `g` answers like `f` wherever `f` does not run out of fuel. -/
def Ext {ι α : Type} (f g : ι → Out α × St) : Prop := ∀ x, (f x).1.isDiv = false → g x = f x

theorem onChild_ext {α : Type} {f g : St → Out α × St} (h : Ext f g) (st : St) (i : Nat)
    (hd : (onChild st i f).1.isDiv = false) : onChild st i g = onChild st i f := by
  unfold onChild at hd ⊢
  split
  · rfl
  · rename_i c hc
    simp only [hc] at hd
    rw [h]; exact hd

theorem descend_ext {f g : St → Out Val × St} (h : Ext f g) (mode : Mode) (path : List String) (st : St)
    (hd : (descend mode f path st).1.isDiv = false) : descend mode g path st = descend mode f path st := by
  induction path generalizing st with
  | nil => exact h st hd
  | cons t ts ih =>
    unfold descend at hd ⊢
    split
    · rfl
    · rfl
    · rename_i i el hf
      simp only [hf] at hd
      exact onChild_ext (fun st => ih st) _ _ hd

theorem homogLoop_ext {f g : Loc → St → Out Val × St} (h : ∀ l, Ext (f l) (g l)) (loc : Loc) (n k idx : Nat)
    (acc : List Val) (errs : Dict ErrKey VErr) (st : St)
    (hd : (homogLoop f loc n idx acc errs st).1.isDiv = false) :
    homogLoop g loc (n + k) idx acc errs st = homogLoop f loc n idx acc errs st := by
  induction n generalizing idx acc errs st with
  | zero => simp [homogLoop] at hd
  | succ n ih =>
    rw [show n + 1 + k = (n + k) + 1 by omega]
    unfold homogLoop at hd ⊢
    cases hr : f (loc ++ [.idx idx]) st with
    | mk o st' =>
      have hne : o.isDiv = false := by
        cases o <;> simp_all
      have hg : g (loc ++ [.idx idx]) st = (o, st') := by rw [h _ st (by rw [hr]; exact hne), hr]
      rw [hr] at hd
      rw [hg]
      cases o with
      | ok v =>
        by_cases hv : v.isNone = true
        · simp [hv]
        · simp only [hv] at hd ⊢; exact ih _ _ _ _ hd
      | verr e => exact ih _ _ _ _ hd
      | crash e => rfl
      | diverge => simp at hne

theorem heteroLoop_ext {f g : Ser → Loc → St → Out Val × St} (h : ∀ s l, Ext (f s l) (g s l)) (loc : Loc)
    (ss : List Ser) (idx : Nat) (acc : List Val) (errs : Dict ErrKey VErr) (st : St)
    (hd : (heteroLoop f loc ss idx acc errs st).1.isDiv = false) :
    heteroLoop g loc ss idx acc errs st = heteroLoop f loc ss idx acc errs st := by
  induction ss generalizing idx acc errs st with
  | nil => rfl
  | cons s ss ih =>
    unfold heteroLoop at hd ⊢
    cases hr : f s (loc ++ [.idx idx]) st with
    | mk o st' =>
      have hne : o.isDiv = false := by cases o <;> simp_all
      have hg : g s (loc ++ [.idx idx]) st = (o, st') := by rw [h _ _ st (by rw [hr]; exact hne), hr]
      rw [hr] at hd
      rw [hg]
      cases o with
      | ok v => exact ih _ _ _ _ hd
      | verr e => exact ih _ _ _ _ hd
      | crash e => rfl
      | diverge => simp at hne

theorem unionLoop_ext {f g : Proxy → St → Out Val × St} (h : ∀ p, Ext (f p) (g p)) (title : Title)
    (ps : List Proxy) (errs : Dict ErrKey VErr) (st : St)
    (hd : (unionLoop f title ps errs st).1.isDiv = false) :
    unionLoop g title ps errs st = unionLoop f title ps errs st := by
  induction ps generalizing errs st with
  | nil => rfl
  | cons p ps ih =>
    unfold unionLoop at hd ⊢
    cases hr : f p ⟨st.el.createSnapshot, st.sm⟩ with
    | mk o st' =>
      have hne : o.isDiv = false := by cases o <;> simp_all
      have hg : g p ⟨st.el.createSnapshot, st.sm⟩ = (o, st') := by rw [h _ _ (by rw [hr]; exact hne), hr]
      rw [hr] at hd
      rw [hg]
      cases o with
      | ok v =>
        by_cases hv : v.isNone = true
        · simp only [hv] at hd ⊢; exact ih _ _ hd
        · simp [hv]
      | verr e => exact ih _ _ hd
      | crash e => rfl
      | diverge => simp at hne

theorem taggedLoop_ext {f g : Proxy → St → Out Val × St} (h : ∀ p, Ext (f p) (g p)) (loc : Loc) (a : String)
    (mode : Mode) (ps : List (String × Proxy)) (st : St)
    (hd : (taggedLoop f loc a mode ps st).1.isDiv = false) :
    taggedLoop g loc a mode ps st = taggedLoop f loc a mode ps st := by
  induction ps generalizing st with
  | nil => rfl
  | cons p ps ih =>
    obtain ⟨tag, p⟩ := p
    unfold taggedLoop at hd ⊢
    split
    · rename_i i el hs
      simp only [hs] at hd
      split
      · rfl
      · rename_i c hc
        simp only [hc] at hd
        by_cases ht : c.getAttrib a = some tag
        · simp only [ht, if_true] at hd ⊢; exact h _ _ hd
        · simp only [ht, if_false] at hd ⊢; exact ih _ hd
    · rename_i el hs
      simp only [hs] at hd
      exact ih _ hd

theorem deserFields_ext {f g : Ser → Loc → St → Out Val × St} (h : ∀ s l, Ext (f s l) (g s l))
    (fs : List Field) (res : Dict String Val) (errs : Dict ErrKey VErr) (st : St)
    (hd : (deserFields f fs res errs st).1.isDiv = false) :
    deserFields g fs res errs st = deserFields f fs res errs st := by
  induction fs generalizing res errs st with
  | nil => rfl
  | cons fd fs ih =>
    unfold deserFields at hd ⊢
    simp only at hd ⊢
    cases hv : fd.validator with
    | some v =>
      simp only [hv] at hd ⊢
      cases hr : v st.el with
      | mk o el' =>
        simp only [hr] at hd ⊢
        cases o with
        | ok v => exact ih _ _ _ hd
        | verr e => exact ih _ _ _ hd
        | crash e => rfl
        | diverge => rfl
    | none =>
      simp only [hv] at hd ⊢
      cases hr : f fd.ser [.name fd.name] { st with sm := st.sm.set [.name fd.name] st.el.line } with
      | mk o st' =>
        have hne : o.isDiv = false := by cases o <;> simp_all
        rw [h _ _ _ (by rw [hr]; exact hne), hr]
        rw [hr] at hd
        cases o with
        | ok v => exact ih _ _ _ hd
        | verr e => exact ih _ _ _ hd
        | crash e => rfl
        | diverge => simp at hne

theorem deserModel_ext (env : Env) {f g : Ser → Loc → St → Out Val × St} (h : ∀ s l, Ext (f s l) (g s l))
    (cls : String) (m : ModelSer) (loc : Loc) (st : St)
    (hd : (deserModel env f cls m loc st).1.isDiv = false) :
    deserModel env g cls m loc st = deserModel env f cls m loc st := by
  unfold deserModel at hd ⊢
  split
  · rename_i fs hb
    simp only [hb] at hd
    have : deserFields g fs [] [] st = deserFields f fs [] [] st := by
      apply deserFields_ext h
      cases hr : deserFields f fs [] [] st with
      | mk o st' => cases o <;> simp_all
    rw [this]
  · rename_i s hb
    simp only [hb] at hd
    have : g s loc st = f s loc st := by
      apply h
      cases hr : f s loc st with
      | mk o st' => cases o <;> simp_all
    rw [this]

theorem deser_succ (env : Env) (eas : Bool) (n : Nat) (s : Ser) (loc : Loc) (st : St)
    (hd : (deser env eas n s loc st).1.isDiv = false) :
    deser env eas (n + 1) s loc st = deser env eas n s loc st := by
  induction n generalizing s loc st with
  | zero => simp [deser] at hd
  | succ n ih =>
    have hE : ∀ s l, Ext (deser env eas n s l) (deser env eas (n + 1) s l) := fun s l st => ih s l st
    change (deserStep env eas (deser env eas n) n s loc st).1.isDiv = false at hd
    change deserStep env eas (deser env eas (n + 1)) (n + 1) s loc st = deserStep env eas (deser env eas n) n s loc st
    generalize deser env eas (n + 1) = G at hE ⊢
    generalize deser env eas n = F at hE hd ⊢
    unfold deserStep at hd ⊢
    cases s with
    | text c nl => rfl
    | attr nm c => rfl
    | elem nm ns m c nl => rfl
    | attrs a => rfl
    | mapElem a nm m => rfl
    | raw nm m c => rfl
    | proxy p =>
      simp only at hd ⊢
      split
      · rfl
      · rename_i m hm
        simp only [hm] at hd
        split
        · rfl
        · rename_i hc
          simp only [hc] at hd
          split
          · rfl
          · rename_i i el hp
            simp only [hp, Bool.false_eq_true, if_false] at hd
            apply onChild_ext (hd := hd)
            intro c hdc
            simp only at hdc ⊢
            split
            · rfl
            · rename_i el' hn
              simp only [hn] at hdc
              exact deserModel_ext env hE _ _ _ _ hdc
    | primUnion c inner =>
      simp only at hd ⊢
      split
      · rfl
      · rename_i hc; simp only [hc] at hd; exact hE _ _ _ hd
    | modelUnion t c alts =>
      simp only at hd ⊢
      split
      · rfl
      · rename_i hc; simp only [hc] at hd
        exact unionLoop_ext (fun p => hE (.proxy p) loc) _ _ _ _ hd
    | tagged c d a m alts =>
      simp only at hd ⊢
      split
      · rfl
      · rename_i hc; simp only [hc] at hd
        exact taggedLoop_ext (fun p => hE (.proxy p) loc) _ _ _ _ _ hd
    | wrap path ns m c inner =>
      simp only at hd ⊢
      split
      · rfl
      · rename_i hc; simp only [hc] at hd
        refine descend_ext ?_ _ _ _ hd
        intro c hc
        exact hE _ _ _ hc
    | homog t c inner =>
      simp only at hd ⊢
      split
      · rfl
      · rename_i hc; simp only [hc] at hd
        have := homogLoop_ext (fun l => hE inner l) loc n 1 0 [] [] st (by
          cases hr : homogLoop (fun loc st => F inner loc st) loc n 0 [] [] st with
          | mk o st' => cases o <;> simp_all)
        rw [this]
    | hetero t c inners =>
      simp only at hd ⊢
      split
      · rfl
      · rename_i hc; simp only [hc] at hd
        have := heteroLoop_ext hE loc inners 0 [] [] st (by
          cases hr : heteroLoop F loc inners 0 [] [] st with
          | mk o st' => cases o <;> simp_all)
        rw [this]

/-- More fuel never changes the outcome of a terminating run. -/
theorem deser_mono (env : Env) (eas : Bool) {n m : Nat} (h : n ≤ m) (s : Ser) (loc : Loc) (st : St)
    (hd : (deser env eas n s loc st).1.isDiv = false) :
    deser env eas m s loc st = deser env eas n s loc st := by
  obtain ⟨k, rfl⟩ := Nat.exists_eq_add_of_le h
  clear h
  induction k with
  | zero => rfl
  | succ k ih => rw [← Nat.add_assoc, deser_succ, ih]; rw [ih]; exact hd

theorem deserModel_mono (env : Env) (eas : Bool) {n m : Nat} (h : n ≤ m) (cls : String) (ms : ModelSer) (loc : Loc)
    (st : St) (hd : (deserModel env (deser env eas n) cls ms loc st).1.isDiv = false) :
    deserModel env (deser env eas m) cls ms loc st = deserModel env (deser env eas n) cls ms loc st :=
  deserModel_ext env (fun s l st hd => deser_mono env eas h s l st hd) _ _ _ _ hd

end PXml
