import Verif.Lemmas.Items

/-! Which entries of the source map reading can change. -/

namespace PXml

open Elem

/-- `f` does not change the entry of the source map at `k`. -/
def Keeps {α : Type} (k : Loc) (f : St → Out α × St) : Prop := ∀ st, (f st).2.sm.get? k = st.sm.get? k

/-- The sub-models of the field belong to the classes `D`. -/
def Ser.In (D : String → Prop) : Ser → Prop
  | .proxy p => D p.cls
  | _ => True

/-- The field names of the classes `D`. -/
def Env.FieldOf (env : Env) (D : String → Prop) (name : String) : Prop :=
  ∃ cls m fs f, D cls ∧ env.model cls = some m ∧ m.body = .fields fs ∧ f ∈ fs ∧ f.name = name

theorem onChild_keeps {α : Type} {k : Loc} {f : St → Out α × St} (h : Keeps k f) (i : Nat) : Keeps k (onChild · i f) := by
  intro st
  show (onChild st i f).2.sm.get? k = _
  unfold onChild
  split
  · rfl
  · exact h ⟨_, st.sm⟩

theorem set_keeps {k loc : Loc} (h : ¬ loc <+: k) (sm : SMap) (l : Int) : (sm.set loc l).get? k = sm.get? k :=
  Dict.get?_set_ne _ _ fun he => h (he ▸ List.prefix_rfl)

theorem descend_keeps {k : Loc} {f : St → Out Val × St} (h : Keeps k f) (mode : Mode) (path : List String) :
    Keeps k (descend mode f path) := by
  induction path with
  | nil => exact h
  | cons t ts ih =>
    intro st
    unfold descend
    split
    · rfl
    · rfl
    · exact onChild_keeps ih _ ⟨_, st.sm⟩

theorem homogLoop_keeps {k : Loc} {f : Loc → St → Out Val × St} (loc : Loc) (n idx : Nat)
    (h : ∀ i, idx ≤ i → Keeps k (f (loc ++ [.idx i])))
    (acc : List Val) (errs : Dict ErrKey VErr) : Keeps k (homogLoop f loc n idx acc errs) := by
  induction n generalizing idx acc errs with
  | zero => intro st; rfl
  | succ n ih =>
    intro st
    unfold homogLoop
    have hs := h idx (Nat.le_refl _) st
    have h' : ∀ i, idx + 1 ≤ i → Keeps k (f (loc ++ [.idx i])) := fun i hi => h i (by omega)
    cases hr : f (loc ++ [.idx idx]) st with
    | mk o st' =>
      rw [hr] at hs
      cases o with
      | ok v =>
        simp only
        split
        · exact hs
        · exact (ih _ h' _ _ st').trans hs
      | verr e => exact (ih _ h' _ _ st').trans hs
      | crash e => exact hs
      | diverge => exact hs

theorem heteroLoop_keeps {k : Loc} {f : Ser → Loc → St → Out Val × St} (loc : Loc) (ss : List Ser) (idx : Nat)
    (h : ∀ s ∈ ss, ∀ i, idx ≤ i → Keeps k (f s (loc ++ [.idx i]))) (acc : List Val) (errs : Dict ErrKey VErr) :
    Keeps k (heteroLoop f loc ss idx acc errs) := by
  induction ss generalizing idx acc errs with
  | nil => intro st; rfl
  | cons s ss ih =>
    have ih := ih (idx + 1) (fun t ht i hi => h t (by simp [ht]) i (by omega))
    intro st
    unfold heteroLoop
    have hs := h s (by simp) idx (Nat.le_refl _) st
    cases hr : f s (loc ++ [.idx idx]) st with
    | mk o st' =>
      rw [hr] at hs
      cases o with
      | ok v => exact (ih _ _ st').trans hs
      | verr e => exact (ih _ _ st').trans hs
      | crash e => exact hs
      | diverge => exact hs

theorem unionLoop_keeps {k : Loc} {f : Proxy → St → Out Val × St} (title : Title) (ps : List Proxy)
    (h : ∀ p ∈ ps, Keeps k (f p)) (errs : Dict ErrKey VErr) : Keeps k (unionLoop f title ps errs) := by
  induction ps generalizing errs with
  | nil =>
    intro st
    unfold unionLoop
    split <;> rfl
  | cons p ps ih =>
    have ih := ih (fun t ht => h t (by simp [ht]))
    intro st
    unfold unionLoop
    have hs := h p (by simp) ⟨st.el.createSnapshot, st.sm⟩
    cases hr : f p ⟨st.el.createSnapshot, st.sm⟩ with
    | mk o st' =>
      rw [hr] at hs
      cases o with
      | ok v =>
        simp only
        split
        · exact (ih _ { st with sm := st'.sm }).trans hs
        · exact hs
      | verr e => exact (ih _ { st with sm := st'.sm }).trans hs
      | crash e => exact hs
      | diverge => exact hs

theorem taggedLoop_keeps {k : Loc} {f : Proxy → St → Out Val × St} (loc : Loc) (hk : ¬ loc <+: k) (a : String) (mode : Mode)
    (ps : List (String × Proxy)) (h : ∀ p ∈ ps, Keeps k (f p.2)) : Keeps k (taggedLoop f loc a mode ps) := by
  induction ps with
  | nil => intro st; rfl
  | cons p ps ih =>
    have ih := ih (fun t ht => h t (by simp [ht]))
    have hp := h p (by simp)
    obtain ⟨tag, p⟩ := p
    intro st
    unfold taggedLoop
    split
    · rename_i i el hse
      split
      · rfl
      · split
        · exact (hp ⟨el, _⟩).trans (set_keeps hk _ _)
        · exact ih { st with el := el }
    · rename_i el hse
      exact ih { st with el := el }

theorem readField_keeps {k : Loc} {f : Ser → Loc → St → Out Val × St} (fd : Field) (hk : ¬ [.name fd.name] <+: k)
    (h : Keeps k (f fd.ser [.name fd.name])) : Keeps k (readField f fd) := by
  intro st
  unfold readField
  have h1 := set_keeps hk st.sm st.el.line
  simp only
  split
  · exact h1
  · exact (h _).trans h1

theorem runFields_keeps {k : Loc} {f : Ser → Loc → St → Out Val × St} (fs : List Field)
    (h : ∀ fd ∈ fs, ¬ [.name fd.name] <+: k ∧ Keeps k (f fd.ser [.name fd.name])) (st : St) :
    (runFields f fs st).2.sm.get? k = st.sm.get? k := by
  induction fs generalizing st with
  | nil => rfl
  | cons fd fs ih =>
    have ih := ih (fun t ht => h t (by simp [ht]))
    simp only [runFields]
    rw [ih]
    exact readField_keeps fd (h fd (by simp)).1 (h fd (by simp)).2 st

theorem deserFields_keeps {k : Loc} {f : Ser → Loc → St → Out Val × St} (fs : List Field)
    (h : ∀ fd ∈ fs, ¬ [.name fd.name] <+: k ∧ Keeps k (f fd.ser [.name fd.name]))
    (res : Dict String Val) (errs : Dict ErrKey VErr) : Keeps k (deserFields f fs res errs) := by
  induction fs generalizing res errs with
  | nil => intro st; rfl
  | cons fd fs ih =>
    have ih := ih (fun t ht => h t (by simp [ht]))
    intro st
    have hs := readField_keeps fd (h fd (by simp)).1 (h fd (by simp)).2 st
    rw [deserFields_cons]
    cases hr : readField f fd st with
    | mk o st' =>
      rw [hr] at hs
      cases o with
      | ok v => exact (ih _ _ st').trans hs
      | verr e => exact (ih _ _ st').trans hs
      | crash e => exact hs
      | diverge => exact hs

theorem deserModel_keeps (env : Env) {k : Loc} {f : Ser → Loc → St → Out Val × St} (cls : String) (m : ModelSer) (loc : Loc)
    (hf : ∀ fs, m.body = .fields fs → ∀ fd ∈ fs, ¬ [.name fd.name] <+: k ∧ Keeps k (f fd.ser [.name fd.name]))
    (hr : ∀ s, m.body = .root s → Keeps k (f s loc)) : Keeps k (deserModel env f cls m loc) := by
  intro st
  unfold deserModel
  split
  · rename_i fs hb
    have hs := deserFields_keeps fs (hf fs hb) [] [] st
    cases hr : deserFields f fs [] [] st with
    | mk o st' =>
      rw [hr] at hs
      cases o with
      | ok v =>
        simp only
        split <;> exact hs
      | verr e => exact hs
      | crash e => exact hs
      | diverge => exact hs
  · rename_i s hb
    have hs := hr s hb st
    cases hr : f s loc st with
    | mk o st' =>
      rw [hr] at hs
      cases o <;> exact hs

theorem deserText_keeps (k : Loc) (eas c nl : Bool) : Keeps k (deserText eas c nl) := by
  intro st
  unfold deserText
  split
  · rfl
  · split <;> rfl

theorem deserAttrs_keeps (k : Loc) (a : AttrsSer) : Keeps k (deserAttrs a) := by
  intro st
  unfold deserAttrs
  split
  · rfl
  · split <;> rfl

theorem not_prefix_snoc {loc k : Loc} (h : ¬ loc <+: k) (p : LocPart) : ¬ (loc ++ [p]) <+: k :=
  fun hp => h ((List.prefix_append loc [p]).trans hp)

/-- Reading a field at `loc` changes the source map only below `loc` and below the names of fields of its sub-models. -/
theorem deser_keeps (env : Env) (D : String → Prop)
    (hD : ∀ cls m, D cls → env.model cls = some m → m.Everywhere (Ser.In D)) (k : Loc)
    (hk : ∀ name, env.FieldOf D name → ¬ [.name name] <+: k) (eas : Bool) (n : Nat) (s : Ser)
    (hs : s.Everywhere (Ser.In D)) (loc : Loc) (hl : ¬ loc <+: k) : Keeps k (deser env eas n s loc) := by
  induction n generalizing s loc with
  | zero => intro st; rfl
  | succ n ih =>
    intro st
    change (deserStep env eas (deser env eas n) n s loc st).2.sm.get? k = _
    generalize deser env eas n = F at ih ⊢
    unfold deserStep
    obtain ⟨hs1, hs2⟩ := hs
    cases s with
    | text c nl => exact deserText_keeps k eas c nl st
    | attr nm c =>
      simp only
      split
      · rfl
      · split <;> rfl
    | elem nm ns m c nl =>
      simp only
      split
      · rfl
      · split
        · rfl
        · exact onChild_keeps (fun st => (deserText_keeps k eas c nl _).trans (set_keeps hl st.sm _)) _ ⟨_, st.sm⟩
    | attrs a => exact deserAttrs_keeps k a st
    | mapElem a nm m =>
      simp only
      split
      · rfl
      · split
        · rfl
        · exact onChild_keeps (fun st => (deserAttrs_keeps k a _).trans (set_keeps hl st.sm _)) _ ⟨_, st.sm⟩
    | raw nm m c =>
      simp only
      split
      · rfl
      · split
        · exact set_keeps hl _ _
        · rfl
    | proxy p =>
      simp only
      split
      · rfl
      · rename_i m hm
        split
        · rfl
        · split
          · rfl
          · refine onChild_keeps ?_ _ ⟨_, st.sm⟩
            intro c
            simp only
            cases hn : c.el.isNil with
            | mk b el' =>
              cases b with
              | true => exact set_keeps hl _ _
              | false =>
                have he := hD p.cls m hs1 hm
                refine (deserModel_keeps env p.cls m loc ?_ ?_ ⟨el', _⟩).trans (set_keeps hl _ _)
                · intro fs hb fd hfd
                  have hn := hk fd.name ⟨p.cls, m, fs, fd, hs1, hm, hb, hfd, rfl⟩
                  simp only [ModelSer.Everywhere, hb] at he
                  exact ⟨hn, ih _ (he fd hfd) _ hn⟩
                · intro s hb
                  simp only [ModelSer.Everywhere, hb] at he
                  exact ih _ he _ hl
    | primUnion c inner =>
      simp only
      split
      · rfl
      · exact ih _ (hs2 _ (by simp [Ser.subs])) _ hl _
    | modelUnion t c alts =>
      simp only
      split
      · rfl
      · exact unionLoop_keeps t alts (fun p hp => ih (.proxy p) (hs2 _ (by simp [Ser.subs, hp])) loc hl) [] st
    | tagged c d a m alts =>
      simp only
      split
      · rfl
      · exact taggedLoop_keeps loc hl a m alts
          (fun p hp => ih (.proxy p.2) (hs2 _ (by simp only [Ser.subs, List.mem_map]; exact ⟨p, hp, rfl⟩)) loc hl) st
    | wrap path ns m c inner =>
      simp only
      split
      · rfl
      · exact descend_keeps (fun st => (ih inner (hs2 _ (by simp [Ser.subs])) loc hl _).trans (set_keeps hl st.sm _)) m path st
    | homog t c inner =>
      simp only
      split
      · rfl
      · have hs := homogLoop_keeps loc n 0
          (fun i _ => ih inner (hs2 _ (by simp [Ser.subs])) _ (not_prefix_snoc hl (.idx i))) [] [] st
        cases hr : homogLoop (fun loc st => F inner loc st) loc n 0 [] [] st with
        | mk o st' =>
          rw [show homogLoop (F inner) loc n 0 [] [] st = _ from hr] at hs
          cases o <;> exact hs
    | hetero t c inners =>
      simp only
      split
      · rfl
      · have hs := heteroLoop_keeps loc inners 0
          (fun s hs i _ => ih s (hs2 _ (by simpa [Ser.subs] using hs)) _ (not_prefix_snoc hl (.idx i))) [] [] st
        cases hr : heteroLoop F loc inners 0 [] [] st with
        | mk o st' =>
          rw [hr] at hs
          cases o <;> exact hs

end PXml
