import Verif.Lemmas.SimEq
import Verif.Lemmas.Items

/-! Removing fields that are never read from the classes does not change reading (if it terminates). -/

namespace PXml

open Elem

/-- The first run does not terminate, or both give the same outcome up to lines and the same element. -/
def Ref (r1 r2 : Out Val × St) : Prop :=
  r1.1 = .diverge ∨ (OutRel (fun _ => True) (fun _ => -1) r1.1 r2.1 ∧ r1.2.el = r2.2.el)

/-- The same for loops. -/
def LoopRef (r1 r2 : Out (List Val × Dict ErrKey VErr) × St) : Prop :=
  r1.1 = .diverge ∨ (LoopRel (fun _ => True) (fun _ => -1) r1.1 r2.1 ∧ r1.2.el = r2.2.el)

/-- The same for loops over fields. -/
def FieldsRef (r1 r2 : Out (Dict String Val × Dict ErrKey VErr) × St) : Prop :=
  r1.1 = .diverge ∨ (r1.2.el = r2.2.el ∧ match r1.1, r2.1 with
    | .ok r, .ok r' => r.1 = r'.1 ∧ ErrsRel (fun _ => -1) r.2 r'.2
    | .verr e, .verr f => e.lines (fun _ => -1) = f.lines (fun _ => -1)
    | .crash e, .crash f => e = f
    | _, _ => False)

/-- The reader functions agree on equal elements. -/
def Refines (f g : St → Out Val × St) : Prop := ∀ el sm1 sm2, Ref (f ⟨el, sm1⟩) (g ⟨el, sm2⟩)

theorem Ref.none {el : Elem} {sm1 sm2 : SMap} : Ref (.ok .none, ⟨el, sm1⟩) (.ok .none, ⟨el, sm2⟩) :=
  .inr ⟨⟨rfl, trivial⟩, rfl⟩

theorem onChild_refines {f g : St → Out Val × St} (h : Refines f g) (el : Elem) (sm1 sm2 : SMap) (i : Nat) :
    Ref (onChild ⟨el, sm1⟩ i f) (onChild ⟨el, sm2⟩ i g) := by
  unfold onChild
  cases hc : el.elements[i]? with
  | none => exact .inr ⟨rfl, rfl⟩
  | some c =>
    simp only
    rcases h c sm1 sm2 with h1 | ⟨h1, h2⟩
    · exact .inl h1
    · exact .inr ⟨h1, by simp only [h2]⟩

theorem descend_refines {f g : St → Out Val × St} (h : Refines f g) (mode : Mode) (path : List String) :
    Refines (descend mode f path) (descend mode g path) := by
  induction path with
  | nil => exact h
  | cons t ts ih =>
    intro el sm1 sm2
    unfold descend
    simp only
    cases el.findElement t mode with
    | error x => exact .inr ⟨rfl, rfl⟩
    | ok r =>
      obtain ⟨o, e⟩ := r
      cases o with
      | none => exact Ref.none
      | some i => exact onChild_refines ih e sm1 sm2 i

theorem homogLoop_refines {f g : Loc → St → Out Val × St} (h : ∀ l, Refines (f l) (g l)) (loc : Loc) (n idx : Nat)
    (acc : List Val) {errs1 errs2 : Dict ErrKey VErr} (he : ErrsRel (fun _ => -1) errs1 errs2) (el : Elem) (sm1 sm2 : SMap) :
    LoopRef (homogLoop f loc n idx acc errs1 ⟨el, sm1⟩) (homogLoop g loc n idx acc errs2 ⟨el, sm2⟩) := by
  induction n generalizing idx acc errs1 errs2 el sm1 sm2 with
  | zero => exact .inl rfl
  | succ n ih =>
    unfold homogLoop
    rcases hf : f (loc ++ [.idx idx]) ⟨el, sm1⟩ with ⟨o1, el1, t1⟩
    rcases hg : g (loc ++ [.idx idx]) ⟨el, sm2⟩ with ⟨o2, el2, t2⟩
    have h1 := h (loc ++ [.idx idx]) el sm1 sm2
    rw [hf, hg] at h1 ⊢
    rcases h1 with h1 | ⟨h1, h2⟩
    · simp only at h1; subst h1; exact .inl rfl
    · simp only at h1 h2
      subst h2
      cases o1 <;> cases o2 <;> simp only [OutRel] at h1
      · obtain ⟨rfl, _⟩ := h1
        simp only
        split
        · exact .inr ⟨⟨rfl, fun _ _ => trivial, he⟩, rfl⟩
        · exact ih _ _ he _ _ _
      · exact ih _ _ (by simp only [ErrsRel, List.map_append, List.map_cons, List.map_nil, h1]; rw [he]) _ _ _
      · exact .inr ⟨h1, rfl⟩
      · exact .inl rfl

theorem heteroLoop_refines {f g : Ser → Loc → St → Out Val × St} (h : ∀ s l, Refines (f s l) (g s l)) (loc : Loc) (ss : List Ser)
    (idx : Nat) (acc : List Val) {errs1 errs2 : Dict ErrKey VErr} (he : ErrsRel (fun _ => -1) errs1 errs2) (el : Elem)
    (sm1 sm2 : SMap) :
    LoopRef (heteroLoop f loc ss idx acc errs1 ⟨el, sm1⟩) (heteroLoop g loc ss idx acc errs2 ⟨el, sm2⟩) := by
  induction ss generalizing idx acc errs1 errs2 el sm1 sm2 with
  | nil => exact .inr ⟨⟨rfl, fun _ _ => trivial, he⟩, rfl⟩
  | cons s ss ih =>
    unfold heteroLoop
    rcases hf : f s (loc ++ [.idx idx]) ⟨el, sm1⟩ with ⟨o1, el1, t1⟩
    rcases hg : g s (loc ++ [.idx idx]) ⟨el, sm2⟩ with ⟨o2, el2, t2⟩
    have h1 := h s (loc ++ [.idx idx]) el sm1 sm2
    rw [hf, hg] at h1 ⊢
    rcases h1 with h1 | ⟨h1, h2⟩
    · simp only at h1; subst h1; exact .inl rfl
    · simp only at h1 h2
      subst h2
      cases o1 <;> cases o2 <;> simp only [OutRel] at h1
      · obtain ⟨rfl, _⟩ := h1
        exact ih _ _ he _ _ _
      · exact ih _ _ (by simp only [ErrsRel, List.map_append, List.map_cons, List.map_nil, h1]; rw [he]) _ _ _
      · exact .inr ⟨h1, rfl⟩
      · exact .inl rfl

theorem unionLoop_refines {f g : Proxy → St → Out Val × St} (h : ∀ p, Refines (f p) (g p)) (title : Title) (ps : List Proxy)
    {errs1 errs2 : Dict ErrKey VErr} (he : ErrsRel (fun _ => -1) errs1 errs2) :
    Refines (unionLoop f title ps errs1) (unionLoop g title ps errs2) := by
  induction ps generalizing errs1 errs2 with
  | nil =>
    intro el sm1 sm2
    unfold unionLoop
    rw [isEmpty_lines he]
    split
    · exact Ref.none
    · refine .inr ⟨?_, rfl⟩
      simp only [OutRel, intoValidationError_lines]
      rw [he]
  | cons p ps ih =>
    intro el sm1 sm2
    unfold unionLoop
    simp only
    rcases hf : f p ⟨el.createSnapshot, sm1⟩ with ⟨o1, el1, t1⟩
    rcases hg : g p ⟨el.createSnapshot, sm2⟩ with ⟨o2, el2, t2⟩
    have h1 := h p el.createSnapshot sm1 sm2
    rw [hf, hg] at h1
    rcases h1 with h1 | ⟨h1, h2⟩
    · simp only at h1; subst h1; exact .inl rfl
    · simp only at h1 h2
      subst h2
      cases o1 <;> cases o2 <;> simp only [OutRel] at h1
      · obtain ⟨rfl, _⟩ := h1
        simp only
        split
        · exact ih he _ _ _
        · exact .inr ⟨⟨rfl, trivial⟩, rfl⟩
      · rename_i e1 e2
        have ht : e1.title = e2.title := by have := congrArg VErr.title h1; exact this
        simp only
        rw [ht]
        exact ih (errs_set_lines he _ h1) _ _ _
      · exact .inr ⟨h1, rfl⟩
      · exact .inl rfl

theorem taggedLoop_refines {f g : Proxy → St → Out Val × St} (h : ∀ p, Refines (f p) (g p)) (loc : Loc) (a : String)
    (mode : Mode) (ps : List (String × Proxy)) :
    Refines (taggedLoop f loc a mode ps) (taggedLoop g loc a mode ps) := by
  induction ps with
  | nil => intro el sm1 sm2; exact Ref.none
  | cons tp ps ih =>
    obtain ⟨tag, p⟩ := tp
    intro el sm1 sm2
    unfold taggedLoop
    simp only
    cases el.search p.name mode false with
    | mk o e =>
      cases o with
      | none => exact ih _ _ _
      | some i =>
        simp only
        cases e.elements[i]? with
        | none => exact .inr ⟨rfl, rfl⟩
        | some c =>
          simp only
          split
          · exact h p _ _ _
          · exact ih _ _ _

/-- The fields in `K` are not read. -/
def Skipped (F : Ser → Loc → St → Out Val × St) (f : Field) : Prop :=
  f.validator = none ∧ ∀ l st, F f.ser l st = (.ok .none, st) ∨ (F f.ser l st).1 = .diverge

theorem deserFields_refines {F G : Ser → Loc → St → Out Val × St} (h : ∀ s l, Refines (F s l) (G s l)) (K : Field → Bool)
    (fs : List Field) (hK : ∀ f ∈ fs, K f = true → Skipped F f) (res : Dict String Val) {errs1 errs2 : Dict ErrKey VErr}
    (he : ErrsRel (fun _ => -1) errs1 errs2) (el : Elem) (sm1 sm2 : SMap) :
    FieldsRef (deserFields F fs res errs1 ⟨el, sm1⟩) (deserFields G (fs.filter fun f => !K f) res errs2 ⟨el, sm2⟩) := by
  induction fs generalizing res errs1 errs2 el sm1 sm2 with
  | nil => exact .inr ⟨rfl, rfl, he⟩
  | cons f fs ih =>
    have ih := fun {r e1 e2} he {el s1 s2} => ih (fun x hx => hK x (by simp [hx])) r (errs1 := e1) (errs2 := e2) he el s1 s2
    rw [deserFields_cons]
    by_cases hk : K f = true
    · have hs := hK f (by simp) hk
      rw [List.filter_cons_of_neg (by simp [hk])]
      have hr : (readField F f ⟨el, sm1⟩) = F f.ser [.name f.name] ⟨el, sm1.set [.name f.name] el.line⟩ := by
        simp only [readField, hs.1]
      rw [hr]
      rcases hs.2 [.name f.name] ⟨el, sm1.set [.name f.name] el.line⟩ with h1 | h1
      · rw [h1]
        exact ih he
      · cases hd : F f.ser [.name f.name] ⟨el, sm1.set [.name f.name] el.line⟩ with
        | mk o st' => rw [hd] at h1; simp only at h1; subst h1; exact .inl rfl
    · rw [List.filter_cons_of_pos (by simp [hk]), deserFields_cons]
      have hr : Ref (readField F f ⟨el, sm1⟩) (readField G f ⟨el, sm2⟩) := by
        unfold readField
        cases f.validator with
        | some v => exact .inr ⟨outRel_refl _, rfl⟩
        | none => exact h _ _ _ _ _
      rcases hf : readField F f ⟨el, sm1⟩ with ⟨o1, el1, t1⟩
      rcases hg : readField G f ⟨el, sm2⟩ with ⟨o2, el2, t2⟩
      rw [hf, hg] at hr
      rcases hr with h1 | ⟨h1, h2⟩
      · simp only at h1; subst h1; exact .inl rfl
      · simp only at h1 h2
        subst h2
        cases o1 <;> cases o2 <;> simp only [OutRel] at h1
        · obtain ⟨rfl, _⟩ := h1
          exact ih he
        · exact ih (errs_set_lines he _ h1)
        · exact .inr ⟨rfl, h1⟩
        · exact .inl rfl

theorem validateModel_refines (env1 env2 : Env) (hval : env2.validate = env1.validate) (cls : String) {m m' : ModelSer}
    (hn : m'.title = m.title) (hx : m'.extraForbid = m.extraForbid) (d : Val) (el : Elem) (sm1 sm2 : SMap) :
    OutRel (fun _ => True) (fun _ => -1) (validateModel env1 cls m d ⟨el, sm1⟩) (validateModel env2 cls m' d ⟨el, sm2⟩) := by
  unfold validateModel
  have hh : m'.hideInput = m.hideInput := congrArg Title.hide hn
  rw [hn, hx, hval, hh]
  simp only
  split
  · exact outRel_refl _
  · split
    · exact outRel_refl _
    · simp [OutRel, setSourceline, VErr.lines]

theorem deserModel_refines {env1 env2 : Env} (hval : env2.validate = env1.validate) {F G : Ser → Loc → St → Out Val × St}
    (h : ∀ s l, Refines (F s l) (G s l)) (K : Field → Bool) (cls : String) (m : ModelSer)
    (hK : ∀ fs, m.body = .fields fs → ∀ f ∈ fs, K f = true → Skipped F f) (loc : Loc) :
    Refines (deserModel env1 F cls m loc) (deserModel env2 G cls (m.without K) loc) := by
  intro el sm1 sm2
  cases hb : m.body with
  | fields fs =>
    have hw : m.without K = { m with body := .fields (fs.filter fun f => !K f) } := by simp only [ModelSer.without, hb]
    unfold deserModel
    rw [hw]
    simp only [hb]
    have hr := deserFields_refines h K fs (hK fs hb) [] (errs1 := []) (errs2 := []) rfl el sm1 sm2
    rcases hf : deserFields F fs [] [] ⟨el, sm1⟩ with ⟨o1, el1, t1⟩
    rcases hg : deserFields G (fs.filter fun f => !K f) [] [] ⟨el, sm2⟩ with ⟨o2, el2, t2⟩
    rw [hf, hg] at hr
    rcases hr with h1 | ⟨h1, h2⟩
    · simp only at h1; subst h1; exact .inl rfl
    · simp only at h1 h2
      subst h1
      cases o1 <;> cases o2 <;> simp only at h2
      · obtain ⟨h3, h4⟩ := h2
        rename_i r1 r2
        obtain ⟨d1, e1⟩ := r1
        obtain ⟨d2, e2⟩ := r2
        simp only at h3 h4
        subst h3
        simp only
        rw [isEmpty_lines h4]
        split
        · exact .inr ⟨validateModel_refines env1 env2 hval cls (m := m) rfl rfl _ _ _ _, rfl⟩
        · refine .inr ⟨?_, rfl⟩
          simp only [OutRel, intoValidationError_lines, ModelSer.title]
          rw [h4]
      · exact .inr ⟨h2, rfl⟩
      · exact .inr ⟨h2, rfl⟩
  | root s =>
    have hw : m.without K = m := by simp only [ModelSer.without, hb]
    unfold deserModel
    rw [hw]
    simp only [hb]
    have hr := h s loc el sm1 sm2
    rcases hf : F s loc ⟨el, sm1⟩ with ⟨o1, el1, t1⟩
    rcases hg : G s loc ⟨el, sm2⟩ with ⟨o2, el2, t2⟩
    rw [hf, hg] at hr
    rcases hr with h1 | ⟨h1, h2⟩
    · simp only at h1; subst h1; exact .inl rfl
    · simp only at h1 h2
      subst h2
      cases o1 <;> cases o2 <;> simp only [OutRel] at h1
      · obtain ⟨rfl, _⟩ := h1
        exact .inr ⟨validateModel_refines env1 env2 hval cls rfl rfl _ _ _ _, rfl⟩
      · refine .inr ⟨?_, rfl⟩
        simp only [OutRel, intoValidationError_lines, List.map_cons, List.map_nil, h1]
      · exact .inr ⟨h1, rfl⟩
      · exact .inl rfl

/-- A field serializer that is never read. -/
def Ser.Inert (env : Env) (eas : Bool) (s : Ser) : Prop := ∀ n l st, deser env eas (n + 1) s l st = (.ok .none, st)

theorem Ref.of_eq {o : Out Val} {el : Elem} {sm1 sm2 : SMap} : Ref (o, ⟨el, sm1⟩) (o, ⟨el, sm2⟩) := .inr ⟨outRel_refl _, rfl⟩

theorem deserText_refines (eas c nl : Bool) : Refines (deserText eas c nl) (deserText eas c nl) := by
  intro el sm1 sm2
  unfold deserText
  split
  · exact Ref.none
  · simp only
    split <;> exact Ref.of_eq

theorem deserAttrs_refines (a : AttrsSer) : Refines (deserAttrs a) (deserAttrs a) := by
  intro el sm1 sm2
  unfold deserAttrs
  split
  · exact Ref.none
  · simp only
    split <;> exact Ref.of_eq

theorem deser_refines (env : Env) (eas : Bool) (K : String → Field → Bool)
    (hK : ∀ cls m fs, env.model cls = some m → m.body = .fields fs → ∀ f ∈ fs, K cls f = true →
      f.validator = none ∧ f.ser.Inert env eas) (n : Nat) (s : Ser) (loc : Loc) :
    Refines (deser env eas n s loc) (deser (env.without K) eas n s loc) := by
  induction n generalizing s loc with
  | zero => intro el sm1 sm2; exact .inl rfl
  | succ n ih =>
    have hskip : ∀ cls m fs, env.model cls = some m → m.body = .fields fs → ∀ f ∈ fs, K cls f = true →
        Skipped (deser env eas n) f := by
      intro cls m fs hm hb f hf hk
      obtain ⟨h1, h2⟩ := hK cls m fs hm hb f hf hk
      refine ⟨h1, fun l st => ?_⟩
      cases n with
      | zero => exact .inr rfl
      | succ k => exact .inl (h2 k l st)
    intro el sm1 sm2
    change Ref (deserStep env eas (deser env eas n) n s loc ⟨el, sm1⟩)
      (deserStep (env.without K) eas (deser (env.without K) eas n) n s loc ⟨el, sm2⟩)
    generalize deser env eas n = F at ih hskip ⊢
    generalize deser (env.without K) eas n = G at ih ⊢
    have hsm : ∀ {f g : St → Out Val × St}, Refines f g →
        Refines (fun c => f ⟨c.el, c.sm.set loc c.el.line⟩) (fun c => g ⟨c.el, c.sm.set loc c.el.line⟩) :=
      fun h e s1 s2 => h e _ _
    have hchild : ∀ (t : String) (m : Mode) {f g : St → Out Val × St}, Refines f g →
        Ref (match el.popElement t m with
          | (none, el) => (.ok .none, ⟨el, sm1⟩)
          | (some i, el) => onChild ⟨el, sm1⟩ i f : Out Val × St)
          (match el.popElement t m with
          | (none, el) => (.ok .none, ⟨el, sm2⟩)
          | (some i, el) => onChild ⟨el, sm2⟩ i g : Out Val × St) := by
      intro t m f g hfg
      cases el.popElement t m with
      | mk o e =>
        cases o with
        | none => exact Ref.none
        | some i => exact onChild_refines hfg e sm1 sm2 i
    unfold deserStep
    cases s with
    | text c nl => exact deserText_refines eas c nl _ _ _
    | attr nm c =>
      simp only
      split
      · exact Ref.none
      · split <;> exact Ref.of_eq
    | elem nm ns m c nl =>
      simp only
      split
      · exact Ref.none
      · exact hchild nm m (hsm (deserText_refines eas _ nl))
    | attrs a => exact deserAttrs_refines a _ _ _
    | mapElem a nm m =>
      simp only
      split
      · exact Ref.none
      · exact hchild nm m (hsm (deserAttrs_refines a))
    | raw nm m c =>
      simp only
      split
      · exact Ref.none
      · split <;> exact Ref.of_eq
    | proxy p =>
      simp only
      have hm' : (env.without K).model p.cls = (env.model p.cls).map (ModelSer.without (K p.cls)) := rfl
      rw [hm']
      cases hm : env.model p.cls with
      | none => exact .inr ⟨rfl, rfl⟩
      | some m =>
        simp only [Option.map_some]
        split
        · exact Ref.none
        · refine hchild p.name p.mode
            (f := fun c => match c.el.isNil with
              | (true, el) => (.ok .none, ⟨el, c.sm.set loc c.el.line⟩)
              | (false, el) => deserModel env F p.cls m loc ⟨el, c.sm.set loc c.el.line⟩)
            (g := fun c => match c.el.isNil with
              | (true, el) => (.ok .none, ⟨el, c.sm.set loc c.el.line⟩)
              | (false, el) => deserModel (env.without K) G p.cls (m.without (K p.cls)) loc ⟨el, c.sm.set loc c.el.line⟩) ?_
          intro e s1 s2
          simp only
          cases e.isNil with
          | mk b e' =>
            cases b with
            | true => exact Ref.none
            | false =>
              exact deserModel_refines (env1 := env) (env2 := env.without K) rfl (fun s l => ih s l) (K p.cls) p.cls m
                (fun fs hb => hskip p.cls m fs hm hb) loc _ _ _
    | primUnion c inner =>
      simp only
      split
      · exact Ref.none
      · exact ih inner loc _ _ _
    | modelUnion t c alts =>
      simp only
      split
      · exact Ref.none
      · exact unionLoop_refines (fun p => ih (.proxy p) loc) t alts (errs1 := []) (errs2 := []) rfl _ _ _
    | tagged c d a m alts =>
      simp only
      split
      · exact Ref.none
      · exact taggedLoop_refines (fun p => ih (.proxy p) loc) loc a m alts _ _ _
    | wrap path ns m c inner =>
      simp only
      split
      · exact Ref.none
      · exact descend_refines (hsm (ih inner loc)) m path _ _ _
    | homog t c inner =>
      simp only
      split
      · exact Ref.none
      · have hr := homogLoop_refines (fun l => ih inner l) loc n 0 [] (errs1 := []) (errs2 := []) rfl el sm1 sm2
        rcases hf : homogLoop (fun loc st => F inner loc st) loc n 0 [] [] ⟨el, sm1⟩ with ⟨o1, el1, t1⟩
        rcases hg : homogLoop (fun loc st => G inner loc st) loc n 0 [] [] ⟨el, sm2⟩ with ⟨o2, el2, t2⟩
        rw [hf, hg] at hr
        rcases hr with h1 | ⟨h1, h2⟩
        · simp only at h1; subst h1; exact .inl rfl
        · simp only at h1 h2
          subst h2
          cases o1 <;> cases o2 <;> simp only [LoopRel] at h1
          · obtain ⟨h3, _, h5⟩ := h1
            simp only [homogFinish]
            rw [isEmpty_lines h5, ← h3]
            split
            · split <;> exact Ref.of_eq
            · refine .inr ⟨?_, rfl⟩
              simp only [OutRel, intoValidationError_lines]
              rw [h5]
          · exact .inr ⟨h1, rfl⟩
          · exact .inr ⟨h1, rfl⟩
          · exact .inl rfl
    | hetero t c inners =>
      simp only
      split
      · exact Ref.none
      · have hr := heteroLoop_refines ih loc inners 0 [] (errs1 := []) (errs2 := []) rfl el sm1 sm2
        rcases hf : heteroLoop F loc inners 0 [] [] ⟨el, sm1⟩ with ⟨o1, el1, t1⟩
        rcases hg : heteroLoop G loc inners 0 [] [] ⟨el, sm2⟩ with ⟨o2, el2, t2⟩
        rw [hf, hg] at hr
        rcases hr with h1 | ⟨h1, h2⟩
        · simp only at h1; subst h1; exact .inl rfl
        · simp only at h1 h2
          subst h2
          cases o1 <;> cases o2 <;> simp only [LoopRel] at h1
          · obtain ⟨h3, _, h5⟩ := h1
            simp only [heteroFinish]
            rw [isEmpty_lines h5, ← h3]
            split
            · split <;> exact Ref.of_eq
            · refine .inr ⟨?_, rfl⟩
              simp only [OutRel, intoValidationError_lines]
              rw [h5]
          · exact .inr ⟨h1, rfl⟩
          · exact .inr ⟨h1, rfl⟩
          · exact .inl rfl

end PXml
