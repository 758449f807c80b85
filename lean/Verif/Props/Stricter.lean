import Verif.Props.SubModel

/-!
# C95: constraints only reject
-/

namespace PXml

open Elem

/-- The classes of `strict` are the classes of `lax` with further constraints: some more have `extra='forbid'`, and pydantic's validation of a class
accepts less, but makes the same instance of the data it accepts. -/
structure Env.Constrains (strict lax : Env) : Prop where
  backend : strict.backend = lax.backend
  model : ∀ cls, (strict.model cls = none ∧ lax.model cls = none) ∨
    ∃ m forbid, strict.model cls = some m ∧ lax.model cls = some { m with extraForbid := forbid } ∧ (forbid = true → m.extraForbid = true)
  validate : ∀ cls d r, strict.validate cls d = .ok r → lax.validate cls d = .ok r

/-- What the stricter classes make of something, compared with what the laxer ones make of it. -/
inductive Out.Stricter : Out Val → Out Val → Prop
  | same (o : Out Val) : Stricter o o
  | only (e : VErr) (v : Val) : v ≠ .none → Stricter (.verr e) (.ok v)
  | both (e e' : VErr) : Stricter (.verr e) (.verr e')

/-- The same for a step of the reader. -/
def StepStricter (a b : Out Val × St) : Prop := a.1.Stricter b.1 ∧ a.2 = b.2

theorem isNone_iff {v : Val} : v.isNone = true ↔ v = .none := by cases v <;> simp [Val.isNone]

theorem onChild_stricter {st : St} {i : Nat} {f g : St → Out Val × St} (h : ∀ st, StepStricter (f st) (g st)) :
    StepStricter (onChild st i f) (onChild st i g) := by
  unfold onChild
  cases st.el.elements[i]? with
  | none => exact ⟨.same _, rfl⟩
  | some c =>
    obtain ⟨h1, h2⟩ := h ⟨c, st.sm⟩
    exact ⟨h1, by simp only [h2]⟩

theorem descend_stricter {mode : Mode} {f g : St → Out Val × St} (h : ∀ st, StepStricter (f st) (g st)) (path : List String) (st : St) :
    StepStricter (descend mode f path st) (descend mode g path st) := by
  induction path generalizing st with
  | nil => exact h st
  | cons t ts ih =>
    unfold descend
    cases st.el.findElement t mode with
    | error e => exact ⟨.same _, rfl⟩
    | ok r =>
      obtain ⟨o, el⟩ := r
      cases o with
      | none => exact ⟨.same _, rfl⟩
      | some i => exact onChild_stricter ih

/-- The items and errors collected so far by the two readers. -/
def CollectedStricter (a b : List Val × Dict ErrKey VErr) : Prop :=
  (a.2 = [] → a = b) ∧ (a.2 ≠ [] → b.2 ≠ [] ∨ ∃ v ∈ b.1, v ≠ .none)

/-- The outcome of a loop. -/
inductive LoopStricter : Out (List Val × Dict ErrKey VErr) → Out (List Val × Dict ErrKey VErr) → Prop
  | ok {a b} : CollectedStricter a b → LoopStricter (.ok a) (.ok b)
  | crash (e : PyErr) : LoopStricter (.crash e) (.crash e)
  | diverge : LoopStricter .diverge .diverge

theorem CollectedStricter.item {a b : List Val × Dict ErrKey VErr} (h : CollectedStricter a b) (v : Val) :
    CollectedStricter (a.1 ++ [v], a.2) (b.1 ++ [v], b.2) := by
  refine ⟨fun ha => ?_, fun ha => ?_⟩
  · have := h.1 ha; subst this; rfl
  · rcases h.2 ha with h' | ⟨w, hw, hne⟩
    · exact .inl h'
    · exact .inr ⟨w, by simp [hw], hne⟩

theorem CollectedStricter.only {a b : List Val × Dict ErrKey VErr} (_ : CollectedStricter a b) (k : ErrKey) (e : VErr) (v : Val) (hv : v ≠ .none) :
    CollectedStricter (a.1, a.2 ++ [(k, e)]) (b.1 ++ [v], b.2) :=
  ⟨fun ha => (by simp at ha), fun _ => .inr ⟨v, by simp, hv⟩⟩

theorem CollectedStricter.both {a b : List Val × Dict ErrKey VErr} (_ : CollectedStricter a b) (k : ErrKey) (e e' : VErr) :
    CollectedStricter (a.1, a.2 ++ [(k, e)]) (b.1, b.2 ++ [(k, e')]) :=
  ⟨fun ha => (by simp at ha), fun _ => .inl (by simp)⟩

theorem homog_stricter {f g : Loc → St → Out Val × St} (h : ∀ loc st, StepStricter (f loc st) (g loc st)) (loc : Loc) (fuel idx : Nat)
    (a b : List Val × Dict ErrKey VErr) (hab : CollectedStricter a b) (st : St) :
    LoopStricter (homogLoop f loc fuel idx a.1 a.2 st).1 (homogLoop g loc fuel idx b.1 b.2 st).1 ∧
      (homogLoop f loc fuel idx a.1 a.2 st).2 = (homogLoop g loc fuel idx b.1 b.2 st).2 := by
  induction fuel generalizing idx a b st with
  | zero => exact ⟨.diverge, rfl⟩
  | succ n ih =>
    unfold homogLoop
    have h1 := h (loc ++ [.idx idx]) st
    cases hf : f (loc ++ [.idx idx]) st with
    | mk o1 s1 =>
      cases hg : g (loc ++ [.idx idx]) st with
      | mk o2 s2 =>
        rw [hf, hg] at h1
        obtain ⟨ho, hs⟩ := h1
        simp only at ho hs
        subst hs
        cases ho with
        | same =>
          cases o1 with
          | ok v =>
            by_cases hv : v.isNone
            · simp only [hv, if_true]; exact ⟨.ok hab, trivial⟩
            · simp only [hv, Bool.false_eq_true, if_false]
              exact ih (idx + 1) _ _ (hab.item v) s1
          | verr e => exact ih (idx + 1) _ _ (hab.both _ e e) s1
          | crash e => exact ⟨.crash e, rfl⟩
          | diverge => exact ⟨.diverge, rfl⟩
        | only e v hv =>
          have hvn : v.isNone = false := by cases v <;> first | rfl | exact absurd rfl hv
          simp only [hvn, Bool.false_eq_true, if_false]
          exact ih (idx + 1) _ _ (hab.only _ e v hv) s1
        | both e e' => exact ih (idx + 1) _ _ (hab.both _ e e') s1

theorem hetero_stricter {f g : Ser → Loc → St → Out Val × St} (loc : Loc) (ss : List Ser)
    (h : ∀ s ∈ ss, ∀ loc st, StepStricter (f s loc st) (g s loc st)) (idx : Nat)
    (a b : List Val × Dict ErrKey VErr) (hab : CollectedStricter a b) (st : St) :
    LoopStricter (heteroLoop f loc ss idx a.1 a.2 st).1 (heteroLoop g loc ss idx b.1 b.2 st).1 ∧
      (heteroLoop f loc ss idx a.1 a.2 st).2 = (heteroLoop g loc ss idx b.1 b.2 st).2 := by
  induction ss generalizing idx a b st with
  | nil => exact ⟨.ok hab, rfl⟩
  | cons s ss ih =>
    have ih := ih (fun s hs => h s (by simp [hs]))
    unfold heteroLoop
    have h1 := h s (by simp) (loc ++ [.idx idx]) st
    cases hf : f s (loc ++ [.idx idx]) st with
    | mk o1 s1 =>
      cases hg : g s (loc ++ [.idx idx]) st with
      | mk o2 s2 =>
        rw [hf, hg] at h1
        obtain ⟨ho, hs⟩ := h1
        simp only at ho hs
        subst hs
        cases ho with
        | same =>
          cases o1 with
          | ok v => exact ih (idx + 1) _ _ (hab.item v) s1
          | verr e => exact ih (idx + 1) _ _ (hab.both _ e e) s1
          | crash e => exact ⟨.crash e, rfl⟩
          | diverge => exact ⟨.diverge, rfl⟩
        | only e v hv => exact ih (idx + 1) _ _ (hab.only _ e v hv) s1
        | both e e' => exact ih (idx + 1) _ _ (hab.both _ e e') s1

theorem homogFinish_stricter (title : Title) {a b : List Val × Dict ErrKey VErr} (h : CollectedStricter a b) :
    (homogFinish title a).Stricter (homogFinish title b) := by
  by_cases ha : a.2 = []
  · have := h.1 ha; subst this; exact .same _
  · have hx : homogFinish title a = .verr (intoValidationError title a.2) := by simp [homogFinish, ha]
    rw [hx]
    by_cases hb : b.2 = []
    · rcases h.2 ha with h' | ⟨v, hv, _⟩
      · exact absurd hb h'
      · have hb1 : b.1 ≠ [] := by intro h0; rw [h0] at hv; cases hv
        have : homogFinish title b = .ok (.list b.1) := by simp [homogFinish, hb, hb1]
        rw [this]; exact .only _ _ (by simp)
    · have : homogFinish title b = .verr (intoValidationError title b.2) := by simp [homogFinish, hb]
      rw [this]; exact .both _ _

theorem heteroFinish_stricter (title : Title) {a b : List Val × Dict ErrKey VErr} (h : CollectedStricter a b) :
    (heteroFinish title a).Stricter (heteroFinish title b) := by
  by_cases ha : a.2 = []
  · have := h.1 ha; subst this; exact .same _
  · have hx : heteroFinish title a = .verr (intoValidationError title a.2) := by simp [heteroFinish, ha]
    rw [hx]
    by_cases hb : b.2 = []
    · rcases h.2 ha with h' | ⟨v, hv, hne⟩
      · exact absurd hb h'
      · have hall : b.1.all Val.isNone = false := by
          rw [List.all_eq_false]
          exact ⟨v, hv, by rw [isNone_iff]; exact hne⟩
        have : heteroFinish title b = .ok (.list b.1) := by simp [heteroFinish, hb, hall]
        rw [this]; exact .only _ _ (by simp)
    · have : heteroFinish title b = .verr (intoValidationError title b.2) := by simp [heteroFinish, hb]
      rw [this]; exact .both _ _

theorem tagged_stricter {f g : Proxy → St → Out Val × St} (loc : Loc) (a : String) (mode : Mode) (alts : List (String × Proxy))
    (h : ∀ x ∈ alts, ∀ st, StepStricter (f x.2 st) (g x.2 st)) (st : St) :
    StepStricter (taggedLoop f loc a mode alts st) (taggedLoop g loc a mode alts st) := by
  induction alts generalizing st with
  | nil => exact ⟨.same _, rfl⟩
  | cons x alts ih =>
    obtain ⟨tag, p⟩ := x
    have ih := ih (fun x hx => h x (by simp [hx]))
    unfold taggedLoop
    rcases st.el.search p.name mode false with ⟨_ | i, el⟩
    · exact ih _
    · cases hc : el.elements[i]? with
      | none => simp only [hc]; exact ⟨.same _, rfl⟩
      | some c =>
        simp only [hc]
        split
        · exact h (tag, p) (by simp) _
        · exact ih _

/-- The fields read so far. -/
def FieldsStricter (a b : Out (Dict String Val × Dict ErrKey VErr)) : Prop :=
  (∃ x y, a = .ok x ∧ b = .ok y ∧ (x.2 = [] → x = y)) ∨ (∃ e, a = .crash e ∧ b = .crash e) ∨ (a = .diverge ∧ b = .diverge)

theorem fields_stricter {f g : Ser → Loc → St → Out Val × St} (fs : List Field)
    (h : ∀ fd ∈ fs, ∀ loc st, StepStricter (f fd.ser loc st) (g fd.ser loc st)) (r r' : Dict String Val) (es es' : Dict ErrKey VErr)
    (hab : es = [] → r = r' ∧ es' = []) (st : St) :
    FieldsStricter (deserFields f fs r es st).1 (deserFields g fs r' es' st).1 ∧ (deserFields f fs r es st).2 = (deserFields g fs r' es' st).2 := by
  induction fs generalizing r r' es es' st with
  | nil =>
    refine ⟨.inl ⟨(r, es), (r', es'), rfl, rfl, fun h => ?_⟩, rfl⟩
    simp only at h
    obtain ⟨rfl, rfl⟩ := hab h
    simp [h]
  | cons fd fs ih =>
    have ih := ih (fun s hs => h s (by simp [hs]))
    unfold deserFields
    have hset : ∀ (q : Dict ErrKey VErr) k v, Dict.set q k v ≠ [] := by
      intro q k v; cases q with
      | nil => simp [Dict.set]
      | cons y q => simp only [Dict.set]; split <;> simp
    have cont : ∀ A B : Out Val × St, StepStricter A B →
        FieldsStricter
          (match A with
            | (.ok v, st') => deserFields f fs (if v.isNone then r else r.set (fd.alias.getD fd.name) v) es st'
            | (.verr e, st') => deserFields f fs r (es.set (some (.name fd.name)) e) st'
            | (.crash e, st') => (.crash e, st')
            | (.diverge, st') => (.diverge, st')).1
          (match B with
            | (.ok v, st') => deserFields g fs (if v.isNone then r' else r'.set (fd.alias.getD fd.name) v) es' st'
            | (.verr e, st') => deserFields g fs r' (es'.set (some (.name fd.name)) e) st'
            | (.crash e, st') => (.crash e, st')
            | (.diverge, st') => (.diverge, st')).1 ∧
        (match A with
            | (.ok v, st') => deserFields f fs (if v.isNone then r else r.set (fd.alias.getD fd.name) v) es st'
            | (.verr e, st') => deserFields f fs r (es.set (some (.name fd.name)) e) st'
            | (.crash e, st') => (.crash e, st')
            | (.diverge, st') => (.diverge, st')).2 =
          (match B with
            | (.ok v, st') => deserFields g fs (if v.isNone then r' else r'.set (fd.alias.getD fd.name) v) es' st'
            | (.verr e, st') => deserFields g fs r' (es'.set (some (.name fd.name)) e) st'
            | (.crash e, st') => (.crash e, st')
            | (.diverge, st') => (.diverge, st')).2 := by
      rintro ⟨o1, s1⟩ ⟨o2, s2⟩ ⟨ho, hs⟩
      simp only at ho hs
      subst hs
      cases ho with
      | same =>
        cases o1 with
        | ok v =>
          refine ih _ _ _ _ (fun h => ?_) s1
          obtain ⟨rfl, rfl⟩ := hab h
          exact ⟨rfl, rfl⟩
        | verr e => exact ih _ _ _ _ (fun h => absurd h (hset _ _ _)) s1
        | crash e => exact ⟨.inr (.inl ⟨e, rfl, rfl⟩), rfl⟩
        | diverge => exact ⟨.inr (.inr ⟨rfl, rfl⟩), rfl⟩
      | only e v hv => exact ih _ _ _ _ (fun h => absurd h (hset _ _ _)) s1
      | both e e' => exact ih _ _ _ _ (fun h => absurd h (hset _ _ _)) s1
    cases hv : fd.validator with
    | some v =>
      simp only
      exact cont (_, _) (_, _) ⟨.same _, rfl⟩
    | none =>
      simp only
      exact cont _ _ (h fd (by simp) _ _)

variable {strict lax : Env}

theorem validate_stricter (hc : strict.Constrains lax) (cls : String) (m : ModelSer) (forbid : Bool) (hf : forbid = true → m.extraForbid = true)
    (d : Val) (st : St) : (validateModel strict cls m d st).Stricter (validateModel lax cls { m with extraForbid := forbid } d st) := by
  have hlax : ∀ e, (validateModel strict cls m d st) = .verr e →
      (validateModel strict cls m d st).Stricter (validateModel lax cls { m with extraForbid := forbid } d st) := by
    intro e he
    rw [he]
    unfold validateModel
    split
    · exact .both _ _
    · cases lax.validate cls d with
      | ok r => obtain ⟨fs, set⟩ := r; exact .only _ _ (by simp)
      | error e => exact .both _ _
  cases hx : (if m.extraForbid then checkExtra m.title st.el else none) with
  | some e => exact hlax e (by simp only [validateModel, hx])
  | none =>
    cases hv : strict.validate cls d with
    | error e => exact hlax (setSourceline m.hideInput st.sm e) (by simp only [validateModel, hx, hv])
    | ok r =>
      obtain ⟨fs, set⟩ := r
      have h1 : validateModel strict cls m d st = .ok (.model cls fs set) := by simp only [validateModel, hx, hv]
      have h2 : (if forbid then checkExtra m.title st.el else none) = none := by
        cases hfb : forbid with
        | false => rfl
        | true => rw [hf hfb] at hx; exact hx
      have h3 : validateModel lax cls { m with extraForbid := forbid } d st = .ok (.model cls fs set) := by
        unfold validateModel
        have : ({ m with extraForbid := forbid } : ModelSer).title = m.title := rfl
        simp only [this, h2, hc.validate cls d _ hv]
      rw [h1, h3]; exact .same _

theorem model_stricter (hc : strict.Constrains lax) {f g : Ser → Loc → St → Out Val × St} (cls : String) (m : ModelSer) (forbid : Bool)
    (hf : forbid = true → m.extraForbid = true) (hm : m.Everywhere Ser.NotUnion)
    (h : ∀ s, s.Everywhere Ser.NotUnion → ∀ loc st, StepStricter (f s loc st) (g s loc st)) (loc : Loc) (st : St) :
    StepStricter (deserModel strict f cls m loc st) (deserModel lax g cls { m with extraForbid := forbid } loc st) := by
  unfold deserModel
  unfold ModelSer.Everywhere at hm
  cases hb : m.body with
  | fields fs =>
    rw [hb] at hm
    simp only
    obtain ⟨h1, h2⟩ := fields_stricter fs (fun fd hfd => h fd.ser (hm fd hfd)) [] [] [] [] (fun _ => ⟨rfl, rfl⟩) st
    cases hx : deserFields f fs [] [] st with
    | mk o1 s1 =>
      cases hy : deserFields g fs [] [] st with
      | mk o2 s2 =>
        rw [hx, hy] at h1 h2
        simp only at h1 h2
        subst h2
        rcases h1 with ⟨x, y, rfl, rfl, hxy⟩ | ⟨e, rfl, rfl⟩ | ⟨rfl, rfl⟩
        · simp only
          by_cases hne : x.2 = []
          · have := hxy hne; subst this
            simp only [hne, List.isEmpty_nil, if_true]
            exact ⟨validate_stricter hc cls m forbid hf _ _, rfl⟩
          · have he : x.2.isEmpty = false := by cases hq : x.2 <;> simp_all
            simp only [he, Bool.false_eq_true, if_false]
            by_cases hne' : y.2 = []
            · simp only [hne', List.isEmpty_nil, if_true]
              refine ⟨?_, rfl⟩
              unfold validateModel
              split
              · exact .both _ _
              · cases lax.validate cls (.dict y.1) with
                | ok r => obtain ⟨fs, set⟩ := r; exact .only _ _ (by simp)
                | error e => exact .both _ _
            · have he' : y.2.isEmpty = false := by cases hq : y.2 <;> simp_all
              simp only [he', Bool.false_eq_true, if_false]
              exact ⟨.both _ _, rfl⟩
        · exact ⟨.same _, rfl⟩
        · exact ⟨.same _, rfl⟩
  | root s =>
    rw [hb] at hm
    simp only
    obtain ⟨h1, h2⟩ := h s hm loc st
    cases hx : f s loc st with
    | mk o1 s1 =>
      cases hy : g s loc st with
      | mk o2 s2 =>
        rw [hx, hy] at h1 h2
        simp only at h1 h2
        subst h2
        cases h1 with
        | same =>
          cases o1 with
          | ok v => exact ⟨validate_stricter hc cls m forbid hf _ _, rfl⟩
          | verr e => exact ⟨.both _ _, rfl⟩
          | crash e => exact ⟨.same _, rfl⟩
          | diverge => exact ⟨.same _, rfl⟩
        | only e v hv =>
          simp only
          refine ⟨?_, rfl⟩
          unfold validateModel
          split
          · exact .both _ _
          · split
            · exact .only _ _ (by simp)
            · exact .both _ _
        | both e e' => exact ⟨.both _ _, rfl⟩

theorem deser_stricter (hc : strict.Constrains lax) (hu : strict.Everywhere Ser.NotUnion) (eas : Bool) (n : Nat) (s : Ser)
    (hs : s.Everywhere Ser.NotUnion) (loc : Loc) (st : St) : StepStricter (deser strict eas n s loc st) (deser lax eas n s loc st) := by
  induction n generalizing s loc st with
  | zero => exact ⟨.same _, rfl⟩
  | succ n ih =>
    obtain ⟨hself, hsub⟩ := Ser.everywhere_iff.1 hs
    change StepStricter (deserStep strict eas (deser strict eas n) n s loc st) (deserStep lax eas (deser lax eas n) n s loc st)
    cases s with
    | text c nl => exact ⟨.same _, rfl⟩
    | attr k c => exact ⟨.same _, rfl⟩
    | elem nm ns mode c nl => exact ⟨.same _, rfl⟩
    | attrs a => exact ⟨.same _, rfl⟩
    | mapElem a nm mode => exact ⟨.same _, rfl⟩
    | raw nm mode c =>
      simp only [deserStep, hc.backend]
      exact ⟨.same _, rfl⟩
    | primUnion c inner =>
      simp only [deserStep]
      split
      · exact ⟨.same _, rfl⟩
      · exact ih inner (hsub inner (by simp [Ser.subs])) loc st
    | modelUnion t c alts => exact absurd hself (by simp [Ser.NotUnion])
    | tagged c d a mode alts =>
      simp only [deserStep]
      split
      · exact ⟨.same _, rfl⟩
      · exact tagged_stricter loc a mode alts (fun x hx st => ih _ (hsub _ (by simp only [Ser.subs, List.mem_map]; exact ⟨x, hx, rfl⟩)) loc st) st
    | wrap path ns mode c inner =>
      simp only [deserStep]
      split
      · exact ⟨.same _, rfl⟩
      · exact descend_stricter (fun st => ih inner (hsub inner (by simp [Ser.subs])) loc _) path st
    | homog title c inner =>
      simp only [deserStep]
      split
      · exact ⟨.same _, rfl⟩
      · obtain ⟨h1, h2⟩ := homog_stricter (fun loc st => ih inner (hsub inner (by simp [Ser.subs])) loc st) loc n 0 ([], []) ([], [])
          ⟨fun _ => rfl, fun h => absurd rfl h⟩ st
        cases hx : homogLoop (fun loc st => deser strict eas n inner loc st) loc n 0 [] [] st with
        | mk o1 s1 =>
          cases hy : homogLoop (fun loc st => deser lax eas n inner loc st) loc n 0 [] [] st with
          | mk o2 s2 =>
            simp only [hx, hy] at h1 h2
            subst h2
            cases h1 with
            | ok h => exact ⟨homogFinish_stricter title h, rfl⟩
            | crash e => exact ⟨.same _, rfl⟩
            | diverge => exact ⟨.same _, rfl⟩
    | hetero title c inners =>
      simp only [deserStep]
      split
      · exact ⟨.same _, rfl⟩
      · obtain ⟨h1, h2⟩ := hetero_stricter loc inners (fun s hs loc st => ih s (hsub s (by simpa [Ser.subs] using hs)) loc st) 0 ([], []) ([], [])
          ⟨fun _ => rfl, fun h => absurd rfl h⟩ st
        cases hx : heteroLoop (deser strict eas n) loc inners 0 [] [] st with
        | mk o1 s1 =>
          cases hy : heteroLoop (deser lax eas n) loc inners 0 [] [] st with
          | mk o2 s2 =>
            simp only [hx, hy] at h1 h2
            subst h2
            cases h1 with
            | ok h => exact ⟨heteroFinish_stricter title h, rfl⟩
            | crash e => exact ⟨.same _, rfl⟩
            | diverge => exact ⟨.same _, rfl⟩
    | proxy p =>
      simp only [deserStep]
      rcases hc.model p.cls with ⟨h1, h2⟩ | ⟨m, forbid, h1, h2, hf⟩
      · simp only [h1, h2]; exact ⟨.same _, rfl⟩
      · simp only [h1, h2]
        split
        · exact ⟨.same _, rfl⟩
        · rcases st.el.popElement p.name p.mode with ⟨_ | i, el⟩
          · exact ⟨.same _, rfl⟩
          · refine onChild_stricter fun c => ?_
            rcases hn : c.el.isNil with ⟨_ | _, el'⟩
            · simp only
              exact model_stricter hc p.cls m forbid hf (hu _ _ h1) (fun s hs loc st => ih s hs loc st) loc _
            · simp only
              exact ⟨.same _, rfl⟩

theorem tree_stricter (hc : strict.Constrains lax) (hu : strict.Everywhere Ser.NotUnion) (eas : Bool) (n : Nat) (cls : String) (doc : Node) :
    (fromXmlTree strict eas n cls doc).1.Stricter (fromXmlTree lax eas n cls doc).1 := by
  unfold fromXmlTree
  rcases hc.model cls with ⟨h1, h2⟩ | ⟨m, forbid, h1, h2, hf⟩
  · simp only [h1, h2]; exact .same _
  · simp only [h1, h2, hc.backend]
    split
    · exact (model_stricter hc cls m forbid hf (hu _ _ h1) (fun s hs loc st => deser_stricter hc hu eas n s hs loc st) []
        ⟨fromNative lax.backend doc, []⟩).1
    · exact .same _

/-- C95: for classes without plain unions of models, further constraints only reject: a document that is accepted by the stricter classes is accepted by
the laxer ones, with the same instance. -/
theorem C95_only_reject (hc : strict.Constrains lax) (hu : strict.Everywhere Ser.NotUnion) (eas : Bool) (n : Nat) (cls : String) (doc : Node) (v : Val)
    (h : (fromXmlTree strict eas n cls doc).1 = .ok v) : (fromXmlTree lax eas n cls doc).1 = .ok v := by
  have h1 := tree_stricter hc hu eas n cls doc
  rw [h] at h1
  generalize (fromXmlTree lax eas n cls doc).1 = o at h1
  cases h1 with
  | same => rfl

/-- C95: conversely a document rejected by the laxer classes is rejected by the stricter ones, and constraints turn no document into one for which another
exception is raised. -/
theorem C95_still_rejected (hc : strict.Constrains lax) (hu : strict.Everywhere Ser.NotUnion) (eas : Bool) (n : Nat) (cls : String) (doc : Node) :
    ((∃ e, (fromXmlTree lax eas n cls doc).1 = .verr e) → ∃ e, (fromXmlTree strict eas n cls doc).1 = .verr e) ∧
    (∀ e, (fromXmlTree strict eas n cls doc).1 = .crash e ↔ (fromXmlTree lax eas n cls doc).1 = .crash e) := by
  have h1 := tree_stricter hc hu eas n cls doc
  generalize (fromXmlTree lax eas n cls doc).1 = o at h1
  generalize (fromXmlTree strict eas n cls doc).1 = o' at h1
  cases h1 with
  | same => exact ⟨fun h => h, fun _ => Iff.rfl⟩
  | only e v hv => exact ⟨fun _ => ⟨e, rfl⟩, fun _ => ⟨fun h => (by cases h), fun h => (by cases h)⟩⟩
  | both e e' => exact ⟨fun _ => ⟨e, rfl⟩, fun _ => ⟨fun h => (by cases h), fun h => (by cases h)⟩⟩

/-! ## Non-vacuity -/

namespace Ex

/-- `class Shelf(tag='shelf'): label: str = attr(); books: List[Book] = element('book')`, `class Book: isbn: str = attr()`. -/
def shelfModel (forbid : Bool) : String → Option ModelSer
  | "Shelf" => some { name := "Shelf", elementName := "shelf", body := .fields [
      { name := "label", ser := .attr "label" false },
      { name := "books", ser := .homog "Shelf" false (.proxy { cls := "Book", name := "book", mode := .ordered }) }] }
  | "Book" => some { name := "Book", elementName := "book", extraForbid := forbid, body := .fields [{ name := "isbn", ser := .attr "isbn" false }] }
  | _ => none

/-- Without constraints, and with `extra='forbid'` for books and a constraint on labels. -/
def shelfLax : Env := { env with model := shelfModel false, validate := fun _ d => match d with | .dict fs => .ok (fs, fs.map Prod.fst) | _ => .error ⟨"Shelf", []⟩ }

def shelfStrict : Env := { shelfLax with
  model := shelfModel true
  validate := fun cls d => match d with
    | .dict fs => if cls = "Shelf" ∧ Dict.get? fs "label" = none then .error ⟨cls, []⟩ else .ok (fs, fs.map Prod.fst)
    | _ => .error ⟨"Shelf", []⟩ }

theorem shelf_constrains : shelfStrict.Constrains shelfLax where
  backend := rfl
  model cls := by
    simp only [shelfStrict, shelfLax]
    unfold shelfModel
    split
    · exact .inr ⟨_, false, rfl, rfl, fun h => h⟩
    · exact .inr ⟨_, false, rfl, rfl, fun h => absurd h (by decide)⟩
    · exact .inl ⟨rfl, rfl⟩
  validate cls d r h := by
    simp only [shelfStrict] at h
    cases d with
    | dict fs =>
      simp only at h
      split at h
      · cases h
      · exact h
    | _ => cases h

theorem shelf_plain : shelfStrict.Everywhere Ser.NotUnion := by
  intro cls m h
  simp only [shelfStrict] at h
  unfold shelfModel at h
  split at h
  · injection h with h; subst h
    intro f hf
    simp only [List.mem_cons, List.not_mem_nil, or_false] at hf
    rcases hf with rfl | rfl <;> simp [Ser.NotUnion]
  · injection h with h; subst h
    intro f hf
    simp only [List.mem_cons, List.not_mem_nil, or_false] at hf
    subst hf; simp [Ser.NotUnion]
  · cases h

/-- Two books. -/
def shelfDoc (extra : List (String × String)) : Node := el "shelf" none [el "book" none [] ([("isbn", "1")] ++ extra), el "book" none [] [("isbn", "2")]] [("label", "A")]

/-- Both classes read the document, and only the stricter ones reject a book with an unknown attribute. -/
example : (fromXmlTree shelfStrict false 9 "Shelf" (shelfDoc [])).1 =
      .ok (.model "Shelf" [("label", .str "A"), ("books", .list [.model "Book" [("isbn", .str "1")] ["isbn"], .model "Book" [("isbn", .str "2")] ["isbn"]])]
        ["label", "books"]) ∧
    (match (fromXmlTree shelfStrict false 9 "Shelf" (shelfDoc [("x", "y")])).1 with | .verr _ => true | _ => false) = true ∧
    (match (fromXmlTree shelfLax false 9 "Shelf" (shelfDoc [("x", "y")])).1 with | .ok _ => true | _ => false) = true := ⟨by kernel_rfl, by kernel_rfl, by kernel_rfl⟩

/-- `class A(tag='u'): x: str = attr()`, `class B(tag='u'): x: str = attr(); y: str = attr()`, `class Doc(tag='doc'): u: Union[A, B]`. -/
def eitherModel (forbid : Bool) : String → Option ModelSer
  | "A" => some { name := "A", elementName := "u", extraForbid := forbid, body := .fields [{ name := "x", ser := .attr "x" false }] }
  | "B" => some { name := "B", elementName := "u", body := .fields [{ name := "x", ser := .attr "x" false }, { name := "y", ser := .attr "y" false }] }
  | "Doc" => some { name := "Doc", elementName := "doc", body := .fields [
      { name := "u", ser := .modelUnion "Doc" false [{ cls := "A", name := "u" }, { cls := "B", name := "u" }] }] }
  | _ => none

def eitherEnv (forbid : Bool) : Env := { shelfLax with model := eitherModel forbid }

theorem either_constrains : (eitherEnv true).Constrains (eitherEnv false) where
  backend := rfl
  model cls := by
    simp only [eitherEnv]
    unfold eitherModel
    split
    · exact .inr ⟨_, false, rfl, rfl, fun h => absurd h (by decide)⟩
    · exact .inr ⟨_, false, rfl, rfl, fun h => h⟩
    · exact .inr ⟨_, false, rfl, rfl, fun h => h⟩
    · exact .inl ⟨rfl, rfl⟩
  validate _ _ _ h := h

end Ex

/-- C95: the restriction to classes without plain unions cannot be dropped: if the first alternative of a union rejects, the next one is taken. -/
theorem C95_unions_needed :
    let doc := Ex.el "doc" none [Ex.el "u" none [] [("x", "1"), ("y", "2")]]
    (Ex.eitherEnv true).Constrains (Ex.eitherEnv false) ∧
    (fromXmlTree (Ex.eitherEnv true) false 9 "Doc" doc).1 = .ok (.model "Doc" [("u", .model "B" [("x", .str "1"), ("y", .str "2")] ["x", "y"])] ["u"]) ∧
    (fromXmlTree (Ex.eitherEnv false) false 9 "Doc" doc).1 = .ok (.model "Doc" [("u", .model "A" [("x", .str "1")] ["x"])] ["u"]) :=
  ⟨Ex.either_constrains, by kernel_rfl, by kernel_rfl⟩

end PXml
