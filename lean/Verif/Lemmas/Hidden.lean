import Verif.SpecHidden

/-! `hide_input_in_errors` makes no difference but for `hide_input` of the errors. -/

namespace PXml
namespace Hidden

/-- Outcomes that are the same but for `hide_input`, with related values and the same state. -/
inductive Res {α : Type} (R : α → α → Prop) : Out α × St → Out α × St → Prop
  | ok {a a' : α} {st : St} : R a a' → Res R (.ok a, st) (.ok a', st)
  | verr {e e' : VErr} {st : St} : e.SameBut e' → Res R (.verr e, st) (.verr e', st)
  | crash {e : PyErr} {st : St} : Res R (.crash e, st) (.crash e, st)
  | diverge {st : St} : Res R (.diverge, st) (.diverge, st)

theorem sameBut_refl (e : VErr) : e.SameBut e := ⟨rfl, rfl⟩

theorem Res.refl (x : Out Val × St) : Res Eq x x := by
  obtain ⟨o, st⟩ := x
  cases o
  · exact .ok rfl
  · exact .verr (sameBut_refl _)
  · exact .crash
  · exact .diverge

/-- Errors gathered so far. -/
abbrev Errs : Dict ErrKey VErr → Dict ErrKey VErr → Prop := Each fun x y => x.1 = y.1 ∧ x.2.SameBut y.2

theorem Errs.set {d d' : Dict ErrKey VErr} (h : Errs d d') (k : ErrKey) {e e' : VErr} (he : e.SameBut e') :
    Errs (d.set k e) (d'.set k e') := by
  induction h with
  | nil => exact .cons ⟨rfl, he⟩ .nil
  | @cons a b as bs hab hr ih =>
    obtain ⟨k1, e1⟩ := a
    obtain ⟨k2, e2⟩ := b
    obtain ⟨h1, h2⟩ := hab
    simp only at h1 h2
    subst h1
    simp only [Dict.set]
    split
    · exact .cons ⟨rfl, he⟩ hr
    · exact .cons ⟨rfl, h2⟩ ih

theorem Errs.append {d d' : Dict ErrKey VErr} (h : Errs d d') (k : ErrKey) {e e' : VErr} (he : e.SameBut e') :
    Errs (d ++ [(k, e)]) (d' ++ [(k, e')]) := by
  induction h with
  | nil => exact .cons ⟨rfl, he⟩ .nil
  | cons hab _ ih => exact .cons hab ih

theorem Errs.isEmpty {d d' : Dict ErrKey VErr} (h : Errs d d') : d.isEmpty = d'.isEmpty := by cases h <;> rfl

theorem Errs.into {d d' : Dict ErrKey VErr} (h : Errs d d') {t t' : Title} (ht : t.text = t'.text) :
    (intoValidationError t d).SameBut (intoValidationError t' d') := by
  refine ⟨ht, ?_⟩
  simp only [intoValidationError]
  induction h with
  | nil => rfl
  | @cons a b as bs hab _ ih =>
    obtain ⟨k1, e1⟩ := a
    obtain ⟨k2, e2⟩ := b
    obtain ⟨h1, h2, h3⟩ := hab
    simp only at h1 h3
    subst h1
    simp only [List.flatMap_cons, ih, h3]

theorem onChild_same {st : St} {i : Nat} {f g : St → Out Val × St} (h : ∀ s, Res Eq (f s) (g s)) :
    Res Eq (onChild st i f) (onChild st i g) := by
  unfold onChild
  split
  · exact .crash
  · rename_i c _
    have := h ⟨c, st.sm⟩
    revert this
    generalize f ⟨c, st.sm⟩ = a
    generalize g ⟨c, st.sm⟩ = b
    intro h
    cases h with
    | ok h => exact .ok h
    | verr h => exact .verr h
    | crash => exact .crash
    | diverge => exact .diverge

theorem descend_same (mode : Mode) {f g : St → Out Val × St} (h : ∀ s, Res Eq (f s) (g s)) : ∀ (path : List String) (st : St),
    Res Eq (descend mode f path st) (descend mode g path st)
  | [], st => h st
  | t :: ts, st => by
    unfold descend
    split
    · exact .crash
    · exact .ok rfl
    · exact onChild_same (descend_same mode h ts)

/-- The same values, and errors that are the same but for `hide_input`. -/
abbrev Acc {α : Type} : α × Dict ErrKey VErr → α × Dict ErrKey VErr → Prop := fun x y => x.1 = y.1 ∧ Errs x.2 y.2

theorem homogLoop_same {f g : Loc → St → Out Val × St} (h : ∀ l s, Res Eq (f l s) (g l s)) (loc : Loc) :
    ∀ (n idx : Nat) (acc : List Val) {d d' : Dict ErrKey VErr}, Errs d d' → ∀ st,
      Res Acc (homogLoop f loc n idx acc d st) (homogLoop g loc n idx acc d' st)
  | 0, _, _, _, _, _, _ => .diverge
  | n + 1, idx, acc, d, d', hd, st => by
    unfold homogLoop
    have := h (loc ++ [.idx idx]) st
    revert this
    generalize f (loc ++ [.idx idx]) st = a
    generalize g (loc ++ [.idx idx]) st = b
    intro h'
    cases h' with
    | ok h' =>
      subst h'
      simp only
      split
      · exact .ok ⟨rfl, hd⟩
      · exact homogLoop_same h loc n _ _ hd _
    | verr h' => exact homogLoop_same h loc n _ _ (hd.append _ h') _
    | crash => exact .crash
    | diverge => exact .diverge

theorem heteroLoop_same {f g : Ser → Loc → St → Out Val × St} (h : ∀ x y, x.SameBut y → ∀ l s, Res Eq (f x l s) (g y l s)) (loc : Loc) :
    ∀ (rows : List (Ser × Ser)) (_ : ∀ r ∈ rows, r.1.SameBut r.2) (idx : Nat) (acc : List Val) {d d' : Dict ErrKey VErr}, Errs d d' →
      ∀ st, Res Acc (heteroLoop f loc (rows.map Prod.fst) idx acc d st) (heteroLoop g loc (rows.map Prod.snd) idx acc d' st)
  | [], _, _, _, _, _, hd, _ => .ok ⟨rfl, hd⟩
  | r :: rows, hr, idx, acc, d, d', hd, st => by
    simp only [List.map_cons]
    unfold heteroLoop
    have := h _ _ (hr r (by simp)) (loc ++ [.idx idx]) st
    revert this
    generalize f r.1 (loc ++ [.idx idx]) st = a
    generalize g r.2 (loc ++ [.idx idx]) st = b
    have hr' : ∀ x ∈ rows, x.1.SameBut x.2 := fun x hx => hr x (by simp [hx])
    intro h'
    cases h' with
    | ok h' => subst h'; exact heteroLoop_same h loc rows hr' _ _ hd _
    | verr h' => exact heteroLoop_same h loc rows hr' _ _ (hd.append _ h') _
    | crash => exact .crash
    | diverge => exact .diverge

theorem unionLoop_same {f g : Proxy → St → Out Val × St} (h : ∀ p s, Res Eq (f p s) (g p s)) {t t' : Title} (ht : t.text = t'.text) :
    ∀ (ps : List Proxy) {d d' : Dict ErrKey VErr}, Errs d d' → ∀ st, Res Eq (unionLoop f t ps d st) (unionLoop g t' ps d' st)
  | [], d, d', hd, st => by
    unfold unionLoop
    rw [hd.isEmpty]
    split
    · exact .ok rfl
    · exact .verr (hd.into ht)
  | p :: ps, d, d', hd, st => by
    unfold unionLoop
    have := h p ⟨st.el.createSnapshot, st.sm⟩
    revert this
    generalize f p ⟨st.el.createSnapshot, st.sm⟩ = a
    generalize g p ⟨st.el.createSnapshot, st.sm⟩ = b
    intro h'
    cases h' with
    | ok h' =>
      subst h'
      simp only
      split
      · exact unionLoop_same h ht ps hd _
      · exact .ok rfl
    | verr h' =>
      simp only [h'.1]
      exact unionLoop_same h ht ps (hd.set _ h') _
    | crash => exact .crash
    | diverge => exact .diverge

theorem taggedLoop_same {f g : Proxy → St → Out Val × St} (h : ∀ p s, Res Eq (f p s) (g p s)) (loc : Loc) (attr : String) (mode : Mode) :
    ∀ (alts : List (String × Proxy)) (st : St), Res Eq (taggedLoop f loc attr mode alts st) (taggedLoop g loc attr mode alts st)
  | [], _ => .ok rfl
  | (tag, p) :: alts, st => by
    unfold taggedLoop
    split
    · split
      · exact .crash
      · split
        · exact h _ _
        · exact taggedLoop_same h loc attr mode alts _
    · exact taggedLoop_same h loc attr mode alts _

theorem deserFields_same {f g : Ser → Loc → St → Out Val × St} (h : ∀ x y, x.SameBut y → ∀ l s, Res Eq (f x l s) (g y l s))
    {fs fs' : List Field} (hf : Each Field.SameBut fs fs') : ∀ (res : Dict String Val) {d d' : Dict ErrKey VErr}, Errs d d' → ∀ st,
      Res Acc (deserFields f fs res d st) (deserFields g fs' res d' st) := by
  induction hf with
  | nil => intro res d d' hd st; exact .ok ⟨rfl, hd⟩
  | @cons x y fs fs' hxy _ ih =>
    intro res d d' hd st
    obtain ⟨h1, h2⟩ := hxy
    generalize y.ser = s at h1 h2
    subst h2
    unfold deserFields
    simp only
    cases x.validator with
    | some v =>
      simp only
      generalize v st.el = a
      obtain ⟨o, el⟩ := a
      cases o with
      | ok v => exact ih _ hd _
      | verr e => exact ih _ (hd.set _ (sameBut_refl e)) _
      | crash => exact .crash
      | diverge => exact .diverge
    | none =>
      simp only
      have := h x.ser s h1 [.name x.name] { st with sm := st.sm.set [.name x.name] st.el.line }
      revert this
      generalize f x.ser [.name x.name] { st with sm := st.sm.set [.name x.name] st.el.line } = a
      generalize g s [.name x.name] { st with sm := st.sm.set [.name x.name] st.el.line } = b
      intro h'
      cases h' with
      | ok h' => subst h'; exact ih _ hd _
      | verr h' => exact ih _ (hd.set _ h') _
      | crash => exact .crash
      | diverge => exact .diverge

theorem checkExtra_same {t t' : Title} (ht : t.text = t'.text) (e : Elem) :
    match checkExtra t e, checkExtra t' e with
    | some x, some x' => x.SameBut x'
    | o, o' => o = o' := by
  unfold checkExtra
  cases e.getUnbound [] with
  | nil => rfl
  | cons u us => exact ⟨ht, rfl⟩

theorem setSourceline_same {b b' : Bool} {sm : SMap} {e e' : VErr} (h : e.SameBut e') :
    (setSourceline b sm e).SameBut (setSourceline b' sm e') := ⟨h.1, by simp only [setSourceline, h.2]⟩

section
variable {env env' : Env} (he : env.SameBut env')
include he

theorem validateModel_same {m m' : ModelSer} (hm : m.SameBut m') (cls : String) (data : Val) (st : St) :
    Res Eq (validateModel env cls m data st, st) (validateModel env' cls m' data st, st) := by
  obtain ⟨-, h2⟩ := hm
  generalize m'.body = b, m'.hideInput = h at h2
  subst h2
  unfold validateModel
  simp only
  have hval := he.validate cls data
  have key : Res Eq
      ((match env.validate cls data with
        | .ok (fs, set) => .ok (.model cls fs set)
        | .error e => .verr (setSourceline m.hideInput st.sm e) : Out Val), st)
      ((match env'.validate cls data with
        | .ok (fs, set) => .ok (.model cls fs set)
        | .error e => .verr (setSourceline h st.sm e) : Out Val), st) := by
    revert hval
    cases env.validate cls data with
    | error e =>
      cases env'.validate cls data with
      | error e' => intro h'; exact .verr (setSourceline_same h')
      | ok r => intro h'; cases h'
    | ok r =>
      cases env'.validate cls data with
      | error e' => intro h'; cases h'
      | ok r' =>
        intro h'
        cases h'
        exact .ok rfl
  cases m.extraForbid with
  | false => exact key
  | true =>
    simp only [if_true]
    have hx := checkExtra_same (t := m.title) (t' := ⟨m.name, h⟩) rfl st.el
    revert hx
    show (match checkExtra m.title st.el, checkExtra ⟨m.name, h⟩ st.el with
      | some x, some x' => x.SameBut x'
      | o, o' => o = o') → Res Eq (_, st) ((match checkExtra ⟨m.name, h⟩ st.el with | some e => _ | none => _), st)
    cases checkExtra m.title st.el with
    | none =>
      cases checkExtra (⟨m.name, h⟩ : Title) st.el with
      | none => intro _; exact key
      | some x => intro h'; cases h'
    | some x =>
      cases checkExtra (⟨m.name, h⟩ : Title) st.el with
      | none => intro h'; cases h'
      | some x' => intro h'; exact .verr h'

theorem deserModel_same {m m' : ModelSer} (hm : m.SameBut m') (cls : String) {f g : Ser → Loc → St → Out Val × St}
    (h : ∀ x y, x.SameBut y → ∀ l s, Res Eq (f x l s) (g y l s)) (loc : Loc) (st : St) :
    Res Eq (deserModel env f cls m loc st) (deserModel env' g cls m' loc st) := by
  have hname : m.name = m'.name := by rw [hm.2]
  have hb := hm.1
  unfold deserModel
  generalize hb1 : m.body = b1 at hb
  generalize hb2 : m'.body = b2 at hb
  cases hb with
  | @fields fs fs' hf =>
    simp only
    have := deserFields_same h hf [] (d := []) (d' := []) .nil st
    revert this
    generalize deserFields f fs [] [] st = a
    generalize deserFields g fs' [] [] st = b
    intro h'
    cases h' with
    | @ok a a' s h' =>
      obtain ⟨r, d⟩ := a
      obtain ⟨r', d'⟩ := a'
      obtain ⟨h1, h2⟩ := h'
      simp only at h1 h2
      subst h1
      simp only [h2.isEmpty]
      split
      · exact validateModel_same he hm _ _ _
      · exact .verr (h2.into hname)
    | verr h' => exact .verr h'
    | crash => exact .crash
    | diverge => exact .diverge
  | @root s s' hs =>
    simp only
    have := h s s' hs loc st
    revert this
    generalize f s loc st = a
    generalize g s' loc st = b
    intro h'
    cases h' with
    | ok h' => subst h'; exact validateModel_same he hm _ _ _
    | @verr e e' st h' => exact .verr ((show Errs [(none, e)] [(none, e')] from .cons ⟨rfl, h'⟩ .nil).into hname)
    | crash => exact .crash
    | diverge => exact .diverge

theorem homogFinish_same {t t' : Title} (ht : t.text = t'.text) {x y : List Val × Dict ErrKey VErr} (h : Acc x y) (st : St) :
    Res Eq (homogFinish t x, st) (homogFinish t' y, st) := by
  obtain ⟨a, d⟩ := x
  obtain ⟨a', d'⟩ := y
  obtain ⟨h1, h2⟩ := h
  simp only at h1 h2
  subst h1
  unfold homogFinish
  simp only [h2.isEmpty]
  split
  · split <;> exact .ok rfl
  · exact .verr (h2.into ht)

theorem heteroFinish_same {t t' : Title} (ht : t.text = t'.text) {x y : List Val × Dict ErrKey VErr} (h : Acc x y) (st : St) :
    Res Eq (heteroFinish t x, st) (heteroFinish t' y, st) := by
  obtain ⟨a, d⟩ := x
  obtain ⟨a', d'⟩ := y
  obtain ⟨h1, h2⟩ := h
  simp only at h1 h2
  subst h1
  unfold heteroFinish
  simp only [h2.isEmpty]
  split
  · split <;> exact .ok rfl
  · exact .verr (h2.into ht)

theorem deser_same (eas : Bool) : ∀ (n : Nat) (x y : Ser), x.SameBut y → ∀ (loc : Loc) (st : St),
    Res Eq (deser env eas n x loc st) (deser env' eas n y loc st)
  | 0, _, _, _, _, _ => .diverge
  | n + 1, x, y, h, loc, st => by
    have ih := deser_same eas n
    show Res Eq (deserStep env eas (deser env eas n) n x loc st) (deserStep env' eas (deser env' eas n) n y loc st)
    have same : ∀ x : Ser, Res Eq (deserStep env eas (deser env eas n) n x loc st) (deserStep env' eas (deser env' eas n) n x loc st) := by
      intro x
      cases x with
      | text | attr | elem | attrs | mapElem => exact .refl _
      | raw name mode c => simp only [deserStep, he.backend]; exact .refl _
      | proxy p =>
        simp only [deserStep]
        have hm := he.model p.cls
        revert hm
        cases env.model p.cls with
        | none => cases env'.model p.cls with
          | none => intro _; exact .crash
          | some m' => intro h'; cases h'
        | some m => cases env'.model p.cls with
          | none => intro h'; cases h'
          | some m' =>
            intro hm
            simp only
            split
            · exact .ok rfl
            · split
              · exact .ok rfl
              · refine onChild_same fun s => ?_
                split
                · exact .ok rfl
                · exact deserModel_same he hm _ ih _ _
      | primUnion c inner =>
        simp only [deserStep]
        split
        · exact .ok rfl
        · exact ih _ _ .refl _ _
      | modelUnion t c alts =>
        simp only [deserStep]
        split
        · exact .ok rfl
        · exact unionLoop_same (fun p s => ih _ _ .refl _ _) rfl _ .nil _
      | tagged c d a m alts =>
        simp only [deserStep]
        split
        · exact .ok rfl
        · exact taggedLoop_same (fun p s => ih _ _ .refl _ _) _ _ _ _ _
      | wrap path ns m c inner =>
        simp only [deserStep]
        split
        · exact .ok rfl
        · exact descend_same _ (fun s => ih _ _ .refl _ _) _ _
      | homog t c inner =>
        simp only [deserStep]
        split
        · exact .ok rfl
        · have := homogLoop_same (f := fun loc st => deser env eas n inner loc st) (g := fun loc st => deser env' eas n inner loc st)
            (fun l s => ih inner inner .refl l s) loc n 0 [] (d := []) (d' := []) .nil st
          revert this
          generalize homogLoop (fun loc st => deser env eas n inner loc st) loc n 0 [] [] st = a
          generalize homogLoop (fun loc st => deser env' eas n inner loc st) loc n 0 [] [] st = b
          intro h'
          cases h' with
          | ok h' => exact homogFinish_same he rfl h' _
          | verr h' => exact .verr h'
          | crash => exact .crash
          | diverge => exact .diverge
      | hetero t c inners =>
        simp only [deserStep]
        split
        · exact .ok rfl
        · have := heteroLoop_same ih loc (inners.map fun s => (s, s)) (fun r hr => by
            obtain ⟨s, -, rfl⟩ := List.mem_map.1 hr; exact .refl) 0 [] (d := []) (d' := []) .nil st
          simp only [List.map_map, Function.comp_def, List.map_id'] at this
          revert this
          generalize heteroLoop (deser env eas n) loc inners 0 [] [] st = a
          generalize heteroLoop (deser env' eas n) loc inners 0 [] [] st = b
          intro h'
          cases h' with
          | ok h' => exact heteroFinish_same he rfl h' _
          | verr h' => exact .verr h'
          | crash => exact .crash
          | diverge => exact .diverge
    cases h with
    | refl => exact same x
    | primUnion h =>
      simp only [deserStep]
      split
      · exact .ok rfl
      · exact ih _ _ h _ _
    | @modelUnion t b b' c alts =>
      simp only [deserStep]
      split
      · exact .ok rfl
      · exact unionLoop_same (t := ⟨t, b⟩) (t' := ⟨t, b'⟩) (fun p s => ih (.proxy p) (.proxy p) .refl loc s) rfl alts .nil st
    | wrap h =>
      simp only [deserStep]
      split
      · exact .ok rfl
      · exact descend_same _ (fun s => ih _ _ h _ _) _ _
    | @homog t b b' c s s' h =>
      simp only [deserStep]
      split
      · exact .ok rfl
      · have := homogLoop_same (f := fun loc st => deser env eas n s loc st) (g := fun loc st => deser env' eas n s' loc st)
          (fun l st => ih s s' h l st) loc n 0 [] (d := []) (d' := []) .nil st
        revert this
        generalize homogLoop (fun loc st => deser env eas n s loc st) loc n 0 [] [] st = a
        generalize homogLoop (fun loc st => deser env' eas n s' loc st) loc n 0 [] [] st = b
        intro h'
        cases h' with
        | ok h' => exact homogFinish_same he (t := ⟨t, b⟩) (t' := ⟨t, b'⟩) rfl h' _
        | verr h' => exact .verr h'
        | crash => exact .crash
        | diverge => exact .diverge
    | @hetero t b b' c rows h =>
      simp only [deserStep]
      split
      · exact .ok rfl
      · have := heteroLoop_same ih loc rows h 0 [] (d := []) (d' := []) .nil st
        revert this
        generalize heteroLoop (deser env eas n) loc (rows.map Prod.fst) 0 [] [] st = a
        generalize heteroLoop (deser env' eas n) loc (rows.map Prod.snd) 0 [] [] st = b
        intro h'
        cases h' with
        | ok h' => exact heteroFinish_same he (t := ⟨t, b⟩) (t' := ⟨t, b'⟩) rfl h' _
        | verr h' => exact .verr h'
        | crash => exact .crash
        | diverge => exact .diverge

/-! ## Writing -/

omit he in
theorem serFields_same {f g : Ser → Elem → Val → Val → Out Elem} (h : ∀ x y, x.SameBut y → f x = g y) (fl : Flags) (self : Val)
    (d : Dict String Val) (set : List String) (enc : Val) {fs fs' : List Field} (hf : Each Field.SameBut fs fs') :
    ∀ el, serFields f fl self d set enc fs el = serFields g fl self d set enc fs' el := by
  induction hf with
  | nil => intro el; rfl
  | @cons a b as bs hab _ ih =>
    intro el
    obtain ⟨h1, h2⟩ := hab
    generalize b.ser = s at h1 h2
    subst h2
    have ih' := funext ih
    simp only [serFields, h _ _ h1, ih']

omit he in
theorem serModel_same {m m' : ModelSer} (hm : m.SameBut m') {f g : Flags → Ser → Elem → Val → Val → Out Elem}
    (h : ∀ fl x y, x.SameBut y → f fl x = g fl y) (fl : Flags) (el : Elem) (v enc : Val) :
    serModel f m fl el v enc = serModel g m' fl el v enc := by
  obtain ⟨name, elName, nsm, body, sk, ex, hi⟩ := m
  obtain ⟨hb, h2⟩ := hm
  generalize m'.body = b, m'.hideInput = hi' at h2 hb
  subst h2
  unfold serModel
  cases v with
  | model c d set =>
    cases hb with
    | fields hf => exact serFields_same (h _) _ _ _ _ _ hf _
    | root hs => simp only [h _ _ _ hs]
  | _ => rfl

omit he in
theorem serTuple_same {f g : Ser → Elem → Val → Val → Out Elem} (h : ∀ x y, x.SameBut y → f x = g y) :
    ∀ (rows : List (Ser × Ser)) (_ : ∀ r ∈ rows, r.1.SameBut r.2) (vs encs : List Val),
      serTuple f (rows.map Prod.fst) vs encs = serTuple g (rows.map Prod.snd) vs encs
  | [], _, _, _ => rfl
  | r :: rows, hr, [], _ => rfl
  | r :: rows, hr, _ :: _, [] => rfl
  | r :: rows, hr, v :: vs, e :: encs => by
    funext el
    simp only [List.map_cons, serTuple]
    rw [h _ _ (hr r (List.mem_cons_self ..)), serTuple_same h rows (fun r' h' => hr r' (List.mem_cons_of_mem _ h')) vs encs]

theorem pyStr_same (v : Val) : pyStr env v = pyStr env' v := by unfold pyStr; simp only [he.reprOf]

theorem encodePrimitive_same (v : Val) : encodePrimitive env v = encodePrimitive env' v := by
  unfold encodePrimitive; simp only [pyStr_same he]

theorem serStep_refl {f g : Flags → Ser → Elem → Val → Val → Out Elem} (h : ∀ fl x y, x.SameBut y → f fl x = g fl y) (fl : Flags) (x : Ser)
    (el : Elem) (v enc : Val) : serStep env f fl x el v enc = serStep env' g fl x el v enc := by
  have hrec : f = g := funext fun fl => funext fun x => h fl x x .refl
  have hp : pyStr env = pyStr env' := funext (pyStr_same he)
  have hen : encodePrimitive env = encodePrimitive env' := funext (encodePrimitive_same he)
  unfold serStep
  cases x with
  | proxy p =>
    simp only [he.backend]
    have := he.model p.cls
    revert this
    cases env.model p.cls with
    | none => cases env'.model p.cls with
      | none => intro _; rfl
      | some m => intro h; cases h
    | some m => cases env'.model p.cls with
      | none => intro h; cases h
      | some m' =>
        intro hm
        simp only [serModel_same hm h]
  | _ => simp only [serText, serAttrs, he.backend, hp, hen, hrec]

theorem ser_same : ∀ (n : Nat) (fl : Flags) (x y : Ser), x.SameBut y → ser env n fl x = ser env' n fl y
  | 0, _, _, _, _ => rfl
  | n + 1, fl, x, y, h => by
    have ih := ser_same n
    funext el v enc
    show serStep env (ser env n) fl x el v enc = serStep env' (ser env' n) fl y el v enc
    cases h with
    | refl => exact serStep_refl he ih fl x el v enc
    | primUnion h => simp only [serStep, ih _ _ _ h]
    | modelUnion =>
      have := serStep_refl he ih fl (.modelUnion ⟨"", false⟩ false ‹_›) el v enc
      exact this
    | wrap h => simp only [serStep, ih _ _ _ h, he.backend]
    | homog h => simp only [serStep, ih _ _ _ h]
    | hetero h => simp only [serStep, serTuple_same (ih fl) _ h, List.length_map]

end
end Hidden
end PXml
