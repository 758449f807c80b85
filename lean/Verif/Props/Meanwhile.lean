import Verif.SpecMeanwhile
import Verif.Props.History
import Verif.Props.Rename

/-!
# C102: classes that are defined or rebuilt meanwhile

Specification: `SpecMeanwhile.lean`.
-/

namespace PXml

open Elem

namespace Meanwhile

/-- The second environment has all classes of the first, and possibly more; everything else is the same. -/
structure Under (env env' : Env) : Prop where
  classes : ∀ c m, env.model c = some m → env'.model c = some m
  backend : env'.backend = env.backend
  validate : env'.validate = env.validate
  toJsonable : env'.toJsonable = env.toJsonable
  reprOf : env'.reprOf = env.reprOf

/-- A class is missing, or the run is the same. -/
def Same {α : Type} (r r' : Out α × St) : Prop := r.1 = .crash .assertionError ∨ r = r'

theorem Same.refl {α : Type} (r : Out α × St) : Same r r := .inr rfl

/-- The functions do the same on every state. -/
abbrev Fun {α : Type} (f g : St → Out α × St) : Prop := ∀ st, Same (f st) (g st)

theorem onChild_same {α : Type} {f g : St → Out α × St} (h : Fun f g) (st : St) (i : Nat) : Same (onChild st i f) (onChild st i g) := by
  unfold onChild
  cases st.el.elements[i]? with
  | none => exact .refl _
  | some c =>
    rcases h ⟨c, st.sm⟩ with h1 | h1
    · exact .inl h1
    · simp only [h1]
      exact .refl _

theorem descend_same (mode : Mode) {f g : St → Out Val × St} (h : Fun f g) : ∀ path, Fun (descend mode f path) (descend mode g path)
  | [] => h
  | t :: ts => by
    intro st
    simp only [descend]
    split
    · exact .refl _
    · exact .refl _
    · exact onChild_same (descend_same mode h ts) _ _

theorem homogLoop_same {f g : Loc → St → Out Val × St} (h : ∀ l, Fun (f l) (g l)) (loc : Loc) (n idx : Nat) (acc : List Val) (errs : Dict ErrKey VErr) :
    Fun (homogLoop f loc n idx acc errs) (homogLoop g loc n idx acc errs) := by
  induction n generalizing idx acc errs with
  | zero => exact fun st => .refl _
  | succ n ih =>
    intro st
    simp only [homogLoop]
    rcases h (loc ++ [.idx idx]) st with h1 | h1
    · rcases hf : f (loc ++ [.idx idx]) st with ⟨o, s⟩
      rw [hf] at h1
      simp only at h1
      subst h1
      simp only [hf]
      exact .inl rfl
    · rw [h1]
      split
      · split
        · exact .refl _
        · exact ih _ _ _ _
      · exact ih _ _ _ _
      · exact .refl _
      · exact .refl _

theorem heteroLoop_same {f g : Ser → Loc → St → Out Val × St} (h : ∀ s l, Fun (f s l) (g s l)) (loc : Loc) (ss : List Ser) :
    ∀ (idx : Nat) (acc : List Val) (errs : Dict ErrKey VErr), Fun (heteroLoop f loc ss idx acc errs) (heteroLoop g loc ss idx acc errs) := by
  induction ss with
  | nil => exact fun _ _ _ st => .refl _
  | cons s ss ih =>
    intro idx acc errs st
    simp only [heteroLoop]
    rcases h s (loc ++ [.idx idx]) st with h1 | h1
    · rcases hf : f s (loc ++ [.idx idx]) st with ⟨o, s'⟩
      rw [hf] at h1
      simp only at h1
      subst h1
      simp only [hf]
      exact .inl rfl
    · rw [h1]
      split
      · exact ih _ _ _ _
      · exact ih _ _ _ _
      · exact .refl _
      · exact .refl _

theorem unionLoop_same {f g : Proxy → St → Out Val × St} (h : ∀ p, Fun (f p) (g p)) (title : Title) (ps : List Proxy) :
    ∀ errs : Dict ErrKey VErr, Fun (unionLoop f title ps errs) (unionLoop g title ps errs) := by
  induction ps with
  | nil => exact fun _ st => .refl _
  | cons p ps ih =>
    intro errs st
    simp only [unionLoop]
    rcases h p ⟨st.el.createSnapshot, st.sm⟩ with h1 | h1
    · rcases hf : f p ⟨st.el.createSnapshot, st.sm⟩ with ⟨o, s'⟩
      rw [hf] at h1
      simp only at h1
      subst h1
      exact .inl rfl
    · rw [h1]
      split
      · split
        · exact ih _ _
        · exact .refl _
      · exact ih _ _
      · exact .refl _
      · exact .refl _

theorem taggedLoop_same {f g : Proxy → St → Out Val × St} (h : ∀ p, Fun (f p) (g p)) (loc : Loc) (a : String) (m : Mode) :
    ∀ alts : List (String × Proxy), Fun (taggedLoop f loc a m alts) (taggedLoop g loc a m alts)
  | [] => fun st => .refl _
  | (tag, p) :: alts => by
    intro st
    simp only [taggedLoop]
    split
    · split
      · exact .refl _
      · split
        · exact h p _
        · exact taggedLoop_same h loc a m alts _
    · exact taggedLoop_same h loc a m alts _

theorem deserFields_same {f g : Ser → Loc → St → Out Val × St} (h : ∀ s l, Fun (f s l) (g s l)) (fs : List Field) :
    ∀ (res : Dict String Val) (errs : Dict ErrKey VErr), Fun (deserFields f fs res errs) (deserFields g fs res errs) := by
  induction fs with
  | nil => exact fun _ _ st => .refl _
  | cons fd fs ih =>
    intro res errs st
    have key : ∀ r r' : Out Val × St, Same r r' → Same
        (match r with
          | (.ok v, st') => deserFields f fs (if v.isNone then res else res.set (fd.alias.getD fd.name) v) errs st'
          | (.verr e, st') => deserFields f fs res (errs.set (some (.name fd.name)) e) st'
          | (.crash e, st') => (.crash e, st')
          | (.diverge, st') => (.diverge, st'))
        (match r' with
          | (.ok v, st') => deserFields g fs (if v.isNone then res else res.set (fd.alias.getD fd.name) v) errs st'
          | (.verr e, st') => deserFields g fs res (errs.set (some (.name fd.name)) e) st'
          | (.crash e, st') => (.crash e, st')
          | (.diverge, st') => (.diverge, st')) := by
      intro r r' h1
      rcases h1 with h1 | h1
      · obtain ⟨o, s⟩ := r
        simp only at h1
        subst h1
        exact .inl rfl
      · subst h1
        split
        · exact ih _ _ _
        · exact ih _ _ _
        · exact .refl _
        · exact .refl _
    simp only [deserFields]
    apply key
    split
    · exact .refl _
    · exact h _ _ _

variable {env env' : Env}

theorem validateModel_same (hu : Under env env') (cls : String) (m : ModelSer) (d : Val) (st : St) :
    validateModel env' cls m d st = validateModel env cls m d st := by
  unfold validateModel
  rw [hu.validate]

theorem deserModel_same (hu : Under env env') {f g : Ser → Loc → St → Out Val × St} (h : ∀ s l, Fun (f s l) (g s l)) (cls : String) (m : ModelSer) (loc : Loc) :
    Fun (deserModel env f cls m loc) (deserModel env' g cls m loc) := by
  intro st
  unfold deserModel
  cases m.body with
  | fields fs =>
    simp only
    rcases deserFields_same h fs [] [] st with h1 | h1
    · rcases hf : deserFields f fs [] [] st with ⟨o, s⟩
      rw [hf] at h1
      simp only at h1
      subst h1
      exact .inl rfl
    · rw [h1]
      simp only [validateModel_same hu]
      exact .refl _
  | root s =>
    simp only
    rcases h s loc st with h1 | h1
    · rcases hf : f s loc st with ⟨o, s'⟩
      rw [hf] at h1
      simp only at h1
      subst h1
      exact .inl rfl
    · rw [h1]
      simp only [validateModel_same hu]
      exact .refl _

theorem deserStep_same (hu : Under env env') (eas : Bool) {f g : Ser → Loc → St → Out Val × St} (h : ∀ s l, Fun (f s l) (g s l)) (n : Nat) (s : Ser) (loc : Loc) :
    Fun (deserStep env eas f n s loc) (deserStep env' eas g n s loc) := by
  intro st
  cases s with
  | text c nl => exact .refl _
  | attr k c => exact .refl _
  | elem nm ns m c nl => exact .refl _
  | attrs a => exact .refl _
  | mapElem a nm m => exact .refl _
  | raw nm m c =>
    simp only [deserStep, hu.backend]
    exact .refl _
  | proxy p =>
    simp only [deserStep]
    cases hm : env.model p.cls with
    | none => exact .inl rfl
    | some m =>
      rw [hu.classes _ _ hm]
      simp only
      split
      · exact .refl _
      · split
        · exact .refl _
        · refine onChild_same ?_ _ _
          intro s1
          simp only
          split
          · exact .refl _
          · exact deserModel_same hu h _ _ _ _
  | primUnion c inner =>
    simp only [deserStep]
    split
    · exact .refl _
    · exact h _ _ _
  | modelUnion t c alts =>
    simp only [deserStep]
    split
    · exact .refl _
    · exact unionLoop_same (fun p st => h _ _ st) _ _ _ _
  | tagged c d a m alts =>
    simp only [deserStep]
    split
    · exact .refl _
    · exact taggedLoop_same (fun p st => h _ _ st) _ _ _ _ _
  | wrap path ns m c inner =>
    simp only [deserStep]
    split
    · exact .refl _
    · exact descend_same m (fun st => h _ _ _) _ _
  | homog t c inner =>
    simp only [deserStep]
    split
    · exact .refl _
    · rcases homogLoop_same (f := fun loc st => f inner loc st) (g := fun loc st => g inner loc st) (fun l st => h _ _ st) loc n 0 [] [] st with h1 | h1
      · rcases hf : homogLoop (fun loc st => f inner loc st) loc n 0 [] [] st with ⟨o, s'⟩
        rw [hf] at h1
        simp only at h1
        subst h1
        exact .inl rfl
      · rw [h1]
        exact .refl _
  | hetero t c inners =>
    simp only [deserStep]
    split
    · exact .refl _
    · rcases heteroLoop_same h loc inners 0 [] [] st with h1 | h1
      · rcases hf : heteroLoop f loc inners 0 [] [] st with ⟨o, s'⟩
        rw [hf] at h1
        simp only at h1
        subst h1
        exact .inl rfl
      · rw [h1]
        exact .refl _

theorem readWith_same (hu : Under env env') {f g : Ser → Loc → St → Out Val × St} (h : ∀ s l, Fun (f s l) (g s l)) (cls : String) (root : Node) :
    readWith env f cls root = .crash .assertionError ∨ readWith env f cls root = readWith env' g cls root := by
  unfold readWith
  rw [hu.backend]
  cases hm : env.model cls with
  | none => exact .inl rfl
  | some m =>
    rw [hu.classes _ _ hm]
    simp only
    split
    · rcases deserModel_same hu h cls m [] ⟨fromNative env.backend root, []⟩ with h1 | h1
      · exact .inl h1
      · exact .inr (by rw [h1])
    · exact .inr rfl

theorem readWith_eq (env : Env) (eas : Bool) (n : Nat) (cls : String) (root : Node) :
    (fromXmlTree env eas n cls root).1 = readWith env (deser env eas n) cls root := by
  unfold fromXmlTree readWith
  cases env.model cls with
  | none => rfl
  | some m =>
    simp only
    split <;> rfl

/-! ## Writing -/

/-- A class is missing, or the same is written. -/
def SameOut {α : Type} (x y : Out α) : Prop := x = .crash .assertionError ∨ x = y

theorem SameOut.refl {α : Type} (x : Out α) : SameOut x x := .inr rfl

theorem bind_same {α β : Type} {x y : Out α} {f g : α → Out β} (h : SameOut x y) (hf : ∀ a, SameOut (f a) (g a)) : SameOut (x.bind f) (y.bind g) := by
  rcases h with rfl | rfl
  · exact .inl rfl
  · cases x with
    | ok a => exact hf a
    | _ => exact .refl _

theorem serItems_same {f g : Elem → Val → Val → Out Elem} (h : ∀ e v x, SameOut (f e v x) (g e v x)) (fl : Flags) :
    ∀ (vs encs : List Val) (el : Elem), SameOut (serItems f fl vs encs el) (serItems g fl vs encs el)
  | [], _, _ => by simp only [serItems]; exact .refl _
  | v :: vs, [], _ => by simp only [serItems]; exact .refl _
  | v :: vs, x :: encs, el => by
    simp only [serItems]
    split
    · exact serItems_same h fl vs encs el
    · exact bind_same (h el v x) fun e => serItems_same h fl vs encs e

theorem serTuple_same {f g : Ser → Elem → Val → Val → Out Elem} (h : ∀ s e v x, SameOut (f s e v x) (g s e v x)) :
    ∀ (ss : List Ser) (vs encs : List Val) (el : Elem), SameOut (serTuple f ss vs encs el) (serTuple g ss vs encs el)
  | [], _, _, _ => by simp only [serTuple]; exact .refl _
  | s :: ss, [], _, _ => by simp only [serTuple]; exact .refl _
  | s :: ss, v :: vs, [], _ => by simp only [serTuple]; exact .refl _
  | s :: ss, v :: vs, x :: encs, el => by
    simp only [serTuple]
    exact bind_same (h s el v x) fun e => serTuple_same h ss vs encs e

theorem serFields_same {f g : Ser → Elem → Val → Val → Out Elem} (h : ∀ s e v x, SameOut (f s e v x) (g s e v x)) (fl : Flags) (self : Val)
    (fields : Dict String Val) (set : List String) (enc : Val) :
    ∀ (fs : List Field) (el : Elem), SameOut (serFields f fl self fields set enc fs el) (serFields g fl self fields set enc fs el)
  | [], _ => .refl _
  | fd :: fs, el => by
    simp only [serFields]
    split
    · exact serFields_same h fl self fields set enc fs el
    · split
      · exact serFields_same h fl self fields set enc fs el
      · refine bind_same ?_ fun e => serFields_same h fl self fields set enc fs e
        split
        · exact .refl _
        · exact bind_same (.refl _) fun v => bind_same (.refl _) fun x => h _ _ _ _

theorem serModel_same {f g : Flags → Ser → Elem → Val → Val → Out Elem} (h : ∀ fl s e v x, SameOut (f fl s e v x) (g fl s e v x)) (m : ModelSer) (fl : Flags)
    (el : Elem) (v enc : Val) : SameOut (serModel f m fl el v enc) (serModel g m fl el v enc) := by
  unfold serModel
  split
  · exact .refl _
  · simp only
    split
    · exact serFields_same (fun s e v x => h _ s e v x) _ _ _ _ _ _ _
    · split
      · exact .refl _
      · exact bind_same (.refl _) fun rv => h _ _ _ _ _
  · exact .refl _

theorem ascend_same (b : Backend) (mode : Mode) (nsmap : Option NsMap) {f g : Elem → Out Elem} (h : ∀ e, SameOut (f e) (g e)) :
    ∀ (path : List String) (el : Elem), SameOut (ascend b mode nsmap f path el) (ascend b mode nsmap g path el)
  | [], el => h el
  | t :: ts, el => by
    simp only [ascend]
    split
    · exact .refl _
    · split
      · exact .refl _
      · exact bind_same (ascend_same b mode nsmap h ts _) fun _ => .refl _
    · exact bind_same (ascend_same b mode nsmap h ts _) fun _ => .refl _

theorem pyStr_same (hu : Under env env') (v : Val) : pyStr env' v = pyStr env v := by
  unfold pyStr
  split <;> first | rfl | rw [hu.reprOf]

theorem encode_same (hu : Under env env') (v : Val) : encodePrimitive env' v = encodePrimitive env v := by
  unfold encodePrimitive
  split <;> first | rfl | exact pyStr_same hu _

theorem serText_same (hu : Under env env') (nl : Bool) (fl : Flags) (el : Elem) (v enc : Val) : serText env' nl fl el v enc = serText env nl fl el v enc := by
  simp only [serText, encode_same hu]

theorem serAttrs_same (hu : Under env env') (a : AttrsSer) (el : Elem) (v enc : Val) : serAttrs env' a el v enc = serAttrs env a el v enc := by
  simp only [serAttrs, pyStr_same hu]

theorem serStep_same (hu : Under env env') {f g : Flags → Ser → Elem → Val → Val → Out Elem} (h : ∀ fl s e v x, SameOut (f fl s e v x) (g fl s e v x))
    (fl : Flags) (s : Ser) (el : Elem) (v enc : Val) : SameOut (serStep env f fl s el v enc) (serStep env' g fl s el v enc) := by
  cases s with
  | text c nl => simp only [serStep, serText_same hu]; exact .refl _
  | attr k c => simp only [serStep, encode_same hu]; exact .refl _
  | elem nm ns mode c nl => simp only [serStep, serText_same hu, hu.backend]; exact .refl _
  | attrs a => simp only [serStep, serAttrs_same hu]; exact .refl _
  | mapElem a nm mode => simp only [serStep, serAttrs_same hu, hu.backend]; exact .refl _
  | raw nm mode c => simp only [serStep, hu.backend]; exact .refl _
  | proxy p =>
    simp only [serStep]
    cases hm : env.model p.cls with
    | none => exact .inl rfl
    | some m =>
      rw [hu.classes _ _ hm]
      simp only [hu.backend]
      split
      · exact .refl _
      · split
        · exact .refl _
        · split
          · exact .refl _
          · exact bind_same (serModel_same h _ _ _ _ _) fun _ => .refl _
  | primUnion c inner => exact h _ _ _ _ _
  | modelUnion t c alts =>
    simp only [serStep]
    split
    · split
      · exact h _ _ _ _ _
      · exact .refl _
    · exact .refl _
  | tagged c d a mode alts =>
    simp only [serStep]
    split
    · split
      · split
        · exact .refl _
        · split
          · exact h _ _ _ _ _
          · exact .refl _
      all_goals exact .refl _
    · exact .refl _
  | wrap path ns mode c inner =>
    simp only [serStep, hu.backend]
    split
    · exact .refl _
    · split
      · exact .refl _
      · exact ascend_same _ _ _ (fun e => h _ _ _ _ _) _ _
  | homog t c inner =>
    simp only [serStep]
    split
    · exact .refl _
    · split
      · exact serItems_same (fun e v x => h _ _ _ _ _) _ _ _ _
      · exact .refl _
  | hetero t c inners =>
    simp only [serStep]
    split
    · exact .refl _
    · split
      · split
        · exact .refl _
        · split
          · exact .refl _
          · exact serTuple_same (fun s e v x => h _ _ _ _ _) _ _ _ _
      · exact .refl _

theorem writeWith_same (hu : Under env env') {f g : Flags → Ser → Elem → Val → Val → Out Elem} (h : ∀ fl s e v x, SameOut (f fl s e v x) (g fl s e v x))
    (fl : Flags) (cls : String) (v : Val) : SameOut (writeWith env f fl cls v) (writeWith env' g fl cls v) := by
  unfold writeWith
  rw [hu.backend, hu.toJsonable]
  cases hm : env.model cls with
  | none => exact .inl rfl
  | some m =>
    rw [hu.classes _ _ hm]
    exact bind_same (serModel_same h _ _ _ _ _) fun _ => .refl _

/-! ## Histories -/

variable {classes : Classes} {k : Nat} {P : List Event → Prop}

/-- What any history builds. -/
noncomputable def ever (env : Env) (classes : Classes) (k : Nat) : Env :=
  open Classical in
  { env with model := fun c => if h : ∃ m es, history classes k es .empty c = some m then some h.choose else none }

theorem under_ever (env : Env) (es : List Event) : Under (env.after classes k es) (ever env classes k) where
  classes c m h := by
    have he : ∃ m es, history classes k es .empty c = some m := ⟨m, es, h⟩
    obtain ⟨es', h'⟩ := he.choose_spec
    simp only [ever, dif_pos he]
    rw [C56_order classes k es' es c _ _ h' h]
  backend := rfl
  validate := rfl
  toJsonable := rfl
  reprOf := rfl

theorem under_since (env : Env) {before es : List Event} (h : Since classes k before es) : Under (env.after classes k before) (env.after classes k es) where
  classes c m hm := by
    obtain ⟨later, rfl, hl⟩ := h
    show history classes k (before ++ later) .empty c = some m
    rw [history_append]
    refine C56_stays classes k c m later _ ?_ hm
    intro e he complete hc
    subst hc
    have h1 := hl c complete he
    have h2 : history classes k before (fun _ => none) c = some m := hm
    rw [h1] at h2
    cases h2
  backend := rfl
  validate := rfl
  toJsonable := rfl
  reprOf := rfl

/-- An outcome is that of any environment above all that are seen. -/
theorem reads_below {top : Env} (ht : ∀ es, P es → Under (env.after classes k es) top) (eas : Bool) (n : Nat) (s : Ser) (loc : Loc) (st : St) (r : Out Val × St)
    (h : Reads env classes k P eas n s loc st r) : Same r (deser top eas n s loc st) := by
  induction h with
  | fuel s loc st => exact .refl _
  | step n es rec s loc st hp _ ih => exact deserStep_same (ht es hp) eas (fun s l st => ih s l st) n s loc st

/-- An outcome is that of any environment below all that are seen. -/
theorem reads_above {bottom : Env} (hb : ∀ es, P es → Under bottom (env.after classes k es)) (eas : Bool) (n : Nat) (s : Ser) (loc : Loc) (st : St)
    (r : Out Val × St) (h : Reads env classes k P eas n s loc st r) : Same (deser bottom eas n s loc st) r := by
  induction h with
  | fuel s loc st => exact .refl _
  | step n es rec s loc st hp _ ih => exact deserStep_same (hb es hp) eas (fun s l st => ih s l st) n s loc st

theorem writes_below {top : Env} (ht : ∀ es, P es → Under (env.after classes k es) top) (n : Nat) (fl : Flags) (s : Ser) (el : Elem) (v enc : Val) (r : Out Elem)
    (h : Writes env classes k P n fl s el v enc r) : SameOut r (ser top n fl s el v enc) := by
  induction h with
  | fuel => exact .refl _
  | step n es rec fl s el v enc hp _ ih => exact serStep_same (ht es hp) (fun fl s e v x => ih fl s e v x) fl s el v enc

theorem writes_above {bottom : Env} (hb : ∀ es, P es → Under bottom (env.after classes k es)) (n : Nat) (fl : Flags) (s : Ser) (el : Elem) (v enc : Val)
    (r : Out Elem) (h : Writes env classes k P n fl s el v enc r) : SameOut (ser bottom n fl s el v enc) r := by
  induction h with
  | fuel => exact .refl _
  | step n es rec fl s el v enc hp _ ih => exact serStep_same (hb es hp) (fun fl s e v x => ih fl s e v x) fl s el v enc

/-- Reading alone is one of the possibilities. -/
theorem reads_deser (es : List Event) (hp : P es) (eas : Bool) : ∀ (n : Nat) (s : Ser) (loc : Loc) (st : St),
    Reads env classes k P eas n s loc st (deser (env.after classes k es) eas n s loc st)
  | 0, s, loc, st => .fuel s loc st
  | n + 1, s, loc, st => .step n es _ s loc st hp fun s l st => reads_deser es hp eas n s l st

theorem writes_ser (es : List Event) (hp : P es) : ∀ (n : Nat) (fl : Flags) (s : Ser) (el : Elem) (v enc : Val),
    Writes env classes k P n fl s el v enc (ser (env.after classes k es) n fl s el v enc)
  | 0, fl, s, el, v, enc => .fuel fl s el v enc
  | n + 1, fl, s, el, v, enc => .step n es _ fl s el v enc hp fun fl s el v enc => writes_ser es hp n fl s el v enc

end Meanwhile

open Meanwhile

/-- C102: whatever states of the program the lookups of a reading see, and with whatever history it is compared: the outcomes are the same unless one of them is
the AssertionError for a class that is not built yet. -/
theorem C102_reading (env : Env) (classes : Classes) (k : Nat) (P : List Event → Prop) (eas : Bool) (n : Nat) (cls : String) (root : Node) (out : Out Val)
    (h : ReadsTree env classes k P eas n cls root out) (es : List Event) :
    out = .crash .assertionError ∨ (fromXmlTree (env.after classes k es) eas n cls root).1 = .crash .assertionError ∨
      out = (fromXmlTree (env.after classes k es) eas n cls root).1 := by
  obtain ⟨es', rec, hp, hr, rfl⟩ := h
  have h1 := readWith_same (under_ever (classes := classes) (k := k) env es') (fun s l st => reads_below (fun es _ => under_ever env es) eas n s l st _ (hr s l st)) cls root
  have h2 := readWith_same (under_ever (classes := classes) (k := k) env es)
    (fun s l st => reads_below (classes := classes) (k := k) (P := fun _ => True) (fun es _ => under_ever env es) eas n s l st _ (reads_deser es trivial eas n s l st)) cls root
  rw [readWith_eq]
  rcases h1 with h1 | h1
  · exact .inl h1
  · rcases h2 with h2 | h2
    · exact .inr (.inl h2)
    · exact .inr (.inr (h1.trans h2.symm))

/-- C102: the same for writing. -/
theorem C102_writing (env : Env) (classes : Classes) (k : Nat) (P : List Event → Prop) (n : Nat) (fl : Flags) (cls : String) (v : Val) (out : Out Node)
    (h : WritesTree env classes k P n fl cls v out) (es : List Event) :
    out = .crash .assertionError ∨ toXmlTree (env.after classes k es) n fl cls v = .crash .assertionError ∨
      out = toXmlTree (env.after classes k es) n fl cls v := by
  obtain ⟨es', rec, hp, hr, rfl⟩ := h
  have h1 := writeWith_same (under_ever (classes := classes) (k := k) env es') (fun fl s e v x => writes_below (fun es _ => under_ever env es) n fl s e v x _ (hr fl s e v x)) fl cls v
  have h2 := writeWith_same (under_ever (classes := classes) (k := k) env es)
    (fun fl s e v x => writes_below (classes := classes) (k := k) (P := fun _ => True) (fun es _ => under_ever env es) n fl s e v x _ (writes_ser es trivial n fl s e v x)) fl cls v
  rcases h1 with h1 | h1
  · exact .inl h1
  · rcases h2 with h2 | h2
    · exact .inr (.inl h2)
    · exact .inr (.inr (h1.trans h2.symm))

/-- C102: what can be read with the classes that are there can be read, with the same outcome, while others are defined and classes are rebuilt. -/
theorem C102_reading_goes_on (env : Env) (classes : Classes) (k : Nat) (before : List Event) (eas : Bool) (n : Nat) (cls : String) (root : Node)
    (hok : (fromXmlTree (env.after classes k before) eas n cls root).1 ≠ .crash .assertionError) (out : Out Val)
    (h : ReadsTree env classes k (Since classes k before) eas n cls root out) :
    out = (fromXmlTree (env.after classes k before) eas n cls root).1 := by
  obtain ⟨es', rec, hp, hr, rfl⟩ := h
  rw [readWith_eq] at hok ⊢
  rcases readWith_same (under_since env hp) (fun s l st => reads_above (fun es hp => under_since env hp) eas n s l st _ (hr s l st)) cls root with h1 | h1
  · exact absurd h1 hok
  · exact h1.symm

/-- C102: the same for writing. -/
theorem C102_writing_goes_on (env : Env) (classes : Classes) (k : Nat) (before : List Event) (n : Nat) (fl : Flags) (cls : String) (v : Val)
    (hok : toXmlTree (env.after classes k before) n fl cls v ≠ .crash .assertionError) (out : Out Node)
    (h : WritesTree env classes k (Since classes k before) n fl cls v out) : out = toXmlTree (env.after classes k before) n fl cls v := by
  obtain ⟨es', rec, hp, hr, rfl⟩ := h
  rcases writeWith_same (under_since env hp) (fun fl s e v x => writes_above (fun es hp => under_since env hp) n fl s e v x _ (hr fl s e v x)) fl cls v with h1 | h1
  · exact absurd h1 hok
  · exact h1.symm

namespace Ex

/-- `Stall` is stated when one of the classes of its union still has unresolved references; that class is rebuilt later. -/
def stallBefore : List Event := [.statement "Rein" true, .statement "Halter" false, .statement "Stall" true]

def stallLater : List Event := [.rebuild "Halter" true, .rebuild "Stall" true, .statement "Other" true]

theorem stall_since : Since (stallDefs false) 9 (stallBefore ++ [.rebuild "Halter" true]) (stallBefore ++ stallLater) := by
  refine ⟨[.rebuild "Stall" true, .statement "Other" true], rfl, ?_⟩
  intro c complete h
  simp only [List.mem_cons, List.not_mem_nil, or_false, reduceCtorEq, false_or, Event.statement.injEq] at h
  obtain ⟨rfl, rfl⟩ := h
  kernel_rfl

/-- `Halter` is not built yet: the document cannot be read. -/
example : (fromXmlTree ((stallEnv false).after (stallDefs false) 9 stallBefore) false 9 "Stall" stallDoc).1 = .crash .assertionError := by kernel_rfl

/-- Now it is; from here on all goes well. -/
theorem stall_reads : (fromXmlTree ((stallEnv false).after (stallDefs false) 9 (stallBefore ++ [.rebuild "Halter" true])) false 9 "Stall" stallDoc).1 =
    .ok (stallVal "Stall" "Rein" "Halter") := by
  kernel_rfl

theorem stall_writes : toXmlTree ((stallEnv false).after (stallDefs false) 9 (stallBefore ++ [.rebuild "Halter" true])) 9 {} "Stall"
    (stallVal "Stall" "Rein" "Halter") = .ok (el "stall" none [el "rein" (some "red") [] [], el "halter" (some "blue") [] []] []) := by
  kernel_rfl

/-- A reading that begins now and ends after the later events has this outcome. -/
example (out : Out Val) (h : ReadsTree (stallEnv false) (stallDefs false) 9 (Since (stallDefs false) 9 (stallBefore ++ [.rebuild "Halter" true])) false 9 "Stall"
    stallDoc out) : out = .ok (stallVal "Stall" "Rein" "Halter") := by
  rw [← stall_reads]
  exact C102_reading_goes_on _ _ 9 _ false 9 "Stall" stallDoc (by rw [stall_reads]; exact nofun) out h

example (out : Out Node) (h : WritesTree (stallEnv false) (stallDefs false) 9 (Since (stallDefs false) 9 (stallBefore ++ [.rebuild "Halter" true])) 9 {} "Stall"
    (stallVal "Stall" "Rein" "Halter") out) : out = .ok (el "stall" none [el "rein" (some "red") [] [], el "halter" (some "blue") [] []] []) := by
  rw [← stall_writes]
  exact C102_writing_goes_on _ _ 9 _ 9 {} "Stall" _ (by rw [stall_writes]; exact nofun) out h

/-- There are such readings: the class is looked up now, its parts later. -/
example : ∃ out, ReadsTree (stallEnv false) (stallDefs false) 9 (Since (stallDefs false) 9 (stallBefore ++ [.rebuild "Halter" true])) false 9 "Stall"
    stallDoc out :=
  ⟨_, stallBefore ++ [.rebuild "Halter" true], deser ((stallEnv false).after (stallDefs false) 9 (stallBefore ++ stallLater)) false 9,
    ⟨[], by simp, by simp⟩, fun s l st => Meanwhile.reads_deser _ stall_since false 9 s l st, rfl⟩

/-- A reading that began earlier has this outcome too, or raises the AssertionError. -/
example (out : Out Val) (h : ReadsTree (stallEnv false) (stallDefs false) 9 (Since (stallDefs false) 9 stallBefore) false 9 "Stall" stallDoc out) :
    out = .crash .assertionError ∨ out = .ok (stallVal "Stall" "Rein" "Halter") := by
  rcases C102_reading _ _ 9 _ false 9 "Stall" stallDoc out h (stallBefore ++ [.rebuild "Halter" true]) with h1 | h1 | h1
  · exact .inl h1
  · rw [stall_reads] at h1
    cases h1
  · rw [stall_reads] at h1
    exact .inr h1

end Ex

end PXml
