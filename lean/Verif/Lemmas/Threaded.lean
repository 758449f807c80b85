import Verif.Threaded

/-!
# Lemmas: the arguments of `deserialize`
-/

namespace PXml
namespace Threaded

variable {C C' W : Type}

/-! ## Only the given arguments matter -/

theorem descend_congr (mode : Mode) (f : Opts C → TSt W → Out Val × TSt W) (f' : Opts C' → TSt W → Out Val × TSt W) (o : Opts C)
    (o' : Opts C') (h : f o = f' o') (ts : List String) : descend mode f o ts = descend mode f' o' ts := by
  induction ts with
  | nil => funext s; simp only [descend, h]
  | cons t ts ih => funext s; simp only [descend, ih]

theorem homogLoop_congr (r : Read C W) (r' : Read C' W) (o : Opts C) (o' : Opts C') (h : r o = r' o') (loc : Loc) (n idx : Nat)
    (acc : List Val) (errs : Dict ErrKey VErr) (s : TSt W) :
    homogLoop r o loc n idx acc errs s = homogLoop r' o' loc n idx acc errs s := by
  induction n generalizing idx acc errs s with
  | zero => rfl
  | succ n ih => simp only [homogLoop, h, ih]

theorem heteroLoop_congr (r : Ser → Read C W) (r' : Ser → Read C' W) (o : Opts C) (o' : Opts C') (h : ∀ x, r x o = r' x o')
    (loc : Loc) (xs : List Ser) (idx : Nat) (acc : List Val) (errs : Dict ErrKey VErr) (s : TSt W) :
    heteroLoop r o loc xs idx acc errs s = heteroLoop r' o' loc xs idx acc errs s := by
  induction xs generalizing idx acc errs s with
  | nil => rfl
  | cons x xs ih => simp only [heteroLoop, h, ih]

theorem unionLoop_congr (r : Proxy → Read C W) (r' : Proxy → Read C' W) (o : Opts C) (o' : Opts C') (h : ∀ x, r x o = r' x o')
    (loc : Loc) (title : Title) (ps : List Proxy) (errs : Dict ErrKey VErr) (s : TSt W) :
    unionLoop r o loc title ps errs s = unionLoop r' o' loc title ps errs s := by
  induction ps generalizing errs s with
  | nil => rfl
  | cons p ps ih => simp only [unionLoop, h, ih]

theorem taggedLoop_congr (r : Proxy → Read C W) (r' : Proxy → Read C' W) (o : Opts C) (o' : Opts C') (h : ∀ x, r x o = r' x o')
    (loc : Loc) (a : String) (mode : Mode) (ps : List (String × Proxy)) (s : TSt W) :
    taggedLoop r o loc a mode ps s = taggedLoop r' o' loc a mode ps s := by
  induction ps generalizing s with
  | nil => rfl
  | cons p ps ih => obtain ⟨t, p⟩ := p; simp only [taggedLoop, h, ih]

theorem fields_congr (r : Ser → Read C W) (r' : Ser → Read C' W) (o : Opts C) (o' : Opts C') (h : ∀ x, r x o = r' x o')
    (fs : List Field) (res : Dict String Val) (errs : Dict ErrKey VErr) (s : TSt W) :
    fields r o fs res errs s = fields r' o' fs res errs s := by
  induction fs generalizing res errs s with
  | nil => rfl
  | cons f fs ih => simp only [fields, h, ih]

/-- Two environments with the same classes whose validation does the same under the two contexts. -/
structure Agree (E : TEnv C W) (E' : TEnv C' W) (o : Opts C) (o' : Opts C') : Prop where
  backend : E.backend = E'.backend
  model : E.model = E'.model
  eas : o.emptyAsString = o'.emptyAsString
  validate : ∀ cls v w, E.validate o.context cls v w = E'.validate o'.context cls v w

variable {E : TEnv C W} {E' : TEnv C' W} {o : Opts C} {o' : Opts C'}

theorem Agree.modelSer (hA : Agree E E' o o') {r : Ser → Read C W} {r' : Ser → Read C' W} (h : ∀ x, r x o = r' x o') (cls : String)
    (m : ModelSer) (loc : Loc) (s : TSt W) : modelSer E r o cls m loc s = modelSer E' r' o' cls m loc s := by
  simp only [Threaded.modelSer, fields_congr r r' o o' h, h, validateModel, hA.validate]

theorem Agree.read (hA : Agree E E' o o') (n : Nat) (x : Ser) : read E n x o = read E' n x o' := by
  induction n generalizing x with
  | zero => rfl
  | succ n ih =>
    funext loc s
    change step E (Threaded.read E n) n x o loc s = step E' (Threaded.read E' n) n x o' loc s
    cases x with
    | wrap path ns mode c inner =>
      simp only [step]
      rw [descend_congr mode _ (fun o c => Threaded.read E' n inner o loc { c with sm := c.sm.set loc c.el.line }) o o' (by
        funext s; simp only [ih])]
    | _ =>
      simp only [step, text, attrs, hA.eas, hA.model, hA.backend, ih, hA.modelSer ih,
        homogLoop_congr _ _ o o' (ih _), heteroLoop_congr _ _ o o' ih, unionLoop_congr _ _ o o' (fun p => ih (.proxy p)),
        taggedLoop_congr _ _ o o' (fun p => ih (.proxy p))]

/-! ## Validation that does not depend on the state of the world -/

/-- What `E` does under the context `c`, if it does not depend on the state of the world. -/
def TEnv.at (E : TEnv C W) (V : Option C → String → Val → Except VErr (List (String × Val) × List String)) (c : Option C)
    (toJsonable : Val → Val) (reprOf : Val → String) : Env :=
  { backend := E.backend, model := E.model, validate := V c, toJsonable := toJsonable, reprOf := reprOf }

/-- The outcome and the serializers' part of the state. -/
def drop {α : Type} (r : Out α × TSt W) : Out α × St := (r.1, r.2.st)

@[simp] theorem drop_mk {α : Type} (r : Out α) (s : TSt W) : drop (r, s) = (r, s.st) := rfl

theorem onChild_drop {α : Type} (s : TSt W) (i : Nat) (f : TSt W → Out α × TSt W) (g : St → Out α × St)
    (h : ∀ s, drop (f s) = g s.st) : drop (onChild s i f) = PXml.onChild s.st i g := by
  obtain ⟨el, sm, w⟩ := s
  simp only [onChild, PXml.onChild, TSt.st]
  cases hc : el.elements[i]? with
  | none => rfl
  | some c =>
    have := h ⟨c, sm, w⟩
    simp only [TSt.st] at this
    simp only [← this, drop]
    rfl

theorem text_drop (c nl : Bool) (o : Opts C) (s : TSt W) : drop (text c nl o s) = deserText o.emptyAsString c nl s.st := by
  simp only [text]; rfl

theorem attrs_drop (a : AttrsSer) (o : Opts C) (s : TSt W) : drop (attrs a o s) = deserAttrs a s.st := by
  simp only [attrs]; rfl

theorem descend_drop (mode : Mode) (f : Opts C → TSt W → Out Val × TSt W) (o : Opts C) (g : St → Out Val × St)
    (h : ∀ s, drop (f o s) = g s.st) (ts : List String) (s : TSt W) :
    drop (descend mode f o ts s) = PXml.descend mode g ts s.st := by
  induction ts generalizing s with
  | nil => exact h s
  | cons t ts ih =>
    obtain ⟨el, sm, w⟩ := s
    simp only [descend, PXml.descend, TSt.st]
    cases el.findElement t mode with
    | error e => rfl
    | ok r =>
      obtain ⟨i, el⟩ := r
      cases i with
      | none => rfl
      | some i => exact onChild_drop ⟨el, sm, w⟩ i _ _ ih

/-- Two results are the same but for the state of the world. -/
theorem drop_eq {α : Type} {r : Out α × TSt W} {q : Out α × St} (h : drop r = q) : r.1 = q.1 ∧ r.2.st = q.2 := by
  subst h; exact ⟨rfl, rfl⟩

theorem homogLoop_drop (r : Read C W) (o : Opts C) (g : Loc → St → Out Val × St) (h : ∀ loc s, drop (r o loc s) = g loc s.st)
    (loc : Loc) (n idx : Nat) (acc : List Val) (errs : Dict ErrKey VErr) (s : TSt W) :
    drop (homogLoop r o loc n idx acc errs s) = PXml.homogLoop g loc n idx acc errs s.st := by
  induction n generalizing idx acc errs s with
  | zero => rfl
  | succ n ih =>
    simp only [homogLoop, PXml.homogLoop]
    have hd := h (loc ++ [.idx idx]) s
    rw [← hd]
    generalize r o (loc ++ [.idx idx]) s = q
    obtain ⟨q, s'⟩ := q
    cases q with
    | ok v => simp only [drop_mk]; split; rfl; exact ih _ _ _ _
    | verr e => exact ih _ _ _ _
    | crash e => rfl
    | diverge => rfl

theorem heteroLoop_drop (r : Ser → Read C W) (o : Opts C) (g : Ser → Loc → St → Out Val × St)
    (h : ∀ x loc s, drop (r x o loc s) = g x loc s.st)
    (loc : Loc) (xs : List Ser) (idx : Nat) (acc : List Val) (errs : Dict ErrKey VErr) (s : TSt W) :
    drop (heteroLoop r o loc xs idx acc errs s) = PXml.heteroLoop g loc xs idx acc errs s.st := by
  induction xs generalizing idx acc errs s with
  | nil => rfl
  | cons x xs ih =>
    simp only [heteroLoop, PXml.heteroLoop]
    have hd := h x (loc ++ [.idx idx]) s
    rw [← hd]
    generalize r x o (loc ++ [.idx idx]) s = q
    obtain ⟨q, s'⟩ := q
    cases q with
    | ok v => exact ih _ _ _ _
    | verr e => exact ih _ _ _ _
    | crash e => rfl
    | diverge => rfl

theorem unionLoop_drop (r : Proxy → Read C W) (o : Opts C) (loc : Loc) (g : Proxy → St → Out Val × St)
    (h : ∀ p s, drop (r p o loc s) = g p s.st) (title : Title) (ps : List Proxy) (errs : Dict ErrKey VErr) (s : TSt W) :
    drop (unionLoop r o loc title ps errs s) = PXml.unionLoop g title ps errs s.st := by
  induction ps generalizing errs s with
  | nil => simp only [unionLoop, PXml.unionLoop]; split <;> rfl
  | cons p ps ih =>
    simp only [unionLoop, PXml.unionLoop]
    have := h p { s with el := s.el.createSnapshot }
    simp only [TSt.st] at this ⊢
    rw [← this]
    generalize r p o loc { s with el := s.el.createSnapshot } = q
    obtain ⟨q, s'⟩ := q
    cases q with
    | ok v => simp only [drop_mk]; split; exact ih _ _; rfl
    | verr e => exact ih _ _
    | crash e => rfl
    | diverge => rfl

theorem taggedLoop_drop (r : Proxy → Read C W) (o : Opts C) (loc : Loc) (g : Proxy → St → Out Val × St)
    (h : ∀ p s, drop (r p o loc s) = g p s.st) (a : String) (mode : Mode) (ps : List (String × Proxy)) (s : TSt W) :
    drop (taggedLoop r o loc a mode ps s) = PXml.taggedLoop g loc a mode ps s.st := by
  induction ps generalizing s with
  | nil => rfl
  | cons p ps ih =>
    obtain ⟨t, p⟩ := p
    obtain ⟨el, sm, w⟩ := s
    simp only [taggedLoop, PXml.taggedLoop, TSt.st]
    generalize el.search p.name mode false = q
    obtain ⟨i, el⟩ := q
    cases i with
    | none => exact ih _
    | some i =>
      simp only
      cases el.elements[i]? with
      | none => rfl
      | some c =>
        simp only
        split
        · exact h _ _
        · exact ih _

theorem fields_drop (r : Ser → Read C W) (o : Opts C) (g : Ser → Loc → St → Out Val × St)
    (h : ∀ x loc s, drop (r x o loc s) = g x loc s.st) (fs : List Field) (res : Dict String Val) (errs : Dict ErrKey VErr)
    (s : TSt W) : drop (fields r o fs res errs s) = deserFields g fs res errs s.st := by
  induction fs generalizing res errs s with
  | nil => rfl
  | cons f fs ih =>
    obtain ⟨el, sm, w⟩ := s
    simp only [fields, deserFields, TSt.st]
    cases f.validator with
    | some v =>
      simp only
      generalize v el = q
      obtain ⟨q, el'⟩ := q
      cases q with
      | ok v => exact ih _ _ _
      | verr e => exact ih _ _ _
      | crash e => rfl
      | diverge => rfl
    | none =>
      simp only
      have hd := h f.ser [.name f.name] ⟨el, sm.set [.name f.name] el.line, w⟩
      simp only [TSt.st] at hd
      rw [← hd]
      generalize r f.ser o [.name f.name] ⟨el, Dict.set sm [.name f.name] el.line, w⟩ = q
      obtain ⟨q, s'⟩ := q
      cases q with
      | ok v => exact ih _ _ _
      | verr e => exact ih _ _ _
      | crash e => rfl
      | diverge => rfl

section
variable {V : Option C → String → Val → Except VErr (List (String × Val) × List String)}
  (hV : ∀ c cls v w, (E.validate c cls v w).1 = V c cls v) (j : Val → Val) (rp : Val → String)
include hV

theorem validateModel_drop (o : Opts C) (cls : String) (m : ModelSer) (data : Val) (s : TSt W) :
    drop (validateModel E o cls m data s) = (PXml.validateModel (E.at V o.context j rp) cls m data s.st, s.st) := by
  obtain ⟨el, sm, w⟩ := s
  simp only [validateModel, PXml.validateModel, TSt.st, TEnv.at]
  cases (if m.extraForbid = true then checkExtra m.title el else none) with
  | some e => rfl
  | none =>
    rw [← hV o.context cls data w]
    generalize E.validate o.context cls data w = q
    obtain ⟨q, w⟩ := q
    cases q <;> rfl

theorem modelSer_drop (r : Ser → Read C W) (o : Opts C) (g : Ser → Loc → St → Out Val × St)
    (h : ∀ x loc s, drop (r x o loc s) = g x loc s.st) (cls : String) (m : ModelSer) (loc : Loc) (s : TSt W) :
    drop (modelSer E r o cls m loc s) = deserModel (E.at V o.context j rp) g cls m loc s.st := by
  simp only [modelSer, deserModel]
  cases m.body with
  | fields fs =>
    simp only
    rw [← fields_drop r o g h]
    generalize fields r o fs [] [] s = q
    obtain ⟨q, s'⟩ := q
    cases q with
    | ok v =>
      obtain ⟨res, errs⟩ := v
      simp only [drop_mk]
      split
      · exact validateModel_drop hV j rp o cls m _ s'
      · rfl
    | verr e => rfl
    | crash e => rfl
    | diverge => rfl
  | root x =>
    simp only
    rw [← h]
    generalize r x o loc s = q
    obtain ⟨q, s'⟩ := q
    cases q with
    | ok v => exact validateModel_drop hV j rp o cls m _ s'
    | verr e => rfl
    | crash e => rfl
    | diverge => rfl

theorem read_drop (n : Nat) (x : Ser) (o : Opts C) (loc : Loc) (s : TSt W) :
    drop (read E n x o loc s) = deser (E.at V o.context j rp) o.emptyAsString n x loc s.st := by
  induction n generalizing x loc s with
  | zero => rfl
  | succ n ih =>
    change drop (step E (read E n) n x o loc s) =
      deserStep (E.at V o.context j rp) o.emptyAsString (deser (E.at V o.context j rp) o.emptyAsString n) n x loc s.st
    generalize hF : deser (E.at V o.context j rp) o.emptyAsString n = F at ih ⊢
    obtain ⟨el, sm, w⟩ := s
    cases x with
    | text c nl => exact text_drop c nl o _
    | attr nm c =>
      simp only [step, deserStep, TSt.st]
      generalize el.popAttrib nm = q
      obtain ⟨q, el'⟩ := q
      cases c <;> cases q <;> rfl
    | elem nm ns m c nl =>
      simp only [step, deserStep, TSt.st]
      generalize el.popElement nm m = q
      obtain ⟨q, el'⟩ := q
      split
      · rfl
      · cases q with
        | none => rfl
        | some i =>
          exact onChild_drop ⟨el', sm, w⟩ i _ (fun c' => deserText o.emptyAsString c nl { c' with sm := c'.sm.set loc c'.el.line })
            fun s => text_drop c nl o _
    | attrs a => exact attrs_drop a o _
    | mapElem a nm m =>
      simp only [step, deserStep, TSt.st]
      generalize el.popElement nm m = q
      obtain ⟨q, el'⟩ := q
      split
      · rfl
      · cases q with
        | none => rfl
        | some i =>
          exact onChild_drop ⟨el', sm, w⟩ i _ (fun c' => deserAttrs a { c' with sm := c'.sm.set loc c'.el.line })
            fun s => attrs_drop a o _
    | raw nm m c =>
      simp only [step, deserStep, TSt.st]
      generalize el.popElementRemove nm m = q
      obtain ⟨q, el'⟩ := q
      cases c <;> cases q <;> rfl
    | proxy p =>
      simp only [step, deserStep, TSt.st]
      have hm : (E.at V o.context j rp).model = E.model := rfl
      rw [hm]
      cases E.model p.cls with
      | none => rfl
      | some m =>
        simp only
        generalize el.popElement p.name p.mode = q
        obtain ⟨q, el'⟩ := q
        split
        · rfl
        · cases q with
          | none => rfl
          | some i =>
            refine onChild_drop ⟨el', sm, w⟩ i _ _ fun s => ?_
            obtain ⟨el, sm, w⟩ := s
            simp only [TSt.st]
            generalize el.isNil = q
            obtain ⟨q, el'⟩ := q
            cases q with
            | true => rfl
            | false => exact modelSer_drop hV j rp (read E n) o F ih p.cls m loc _
    | primUnion c inner => simp only [step, deserStep]; split; rfl; exact ih _ _ _
    | modelUnion t c alts =>
      simp only [step, deserStep]; split; rfl
      exact unionLoop_drop _ o loc _ (fun p s => ih (.proxy p) loc s) _ _ _ _
    | tagged c d a m alts =>
      simp only [step, deserStep]; split; rfl
      exact taggedLoop_drop _ o loc _ (fun p s => ih (.proxy p) loc s) _ _ _ _
    | wrap path ns m c inner =>
      simp only [step, deserStep]; split; rfl
      exact descend_drop m _ o _ (fun s => ih inner loc _) path _
    | homog t c inner =>
      simp only [step, deserStep]; split; rfl
      rw [← homogLoop_drop (read E n inner) o _ (fun loc s => ih inner loc s)]
      generalize homogLoop (read E n inner) o loc n 0 [] [] _ = q
      obtain ⟨q, s'⟩ := q
      cases q <;> rfl
    | hetero t c inners =>
      simp only [step, deserStep]; split; rfl
      rw [← heteroLoop_drop (read E n) o _ ih]
      generalize heteroLoop (read E n) o loc inners 0 [] [] _ = q
      obtain ⟨q, s'⟩ := q
      cases q <;> rfl

end

end Threaded
end PXml

namespace PXml
namespace Threaded

variable {C W : Type}

/-! ## What validation under the given context preserves is preserved -/

section
variable {P : W → Prop} {o : Opts C}

/-- A reading function keeps `P` of the state of the world. -/
def KeepsW {α : Type} (P : W → Prop) (f : TSt W → Out α × TSt W) : Prop := ∀ s, P s.w → P (f s).2.w

theorem onChild_keepsW {α : Type} {f : TSt W → Out α × TSt W} (hf : KeepsW P f) (i : Nat) : KeepsW P fun s => onChild s i f := by
  intro s hs
  simp only [onChild]
  split
  · exact hs
  · rename_i c _
    exact hf { s with el := c } hs

theorem text_keepsW (c nl : Bool) : KeepsW P (text (W := W) c nl o) := fun _ hs => hs

theorem attrs_keepsW (a : AttrsSer) : KeepsW P (attrs (W := W) a o) := fun _ hs => hs

theorem descend_keepsW (mode : Mode) {f : Opts C → TSt W → Out Val × TSt W} (hf : KeepsW P (f o)) (ts : List String) :
    KeepsW P (descend mode f o ts) := by
  induction ts with
  | nil => exact hf
  | cons t ts ih =>
    intro s hs
    simp only [descend]
    split
    · exact hs
    · exact hs
    · rename_i i el _
      exact onChild_keepsW ih i { s with el := el } hs

theorem homogLoop_keepsW {r : Read C W} (hr : ∀ loc, KeepsW P (r o loc)) (loc : Loc) (n idx : Nat) (acc : List Val)
    (errs : Dict ErrKey VErr) : KeepsW P (homogLoop r o loc n idx acc errs) := by
  induction n generalizing idx acc errs with
  | zero => exact fun s hs => hs
  | succ n ih =>
    intro s hs
    have hq := hr (loc ++ [.idx idx]) s hs
    simp only [homogLoop]
    revert hq
    generalize r o (loc ++ [.idx idx]) s = q
    obtain ⟨q, s'⟩ := q
    intro hq
    cases q with
    | ok v => simp only; split; exact hq; exact ih _ _ _ _ hq
    | verr e => exact ih _ _ _ _ hq
    | crash e => exact hq
    | diverge => exact hq

theorem heteroLoop_keepsW {r : Ser → Read C W} (hr : ∀ x loc, KeepsW P (r x o loc)) (loc : Loc) (xs : List Ser) (idx : Nat)
    (acc : List Val) (errs : Dict ErrKey VErr) : KeepsW P (heteroLoop r o loc xs idx acc errs) := by
  induction xs generalizing idx acc errs with
  | nil => exact fun s hs => hs
  | cons x xs ih =>
    intro s hs
    have hq := hr x (loc ++ [.idx idx]) s hs
    simp only [heteroLoop]
    revert hq
    generalize r x o (loc ++ [.idx idx]) s = q
    obtain ⟨q, s'⟩ := q
    intro hq
    cases q with
    | ok v => exact ih _ _ _ _ hq
    | verr e => exact ih _ _ _ _ hq
    | crash e => exact hq
    | diverge => exact hq

theorem unionLoop_keepsW {r : Proxy → Read C W} {loc : Loc} (hr : ∀ x, KeepsW P (r x o loc)) (title : Title) (ps : List Proxy)
    (errs : Dict ErrKey VErr) : KeepsW P (unionLoop r o loc title ps errs) := by
  induction ps generalizing errs with
  | nil => intro s hs; simp only [unionLoop]; split <;> exact hs
  | cons p ps ih =>
    intro s hs
    have hq := hr p { s with el := s.el.createSnapshot } hs
    simp only [unionLoop]
    revert hq
    generalize r p o loc { s with el := s.el.createSnapshot } = q
    obtain ⟨q, s'⟩ := q
    intro hq
    cases q with
    | ok v => simp only; split; exact ih _ _ hq; exact hq
    | verr e => exact ih _ _ hq
    | crash e => exact hq
    | diverge => exact hq

theorem taggedLoop_keepsW {r : Proxy → Read C W} {loc : Loc} (hr : ∀ x, KeepsW P (r x o loc)) (a : String) (mode : Mode)
    (ps : List (String × Proxy)) : KeepsW P (taggedLoop r o loc a mode ps) := by
  induction ps with
  | nil => exact fun s hs => hs
  | cons p ps ih =>
    obtain ⟨t, p⟩ := p
    intro s hs
    simp only [taggedLoop]
    split
    · split
      · exact hs
      · split
        · exact hr _ _ hs
        · exact ih _ hs
    · exact ih _ hs

theorem fields_keepsW {r : Ser → Read C W} (hr : ∀ x loc, KeepsW P (r x o loc)) (fs : List Field) (res : Dict String Val)
    (errs : Dict ErrKey VErr) : KeepsW P (fields r o fs res errs) := by
  induction fs generalizing res errs with
  | nil => exact fun s hs => hs
  | cons f fs ih =>
    intro s hs
    obtain ⟨el, sm, w⟩ := s
    simp only [fields]
    cases f.validator with
    | some v =>
      simp only
      generalize v el = q
      obtain ⟨q, el'⟩ := q
      cases q with
      | ok v => exact ih _ _ _ hs
      | verr e => exact ih _ _ _ hs
      | crash e => exact hs
      | diverge => exact hs
    | none =>
      have hq := hr f.ser [.name f.name] ⟨el, sm.set [.name f.name] el.line, w⟩ hs
      simp only
      revert hq
      generalize r f.ser o [.name f.name] ⟨el, Dict.set sm [.name f.name] el.line, w⟩ = q
      obtain ⟨q, s'⟩ := q
      intro hq
      cases q with
      | ok v => exact ih _ _ _ hq
      | verr e => exact ih _ _ _ hq
      | crash e => exact hq
      | diverge => exact hq

variable {E : TEnv C W} (hE : ∀ cls v w, P w → P (E.validate o.context cls v w).2)
include hE

theorem validateModel_keepsW (cls : String) (m : ModelSer) (data : Val) : KeepsW P (validateModel E o cls m data) := by
  intro s hs
  have := hE cls data s.w hs
  simp only [validateModel]
  split
  · exact hs
  · revert this
    generalize E.validate o.context cls data s.w = q
    obtain ⟨q, w⟩ := q
    intro this
    cases q <;> exact this

theorem modelSer_keepsW {r : Ser → Read C W} (hr : ∀ x loc, KeepsW P (r x o loc)) (cls : String) (m : ModelSer) (loc : Loc) :
    KeepsW P (modelSer E r o cls m loc) := by
  intro s hs
  simp only [modelSer]
  cases m.body with
  | fields fs =>
    have hq := fields_keepsW hr fs [] [] s hs
    simp only
    revert hq
    generalize fields r o fs [] [] s = q
    obtain ⟨q, s'⟩ := q
    intro hq
    cases q with
    | ok v =>
      obtain ⟨res, errs⟩ := v
      simp only
      split
      · exact validateModel_keepsW hE _ _ _ _ hq
      · exact hq
    | verr e => exact hq
    | crash e => exact hq
    | diverge => exact hq
  | root x =>
    have hq := hr x loc s hs
    simp only
    revert hq
    generalize r x o loc s = q
    obtain ⟨q, s'⟩ := q
    intro hq
    cases q with
    | ok v => exact validateModel_keepsW hE _ _ _ _ hq
    | verr e => exact hq
    | crash e => exact hq
    | diverge => exact hq

theorem read_keepsW (n : Nat) (x : Ser) (loc : Loc) : KeepsW P (read E n x o loc) := by
  induction n generalizing x loc with
  | zero => exact fun s hs => hs
  | succ n ih =>
    intro s hs
    change P (step E (read E n) n x o loc s).2.w
    generalize read E n = F at ih ⊢
    cases x with
    | text c nl => exact text_keepsW c nl s hs
    | attr nm c => simp only [step]; split; exact hs; split <;> exact hs
    | elem nm ns m c nl =>
      simp only [step]
      split
      · exact hs
      · split
        · exact hs
        · rename_i i el _
          exact onChild_keepsW (P := P) (f := fun c' => text c nl o { c' with sm := c'.sm.set loc c'.el.line })
            (fun s hs => text_keepsW c nl _ hs) i { s with el := el } hs
    | attrs a => exact attrs_keepsW (o := o) a s hs
    | mapElem a nm m =>
      simp only [step]
      split
      · exact hs
      · split
        · exact hs
        · rename_i i el _
          exact onChild_keepsW (P := P) (f := fun c' => attrs a o { c' with sm := c'.sm.set loc c'.el.line })
            (fun s hs => attrs_keepsW a _ hs) i { s with el := el } hs
    | raw nm m c => simp only [step]; split; exact hs; split <;> exact hs
    | proxy p =>
      simp only [step]
      split
      · exact hs
      · rename_i m _
        split
        · exact hs
        · split
          · exact hs
          · rename_i i el _
            refine onChild_keepsW (P := P) ?_ i { s with el := el } hs
            intro s hs
            simp only
            split
            · exact hs
            · exact modelSer_keepsW hE ih p.cls m loc _ hs
    | primUnion c inner => simp only [step]; split; exact hs; exact ih _ _ _ hs
    | modelUnion t c alts =>
      simp only [step]; split; exact hs
      exact unionLoop_keepsW (fun p => ih (.proxy p) loc) _ _ _ _ hs
    | tagged c d a m alts =>
      simp only [step]; split; exact hs
      exact taggedLoop_keepsW (fun p => ih (.proxy p) loc) _ _ _ _ hs
    | wrap path ns m c inner =>
      simp only [step]; split; exact hs
      exact descend_keepsW m (f := fun o c => F inner o loc { c with sm := c.sm.set loc c.el.line })
        (fun s hs => ih inner loc _ hs) path s hs
    | homog t c inner =>
      simp only [step]; split; exact hs
      have hq := homogLoop_keepsW (fun loc => ih inner loc) loc n 0 [] [] s hs
      revert hq
      generalize homogLoop (F inner) o loc n 0 [] [] s = q
      obtain ⟨q, s'⟩ := q
      intro hq
      cases q <;> exact hq
    | hetero t c inners =>
      simp only [step]; split; exact hs
      have hq := heteroLoop_keepsW ih loc inners 0 [] [] s hs
      revert hq
      generalize heteroLoop F o loc inners 0 [] [] s = q
      obtain ⟨q, s'⟩ := q
      intro hq
      cases q <;> exact hq

theorem fromXmlTree_keepsW (n : Nat) (cls : String) (root : Node) (w : W) (hw : P w) :
    P (fromXmlTree E n cls root o.context o.emptyAsString w).2 := by
  simp only [fromXmlTree]
  split
  · exact hw
  · split
    · exact modelSer_keepsW hE (fun x loc => read_keepsW hE n x loc) _ _ _ _ hw
    · exact hw

end

end Threaded
end PXml
