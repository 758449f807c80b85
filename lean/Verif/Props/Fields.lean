import Verif.Lemmas.Drop
import Verif.Props.Errors

/-!
# Single fields: computed fields (C20), empty text (C39), absent fields (C43)
-/

namespace PXml

open Elem

/-! ## C20 -/

/-- C20: a computed field takes nothing from the element and has no value. -/
theorem C20_never_read (env : Env) (eas : Bool) (n : Nat) (s : Ser) (hc : s.computed = true) (hr : s.Resolved env) (loc : Loc)
    (st : St) : deser env eas (n + 1) s loc st = (.ok .none, st) := by
  change deserStep env eas (deser env eas n) n s loc st = _
  cases s with
  | text c nl => simp only [Ser.computed] at hc; subst hc; rfl
  | attr nm c => simp only [Ser.computed] at hc; subst hc; rfl
  | elem nm ns m c nl => simp only [Ser.computed] at hc; subst hc; rfl
  | attrs a => simp only [Ser.computed] at hc; simp [deserStep, deserAttrs, hc]
  | mapElem a nm m => simp only [Ser.computed] at hc; simp [deserStep, hc]
  | raw nm m c => simp only [Ser.computed] at hc; subst hc; rfl
  | proxy p =>
    simp only [Ser.computed] at hc
    simp only [Ser.Resolved, Option.isSome_iff_exists] at hr
    obtain ⟨m, hm⟩ := hr
    simp [deserStep, hc, hm]
  | primUnion c inner => simp only [Ser.computed] at hc; subst hc; rfl
  | modelUnion t c alts => simp only [Ser.computed] at hc; subst hc; rfl
  | tagged c d a m alts => simp only [Ser.computed] at hc; subst hc; rfl
  | wrap path ns m c inner => simp only [Ser.computed] at hc; subst hc; rfl
  | homog t c inner => simp only [Ser.computed] at hc; subst hc; rfl
  | hetero t c inners => simp only [Ser.computed] at hc; subst hc; rfl

theorem OutRel.noLines_eq {o o' : Out Val} (h : OutRel (fun _ => True) (fun _ => -1) o o') : o.noLines = o'.noLines := h.lines_eq

/-- C20: removing computed fields, any number of them and in any of the classes involved, does not change the outcome of
reading a document (values, errors, the data left over), whenever reading it terminates. -/
theorem C20_removal (env : Env) (eas : Bool) (K : String → Field → Bool)
    (hK : ∀ cls m fs, env.model cls = some m → m.body = .fields fs → ∀ f ∈ fs, K cls f = true →
      f.ser.computed = true ∧ f.validator = none ∧ f.ser.Resolved env)
    (n : Nat) (cls : String) (root : Node) (hd : (fromXmlTree env eas n cls root).1 ≠ .diverge) :
    (fromXmlTree env eas n cls root).1.noLines = (fromXmlTree (env.without K) eas n cls root).1.noLines ∧
      (fromXmlTree env eas n cls root).2 = (fromXmlTree (env.without K) eas n cls root).2 := by
  have hK' : ∀ cls m fs, env.model cls = some m → m.body = .fields fs → ∀ f ∈ fs, K cls f = true →
      f.validator = none ∧ f.ser.Inert env eas := by
    intro cls m fs hm hb f hf hk
    obtain ⟨h1, h2, h3⟩ := hK cls m fs hm hb f hf hk
    exact ⟨h2, fun n l st => C20_never_read env eas n f.ser h1 h3 l st⟩
  unfold fromXmlTree at hd ⊢
  have hm' : (env.without K).model cls = (env.model cls).map (ModelSer.without (K cls)) := rfl
  rw [hm']
  cases hm : env.model cls with
  | none => exact ⟨rfl, rfl⟩
  | some m =>
    rw [hm] at hd
    have hn : (m.without (K cls)).elementName = m.elementName := by unfold ModelSer.without; split <;> rfl
    simp only [Option.map_some, hn] at hd ⊢
    by_cases ht : root.tag = m.elementName
    · rw [if_pos ht] at hd
      rw [if_pos ht, if_pos ht]
      have hskip : ∀ fs, m.body = .fields fs → ∀ f ∈ fs, K cls f = true → Skipped (deser env eas n) f := by
        intro fs hb f hf hk
        obtain ⟨h1, h2⟩ := hK' cls m fs hm hb f hf hk
        refine ⟨h1, fun l st => ?_⟩
        cases n with
        | zero => exact .inr rfl
        | succ k => exact .inl (h2 k l st)
      rcases deserModel_refines (env1 := env) (env2 := env.without K) rfl (fun s l => deser_refines env eas K hK' n s l)
        (K cls) cls m hskip [] (fromNative env.backend root) [] [] with h1 | ⟨h1, h2⟩
      · exact absurd h1 hd
      · exact ⟨h1.noLines_eq, h2⟩
    · rw [if_neg ht, if_neg ht]
      exact ⟨rfl, rfl⟩

namespace Ex

/-- `Person` with a computed element field `name` in front, which would take the name away if it were read. -/
def computedPerson : ModelSer :=
  { person .strict with
    body := .fields ({ name := "shout", ser := .elem "name" none .strict true false } ::
      (match (person .strict).body with
      | .fields fs => fs
      | .root _ => [])) }

def computedEnv : Env :=
  { env with model := fun cls => if cls = "Person" then some computedPerson else model .strict cls }

/-- Non-vacuity of C20: reading is successful, and the same without the computed field. -/
example : (fromXmlTree computedEnv false 9 "Person" personDoc).1 = .ok ann := by kernel_rfl

example : (fromXmlTree computedEnv false 9 "Person" personDoc).1.noLines =
    (fromXmlTree (computedEnv.without fun _ f => f.ser.computed) false 9 "Person" personDoc).1.noLines :=
  (C20_removal computedEnv false (fun _ f => f.ser.computed) (by
    intro cls m fs hm hb f hf hk
    refine ⟨hk, ?_, ?_⟩
    · simp only [computedEnv] at hm
      split at hm
      · injection hm with hm
        subst hm
        simp only [computedPerson, person] at hb
        injection hb with hb
        subst hb
        simp only [List.mem_cons, List.not_mem_nil, or_false] at hf
        rcases hf with rfl | rfl | rfl | rfl | rfl | rfl | rfl | rfl <;> rfl
      · exact noValidators (mode := .strict) (b := .lxml) cls m fs hm hb f hf
    · simp only [computedEnv] at hm
      split at hm
      · injection hm with hm
        subst hm
        simp only [computedPerson, person] at hb
        injection hb with hb
        subst hb
        simp only [List.mem_cons, List.not_mem_nil, or_false] at hf
        rcases hf with rfl | rfl | rfl | rfl | rfl | rfl | rfl | rfl <;> first | trivial | cases hk
      · revert hk
        revert f
        revert fs
        refine model_cases (mode := .strict) (b := .lxml)
          (P := fun _ m => ∀ fs, m.body = .fields fs → ∀ f ∈ fs, f.ser.computed = true → f.ser.Resolved computedEnv)
          ?_ ?_ ?_ ?_ ?_ ?_ cls m hm <;>
          (intro fs hb; injection hb with hb; subst hb; simp [Ser.computed])) 9 "Person" personDoc (by
    intro h
    rw [show (fromXmlTree computedEnv false 9 "Person" personDoc).1 = .ok ann by kernel_rfl] at h
    cases h)).1

end Ex

/-! ## C43 -/

theorem popAttrib_absent {e : Elem} {k : String} (h : e.getAttrib k = none) : e.popAttrib k = (none, e) := by
  have h1 := popAttrib_fst e k
  rw [h] at h1
  unfold popAttrib at h1 ⊢
  split
  · rename_i ht
    rw [if_pos ht] at h1
    simp only at h1
    cases ha : e.attrib with
    | none => rw [ha] at ht; simp [truthyMap] at ht
    | some d =>
      rw [ha] at h1
      simp only [Option.getD_some] at h1 ⊢
      rw [Dict.erase_of_not_mem (by rwa [← Dict.get?_eq_none_iff]), h1]
      have : { e with attrib := some d } = e := by rw [← ha]; exact (eta e).symm
      rw [this]
  · rfl

theorem popText_absent {e : Elem} (h : e.text = none) : e.popText = (none, e) := by
  unfold popText
  rw [h]
  have : { e with text := none } = e := by rw [← h]; exact (eta e).symm
  rw [this]

theorem lookBehind_absent {e : Elem} {t : String} (hn : e.next ≤ e.elements.length)
    (h : ∀ w, e.seen.getLast? = some w → w.tag ≠ t) : e.lookBehind t = .ok false := by
  unfold lookBehind
  split
  · rfl
  · rename_i h0
    have hlt : e.next - 1 < e.elements.length := by omega
    rw [List.getElem?_eq_getElem hlt]
    simp only
    have := h e.elements[e.next - 1] (by
      simp only [seen, List.getLast?_eq_getElem?, List.length_take]
      rw [List.getElem?_take_of_lt (by omega)]
      rw [show min e.next e.elements.length - 1 = e.next - 1 by omega]
      exact List.getElem?_eq_getElem hlt)
    simp [this]

/-- C43: a field whose element, attribute or text is missing is read as absent (`None`), and the element stays exactly as it
is, for every kind of field. -/
theorem C43_absent (env : Env) (eas : Bool) (s : Ser) (hr : s.Everywhere (Ser.Resolved env)) (e : Elem) (h : s.Absent eas e) :
    ∃ N, ∀ n ≥ N, ∀ loc sm, deser env eas n s loc ⟨e, sm⟩ = (.ok .none, ⟨e, sm⟩) := by
  induction h with
  | @text c nl heas ht hnl =>
    refine ⟨1, fun n hn loc sm => ?_⟩
    obtain ⟨k, rfl⟩ : ∃ k, n = k + 1 := ⟨n - 1, by omega⟩
    change deserText eas c nl ⟨e, sm⟩ = _
    unfold deserText
    split
    · rfl
    · subst heas
      cases nl with
      | false => simp only [Bool.false_eq_true, if_false, popText_absent ht, textVal]
      | true => simp only [if_true, isNil, popAttrib_absent (hnl rfl), reduceCtorEq, decide_false, popText_absent ht, textVal,
          Bool.false_eq_true, if_false]
  | @attr nm c ha =>
    refine ⟨1, fun n hn loc sm => ?_⟩
    obtain ⟨k, rfl⟩ : ∃ k, n = k + 1 := ⟨n - 1, by omega⟩
    change deserStep env eas (deser env eas k) k (.attr nm c) loc ⟨e, sm⟩ = _
    simp only [deserStep, popAttrib_absent ha, ite_self]
  | @elem nm ns m c nl hc =>
    refine ⟨1, fun n hn loc sm => ?_⟩
    obtain ⟨k, rfl⟩ : ∃ k, n = k + 1 := ⟨n - 1, by omega⟩
    change deserStep env eas (deser env eas k) k (.elem nm ns m c nl) loc ⟨e, sm⟩ = _
    simp only [deserStep, popElement, candidate_none hc, ite_self]
  | @attrs a ha =>
    refine ⟨1, fun n hn loc sm => ?_⟩
    obtain ⟨k, rfl⟩ : ∃ k, n = k + 1 := ⟨n - 1, by omega⟩
    change deserAttrs a ⟨e, sm⟩ = _
    have : { e with attrib := none } = e := by rw [← ha]; exact (eta e).symm
    unfold deserAttrs
    simp only [popAttributes, ha]
    rw [this, ite_self]
  | @mapElem a nm m hc =>
    refine ⟨1, fun n hn loc sm => ?_⟩
    obtain ⟨k, rfl⟩ : ∃ k, n = k + 1 := ⟨n - 1, by omega⟩
    change deserStep env eas (deser env eas k) k (.mapElem a nm m) loc ⟨e, sm⟩ = _
    simp only [deserStep, popElement, candidate_none hc, ite_self]
  | @raw nm m c hc =>
    refine ⟨1, fun n hn loc sm => ?_⟩
    obtain ⟨k, rfl⟩ : ∃ k, n = k + 1 := ⟨n - 1, by omega⟩
    change deserStep env eas (deser env eas k) k (.raw nm m c) loc ⟨e, sm⟩ = _
    simp only [deserStep, popElementRemove, popElement, candidate_none hc, ite_self]
  | @proxy p hc =>
    refine ⟨1, fun n hn loc sm => ?_⟩
    obtain ⟨k, rfl⟩ : ∃ k, n = k + 1 := ⟨n - 1, by omega⟩
    change deserStep env eas (deser env eas k) k (.proxy p) loc ⟨e, sm⟩ = _
    have := (Ser.everywhere_iff.1 hr).1
    simp only [Ser.Resolved, Option.isSome_iff_exists] at this
    obtain ⟨m, hm⟩ := this
    simp only [deserStep, hm, popElement, candidate_none hc, ite_self]
  | @primUnion c inner _ ih =>
    obtain ⟨N, hN⟩ := ih ((Ser.everywhere_iff.1 hr).2 inner (by simp [Ser.subs]))
    refine ⟨N + 1, fun n hn loc sm => ?_⟩
    obtain ⟨k, rfl⟩ : ∃ k, n = k + 1 := ⟨n - 1, by omega⟩
    change deserStep env eas (deser env eas k) k (.primUnion c inner) loc ⟨e, sm⟩ = _
    simp only [deserStep, hN k (by omega), ite_self]
  | @modelUnion t c alts hc =>
    refine ⟨2, fun n hn loc sm => ?_⟩
    obtain ⟨k, rfl⟩ : ∃ k, n = k + 2 := ⟨n - 2, by omega⟩
    change deserStep env eas (deser env eas (k + 1)) (k + 1) (.modelUnion t c alts) loc ⟨e, sm⟩ = _
    have key : ∀ ps : List Proxy, (∀ p ∈ ps, p ∈ alts) →
        unionLoop (fun p st => deser env eas (k + 1) (.proxy p) loc st) t ps [] ⟨e, sm⟩ = (.ok .none, ⟨e, sm⟩) := by
      intro ps
      induction ps with
      | nil => intro _; rfl
      | cons p ps ih =>
        intro hsub
        have hp := hsub p (by simp)
        have hres := (Ser.everywhere_iff.1 ((Ser.everywhere_iff.1 hr).2 (.proxy p) (by
          simp only [Ser.subs, List.mem_map]; exact ⟨p, hp, rfl⟩))).1
        simp only [Ser.Resolved, Option.isSome_iff_exists] at hres
        obtain ⟨m, hm⟩ := hres
        have h1 : deser env eas (k + 1) (.proxy p) loc ⟨e, sm⟩ = (.ok .none, ⟨e, sm⟩) := by
          change deserStep env eas (deser env eas k) k (.proxy p) loc ⟨e, sm⟩ = _
          simp only [deserStep, hm, popElement, candidate_none (hc p hp), ite_self]
        unfold unionLoop
        simp only [createSnapshot, h1, Val.isNone, if_true]
        exact ih fun q hq => hsub q (by simp [hq])
    simp only [deserStep, key alts (fun _ h => h), ite_self]
  | @tagged c d a m alts hc =>
    refine ⟨1, fun n hn loc sm => ?_⟩
    obtain ⟨k, rfl⟩ : ∃ k, n = k + 1 := ⟨n - 1, by omega⟩
    change deserStep env eas (deser env eas k) k (.tagged c d a m alts) loc ⟨e, sm⟩ = _
    have key : ∀ (rec : Proxy → St → Out Val × St) (ps : List (String × Proxy)), (∀ p ∈ ps, p ∈ alts) →
        taggedLoop rec loc a m ps ⟨e, sm⟩ = (.ok .none, ⟨e, sm⟩) := by
      intro rec ps
      induction ps with
      | nil => intro _; rfl
      | cons p ps ih =>
        intro hsub
        obtain ⟨t, p⟩ := p
        unfold taggedLoop
        simp only [candidate_none (hc (t, p) (hsub _ (by simp)))]
        exact ih fun q hq => hsub q (by simp [hq])
    simp only [deserStep, key _ alts (fun _ h => h), ite_self]
  | @wrap t ts ns m c inner hn hw hc =>
    refine ⟨1, fun n hn' loc sm => ?_⟩
    obtain ⟨k, rfl⟩ : ∃ k, n = k + 1 := ⟨n - 1, by omega⟩
    change deserStep env eas (deser env eas k) k (.wrap (t :: ts) ns m c inner) loc ⟨e, sm⟩ = _
    have hf : e.findElement t m = .ok (none, e) := by
      unfold findElement
      rw [lookBehind_absent hn hw, candidate_none hc]
      rfl
    simp only [deserStep, descend, hf, ite_self]
  | @homog t c inner _ ih =>
    obtain ⟨N, hN⟩ := ih ((Ser.everywhere_iff.1 hr).2 inner (by simp [Ser.subs]))
    refine ⟨N + 2, fun n hn loc sm => ?_⟩
    obtain ⟨k, rfl⟩ : ∃ k, n = k + 2 := ⟨n - 2, by omega⟩
    change deserStep env eas (deser env eas (k + 1)) (k + 1) (.homog t c inner) loc ⟨e, sm⟩ = _
    have : homogLoop (fun loc st => deser env eas (k + 1) inner loc st) loc (k + 1) 0 [] [] ⟨e, sm⟩ = (.ok ([], []), ⟨e, sm⟩) := by
      unfold homogLoop
      simp [hN (k + 1) (by omega), Val.isNone]
    simp only [deserStep, this, homogFinish, List.isEmpty_nil, if_true, ite_self]
  | @hetero t c inners _ ih =>
    have hex : ∃ N, ∀ n ≥ N, ∀ s ∈ inners, ∀ loc sm, deser env eas n s loc ⟨e, sm⟩ = (.ok .none, ⟨e, sm⟩) := by
      have hsub := (Ser.everywhere_iff.1 hr).2
      simp only [Ser.subs] at hsub
      clear hr
      revert ih hsub
      rename_i habs
      clear habs
      induction inners with
      | nil => intro _ _; exact ⟨0, by simp⟩
      | cons s ss ihs =>
        intro ih hsub
        obtain ⟨N1, h1⟩ := ih s (by simp) (hsub s (by simp))
        obtain ⟨N2, h2⟩ := ihs (fun x hx => ih x (by simp [hx])) (fun x hx => hsub x (by simp [hx]))
        refine ⟨max N1 N2, fun n hn => ?_⟩
        intro x hx
        rcases List.mem_cons.1 hx with rfl | hx
        · exact h1 n (by omega)
        · exact h2 n (by omega) x hx
    obtain ⟨N, hN⟩ := hex
    refine ⟨N + 1, fun n hn loc sm => ?_⟩
    obtain ⟨k, rfl⟩ : ∃ k, n = k + 1 := ⟨n - 1, by omega⟩
    change deserStep env eas (deser env eas k) k (.hetero t c inners) loc ⟨e, sm⟩ = _
    have key : ∀ (ss : List Ser) (idx : Nat) (acc : List Val), (∀ s ∈ ss, s ∈ inners) → acc.all Val.isNone = true →
        ∃ r, heteroLoop (deser env eas k) loc ss idx acc [] ⟨e, sm⟩ = (.ok (r, []), ⟨e, sm⟩) ∧ r.all Val.isNone = true := by
      intro ss
      induction ss with
      | nil => intro idx acc _ ha; exact ⟨acc, rfl, ha⟩
      | cons s ss ihs =>
        intro idx acc hsub ha
        unfold heteroLoop
        rw [hN k (by omega) s (hsub s (by simp))]
        exact ihs _ _ (fun x hx => hsub x (by simp [hx])) (by simp [ha, Val.isNone])
    obtain ⟨r, h1, h2⟩ := key inners 0 [] (fun _ h => h) rfl
    simp only [deserStep, h1, heteroFinish, List.isEmpty_nil, if_true, h2, ite_self]

theorem deserFields_append (F : Ser → Loc → St → Out Val × St) (fs1 fs2 : List Field) (res : Dict String Val)
    (errs : Dict ErrKey VErr) (st : St) : deserFields F (fs1 ++ fs2) res errs st =
      match deserFields F fs1 res errs st with
      | (.ok (r, e), st') => deserFields F fs2 r e st'
      | (.verr e, st') => (.verr e, st')
      | (.crash e, st') => (.crash e, st')
      | (.diverge, st') => (.diverge, st') := by
  induction fs1 generalizing res errs st with
  | nil => rfl
  | cons f fs ih =>
    rw [List.cons_append, deserFields_cons, deserFields_cons]
    cases readField F f st with
    | mk o st' => cases o <;> simp only [ih]

theorem deserFields_runState (F : Ser → Loc → St → Out Val × St) (fs : List Field) (res : Dict String Val)
    (errs : Dict ErrKey VErr) (st st' : St) (r : Dict String Val × Dict ErrKey VErr)
    (h : deserFields F fs res errs st = (.ok r, st')) : (runFields F fs st).2 = st' := by
  induction fs generalizing res errs st with
  | nil => simp only [deserFields, Prod.mk.injEq] at h; exact h.2
  | cons f fs ih =>
    rw [deserFields_cons] at h
    simp only [runFields]
    cases hr : readField F f st with
    | mk o st1 =>
      rw [hr] at h
      cases o with
      | ok v => exact ih _ _ _ h
      | verr e => exact ih _ _ _ h
      | crash e => cases h
      | diverge => cases h

/-- C43: a field that is absent when its turn comes does not disturb the other fields: reading the model gives the same
outcome, and leaves the same data unread, as reading it without the field. -/
theorem C43_others_undisturbed (env : Env) (hv : env.ValidatorsRead) (eas : Bool) (cls : String) (m : ModelSer)
    (hm : env.model cls = some m) (fs1 : List Field) (f : Field) (fs2 : List Field) (hb : m.body = .fields (fs1 ++ f :: fs2))
    (hf : f.validator = none) (hr : f.ser.Everywhere (Ser.Resolved env)) (e e' : Elem) (habs : f.ser.Absent eas e') :
    ∃ N, ∀ n ≥ N, ∀ loc sm, (runFields (deser env eas n) fs1 ⟨e, sm⟩).2.el = e' →
      (deserModel env (deser env eas n) cls m loc ⟨e, sm⟩).1.noLines =
        (deserModel env (deser env eas n) cls { m with body := .fields (fs1 ++ fs2) } loc ⟨e, sm⟩).1.noLines ∧
      (deserModel env (deser env eas n) cls m loc ⟨e, sm⟩).2.el =
        (deserModel env (deser env eas n) cls { m with body := .fields (fs1 ++ fs2) } loc ⟨e, sm⟩).2.el := by
  obtain ⟨N, hN⟩ := C43_absent env eas f.ser hr e' habs
  refine ⟨N, fun n hn loc sm he => ?_⟩
  have hall := allowed_all
  unfold deserModel
  simp only [hb]
  rw [deserFields_append, deserFields_append]
  cases h1 : deserFields (deser env eas n) fs1 [] [] ⟨e, sm⟩ with
  | mk o st1 =>
    cases o with
    | verr x => exact ⟨rfl, rfl⟩
    | crash x => exact ⟨rfl, rfl⟩
    | diverge => exact ⟨rfl, rfl⟩
    | ok r =>
      obtain ⟨res, errs⟩ := r
      rw [deserFields_runState _ _ _ _ _ _ _ h1] at he
      obtain ⟨el1, sm1⟩ := st1
      simp only at he
      subst he
      simp only
      rw [deserFields_cons]
      have hread : readField (deser env eas n) f ⟨el1, sm1⟩ = (.ok .none, ⟨el1, sm1.set [.name f.name] el1.line⟩) := by
        simp only [readField, hf]
        exact hN n hn _ _
      rw [hread]
      simp only [Val.isNone, if_true]
      obtain ⟨h3, h4⟩ := deserFields_agree (eqSim env eas hv) (X := fun _ _ => True) (fs1 ++ f :: fs2) fs2 (fun x hx => by simp [hx])
        (fun fd _ l s1 s2 _ => deser_agree (eqSim env eas hv) (env_allowed_all env) n fd.ser (allowed_all _) l s1 s2 fun _ => trivial)
            (fun s l st => (deser_rel sameChildren_rel env (hv.respect sameChildren_rel) eas n s l st).1)
        (fun fd hfd v hv' e1 e2 he => (eqSim env eas hv).validators cls m _ hm hb fd (by simp [hfd]) v hv' e1 e2 he)
        (fun fd hfd v hv' => (eqSim env eas hv).keeps cls m _ hm hb fd (by simp [hfd]) v hv') res
        (by
          intro kv hkv
          refine ⟨trivial, ?_⟩
          have := (deserFields_agree (eqSim env eas hv) (X := fun _ _ => True) (fs1 ++ f :: fs2) fs1 (fun x hx => by simp [hx])
            (fun fd _ l s1 s2 _ => deser_agree (eqSim env eas hv) (env_allowed_all env) n fd.ser (allowed_all _) l s1 s2 fun _ => trivial)
            (fun s l st => (deser_rel sameChildren_rel env (hv.respect sameChildren_rel) eas n s l st).1)
            (fun fd hfd v hv' e1 e2 he => (eqSim env eas hv).validators cls m _ hm hb fd (by simp [hfd]) v hv' e1 e2 he)
            (fun fd hfd v hv' => (eqSim env eas hv).keeps cls m _ hm hb fd (by simp [hfd]) v hv') []
            (by simp) (errs1 := []) (errs2 := []) rfl (s1 := ⟨e, sm⟩) (s2 := ⟨e, sm⟩) (fun _ _ => trivial) ⟨rfl, smRel_any _ _⟩).1
          rw [h1] at this
          exact (this.2.1 kv hkv).2)
        (errs1 := errs) (errs2 := errs) rfl (s1 := ⟨el1, sm1.set [.name f.name] el1.line⟩) (s2 := ⟨el1, sm1⟩)
        (fun _ _ => trivial) ⟨rfl, smRel_any _ _⟩
      cases hq1 : deserFields (deser env eas n) fs2 res errs ⟨el1, sm1.set [.name f.name] el1.line⟩ with
      | mk o1 t1 =>
        cases hq2 : deserFields (deser env eas n) fs2 res errs ⟨el1, sm1⟩ with
        | mk o2 t2 =>
          rw [hq1, hq2] at h3 h4
          obtain ⟨te1, ts1⟩ := t1
          obtain ⟨te2, ts2⟩ := t2
          have h5 : te1 = te2 := h4.1
          subst h5
          cases o1 <;> cases o2 <;> simp only [FieldsRel] at h3
          · obtain ⟨h6, _, h7⟩ := h3
            rename_i r1 r2 _
            obtain ⟨d1, e1⟩ := r1
            obtain ⟨d2, e2⟩ := r2
            simp only at h6 h7
            subst h6
            simp only
            rw [isEmpty_lines h7]
            split
            · exact ⟨(validateModel_refines env env rfl cls (m := m) rfl rfl _ _ _ _).noLines_eq, rfl⟩
            · refine ⟨?_, rfl⟩
              simp only [Out.noLines, Out.lines, intoValidationError_lines, ModelSer.title]
              rw [h7]
          · exact ⟨by simp only [Out.noLines, Out.lines, h3], rfl⟩
          · exact ⟨by simp only [h3], rfl⟩
          · exact ⟨rfl, rfl⟩

/-- Non-vacuity of C43: in the document `<person id="7"><name>Ann</name></person>` the nickname, the mails, the phone (a
wrapped field), the address and the dictionary are absent when their turn comes. -/
example : ∀ s ∈ [Ser.elem "nick" none .strict false true, .homog "Person" false (.elem "mail" none .strict false false),
      .wrap ["contact", "phones"] none .strict false (.elem "phone" none .strict false false),
      .proxy { cls := "Address", name := "home" }, .mapElem {} "extra" .strict],
    s.Absent false { fromNative .lxml (Ex.el "person" none [Ex.el "name" (some "Ann")] [("id", "7")]) with next := 1 } := by
  intro s hs
  simp only [List.mem_cons, List.not_mem_nil, or_false] at hs
  rcases hs with rfl | rfl | rfl | rfl | rfl
  · exact .elem rfl
  · exact .homog (.elem rfl)
  · refine .wrap (by decide) ?_ rfl
    intro w hw
    simp only [seen, fromNative, fromNativeList, Ex.el, Node.isComment, Bool.false_eq_true, if_false, List.take_succ_cons,
      List.take_zero, List.getLast?_singleton, Option.some.injEq] at hw
    subst hw
    decide
  · exact .proxy rfl
  · exact .mapElem rfl

/-! ## C39 -/

/-- What an element with the given text means: empty text is absent, or the empty string with `empty_as_string`. -/
def meaning (eas : Bool) (t : Option String) : Val :=
  if t = none ∨ t = some "" then (if eas then .str "" else .none) else .str (t.getD "")

theorem textVal_meaning (eas : Bool) (t : Option String) : textVal eas t = meaning eas t := by
  cases t with
  | none => simp [textVal, meaning]
  | some s => by_cases h : s = "" <;> simp [textVal, meaning, h]

theorem popAttrib_text (e : Elem) (k : String) : (e.popAttrib k).2.text = e.text := by
  unfold popAttrib
  split <;> rfl

theorem isNil_fst (e : Elem) : e.isNil.1 = decide (e.getAttrib nilAttr = some "true") := by
  unfold isNil
  rw [← popAttrib_fst]

theorem deserText_value (eas nl : Bool) (st : St) (hnil : nl = true → st.el.getAttrib nilAttr ≠ some "true") :
    (deserText eas false nl st).1 = .ok (meaning eas st.el.text) := by
  unfold deserText
  cases nl with
  | false => simp [popText, textVal_meaning]
  | true =>
    simp only [Bool.false_eq_true, if_false, if_true]
    have h1 := isNil_fst st.el
    have h2 := popAttrib_text st.el nilAttr
    cases hn : st.el.isNil with
    | mk b e =>
      have h3 : e.text = st.el.text := by
        rw [← h2]
        unfold isNil at hn
        cases hp : st.el.popAttrib nilAttr with
        | mk v e' => rw [hp] at hn; simp only [Prod.mk.injEq] at hn; rw [hn.2]
      rw [hn] at h1
      simp only [hnil rfl, decide_false] at h1
      subst h1
      simp [popText, textVal_meaning, h3]

/-- C39: an element field reads the text of its element: empty text is `None`, and the empty string with `empty_as_string`;
any other text is taken as it is. -/
theorem C39_element (env : Env) (eas : Bool) (n : Nat) (loc : Loc) (name : String) (nsmap : Option NsMap) (mode : Mode)
    (nillable : Bool) (st : St) (c : Elem) (hc : st.el.candidate name mode = some c)
    (hnil : nillable = true → c.getAttrib nilAttr ≠ some "true") :
    (deser env eas (n + 1) (.elem name nsmap mode false nillable) loc st).1 = .ok (meaning eas c.text) := by
  obtain ⟨i, e', h1, h2⟩ := candidate_some hc true
  rw [deser_item (s := .elem name nsmap mode false nillable) (name := name) (mode := mode) rfl trivial, h1]
  simp only [onChild, h2, Ser.onItem]
  exact deserText_value eas nillable ⟨c, st.sm.set loc c.line⟩ hnil

/-- C39: a text field reads the text of the element itself in the same way. -/
theorem C39_text (env : Env) (eas : Bool) (n : Nat) (loc : Loc) (nillable : Bool) (st : St)
    (hnil : nillable = true → st.el.getAttrib nilAttr ≠ some "true") :
    (deser env eas (n + 1) (.text false nillable) loc st).1 = .ok (meaning eas st.el.text) :=
  deserText_value eas nillable st hnil

/-- C39: a missing element is absent, with or without `empty_as_string`. -/
theorem C39_missing (env : Env) (eas : Bool) (n : Nat) (loc : Loc) (name : String) (nsmap : Option NsMap) (mode : Mode)
    (nillable : Bool) (st : St) (hc : st.el.candidate name mode = none) :
    deser env eas (n + 1) (.elem name nsmap mode false nillable) loc st = (.ok .none, st) :=
  deser_item_none (s := .elem name nsmap mode false nillable) (name := name) (mode := mode) rfl trivial hc

/-- Non-vacuity of C39: `<person><name/></person>`. -/
example : (deser Ex.env true 1 (.elem "name" none .strict false false) []
      ⟨fromNative .lxml (Ex.el "person" none [Ex.el "name"]), []⟩).1 = .ok (.str "") :=
  C39_element _ _ 0 _ _ _ _ _ _ (fromNative .lxml (Ex.el "name")) rfl (by simp)

end PXml
