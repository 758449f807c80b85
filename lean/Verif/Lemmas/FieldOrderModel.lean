import Verif.Lemmas.FieldOrder

/-! The fields of a class, read in unordered mode, in any order. -/

namespace PXml

open Elem

/-- The outcome of a field that is read from the untouched element. -/
def Field.alone (env : Env) (eas : Bool) (n : Nat) (e0 : Elem) (f : Field) : Out Val :=
  (deser env eas n f.ser [.name f.name] ⟨e0, []⟩).1

/-- What the field contributes to the data. -/
def dataOf (out : Field → Out Val) (f : Field) : List (String × Val) :=
  match out f with
  | .ok v => if v.isNone then [] else [(f.key, v)]
  | _ => []

/-- What the field contributes to the errors, up to line numbers. -/
def errsOf (out : Field → Out Val) (f : Field) : List (ErrKey × VErr) :=
  match out f with
  | .verr e => [(some (.name f.name), e.lines fun _ => -1)]
  | _ => []

/-- A value or a validation error. -/
def Out.Settled : Out Val → Prop
  | .ok _ => True
  | .verr _ => True
  | _ => False

theorem dataOf_keys {out : Field → Out Val} {f : Field} {kv : String × Val} (h : kv ∈ dataOf out f) : kv.1 = f.key := by
  unfold dataOf at h
  split at h
  · split at h
    · cases h
    · simp only [List.mem_singleton] at h; rw [h]
  · cases h

theorem errsOf_keys {out : Field → Out Val} {f : Field} {kv : ErrKey × VErr} (h : kv ∈ errsOf out f) : kv.1 = some (.name f.name) := by
  unfold errsOf at h
  split at h
  · simp only [List.mem_singleton] at h; rw [h]
  · cases h

theorem Ser.Unrelated.symm {env : Env} {s s' : Ser} (h : s.Unrelated env s') : s'.Unrelated env s :=
  ⟨fun x => h.1 ⟨x.2, x.1⟩, fun k x => h.2.1 k ⟨x.2, x.1⟩, fun t x => h.2.2 t ⟨x.2, x.1⟩⟩

theorem Independent.perm {env : Env} {fs fs' : List Field} (h : Independent env fs) (hp : fs.Perm fs') : Independent env fs' where
  validator f hf := h.validator f (hp.mem_iff.2 hf)
  unordered f hf := h.unordered f (hp.mem_iff.2 hf)
  apart := hp.pairwise h.apart fun hxy => hxy.symm
  names := ((hp.map _).nodup_iff).1 h.names
  keys := ((hp.map _).nodup_iff).1 h.keys

theorem Independent.tail {env : Env} {f : Field} {fs : List Field} (h : Independent env (f :: fs)) : Independent env fs where
  validator g hg := h.validator g (List.mem_cons_of_mem _ hg)
  unordered g hg := h.unordered g (List.mem_cons_of_mem _ hg)
  apart := (List.pairwise_cons.1 h.apart).2
  names := (List.nodup_cons.1 h.names).2
  keys := (List.nodup_cons.1 h.keys).2

section
variable {env : Env} (hv : env.ValidatorsRead)
include hv

/-- Each field is read as if it were the only one. -/
theorem deserFields_alone (eas : Bool) (n : Nat) (e0 : Elem) (fs : List Field) (hI : Independent env fs)
    (res : Dict String Val) (errs : Dict ErrKey VErr) (st : St)
    (hst : ∀ f ∈ fs, Kept (f.ser.view env) e0 st.el)
    (hres : ∀ f ∈ fs, f.key ∉ res.keys) (herr : ∀ f ∈ fs, (some (.name f.name) : ErrKey) ∉ errs.keys) :
    match (deserFields (deser env eas n) fs res errs st).1 with
    | .ok (r, es) => (∀ f ∈ fs, (f.alone env eas n e0).Settled) ∧ r = res ++ fs.flatMap (dataOf (Field.alone env eas n e0)) ∧
        es.map (fun kv => (kv.1, kv.2.lines fun _ => -1)) =
          errs.map (fun kv => (kv.1, kv.2.lines fun _ => -1)) ++ fs.flatMap (errsOf (Field.alone env eas n e0))
    | .verr _ => False
    | _ => ∃ f ∈ fs, ¬ (f.alone env eas n e0).Settled := by
  induction fs generalizing res errs st with
  | nil => simp [deserFields]
  | cons f fs ih =>
    have ih := ih hI.tail
    have hk := hst f List.mem_cons_self
    have huf := hI.unordered f List.mem_cons_self
    have hw : f.ser.Within env (f.ser.view env) := ⟨id, fun _ => id, fun _ => id⟩
    obtain ⟨hout, _⟩ := deser_within hv eas n f.ser huf hw [.name f.name] ⟨e0, []⟩
      ⟨st.el, st.sm.set [.name f.name] st.el.line⟩ trivial ⟨hk.same, smRel_any _ _⟩
    have hframe : ∀ g ∈ fs, Kept (g.ser.view env) e0
        (deser env eas n f.ser [.name f.name] ⟨st.el, st.sm.set [.name f.name] st.el.line⟩).2.el := by
      intro g hg
      have hap := (List.pairwise_cons.1 hI.apart).1 g hg
      exact deser_kept hv eas n f.ser huf ⟨fun x y => hap.1 ⟨x, y⟩, fun k x y => hap.2.1 k ⟨x, y⟩, fun t x y => hap.2.2 t ⟨x, y⟩⟩ _ _
        (hst g (List.mem_cons_of_mem _ hg))
    have hname : ∀ g ∈ fs, g.name ≠ f.name := fun g hg he =>
      (List.nodup_cons.1 hI.names).1 (he ▸ List.mem_map_of_mem hg)
    have hkey : ∀ g ∈ fs, g.key ≠ f.key := fun g hg he =>
      (List.nodup_cons.1 hI.keys).1 (he ▸ List.mem_map_of_mem hg)
    unfold deserFields
    simp only [hI.validator f List.mem_cons_self]
    have ha : (deser env eas n f.ser [.name f.name] ⟨e0, []⟩).1 = f.alone env eas n e0 := rfl
    rw [ha] at hout
    cases hd : deser env eas n f.ser [.name f.name] ⟨st.el, st.sm.set [.name f.name] st.el.line⟩ with
    | mk o st' =>
      rw [hd] at hout hframe
      simp only at hout hframe
      cases hal : f.alone env eas n e0 with
      | ok v =>
        rw [hal] at hout
        cases o <;> simp only [OutRel] at hout
        obtain ⟨rfl, _⟩ := hout
        simp only
        have hset : Dict.set res (f.alias.getD f.name) v = res ++ [(f.key, v)] := Dict.set_of_not_mem (hres f List.mem_cons_self) v
        have hres' : ∀ g ∈ fs, g.key ∉ (if v.isNone then res else Dict.set res (f.alias.getD f.name) v).keys := by
          intro g hg
          have h1 := hres g (List.mem_cons_of_mem _ hg)
          split
          · exact h1
          · rw [hset]
            simp only [Dict.keys, List.map_append, List.mem_append, not_or]
            exact ⟨h1, by simpa using hkey g hg⟩
        have := ih (if v.isNone then res else Dict.set res (f.alias.getD f.name) v) errs st' hframe hres'
          (fun g hg => herr g (List.mem_cons_of_mem _ hg))
        cases hr : (deserFields (deser env eas n) fs (if v.isNone then res else Dict.set res (f.alias.getD f.name) v) errs st').1 with
        | ok r =>
          obtain ⟨r, es⟩ := r
          rw [hr] at this
          simp only at this ⊢
          obtain ⟨h1, h2, h3⟩ := this
          refine ⟨?_, ?_, ?_⟩
          · intro g hg
            rcases List.mem_cons.1 hg with rfl | hg
            · rw [hal]; trivial
            · exact h1 g hg
          · rw [h2]
            simp only [List.flatMap_cons, dataOf, hal]
            split
            · rfl
            · rw [hset, List.append_assoc]
          · rw [h3]
            simp only [List.flatMap_cons, errsOf, hal, List.nil_append]
        | verr e => rw [hr] at this; exact this
        | crash e => rw [hr] at this; obtain ⟨g, hg, h⟩ := this; exact ⟨g, List.mem_cons_of_mem _ hg, h⟩
        | diverge => rw [hr] at this; obtain ⟨g, hg, h⟩ := this; exact ⟨g, List.mem_cons_of_mem _ hg, h⟩
      | verr e =>
        rw [hal] at hout
        cases o <;> simp only [OutRel] at hout
        rename_i e2
        simp only
        have herr' : ∀ g ∈ fs, (some (.name g.name) : ErrKey) ∉ (Dict.set errs (some (.name f.name)) e2).keys := by
          intro g hg
          rw [Dict.set_of_not_mem (herr f List.mem_cons_self)]
          simp only [Dict.keys, List.map_append, List.mem_append, not_or]
          exact ⟨herr g (List.mem_cons_of_mem _ hg), by simpa using hname g hg⟩
        have := ih res (Dict.set errs (some (.name f.name)) e2) st' hframe (fun g hg => hres g (List.mem_cons_of_mem _ hg)) herr'
        cases hr : (deserFields (deser env eas n) fs res (Dict.set errs (some (.name f.name)) e2) st').1 with
        | ok r =>
          obtain ⟨r, es⟩ := r
          rw [hr] at this
          simp only at this ⊢
          obtain ⟨h1, h2, h3⟩ := this
          refine ⟨?_, ?_, ?_⟩
          · intro g hg
            rcases List.mem_cons.1 hg with rfl | hg
            · rw [hal]; trivial
            · exact h1 g hg
          · rw [h2]
            simp only [List.flatMap_cons, dataOf, hal, List.nil_append]
          · rw [h3, Dict.set_of_not_mem (herr f List.mem_cons_self)]
            simp only [List.flatMap_cons, errsOf, hal, List.map_append, List.map_cons, List.map_nil, List.append_assoc, ← hout]
        | verr e => rw [hr] at this; exact this
        | crash e => rw [hr] at this; obtain ⟨g, hg, h⟩ := this; exact ⟨g, List.mem_cons_of_mem _ hg, h⟩
        | diverge => rw [hr] at this; obtain ⟨g, hg, h⟩ := this; exact ⟨g, List.mem_cons_of_mem _ hg, h⟩
      | crash e =>
        rw [hal] at hout
        cases o <;> simp only [OutRel] at hout
        exact ⟨f, List.mem_cons_self, by rw [hal]; exact id⟩
      | diverge =>
        rw [hal] at hout
        cases o <;> simp only [OutRel] at hout
        exact ⟨f, List.mem_cons_self, by rw [hal]; exact id⟩

/-- Reading a class whose fields do not get into each other's way, in terms of its fields alone. -/
theorem deserModel_alone (eas : Bool) (n : Nat) (cls : String) (m : ModelSer) (e0 : Elem) (fs : List Field) (hb : m.body = .fields fs)
    (hx : m.extraForbid = false) (hI : Independent env fs) (st : St) (hst : ∀ f ∈ fs, Kept (f.ser.view env) e0 st.el) (loc : Loc) :
    match (deserModel env (deser env eas n) cls m loc st).1 with
    | .ok v => (∀ f ∈ fs, (f.alone env eas n e0).Settled) ∧ fs.flatMap (errsOf (Field.alone env eas n e0)) = [] ∧
        ∃ x set, env.validate cls (.dict (fs.flatMap (dataOf (Field.alone env eas n e0)))) = .ok (x, set) ∧ v = .model cls x set
    | .verr e => (∀ f ∈ fs, (f.alone env eas n e0).Settled) ∧
        ((fs.flatMap (errsOf (Field.alone env eas n e0)) ≠ [] ∧
            ∃ es, es.map (fun kv => (kv.1, kv.2.lines fun _ => -1)) = fs.flatMap (errsOf (Field.alone env eas n e0)) ∧
              e = intoValidationError m.title es) ∨
          (fs.flatMap (errsOf (Field.alone env eas n e0)) = [] ∧
            ∃ e' sm, env.validate cls (.dict (fs.flatMap (dataOf (Field.alone env eas n e0)))) = .error e' ∧
              e = setSourceline m.hideInput sm e'))
    | _ => ∃ f ∈ fs, ¬ (f.alone env eas n e0).Settled := by
  have h := deserFields_alone hv eas n e0 fs hI [] [] st hst (by simp [Dict.keys]) (by simp [Dict.keys])
  unfold deserModel
  simp only [hb]
  cases hd : deserFields (deser env eas n) fs [] [] st with
  | mk o st' =>
    rw [hd] at h
    simp only at h
    cases o with
    | ok r =>
      obtain ⟨r, es⟩ := r
      simp only [List.nil_append, List.map_nil] at h
      obtain ⟨h1, h2, h3⟩ := h
      simp only
      by_cases he : es.isEmpty = true
      · have he' : es = [] := List.isEmpty_iff.1 he
        subst he'
        rw [List.map_nil] at h3
        simp only [List.isEmpty_nil, if_true, validateModel, hx, Bool.false_eq_true, if_false]
        subst h2
        cases hval : env.validate cls (.dict (fs.flatMap (dataOf (Field.alone env eas n e0)))) with
        | ok p => exact ⟨h1, h3.symm, p.1, p.2, rfl, rfl⟩
        | error e => exact ⟨h1, .inr ⟨h3.symm, e, st'.sm, rfl, rfl⟩⟩
      · simp only [he, Bool.false_eq_true, if_false]
        refine ⟨h1, .inl ⟨?_, es, h3, rfl⟩⟩
        intro h0
        rw [h0] at h3
        exact he (List.isEmpty_iff.2 (List.map_eq_nil_iff.1 h3))
    | verr e => exact h.elim
    | crash e => exact h
    | diverge => exact h

end

/-- The line errors gathered from the fields. -/
theorem sameErrors_into {t t' : Title} {es es' : Dict ErrKey VErr}
    (h : (es.map fun kv => (kv.1, kv.2.lines fun _ => -1)).Perm (es'.map fun kv => (kv.1, kv.2.lines fun _ => -1))) :
    (intoValidationError t es).SameErrors (intoValidationError t' es') := by
  have key : ∀ (t : Title) (es : Dict ErrKey VErr), ((intoValidationError t es).errs.map fun l => (l.ty, l.msg, l.loc)) =
      (es.map fun kv => (kv.1, kv.2.lines fun _ => -1)).flatMap fun kv => kv.2.errs.map fun l =>
        (l.ty, l.msg, match kv.1 with | some p => p :: l.loc | none => l.loc) := by
    intro t es
    simp only [intoValidationError]
    induction es with
    | nil => rfl
    | cons kv es ih =>
      obtain ⟨k, e⟩ := kv
      simp only [List.flatMap_cons, List.map_append, List.map_cons, ih, List.map_map, VErr.lines]
      congr 1
      apply List.map_congr_left
      intro l _
      cases k <;> rfl
  unfold VErr.SameErrors
  rw [key, key]
  exact h.flatMap_right _

theorem sameErrors_lines {e e' : VErr} (h : e.SameErrors e') (b b' : Bool) (sm sm' : SMap) :
    (setSourceline b sm e).SameErrors (setSourceline b' sm' e') := by
  have key : ∀ b sm (e : VErr), ((setSourceline b sm e).errs.map fun l => (l.ty, l.msg, l.loc)) =
      e.errs.map fun l => (l.ty, l.msg, l.loc) := by
    intro b sm e
    simp only [setSourceline, List.map_map]
    rfl
  unfold VErr.SameErrors
  rw [key, key]
  exact h

end PXml
