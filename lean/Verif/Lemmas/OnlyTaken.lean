import Verif.Lemmas.FieldOrderModel

/-! A class reads nothing but what its fields take. -/

namespace PXml

open Elem

section
variable {env : Env} {X : View} (hv : env.ValidatorsRead)
include hv

theorem deserFields_within (eas : Bool) (n : Nat) (fs : List Field) (hno : ∀ f ∈ fs, f.validator = none)
    (hu : ∀ f ∈ fs, f.ser.Unordered env) (hw : ∀ f ∈ fs, f.ser.Within env X) (res : Dict String Val) {errs1 errs2 : Dict ErrKey VErr}
    (he : ErrsRel (fun _ => -1) errs1 errs2) {s1 s2 : St} (hs : SameIn X s1.el s2.el) :
    match (deserFields (deser env eas n) fs res errs1 s1).1, (deserFields (deser env eas n) fs res errs2 s2).1 with
    | .ok r, .ok r' => r.1 = r'.1 ∧ ErrsRel (fun _ => -1) r.2 r'.2
    | .verr _, _ => False
    | .crash x, .crash y => x = y
    | .diverge, .diverge => True
    | _, _ => False := by
  induction fs generalizing res errs1 errs2 s1 s2 with
  | nil => exact ⟨rfl, he⟩
  | cons f fs ih =>
    have ih := fun r {e1 e2} he {s1 s2} hs => ih (fun t ht => hno t (List.mem_cons_of_mem _ ht)) (fun t ht => hu t (List.mem_cons_of_mem _ ht))
      (fun t ht => hw t (List.mem_cons_of_mem _ ht)) r (errs1 := e1) (errs2 := e2) he (s1 := s1) (s2 := s2) hs
    obtain ⟨h1, h2⟩ := deser_within hv eas n f.ser (hu f List.mem_cons_self) (hw f List.mem_cons_self) [.name f.name]
      ⟨s1.el, s1.sm.set [.name f.name] s1.el.line⟩ ⟨s2.el, s2.sm.set [.name f.name] s2.el.line⟩ trivial ⟨hs, smRel_any _ _⟩
    unfold deserFields
    simp only [hno f List.mem_cons_self]
    cases hd1 : deser env eas n f.ser [.name f.name] ⟨s1.el, s1.sm.set [.name f.name] s1.el.line⟩ with
    | mk o1 s1' =>
      cases hd2 : deser env eas n f.ser [.name f.name] ⟨s2.el, s2.sm.set [.name f.name] s2.el.line⟩ with
      | mk o2 s2' =>
        rw [hd1, hd2] at h1 h2
        simp only at h1 h2
        cases o1 <;> cases o2 <;> simp only [OutRel] at h1
        · obtain ⟨rfl, _⟩ := h1
          exact ih _ he h2.1
        · exact ih _ (errs_set_lines he _ h1) h2.1
        · exact h1
        · trivial

/-- A class is read alike from elements that agree on what its fields take. -/
theorem deserModel_within (eas : Bool) (n : Nat) (cls : String) (m : ModelSer) (hx : m.extraForbid = false)
    (hno : ∀ fs, m.body = .fields fs → ∀ f ∈ fs, f.validator = none)
    (hu : ∀ s ∈ m.sers, s.Unordered env) (hw : ∀ s ∈ m.sers, s.Within env X) (loc : Loc) (s1 s2 : St) (hs : SameIn X s1.el s2.el) :
    OutRel (fun _ => True) (fun _ => -1) (deserModel env (deser env eas n) cls m loc s1).1 (deserModel env (deser env eas n) cls m loc s2).1 := by
  have hval : ∀ d (t1 t2 : St), OutRel (fun _ => True) (fun _ => -1) (validateModel env cls m d t1) (validateModel env cls m d t2) := by
    intro d t1 t2
    simp only [validateModel, hx, Bool.false_eq_true, if_false]
    cases env.validate cls d with
    | ok r => exact ⟨rfl, trivial⟩
    | error e =>
      simp only [OutRel, setSourceline, VErr.lines, VErr.mk.injEq, List.map_map, true_and]
      apply List.map_congr_left
      intro l _
      rfl
  unfold deserModel
  cases hb : m.body with
  | fields fs =>
    simp only [ModelSer.sers, hb, List.forall_mem_map] at hu hw
    have h := deserFields_within hv eas n fs (hno fs hb) hu hw [] (errs1 := []) (errs2 := []) rfl hs
    simp only
    cases hd1 : deserFields (deser env eas n) fs [] [] s1 with
    | mk o1 s1' =>
      cases hd2 : deserFields (deser env eas n) fs [] [] s2 with
      | mk o2 s2' =>
        rw [hd1, hd2] at h
        simp only at h
        cases o1 <;> cases o2 <;> simp only at h
        · rename_i r r'
          obtain ⟨r1, e1⟩ := r
          obtain ⟨r2, e2⟩ := r'
          obtain ⟨h1, h2⟩ := h
          simp only at h1 h2
          subst h1
          simp only
          rw [isEmpty_lines h2]
          split
          · exact hval _ _ _
          · simp only [OutRel, intoValidationError_lines]
            rw [h2]
        · exact h
        · trivial
  | root s =>
    simp only [ModelSer.sers, hb, List.mem_singleton, forall_eq] at hu hw
    obtain ⟨h1, h2⟩ := deser_within hv eas n s hu hw loc s1 s2 trivial ⟨hs, smRel_any _ _⟩
    simp only
    cases hd1 : deser env eas n s loc s1 with
    | mk o1 s1' =>
      cases hd2 : deser env eas n s loc s2 with
      | mk o2 s2' =>
        rw [hd1, hd2] at h1
        simp only at h1
        cases o1 <;> cases o2 <;> simp only [OutRel] at h1
        · obtain ⟨rfl, _⟩ := h1
          exact hval _ _ _
        · simp only [OutRel, intoValidationError_lines, List.map_cons, List.map_nil, h1]
        · exact h1
        · trivial

end
end PXml
