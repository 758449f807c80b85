import Verif.Lemmas.Frame
import Verif.Lemmas.Candidate
import Verif.Props.Search

/-!
# Lemmas: the place a field is read at
-/

namespace PXml

open Elem

theorem findElement_wrapper {e : Elem} {t : String} {mode : Mode} {r : Option Nat × Elem} (h : e.findElement t mode = .ok r) :
    (e.wrapper? t mode = none ∧ r.1 = none) ∨
    ∃ i c, e.wrapper? t mode = some c ∧ r.1 = some i ∧ r.2.elements[i]? = some c := by
  unfold findElement at h
  by_cases hn : e.next ≤ e.elements.length
  · have hb := C03_C04_C05_look_behind e t mode hn
    by_cases hl : ∃ c, e.seen.getLast? = some c ∧ c.tag = t
    · obtain ⟨c, h1, h2⟩ := hl
      obtain ⟨h3, h4⟩ := hb.1 c h1 h2
      unfold findElement at h3
      rw [h3] at h
      cases h
      exact .inr ⟨_, c, by simp [wrapper?, h1, h2], rfl, h4⟩
    · have hne : ∀ c, e.seen.getLast? = some c → c.tag ≠ t := fun c h1 h2 => hl ⟨c, h1, h2⟩
      have h3 := hb.2 hne
      unfold findElement at h3
      rw [h3] at h
      cases h
      have hw : e.wrapper? t mode = e.candidate t mode := by
        unfold wrapper?
        split
        · rename_i c hc
          rw [if_neg (hne c hc)]
        · rfl
      rw [hw]
      cases hc : e.candidate t mode with
      | none => left; simp [popElement, candidate_none hc]
      | some c =>
        obtain ⟨i, e', h1, h2⟩ := candidate_some hc true
        exact .inr ⟨i, c, rfl, by simp [popElement, h1], by simpa [popElement, h1] using h2⟩
  · have h0 : ¬ e.next = 0 := by omega
    have h1 : e.elements[e.next - 1]? = none := List.getElem?_eq_none (by omega)
    simp [lookBehind, h0, h1, bind, Except.bind] at h

theorem descend_place {mode : Mode} {f : St → Out Val × St} {path : List String} {st : St}
    (h : (descend mode f path st).1.Returns) :
    (st.el.wrapperAt mode path = none ∧ (descend mode f path st).1 = .ok .none ∧ (descend mode f path st).2.sm = st.sm) ∨
    ∃ w, st.el.wrapperAt mode path = some w ∧ (descend mode f path st).1 = (f ⟨w, st.sm⟩).1 ∧
      (descend mode f path st).2.sm = (f ⟨w, st.sm⟩).2.sm := by
  induction path generalizing st with
  | nil => exact .inr ⟨st.el, rfl, rfl, rfl⟩
  | cons t ts ih =>
    simp only [descend] at h ⊢
    cases hf : st.el.findElement t mode with
    | error x =>
      rw [hf] at h
      rcases h with ⟨v, h⟩ | ⟨e, h⟩ <;> cases h
    | ok r =>
      rw [hf] at h
      rcases findElement_wrapper hf with ⟨h1, h2⟩ | ⟨i, c, h1, h2, h3⟩
      · obtain ⟨r1, r2⟩ := r
        simp only at h2
        subst h2
        exact .inl ⟨by simp [wrapperAt, h1], rfl, rfl⟩
      · obtain ⟨r1, r2⟩ := r
        simp only at h2 h3
        subst h2
        simp only [onChild, h3] at h ⊢
        have := ih (st := ⟨c, st.sm⟩) h
        simpa only [wrapperAt, h1] using this

/-- What a field does to the source map is what the field inside the wrappers does, started in the innermost wrapper with its
line. -/
theorem place_sm {env : Env} {eas : Bool} {s : Ser} {e e' : Elem} {o : Option Ser} (hp : s.ReadAt e o e') (n : Nat) (loc : Loc)
    (sm : SMap) (hsm : sm.get? loc = some e.line) (h : (deser env eas n s loc ⟨e, sm⟩).1.Returns) :
    ∃ sm' : SMap, sm'.get? loc = some e'.line ∧ (∀ k, k ≠ loc → sm'.get? k = sm.get? k) ∧
      match o with
      | none => (deser env eas n s loc ⟨e, sm⟩).1 = .ok .none ∧ (deser env eas n s loc ⟨e, sm⟩).2.sm = sm'
      | some s' => ∃ n', n' ≤ n ∧ (deser env eas n s loc ⟨e, sm⟩).1 = (deser env eas n' s' loc ⟨e', sm'⟩).1 ∧
          (deser env eas n s loc ⟨e, sm⟩).2.sm = (deser env eas n' s' loc ⟨e', sm'⟩).2.sm := by
  induction hp generalizing n sm with
  | @wrap path nsmap mode inner e w e' o hw _ ih =>
    cases n with
    | zero => rcases h with ⟨v, h⟩ | ⟨x, h⟩ <;> cases h
    | succ n =>
      change (deserStep env eas (deser env eas n) n _ loc _).1.Returns at h
      simp only [deserStep, Bool.false_eq_true, if_false] at h
      rcases descend_place h with ⟨h1, -⟩ | ⟨w', h1, h2, h3⟩
      · simp only at h1; rw [hw] at h1; cases h1
      · simp only at h1 h2 h3
        rw [hw] at h1
        cases h1
        rw [h2] at h
        obtain ⟨sm', h4, h5, h6⟩ := ih n (sm.set loc w.line) (by simp) h
        refine ⟨sm', h4, fun k hk => (h5 k hk).trans (Dict.get?_set_ne _ _ (Ne.symm hk)), ?_⟩
        have e1 : (deser env eas (n + 1) (.wrap path nsmap mode false inner) loc ⟨e, sm⟩) =
          descend mode (fun c => deser env eas n inner loc { c with sm := c.sm.set loc c.el.line }) path ⟨e, sm⟩ := rfl
        rw [e1, h2, h3]
        cases o with
        | none => exact h6
        | some s' => obtain ⟨n', h7, h8⟩ := h6; exact ⟨n', by omega, h8⟩
  | @missing path nsmap mode inner e hw =>
    cases n with
    | zero => rcases h with ⟨v, h⟩ | ⟨x, h⟩ <;> cases h
    | succ n =>
      change (deserStep env eas (deser env eas n) n _ loc _).1.Returns at h
      simp only [deserStep, Bool.false_eq_true, if_false] at h
      rcases descend_place h with ⟨h1, h2, h3⟩ | ⟨w', h1, -⟩
      · exact ⟨sm, hsm, fun _ _ => rfl, h2, h3⟩
      · simp only at h1; rw [hw] at h1; cases h1
  | @union inner e e' o _ ih =>
    cases n with
    | zero => rcases h with ⟨v, h⟩ | ⟨x, h⟩ <;> cases h
    | succ n =>
      obtain ⟨sm', h4, h5, h6⟩ := ih n sm hsm h
      refine ⟨sm', h4, h5, ?_⟩
      cases o with
      | none => exact h6
      | some s' => obtain ⟨n', h7, h8⟩ := h6; exact ⟨n', by omega, h8⟩
  | here => exact ⟨sm, hsm, fun _ _ => rfl, n, Nat.le_refl _, rfl, rfl⟩

theorem Ser.ReadAt.everywhere {P : Ser → Prop} {s : Ser} {e e' : Elem} {o : Option Ser} (h : s.ReadAt e o e')
    (hs : s.Everywhere P) : ∀ s', o = some s' → s'.Everywhere P := by
  induction h with
  | wrap _ _ ih => exact ih ((Ser.everywhere_wrap ..).1 hs).2
  | missing => intro s' h; cases h
  | union _ ih => exact ih ((Ser.everywhere_primUnion ..).1 hs).2
  | here => intro s' h; cases h; exact hs

end PXml
