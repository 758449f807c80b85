import Verif.Lemmas.Para

/-! Reading does not depend on the addresses of the objects it creates. -/

namespace PXml
namespace Conc

open Heap (Addr Obj NodeObj HVal Cell Store)

variable {R : Nat} {ρ : World}

theorem assign_para {a a' : Addr} (h : Own ρ a a') (e : Elem) :
    PRel R Any ρ (put e >>= fun b => obj? b >>= fun o => modify a fun x => o.getD x)
      (put e >>= fun b => obj? b >>= fun o => modify a' fun x => o.getD x) := by
  refine .bind (put_para e) ?_
  intro ρ1 b b' h1 hb
  refine .bind (obj?_para hb) ?_
  intro ρ2 o o' h2 ho
  refine modify_para ((h.mono h1).mono h2) fun ρ3 x x' h3 hx => ?_
  cases ho with
  | none => exact hx
  | some ho => exact ho.mono h3

theorem deserText_para (eas computed nillable : Bool) {a a' : Addr} (h : Own ρ a a') (sm : SMap) :
    PRel R Same ρ (deserText eas computed nillable a sm) (deserText eas computed nillable a' sm) := by
  unfold deserText
  cases computed with
  | true => exact .same
  | false =>
    simp only [Bool.false_eq_true, if_false]
    refine .bind (Q := Same) ?_ ?_
    · cases nillable with
      | true => exact isNil_para h
      | false => exact .same
    · intro ρ1 x y h1 hx
      cases hx
      cases x with
      | true => exact .same
      | false =>
        refine .bind (popText_para (h.mono h1)) ?_
        intro ρ2 x y h2 hx
        cases hx
        exact .same

theorem deserAttrs_para (s : AttrsSer) {a a' : Addr} (h : Own ρ a a') (sm : SMap) :
    PRel R Same ρ (deserAttrs s a sm) (deserAttrs s a' sm) := by
  unfold deserAttrs
  cases s.computed with
  | true => exact .same
  | false =>
    simp only [Bool.false_eq_true, if_false]
    refine .bind (popAttributes_para h) ?_
    intro ρ1 x y h1 hx
    cases hx with
    | none => exact .same
    | some hd =>
      refine .bind (loadDict_para hd) ?_
      intro ρ2 c c' h2 hc
      rw [hc]
      exact .same

theorem descend_para (mode : Mode) {f f' : Addr → Reads}
    (hf : ∀ ρ a a' sm, Own ρ a a' → PRel R Same ρ (f a sm) (f' a' sm)) (path : List String) {a a' : Addr} (h : Own ρ a a')
    (sm : SMap) : PRel R Same ρ (descend mode f path a sm) (descend mode f' path a' sm) := by
  induction path generalizing ρ a a' with
  | nil => exact hf _ _ _ _ h
  | cons t ts ih =>
    refine .bind (findElement_para h t mode) ?_
    intro ρ1 x y h1 hx
    cases hx with
    | error => exact .same
    | ok hx =>
      cases hx with
      | none => exact .same
      | some hb => exact ih hb

theorem homogLoop_para {rec rec' : Loc → Reads} (hrec : ∀ ρ', ρ ⊆ ρ' → ∀ loc sm, PRel R Same ρ' (rec loc sm) (rec' loc sm))
    (loc : Loc) (n idx : Nat) (acc : List Val) (errs : Dict ErrKey VErr) (sm : SMap) :
    PRel R Same ρ (homogLoop rec loc n idx acc errs sm) (homogLoop rec' loc n idx acc errs sm) := by
  induction n generalizing ρ idx acc errs sm with
  | zero => exact .same
  | succ n ih =>
    refine .bind (hrec ρ (fun _ h => h) _ _) ?_
    intro ρ1 x y h1 hx
    cases hx
    have hrec1 := fun ρ' (h : ρ1 ⊆ ρ') => hrec ρ' (fun _ hx => h (h1 hx))
    obtain ⟨o, sm⟩ := x
    cases o with
    | ok v =>
      simp only
      split
      · exact .same
      · exact ih hrec1 ..
    | verr e => exact ih hrec1 ..
    | crash e => exact .same
    | diverge => exact .same

theorem heteroLoop_para {rec rec' : Ser → Loc → Reads}
    (hrec : ∀ ρ', ρ ⊆ ρ' → ∀ s loc sm, PRel R Same ρ' (rec s loc sm) (rec' s loc sm))
    (loc : Loc) (ss : List Ser) (idx : Nat) (acc : List Val) (errs : Dict ErrKey VErr) (sm : SMap) :
    PRel R Same ρ (heteroLoop rec loc ss idx acc errs sm) (heteroLoop rec' loc ss idx acc errs sm) := by
  induction ss generalizing ρ idx acc errs sm with
  | nil => exact .same
  | cons s ss ih =>
    refine .bind (hrec ρ (fun _ h => h) _ _ _) ?_
    intro ρ1 x y h1 hx
    cases hx
    have hrec1 := fun ρ' (h : ρ1 ⊆ ρ') => hrec ρ' (fun _ hx => h (h1 hx))
    obtain ⟨o, sm⟩ := x
    cases o with
    | ok v => exact ih hrec1 ..
    | verr e => exact ih hrec1 ..
    | crash e => exact .same
    | diverge => exact .same

theorem unionLoop_para (k : Nat) {rec rec' : Proxy → Addr → Reads}
    (hrec : ∀ ρ p a a' sm, Own ρ a a' → PRel R Same ρ (rec p a sm) (rec' p a' sm))
    (title : Title) {a a' : Addr} (h : Own ρ a a') (ps : List Proxy) (errs : Dict ErrKey VErr) (sm : SMap) :
    PRel R Same ρ (unionLoop k rec title a ps errs sm) (unionLoop k rec' title a' ps errs sm) := by
  induction ps generalizing ρ errs sm with
  | nil =>
    unfold unionLoop
    cases errs.isEmpty with
    | true => exact .same
    | false =>
      simp only [Bool.false_eq_true, if_false]
      refine .bind (stepForward_para h) ?_
      intro ρ1 _ _ _ _
      exact .same
  | cons p ps ih =>
    refine .bind (copy_para k h) ?_
    intro ρ1 x y h1 hx
    cases hx with
    | none => exact .same
    | some hs =>
      refine .bind (hrec _ p _ _ sm hs) ?_
      intro ρ2 x y h2 hx
      cases hx
      obtain ⟨o, sm⟩ := x
      have h := (h.mono h1).mono h2
      cases o with
      | ok v =>
        simp only
        split
        · exact ih h ..
        · refine .bind (applySnapshot_para h (hs.mono h2)) ?_
          intro _ _ _ _ _
          exact .same
      | verr e => exact ih h ..
      | crash e => exact .same
      | diverge => exact .same

theorem taggedLoop_para {rec rec' : Proxy → Reads} (hrec : ∀ ρ', ρ ⊆ ρ' → ∀ p sm, PRel R Same ρ' (rec p sm) (rec' p sm))
    (loc : Loc) (attrName : String) (mode : Mode) {a a' : Addr} (h : Own ρ a a') (alts : List (String × Proxy)) (sm : SMap) :
    PRel R Same ρ (taggedLoop rec loc attrName mode a alts sm) (taggedLoop rec' loc attrName mode a' alts sm) := by
  induction alts generalizing ρ with
  | nil => exact .same
  | cons tp alts ih =>
    obtain ⟨tag, p⟩ := tp
    refine .bind (search_para h p.name mode false) ?_
    intro ρ1 x y h1 hx
    have hrec1 := fun ρ' (h : ρ1 ⊆ ρ') => hrec ρ' (fun _ hx => h (h1 hx))
    cases hx with
    | none => exact ih hrec1 (h.mono h1)
    | some hb =>
      refine .bind (getAttrib_para hb attrName) ?_
      intro ρ2 t t' h2 ht
      cases ht
      have hrec2 := fun ρ' (h : ρ2 ⊆ ρ') => hrec1 ρ' (fun _ hx => h (h2 hx))
      split
      · refine .bind (line_para (hb.mono h2)) ?_
        intro ρ3 l l' h3 hl
        cases hl
        exact hrec2 ρ3 h3 _ _
      · exact ih hrec2 ((h.mono h1).mono h2)

theorem runValidator_para (k : Nat) (v : Elem → Out Val × Elem) {a a' : Addr} (h : Own ρ a a') (sm : SMap) :
    PRel R Same ρ (runValidator k v a sm) (runValidator k v a' sm) := by
  refine .bind (tree?_para k h) ?_
  intro ρ1 e e' h1 he
  cases he
  cases e with
  | none => exact .same
  | some e =>
    have := assign_para (R := R) (h.mono h1) (v e).2
    refine .bind (put_para _) ?_
    intro ρ2 b b' h2 hb
    refine .bind (obj?_para hb) ?_
    intro ρ3 o o' h3 ho
    refine .bind (modify_para (((h.mono h1).mono h2).mono h3) fun ρ4 x x' h4 hx => ?_) ?_
    · cases ho with
      | none => exact hx
      | some ho => exact ho.mono h4
    · intro _ _ _ _ _
      exact .same

theorem deserFields_para (k : Nat) {rec rec' : Ser → Loc → Reads}
    (hrec : ∀ ρ', ρ ⊆ ρ' → ∀ s loc sm, PRel R Same ρ' (rec s loc sm) (rec' s loc sm)) {a a' : Addr} (h : Own ρ a a')
    (fs : List Field) (res : Dict String Val) (errs : Dict ErrKey VErr) (sm : SMap) :
    PRel R Same ρ (deserFields k rec a fs res errs sm) (deserFields k rec' a' fs res errs sm) := by
  induction fs generalizing ρ res errs sm with
  | nil => exact .same
  | cons f fs ih =>
    refine .bind (line_para h) ?_
    intro ρ1 l l' h1 hl
    cases hl
    have hrec1 := fun ρ' (h : ρ1 ⊆ ρ') => hrec ρ' (fun _ hx => h (h1 hx))
    refine .bind (Q := Same) ?_ ?_
    · cases f.validator with
      | some v => exact runValidator_para k v (h.mono h1) _
      | none => exact hrec1 ρ1 (fun _ h => h) _ _ _
    · intro ρ2 x y h2 hx
      cases hx
      have hrec2 := fun ρ' (h : ρ2 ⊆ ρ') => hrec1 ρ' (fun _ hx => h (h2 hx))
      have h := (h.mono h1).mono h2
      obtain ⟨o, sm⟩ := x
      cases o with
      | ok v => exact ih hrec2 h ..
      | verr e => exact ih hrec2 h ..
      | crash e => exact .same
      | diverge => exact .same

theorem validateModel_para (k : Nat) (env : Env) (cls : String) (m : ModelSer) (data : Val) {a a' : Addr} (h : Own ρ a a')
    (sm : SMap) : PRel R Same ρ (validateModel k env cls m data a sm) (validateModel k env cls m data a' sm) := by
  refine .bind (tree?_para k h) ?_
  intro ρ1 e e' h1 he
  cases he
  cases e <;> exact .same

theorem deserModel_para (k : Nat) (env : Env) {rec rec' : Ser → Loc → Reads}
    (hrec : ∀ ρ', ρ ⊆ ρ' → ∀ s loc sm, PRel R Same ρ' (rec s loc sm) (rec' s loc sm)) (cls : String) (m : ModelSer) (loc : Loc)
    {a a' : Addr} (h : Own ρ a a') (sm : SMap) :
    PRel R Same ρ (deserModel k env rec cls m loc a sm) (deserModel k env rec' cls m loc a' sm) := by
  unfold deserModel
  cases m.body with
  | fields fs =>
    refine .bind (deserFields_para k hrec h fs [] [] sm) ?_
    intro ρ1 x y h1 hx
    cases hx
    obtain ⟨o, sm⟩ := x
    cases o with
    | ok v =>
      simp only
      split
      · exact validateModel_para k env cls m _ (h.mono h1) _
      · exact .same
    | _ => exact .same
  | root s =>
    refine .bind (hrec ρ (fun _ h => h) s loc sm) ?_
    intro ρ1 x y h1 hx
    cases hx
    obtain ⟨o, sm⟩ := x
    cases o with
    | ok v => exact validateModel_para k env cls m _ (h.mono h1) _
    | _ => exact .same

theorem computed_para {b : Bool} {x : Out Val × SMap} {p p' : Prog (Out Val × SMap)} (h : PRel R Same ρ p p') :
    PRel R Same ρ (if b = true then Pure.pure x else p) (if b = true then Pure.pure x else p') := by
  cases b
  · exact h
  · exact .same

theorem deser_para (k : Nat) (env : Env) (eas : Bool) (n : Nat) (s : Ser) (loc : Loc) {a a' : Addr} (h : Own ρ a a') (sm : SMap) :
    PRel R Same ρ (deser k env eas n s loc a sm) (deser k env eas n s loc a' sm) := by
  induction n generalizing ρ s loc a a' sm with
  | zero => exact .same
  | succ n ih =>
    change PRel R Same ρ (deserStep k env eas (deser k env eas n) n s loc a sm) (deserStep k env eas (deser k env eas n) n s loc a' sm)
    generalize deser k env eas n = rec at ih ⊢
    cases s with
    | text computed nillable => exact deserText_para eas computed nillable h sm
    | attr name computed =>
      refine computed_para ?_
      refine .bind (popAttrib_para h name) ?_
      intro ρ1 x y _ hx
      cases hx
      cases x <;> exact .same
    | elem name nsmap mode computed nillable =>
      refine computed_para ?_
      refine .bind (search_para h name mode true) ?_
      intro ρ1 x y _ hx
      cases hx with
      | none => exact .same
      | some hb =>
        refine .bind (line_para hb) ?_
        intro ρ2 l l' h2 hl
        cases hl
        exact deserText_para _ _ _ (hb.mono h2) _
    | attrs s => exact deserAttrs_para s h sm
    | mapElem s name mode =>
      refine computed_para ?_
      refine .bind (search_para h name mode true) ?_
      intro ρ1 x y _ hx
      cases hx with
      | none => exact .same
      | some hb =>
        refine .bind (line_para hb) ?_
        intro ρ2 l l' h2 hl
        cases hl
        exact deserAttrs_para _ (hb.mono h2) _
    | raw name mode computed =>
      refine computed_para ?_
      refine .bind (popElementRemove_para h name mode) ?_
      intro ρ1 x y _ hx
      cases hx with
      | none => exact .same
      | some hb =>
        refine .bind (tree?_para k hb) ?_
        intro ρ2 e e' h2 he
        cases he
        cases e with
        | none => exact .same
        | some e =>
          refine .bind (line_para (hb.mono h2)) ?_
          intro ρ3 l l' h3 hl
          cases hl
          exact .same
    | proxy p =>
      simp only [deserStep]
      cases env.model p.cls with
      | none => exact .same
      | some m =>
        refine computed_para ?_
        refine .bind (search_para h p.name p.mode true) ?_
        intro ρ1 x y _ hx
        cases hx with
        | none => exact .same
        | some hb =>
          refine .bind (line_para hb) ?_
          intro ρ2 l l' h2 hl
          cases hl
          refine .bind (isNil_para (hb.mono h2)) ?_
          intro ρ3 x y h3 hx
          cases hx
          have hb := (hb.mono h2).mono h3
          cases x with
          | true => exact .same
          | false => exact deserModel_para k env (fun ρ' hs s loc sm => ih s loc (hb.mono hs) sm) p.cls m loc hb _
    | primUnion computed inner => exact computed_para (ih inner loc h sm)
    | modelUnion title computed alts =>
      exact computed_para (unionLoop_para k (fun ρ p a a' sm h => ih (.proxy p) loc h sm) title h alts [] sm)
    | tagged computed discr attrName mode alts =>
      exact computed_para (taggedLoop_para (fun ρ' hs p sm => ih (.proxy p) loc (h.mono hs) sm) loc attrName mode h alts sm)
    | wrap path nsmap mode computed inner =>
      refine computed_para (descend_para mode (fun ρ a a' sm h => ?_) path h sm)
      refine .bind (line_para h) ?_
      intro ρ1 l l' h1 hl
      cases hl
      exact ih inner loc (h.mono h1) _
    | homog title computed inner =>
      refine computed_para (.bind (homogLoop_para (fun ρ' hs loc sm => ih inner loc (h.mono hs) sm) loc n 0 [] [] sm) ?_)
      intro ρ1 x y _ hx
      cases hx
      obtain ⟨o, sm⟩ := x
      cases o <;> exact .same
    | hetero title computed inners =>
      refine computed_para (.bind (heteroLoop_para (fun ρ' hs s loc sm => ih s loc (h.mono hs) sm) loc inners 0 [] [] sm) ?_)
      intro ρ1 x y _ hx
      cases hx
      obtain ⟨o, sm⟩ := x
      cases o <;> exact .same

theorem fromXmlTree_para (k : Nat) (env : Env) (eas : Bool) (n : Nat) (cls : String) {root : Addr} (hr : root < R) :
    PRel R Same ρ (fromXmlTree k env eas n cls root) (fromXmlTree k env eas n cls root) := by
  unfold fromXmlTree
  cases env.model cls with
  | none => exact .same
  | some m =>
    refine .bind (nodeTag_para (.inr ⟨rfl, hr⟩)) ?_
    intro ρ1 x y _ hx
    cases hx
    split
    · refine .bind (fromNative_para env.backend k (.inr ⟨rfl, hr⟩)) ?_
      intro ρ2 x y _ hx
      cases hx with
      | none => exact .same
      | some hb =>
        refine .bind (deserModel_para k env (fun ρ' hs s loc sm => deser_para k env eas n s loc (hb.mono hs) sm) cls m [] hb []) ?_
        intro ρ3 x y _ hx
        cases hx
        exact .same
    · exact .same

end Conc
end PXml
