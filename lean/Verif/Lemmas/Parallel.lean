import Verif.Lemmas.Write
import Verif.Lemmas.Everywhere

/-! The children a field that is not wrapped appends do not depend on the element it is written to. -/

namespace PXml

open Elem

/-- The outcomes of writing the same field to two elements: both fail alike, or both append the same children. -/
def Par (el1 el2 : Elem) : Out Elem → Out Elem → Prop
  | .ok a1, .ok a2 => ∃ ks, a1.elements = el1.elements ++ ks ∧ a2.elements = el2.elements ++ ks
  | .verr e1, .verr e2 => e1 = e2
  | .crash e1, .crash e2 => e1 = e2
  | .diverge, .diverge => True
  | _, _ => False

theorem Par.same {el1 el2 a1 a2 : Elem} (h1 : a1.elements = el1.elements) (h2 : a2.elements = el2.elements) :
    Par el1 el2 (.ok a1) (.ok a2) := ⟨[], by simp [h1], by simp [h2]⟩

theorem Par.append (el1 el2 c : Elem) : Par el1 el2 (.ok (el1.append c)) (.ok (el2.append c)) := ⟨[c], rfl, rfl⟩

theorem Par.unlessEmpty (fl : Flags) (el1 el2 c : Elem) :
    Par el1 el2 (.ok (appendUnlessEmpty fl el1 c)) (.ok (appendUnlessEmpty fl el2 c)) := by
  unfold appendUnlessEmpty
  split
  · exact .same rfl rfl
  · exact .append _ _ _

theorem Par.bind {el1 el2 : Elem} {o1 o2 : Out Elem} {f1 f2 : Elem → Out Elem} (h : Par el1 el2 o1 o2)
    (hf : ∀ a1 a2, Par a1 a2 (f1 a1) (f2 a2)) : Par el1 el2 (o1.bind f1) (o2.bind f2) := by
  cases o1 <;> cases o2 <;> simp only [Par] at h
  · rename_i a1 a2
    obtain ⟨ks, h1, h2⟩ := h
    simp only [Out.bind]
    have := hf a1 a2
    cases hx : f1 a1 <;> cases hy : f2 a2 <;> rw [hx, hy] at this <;> simp only [Par] at this ⊢
    · obtain ⟨ks', h3, h4⟩ := this
      exact ⟨ks ++ ks', by rw [h3, h1, List.append_assoc], by rw [h4, h2, List.append_assoc]⟩
    · exact this
    · exact this
  · exact h
  · exact h
  · trivial

/-- The same child, or the same failure. -/
theorem Par.child {el1 el2 : Elem} (o : Out Elem) {f1 f2 : Elem → Out Elem} (hf : ∀ a, Par el1 el2 (f1 a) (f2 a)) :
    Par el1 el2 (o.bind f1) (o.bind f2) := by
  cases o with
  | ok a => exact hf a
  | verr e => rfl
  | crash e => rfl
  | diverge => trivial

theorem serAttrs_par (env : Env) (a : AttrsSer) (el1 el2 : Elem) (v enc : Val) :
    Par el1 el2 (serAttrs env a el1 v enc) (serAttrs env a el2 v enc) := by
  unfold serAttrs
  split
  · exact .same rfl rfl
  · simp only
    split
    · exact .same rfl rfl
    · rfl

theorem serItems_par {rec : Elem → Val → Val → Out Elem} (hrec : ∀ el1 el2 v enc, Par el1 el2 (rec el1 v enc) (rec el2 v enc))
    (fl : Flags) (vs encs : List Val) (el1 el2 : Elem) : Par el1 el2 (serItems rec fl vs encs el1) (serItems rec fl vs encs el2) := by
  induction vs generalizing encs el1 el2 with
  | nil => exact .same rfl rfl
  | cons v vs ih =>
    cases encs with
    | nil => exact .same rfl rfl
    | cons enc encs =>
      unfold serItems
      split
      · exact ih _ _ _
      · exact (hrec _ _ _ _).bind fun a1 a2 => ih _ _ _

theorem serTuple_par {rec : Ser → Elem → Val → Val → Out Elem} (ss : List Ser)
    (hrec : ∀ s ∈ ss, ∀ el1 el2 v enc, Par el1 el2 (rec s el1 v enc) (rec s el2 v enc)) (vs encs : List Val) (el1 el2 : Elem) :
    Par el1 el2 (serTuple rec ss vs encs el1) (serTuple rec ss vs encs el2) := by
  induction ss generalizing vs encs el1 el2 with
  | nil => exact .same rfl rfl
  | cons s ss ih =>
    cases vs with
    | nil => exact .same rfl rfl
    | cons v vs =>
      cases encs with
      | nil => exact .same rfl rfl
      | cons enc encs =>
        unfold serTuple
        exact (hrec s (by simp) _ _ _ _).bind fun a1 a2 => ih (fun s hs => hrec s (by simp [hs])) _ _ _ _

theorem ser_par (env : Env) (n : Nat) (fl : Flags) (s : Ser) (hs : s.Everywhere Ser.NotWrapped) (el1 el2 : Elem) (v enc : Val) :
    Par el1 el2 (ser env n fl s el1 v enc) (ser env n fl s el2 v enc) := by
  induction n generalizing fl s el1 el2 v enc with
  | zero => trivial
  | succ n ih =>
    change Par el1 el2 (serStep env (ser env n) fl s el1 v enc) (serStep env (ser env n) fl s el2 v enc)
    have hsub := (Ser.everywhere_iff.1 hs).2
    cases s with
    | text c nl =>
      simp only [serStep]
      refine .same ?_ ?_ <;> (unfold serText; split; rfl; split <;> rfl)
    | attr k c =>
      simp only [serStep]
      split <;> exact .same rfl rfl
    | elem nm ns m c nl =>
      simp only [serStep]
      split
      · exact .same rfl rfl
      · exact .unlessEmpty _ _ _ _
    | attrs a => exact serAttrs_par _ _ _ _ _ _
    | mapElem a nm m =>
      simp only [serStep]
      split
      · split
        · rfl
        · exact .same rfl rfl
        · exact Par.child _ fun a => .unlessEmpty _ _ _ _
      · exact Par.child _ fun a => .append _ _ _
    | raw nm m c =>
      simp only [serStep]
      split
      · exact .same rfl rfl
      · exact .unlessEmpty _ _ _ _
      · rfl
    | proxy p =>
      simp only [serStep]
      split
      · rfl
      · split
        · exact .same rfl rfl
        · split
          · exact .append _ _ _
          · split
            · exact .same rfl rfl
            · exact Par.child _ fun a => .unlessEmpty _ _ _ _
    | primUnion c inner => exact ih _ _ (hsub _ (by simp [Ser.subs])) _ _ _ _
    | modelUnion t c alts =>
      simp only [serStep]
      split
      · split
        · rename_i p hp
          exact ih _ _ (hsub _ (by simp only [Ser.subs, List.mem_map]; exact ⟨p, List.mem_of_find?_eq_some hp, rfl⟩)) _ _ _ _
        · exact .same rfl rfl
      · exact .same rfl rfl
    | tagged c d a m alts =>
      simp only [serStep]
      split
      · split
        · split
          · exact .same rfl rfl
          · split
            · rename_i p hp
              exact ih _ _ (hsub _ (by simp only [Ser.subs, List.mem_map]; exact ⟨(_, p), Dict.mem_of_get? hp, rfl⟩)) _ _ _ _
            · rfl
        · exact .same rfl rfl
        · exact .same rfl rfl
        · rfl
      · rfl
    | wrap path ns m c inner => exact absurd (Ser.everywhere_iff.1 hs).1 id
    | homog t c inner =>
      simp only [serStep]
      split
      · exact .same rfl rfl
      · split
        · exact serItems_par (rec := ser env n fl inner) (fun a b v e => ih fl inner (hsub inner (by simp [Ser.subs])) a b v e) _ _ _ _ _
        · rfl
    | hetero t c inners =>
      simp only [serStep]
      split
      · exact .same rfl rfl
      · split
        · split
          · exact .same rfl rfl
          · split
            · rfl
            · exact serTuple_par (rec := ser env n fl) inners (fun s hs' a b v e => ih fl s (hsub s hs') a b v e) _ _ _ _
        · rfl

/-- What a field that is not wrapped does to the children. -/
theorem ser_children {env : Env} {n : Nat} {fl : Flags} {s : Ser} (hs : s.Everywhere Ser.NotWrapped) {el el' : Elem} {v enc : Val}
    (h : ser env n fl s el v enc = .ok el') : el'.elements = el.elements ++ s.children env n fl v enc := by
  have := ser_par env n fl s hs el { tag := "" } v enc
  rw [h] at this
  unfold Ser.children
  cases hx : ser env n fl s { tag := "" } v enc with
  | ok a =>
    rw [hx] at this
    obtain ⟨ks, h1, h2⟩ := this
    simp only at h2 ⊢
    rw [h1, h2]
    rfl
  | verr e => rw [hx] at this; exact absurd this id
  | crash e => rw [hx] at this; exact absurd this id
  | diverge => rw [hx] at this; exact absurd this id

end PXml
