import Verif.Lemmas.Sim
import Verif.Lemmas.SimMeta

/-! Reading the same element with different source maps: the value, the effect on the element and the errors are the same
up to line numbers. -/

namespace PXml

open Elem

theorem hit_eq {e : Elem} {i : Nat} {c : Elem} (h : e.elements[i]? = some c) : Hit Eq e i e i :=
  ⟨c, c, h, h, rfl, fun _ _ h _ _ => by rw [h]⟩

theorem outRel_refl {norm : Int → Int} (o : Out Val) : OutRel (fun _ => True) norm o o := by
  cases o <;> simp [OutRel]

theorem eqSim (env : Env) (eas : Bool) (hv : env.ValidatorsRead) :
    Sim env env eas .any True True True Eq (fun _ => True) (fun _ => -1) where
  models := rfl
  line _ _ _ := rfl
  lines _ _ _ _ := rfl
  text e1 e2 _ h := by subst h; exact ⟨rfl, trivial, rfl⟩
  owns _ _ _ _ := trivial
  nil := trivial
  attrib e1 e2 k _ h := by subst h; exact ⟨rfl, fun _ _ => trivial, rfl⟩
  attributes _ e1 e2 h := by subst h; exact ⟨rfl, fun _ _ _ => trivial, rfl⟩
  search e1 e2 t m step _ h := by
    subst h
    cases hs : e1.search t m step with
    | mk o e' =>
      cases o with
      | none => rfl
      | some i =>
        obtain ⟨c, hc, _⟩ := search_index hs
        exact ⟨rfl, hit_eq hc⟩
  find e1 e2 t m _ h := by
    subst h
    cases hs : e1.findElement t m with
    | error x => exact .inl ⟨x, rfl, rfl⟩
    | ok r =>
      refine .inr ⟨r, r, rfl, rfl, ?_⟩
      obtain ⟨o, e'⟩ := r
      cases o with
      | none => rfl
      | some i =>
        obtain ⟨c, hc, _⟩ := findElement_index hs
        exact ⟨rfl, hit_eq hc⟩
  step _ e1 e2 h _ := by subst h; rfl
  snapshot e1 e2 s1 s2 h hs := by subst h hs; rfl
  rawElem _ e1 e2 i1 i2 c1 c2 h hh h1 h2 := by
    subst h
    obtain ⟨x1, x2, hx1, hx2, he, hset⟩ := hh
    rw [h1] at hx1
    rw [h2] at hx2
    cases hx1
    cases hx2
    subst he
    exact ⟨rfl, trivial, hset _ _ rfl rfl rfl⟩
  none := trivial
  list _ _ := trivial
  model _ _ _ := trivial
  validate _ _ _ _ _ := rfl
  extra _ _ e1 e2 h := by subst h; rfl
  forbids _ _ _ _ := trivial
  validators cls m fs hm hb f hf v hv e1 e2 h := by subst h; exact ⟨outRel_refl _, rfl⟩
  keeps cls m fs hm hb f hf v hv' e := (hv.respect sameChildren_rel) cls m fs hm hb f hf v hv' e

theorem allowed_all (s : Ser) : s.Everywhere (Ser.Allowed .any True True) :=
  Ser.everywhere_of_all (fun s => ⟨fun _ _ => trivial, by
    cases s <;> first | trivial | exact fun _ => trivial | exact fun _ _ _ => trivial⟩) s

theorem env_allowed_all (env : Env) : env.Everywhere (Ser.Allowed .any True True) := by
  intro c m hm
  cases hb : m.body with
  | fields fs => simp only [ModelSer.Everywhere, hb]; exact fun f _ => allowed_all _
  | root s => simp only [ModelSer.Everywhere, hb]; exact allowed_all _

theorem smRel_any (sm sm' : SMap) : SmRel (fun _ => -1) sm sm' := fun _ => rfl

/-- The source map only influences the line numbers in errors. -/
theorem deser_sm {env : Env} (hv : env.ValidatorsRead) (eas : Bool) (n : Nat) (s : Ser) (loc : Loc) (el : Elem) (sm sm' : SMap) :
    (deser env eas n s loc ⟨el, sm⟩).1.noLines = (deser env eas n s loc ⟨el, sm'⟩).1.noLines ∧
      (deser env eas n s loc ⟨el, sm⟩).2.el = (deser env eas n s loc ⟨el, sm'⟩).2.el := by
  obtain ⟨h1, h2⟩ := deser_agree (eqSim env eas hv) (env_allowed_all env) n s (allowed_all s) loc ⟨el, sm⟩ ⟨el, sm'⟩
    (fun _ => trivial) ⟨rfl, smRel_any _ _⟩
  exact ⟨h1.lines_eq, h2.1⟩

theorem deserModel_sm {env : Env} (hv : env.ValidatorsRead) (eas : Bool) (n : Nat) (cls : String) (m : ModelSer)
    (hm : env.model cls = some m) (loc : Loc) (el : Elem) (sm sm' : SMap) :
    (deserModel env (deser env eas n) cls m loc ⟨el, sm⟩).1.noLines =
        (deserModel env (deser env eas n) cls m loc ⟨el, sm'⟩).1.noLines ∧
      (deserModel env (deser env eas n) cls m loc ⟨el, sm⟩).2.el =
        (deserModel env (deser env eas n) cls m loc ⟨el, sm'⟩).2.el := by
  obtain ⟨h1, h2⟩ := deserModel_agree (eqSim env eas hv) _
    (fun s hs l => deser_agree (eqSim env eas hv) (env_allowed_all env) n s hs l)
    (fun s l st => (deser_rel sameChildren_rel env (hv.respect sameChildren_rel) eas n s l st).1) cls m hm (env_allowed_all env _ _ hm) loc
    ⟨el, sm⟩ ⟨el, sm'⟩ (fun _ => trivial) ⟨rfl, smRel_any _ _⟩
  exact ⟨h1.lines_eq, h2.1⟩

theorem line_rel : ElemRel (fun e e' => e'.line = e.line) where
  refl _ := rfl
  trans h1 h2 := h2.trans h1
  popText _ := rfl
  popAttrib e k := by unfold popAttrib; split <;> rfl
  popAttributes _ := rfl
  search e t m s := by
    cases m <;> simp only [search, strictSearch, orderedSearch, unorderedSearch] <;>
      (repeat' split) <;> rfl
  child _ _ _ _ _ _ := rfl
  stepForward _ _ := rfl
  applySnapshot _ _ _ := rfl
  hollow _ _ _ _ := rfl

theorem noLines_ok {o : Out Val} {v : Val} : o.noLines = .ok v ↔ o = .ok v := by
  cases o <;> simp [Out.noLines, Out.lines]

theorem noLines_verr {o : Out Val} {e : VErr} (h : o.noLines = .verr e) : ∃ e', o = .verr e' ∧ e'.lines (fun _ => -1) = e := by
  cases o <;> simp_all [Out.noLines, Out.lines]

theorem noLines_diverge {o : Out Val} : o.noLines = .diverge ↔ o = .diverge := by
  cases o <;> simp [Out.noLines, Out.lines]

theorem noLines_crash {o : Out Val} {e : PyErr} : o.noLines = .crash e ↔ o = .crash e := by
  cases o <;> simp [Out.noLines, Out.lines]

theorem dict_set_new {α β : Type} [DecidableEq α] (d : Dict α β) (k : α) (v : β) (h : ∀ kv ∈ d, kv.1 ≠ k) :
    d.set k v = d ++ [(k, v)] := by
  induction d with
  | nil => rfl
  | cons x d ih =>
    simp only [List.mem_cons, forall_eq_or_imp] at h
    simp only [Dict.set, if_neg h.1, ih h.2, List.cons_append]

end PXml
