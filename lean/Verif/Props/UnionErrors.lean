import Verif.Props.Unions
import Verif.Lemmas.Dict

/-!
# Exactly which errors a union of models reports (C12)

Errors of alternatives with the same class name replace each other, so of every name the last failed alternative is reported.
-/

namespace PXml

open Elem

/-- The key of an error in the collection of the union. -/
abbrev VErr.key (e : VErr) : ErrKey := some (.name e.title.text)

theorem Dict.mem_set_iff {α β : Type} [DecidableEq α] {d : Dict α β} (hd : d.WF) (k : α) (v : β) (k' : α) (x : β) :
    (k', x) ∈ d.set k v ↔ (k' = k ∧ x = v) ∨ (k' ≠ k ∧ (k', x) ∈ d) := by
  have hw := Dict.wf_set hd k v
  constructor
  · intro h
    have h := Dict.get?_of_mem hw h
    by_cases hk : k' = k
    · subst hk
      rw [Dict.get?_set_self] at h
      exact .inl ⟨rfl, by injection h with h; exact h.symm⟩
    · rw [Dict.get?_set_ne _ _ (fun h => hk h.symm)] at h
      exact .inr ⟨hk, Dict.mem_of_get? h⟩
  · rintro (⟨rfl, rfl⟩ | ⟨hk, h⟩)
    · exact Dict.mem_of_get? (Dict.get?_set_self _ _ _)
    · apply Dict.mem_of_get?
      rw [Dict.get?_set_ne _ _ (fun h => hk h.symm)]
      exact Dict.get?_of_mem hd h

/-- The collection of errors after the errors `es` came in one after the other. -/
def keptErrors (d : Dict ErrKey VErr) (es : List VErr) : Dict ErrKey VErr := es.foldl (fun d e => d.set e.key e) d

theorem keptErrors_wf {d : Dict ErrKey VErr} (hd : d.WF) (es : List VErr) : (keptErrors d es).WF := by
  induction es generalizing d with
  | nil => exact hd
  | cons e es ih => exact ih (Dict.wf_set hd _ _)

theorem mem_keptErrors (es : List VErr) : ∀ (d : Dict ErrKey VErr), d.WF → ∀ k x, (k, x) ∈ keptErrors d es ↔
    ((∃ pre post, es = pre ++ x :: post ∧ k = x.key ∧ ∀ g ∈ post, g.key ≠ x.key) ∨ ((k, x) ∈ d ∧ ∀ g ∈ es, g.key ≠ k)) := by
  induction es with
  | nil => intro d _ k x; simp [keptErrors]
  | cons e es ih =>
    intro d hd k x
    have h := ih (d.set e.key e) (Dict.wf_set hd _ _) k x
    change (k, x) ∈ keptErrors (d.set e.key e) es ↔ _
    rw [h, Dict.mem_set_iff hd]
    constructor
    · rintro (⟨pre, post, rfl, hk, hp⟩ | ⟨⟨rfl, rfl⟩ | ⟨hk, hm⟩, hg⟩)
      · exact .inl ⟨e :: pre, post, rfl, hk, hp⟩
      · exact .inl ⟨[], es, rfl, rfl, hg⟩
      · refine .inr ⟨hm, fun g hgm => ?_⟩
        rcases List.mem_cons.1 hgm with rfl | hgm
        · exact fun h => hk h.symm
        · exact hg g hgm
    · rintro (⟨pre, post, hes, hk, hp⟩ | ⟨hm, hg⟩)
      · cases pre with
        | nil =>
          injection hes with h1 h2
          subst h1 h2 hk
          exact .inr ⟨.inl ⟨rfl, rfl⟩, hp⟩
        | cons p pre =>
          injection hes with h1 h2
          exact .inl ⟨pre, post, h2, hk, hp⟩
      · exact .inr ⟨.inr ⟨fun h => hg e (by simp) h.symm, hm⟩, fun g hgm => hg g (by simp [hgm])⟩

theorem keptErrors_nil_iff (d : Dict ErrKey VErr) (es : List VErr) : keptErrors d es = [] ↔ d = [] ∧ es = [] := by
  induction es generalizing d with
  | nil => simp [keptErrors]
  | cons e es ih =>
    change keptErrors (d.set e.key e) es = [] ↔ _
    rw [ih]
    constructor
    · rintro ⟨h, _⟩
      cases d with
      | nil => simp [Dict.set] at h
      | cons kv d =>
        obtain ⟨k, v⟩ := kv
        simp only [Dict.set] at h
        split at h <;> cases h
    · rintro ⟨_, h⟩; cases h

theorem unionLoop_collects {rec : Proxy → St → Out Val × St} (hi : Indep rec) (title : Title) (alts : List Proxy) (el : Elem)
    (sm0 : SMap) (hall : ∀ q ∈ alts, (rec q ⟨el, sm0⟩).1.NoValue) (errs : Dict ErrKey VErr) (sm : SMap) :
    ∃ es : List VErr, es.map (VErr.lines fun _ => -1) =
        (failures (alts.map fun q => (rec q ⟨el, sm0⟩).1)).map (VErr.lines fun _ => -1) ∧
      (unionLoop rec title alts errs ⟨el, sm⟩).1 =
        if (keptErrors errs es).isEmpty then .ok .none else .verr (intoValidationError title (keptErrors errs es)) := by
  induction alts generalizing errs sm with
  | nil =>
    refine ⟨[], rfl, ?_⟩
    simp only [unionLoop, keptErrors, List.foldl_nil]
    cases errs <;> rfl
  | cons q alts ih =>
    have hq := hall q (by simp)
    have hqi := (hi q el sm0 sm).1
    have ih := ih fun r hr => hall r (by simp [hr])
    simp only [unionLoop, createSnapshot]
    cases hr : rec q ⟨el, sm⟩ with
    | mk o st' =>
      rw [hr] at hqi
      simp only at hqi
      rcases hq with h | ⟨e, h⟩
      · rw [h] at hqi
        have := noLines_ok.1 hqi.symm
        subst this
        simp only [List.map_cons, h, failures_cons_ok]
        exact ih errs st'.sm
      · rw [h] at hqi
        obtain ⟨e', he, hl⟩ := noLines_verr hqi.symm
        subst he
        simp only [List.map_cons, h, failures_cons_verr]
        obtain ⟨es, h1, h2⟩ := ih (errs.set e'.key e') st'.sm
        exact ⟨e' :: es, by rw [List.map_cons, h1, hl], h2⟩

theorem VErr.key_lines (e : VErr) (f : Int → Int) : (e.lines f).key = e.key := rfl

/-- C12, without any condition on names: if some alternative finds its element but none validates, exactly these errors are
reported, whatever the alternatives are called: those of every failed alternative that is the last failed one of its name. -/
theorem C12_reported (env : Env) (hv : env.ValidatorsRead) (eas : Bool) (n : Nat) (title : Title) (alts : List Proxy) (loc : Loc)
    (st : St) (h : ∀ q ∈ alts, (deser env eas n (.proxy q) loc st).1.NoValue)
    (hne : failures (alts.map fun q => (deser env eas n (.proxy q) loc st).1) ≠ []) :
    ∃ e, (deser env eas (n + 1) (.modelUnion title false alts) loc st).1 = .verr e ∧ e.title = title ∧
      ∀ l, l ∈ (e.lines fun _ => -1).errs ↔
        ∃ pre f post, failures (alts.map fun q => (deser env eas n (.proxy q) loc st).1) = pre ++ f :: post ∧
          (∀ g ∈ post, g.title.text ≠ f.title.text) ∧ l ∈ (f.lines fun _ => -1).under (.name f.title.text) := by
  obtain ⟨el, sm⟩ := st
  obtain ⟨es, h1, h2⟩ := unionLoop_collects (indep_deser env hv eas n loc) title alts el sm h [] sm
  generalize hF : failures (alts.map fun q => (deser env eas n (.proxy q) loc ⟨el, sm⟩).1) = F at h1 hne ⊢
  have hes : es ≠ [] := by
    rintro rfl
    cases F with
    | nil => exact hne rfl
    | cons a F => cases h1
  have hc : (keptErrors [] es).isEmpty = false := by
    cases hx : keptErrors [] es with
    | nil => exact absurd ((keptErrors_nil_iff _ _).1 hx).2 hes
    | cons a b => rfl
  rw [hc] at h2
  refine ⟨_, h2, rfl, fun l => ?_⟩
  have hkey : ∀ (g : VErr) (g' : VErr), g.lines (fun _ => -1) = g'.lines (fun _ => -1) → g.title.text = g'.title.text :=
    by
    intro g g' hg
    have := congrArg VErr.title hg
    simp only [VErr.lines_title] at this
    rw [this]
  have tr : ∀ (A B : List VErr), A.map (VErr.lines fun _ => -1) = B.map (VErr.lines fun _ => -1) →
      ((∃ pre f post, A = pre ++ f :: post ∧ (∀ g ∈ post, g.title.text ≠ f.title.text) ∧
        l ∈ (f.lines fun _ => -1).under (.name f.title.text)) →
      ∃ pre f post, B = pre ++ f :: post ∧ (∀ g ∈ post, g.title.text ≠ f.title.text) ∧
        l ∈ (f.lines fun _ => -1).under (.name f.title.text)) := by
    rintro A B hAB ⟨pre, f, post, rfl, hp, hl⟩
    rw [List.map_append, List.map_cons] at hAB
    obtain ⟨pre', rest, rfl, hpre, hrest⟩ := List.map_eq_append_iff.1 hAB.symm
    obtain ⟨f', post', rfl, hf, hpost⟩ := List.map_eq_cons_iff.1 hrest
    refine ⟨pre', f', post', rfl, fun g' hg' => ?_, ?_⟩
    · have : g'.lines (fun _ => -1) ∈ post.map (VErr.lines fun _ => -1) := by
        rw [← hpost]; exact List.mem_map_of_mem hg'
      obtain ⟨g, hg, hgl⟩ := List.mem_map.1 this
      rw [← hkey g g' hgl, hkey f' f hf]
      exact hp g hg
    · rw [hf, hkey f' f hf]
      exact hl
  have main : l ∈ ((intoValidationError title (keptErrors [] es)).lines fun _ => -1).errs ↔
      ∃ pre f post, es = pre ++ f :: post ∧ (∀ g ∈ post, g.title.text ≠ f.title.text) ∧
        l ∈ (f.lines fun _ => -1).under (.name f.title.text) := by
    simp only [VErr.lines, intoValidationError, VErr.under, List.mem_map, List.mem_flatMap, Prod.exists]
    constructor
    · rintro ⟨x, ⟨k, f, hm, y, hy, rfl⟩, rfl⟩
      rcases (mem_keptErrors es [] Dict.wf_nil k f).1 hm with ⟨pre, post, hs, rfl, hp⟩ | ⟨hm, _⟩
      · exact ⟨pre, f, post, hs, fun g hg ht => hp g hg (by simp [VErr.key, ht]), _, ⟨y, hy, rfl⟩, rfl⟩
      · cases hm
    · rintro ⟨pre, f, post, hs, hp, x, ⟨y, hy, rfl⟩, rfl⟩
      refine ⟨_, ⟨f.key, f, (mem_keptErrors es [] Dict.wf_nil _ f).2 (.inl ⟨pre, post, hs, rfl, fun g hg ht => hp g hg ?_⟩), y, hy,
        rfl⟩, rfl⟩
      simpa [VErr.key] using ht
  rw [main]
  exact ⟨tr es F h1, tr F es h1.symm⟩

/-- Non-vacuity of `C12_reported`: of two alternatives of the same name only the second is reported. -/
example :
    let alts : List Proxy := [{ cls := "a.Item", name := "item" }, { cls := "b.Item", name := "item" }]
    let st : St := ⟨fromNative .lxml (Ex.el "r" none [Ex.el "item"]), []⟩
    (∀ q ∈ alts, (deser Ex.sameEnv false 8 (.proxy q) [] st).1.NoValue) ∧
      (failures (alts.map fun q => (deser Ex.sameEnv false 8 (.proxy q) [] st).1)).length = 2 := by
  intro alts st
  refine ⟨?_, rfl⟩
  intro q hq
  simp only [alts, List.mem_cons, List.not_mem_nil, or_false] at hq
  rcases hq with rfl | rfl <;> exact .inr ⟨_, rfl⟩

end PXml
