import Verif.Lemmas.SimEq
import Verif.Lemmas.Candidate

/-! Serializers that read one child element: elements, mapping elements, raw elements and sub-models. -/

namespace PXml

open Elem

/-- What such a field does with the child it found. -/
def Ser.onItem (env : Env) (eas : Bool) (n : Nat) (s : Ser) (loc : Loc) (c : St) : Out Val × St :=
  match s with
  | .elem _ _ _ computed nillable => deserText eas computed nillable { c with sm := c.sm.set loc c.el.line }
  | .mapElem a _ _ => deserAttrs a { c with sm := c.sm.set loc c.el.line }
  | .raw _ _ _ => (.ok (.raw (toNative env.backend c.el.detached)), ⟨c.el.hollow, c.sm.set loc c.el.line⟩)
  | .proxy p =>
    match env.model p.cls with
    | none => (.crash .assertionError, c)
    | some m =>
      match c.el.isNil with
      | (true, el) => (.ok .none, ⟨el, c.sm.set loc c.el.line⟩)
      | (false, el) => deserModel env (deser env eas n) p.cls m loc ⟨el, c.sm.set loc c.el.line⟩
  | _ => (.diverge, c)

/-- All sub-models of the field are defined. -/
def Ser.Ready (env : Env) (s : Ser) : Prop := s.Everywhere (Ser.Resolved env)

theorem deser_item {env : Env} {eas : Bool} {n : Nat} {s : Ser} {loc : Loc} {st : St} {name : String} {mode : Mode}
    (hs : s.item? = some (name, mode)) (hr : s.Resolved env) :
    deser env eas (n + 1) s loc st =
      match st.el.search name mode true with
      | (none, el) => (.ok .none, ⟨el, st.sm⟩)
      | (some i, el) => onChild ⟨el, st.sm⟩ i (s.onItem env eas n loc) := by
  change deserStep env eas (deser env eas n) n s loc st = _
  cases s <;> simp only [Ser.item?, reduceCtorEq] at hs
  case elem nm ns m c nl =>
    cases c <;> simp only [reduceCtorEq, Option.some.injEq, Prod.mk.injEq] at hs
    obtain ⟨rfl, rfl⟩ := hs
    simp only [deserStep, popElement]
    cases st.el.search nm m true with
    | mk o e => cases o <;> rfl
  case mapElem a nm m =>
    split at hs
    · cases hs
    · rename_i hc
      simp only [Option.some.injEq, Prod.mk.injEq] at hs
      obtain ⟨rfl, rfl⟩ := hs
      simp only [deserStep, hc, popElement]
      cases st.el.search nm m true with
      | mk o e => cases o <;> rfl
  case raw nm m c =>
    cases c <;> simp only [reduceCtorEq, Option.some.injEq, Prod.mk.injEq] at hs
    obtain ⟨rfl, rfl⟩ := hs
    simp only [deserStep, popElementRemove, popElement]
    cases h : st.el.search nm m true with
    | mk o e =>
      cases o with
      | none => rfl
      | some i =>
        obtain ⟨c, hc, _⟩ := search_index h
        simp only [hc, onChild]
        rfl
  case proxy p =>
    split at hs
    · cases hs
    · rename_i hc
      simp only [Option.some.injEq, Prod.mk.injEq] at hs
      obtain ⟨rfl, rfl⟩ := hs
      simp only [Ser.Resolved, Option.isSome_iff_exists] at hr
      obtain ⟨m, hm⟩ := hr
      have hf : Ser.onItem env eas n (.proxy p) loc = fun c =>
          match c.el.isNil with
          | (true, el) => (.ok .none, ⟨el, c.sm.set loc c.el.line⟩)
          | (false, el) => deserModel env (deser env eas n) p.cls m loc ⟨el, c.sm.set loc c.el.line⟩ := by
        funext c
        simp only [Ser.onItem, hm]
      rw [hf]
      simp only [deserStep, hc, hm, popElement]
      cases st.el.search p.name p.mode true with
      | mk o e => cases o <;> rfl

/-- An element with a single child. -/
def Elem.alone (c : Elem) : Elem := { tag := "", elements := [c] }

theorem search_alone {c : Elem} {name : String} {mode : Mode} (h : c.tag = name) :
    c.alone.search name mode true = (some 0, { c.alone with next := 1 }) := by
  subst h
  cases mode <;> simp [alone, search, strictSearch, orderedSearch, unorderedSearch, firstMatch, firstFrom, swap]

theorem deser_alone {env : Env} {eas : Bool} {n : Nat} {s : Ser} {loc : Loc} {sm : SMap} {name : String} {mode : Mode}
    {c : Elem} (hs : s.item? = some (name, mode)) (hr : s.Resolved env) (hc : c.tag = name) :
    deser env eas (n + 1) s loc ⟨c.alone, sm⟩ =
      ((s.onItem env eas n loc ⟨c, sm⟩).1, ⟨({ c.alone with next := 1 } : Elem).setChild 0 (s.onItem env eas n loc ⟨c, sm⟩).2.el,
        (s.onItem env eas n loc ⟨c, sm⟩).2.sm⟩) := by
  rw [deser_item hs hr, search_alone hc]
  simp only [onChild]
  rfl

/-- The source map only matters for lines, for one item. -/
theorem onItem_sm {env : Env} (hv : env.ValidatorsRead) (eas : Bool) (n : Nat) {s : Ser} (loc : Loc) {name : String}
    {mode : Mode} {c : Elem} (hs : s.item? = some (name, mode)) (hr : s.Resolved env) (hc : c.tag = name) (sm sm' : SMap) :
    (s.onItem env eas n loc ⟨c, sm⟩).1.noLines = (s.onItem env eas n loc ⟨c, sm'⟩).1.noLines ∧
      (s.onItem env eas n loc ⟨c, sm⟩).2.el = (s.onItem env eas n loc ⟨c, sm'⟩).2.el := by
  have := deser_sm hv eas (n + 1) s loc c.alone sm sm'
  rw [deser_alone hs hr hc, deser_alone hs hr hc] at this
  refine ⟨this.1, ?_⟩
  have h2 := congrArg Elem.elements this.2
  simpa [setChild, alone] using h2

/-- Reading such a field takes the candidate, and does to it what is done when it is the only child. -/
theorem deser_item_some {env : Env} (hv : env.ValidatorsRead) {eas : Bool} {n : Nat} {s : Ser} {loc : Loc} {st : St}
    {name : String} {mode : Mode} {c : Elem} (hs : s.item? = some (name, mode)) (hr : s.Resolved env)
    (hc : st.el.candidate name mode = some c) :
    (deser env eas (n + 1) s loc st).1.noLines = (deser env eas (n + 1) s loc ⟨c.alone, []⟩).1.noLines ∧
    ∃ i el' c', st.el.search name mode true = (some i, el') ∧ el'.elements[i]? = some c ∧ c'.tag = c.tag ∧
      (deser env eas (n + 1) s loc st).2.el = el'.setChild i c' := by
  obtain ⟨i, el', h1, h2⟩ := candidate_some hc true
  have ht := candidate_tag hc
  have hk := onItem_sm hv eas n loc hs hr ht st.sm []
  rw [deser_alone hs hr ht, deser_item hs hr, h1]
  simp only [onChild, h2]
  refine ⟨hk.1, i, el', _, rfl, h2, ?_, rfl⟩
  have h3 := (deser_rel sameChildren_rel env (hv.respect sameChildren_rel) eas (n + 1) s loc ⟨c.alone, st.sm⟩).2.2.1
  rw [deser_alone hs hr ht] at h3
  simpa [setChild, alone] using h3

theorem deser_item_none {env : Env} {eas : Bool} {n : Nat} {s : Ser} {loc : Loc} {st : St}
    {name : String} {mode : Mode} (hs : s.item? = some (name, mode)) (hr : s.Resolved env)
    (hc : st.el.candidate name mode = none) : deser env eas (n + 1) s loc st = (.ok .none, st) := by
  rw [deser_item hs hr, candidate_none hc]

theorem deserFields_cons (read : Ser → Loc → St → Out Val × St) (f : Field) (fs : List Field)
    (res : Dict String Val) (errs : Dict ErrKey VErr) (st : St) :
    deserFields read (f :: fs) res errs st =
      match readField read f st with
      | (.ok v, st') => deserFields read fs (if v.isNone then res else res.set (f.alias.getD f.name) v) errs st'
      | (.verr e, st') => deserFields read fs res (errs.set (some (.name f.name)) e) st'
      | (.crash e, st') => (.crash e, st')
      | (.diverge, st') => (.diverge, st') := by
  conv => lhs; unfold deserFields
  unfold readField
  cases f.validator <;> rfl

end PXml
