import Verif.Lemmas.Terminate
import Verif.Lemmas.Strings
import Verif.Lemmas.NoCrash
import Verif.Lemmas.Pieces
import Verif.Example

/-!
# Reading as a whole (C06, C22, C28, C29)
-/

namespace PXml

open Elem

/-! ## C06 every piece of the document is bound at most once -/

/-- C06: whatever the outcome, the content of the document is what has been taken plus what is left. -/
theorem C06_content_conserved (env : Env) (hv : env.ValidatorsRead) (eas : Bool) (n : Nat) (cls : String) (root : Node)
    (hr : root.isComment = false) :
    ∃ taken, root.pieces.Perm (taken ++ (fromXmlTree env eas n cls root).2.content) := by
  obtain ⟨t, h⟩ := fromXmlTree_rel conserves_rel env (hv.respect conserves_rel) eas n cls root
  rw [fromNative_content _ _ hr] at h
  exact ⟨t, h⟩

/-- C06: no string of the document is delivered more often than the document contains it (and what is delivered is
gone): the occurrences in the instance plus those left are at most those in the document. -/
theorem C06_delivered_once (env : Env) (hn : env.NoCopies) (hv : env.ValidatorsDeliver) (eas : Bool) (n : Nat)
    (cls : String) (root : Node) (hr : root.isComment = false) (v : Val) (rest : Elem)
    (h : fromXmlTree env eas n cls root = (.ok v, rest)) (a : String) (ha : a ≠ "") :
    v.strings.count a + rest.strings.count a ≤ root.strings.count a := by
  unfold fromXmlTree at h
  simp only at h
  split at h
  · cases h
  · rename_i m hm
    split at h
    · have h1 := deserModel_delivers hn ha (fun s l => deser_delivers hn hv eas ha n s l) cls m
        (fun fs hb fd hfd v hval e => by rw [Out.weight_eq]; exact hv _ _ fs hm hb fd hfd v hval e a ha) []
        ⟨fromNative env.backend root, []⟩
      cases hd : deserModel env (deser env eas n) cls m [] ⟨fromNative env.backend root, []⟩ with
      | mk o st =>
        rw [hd] at h h1
        simp only [Prod.mk.injEq] at h
        obtain ⟨rfl, rfl⟩ := h
        rw [← fromNative_strings env.backend root hr]
        exact h1
    · cases h

/-- C06: in particular, if all strings of the document are different, no string of the instance occurs twice in it. -/
theorem C06_no_sharing (env : Env) (hn : env.NoCopies) (hv : env.ValidatorsDeliver) (eas : Bool) (n : Nat)
    (cls : String) (root : Node) (hr : root.isComment = false) (v : Val) (rest : Elem)
    (h : fromXmlTree env eas n cls root = (.ok v, rest)) (hd : root.strings.Nodup) (a : String) (ha : a ≠ "") :
    v.strings.count a ≤ 1 := by
  have h1 := C06_delivered_once env hn hv eas n cls root hr v rest h a ha
  have h2 : root.strings.count a ≤ 1 := List.nodup_iff_count.1 hd a
  omega

/-- C06: reading any field of any element keeps the element's children and their tags (up to the order, which
unordered search changes) and never moves the cursor backwards. -/
theorem C06_children_kept (env : Env) (hv : env.ValidatorsRead) (eas : Bool) (n : Nat) (s : Ser) (loc : Loc) (st : St) :
    let st' := (deser env eas n s loc st).2
    st'.el.tag = st.el.tag ∧ (st'.el.elements.map Elem.tag).Perm (st.el.elements.map Elem.tag) ∧
      st.el.next ≤ st'.el.next := by
  obtain ⟨h1, _, h2, h3⟩ := deser_rel sameChildren_rel env (hv.respect sameChildren_rel) eas n s loc st
  exact ⟨h1, h2, h3⟩

/-- C06: the same for a whole document. -/
theorem C06_root_children_kept (env : Env) (hv : env.ValidatorsRead) (eas : Bool) (n : Nat) (cls : String) (root : Node) :
    ((fromXmlTree env eas n cls root).2.elements.map Elem.tag).Perm
      ((fromNative env.backend root).elements.map Elem.tag) :=
  (fromXmlTree_rel sameChildren_rel env (hv.respect sameChildren_rel) eas n cls root).2.2.1

/-! ## C22, C28 exceptions while reading -/

theorem ValidatorsSafe_of {env : Env} (h1 : env.ValidatorsRead) (h2 : env.ValidatorsRaise) : env.ValidatorsSafe :=
  fun cls m fs hm hb f hf v hv e he =>
    ⟨h2 cls m fs hm hb f hf v hv e, good_rel.of_reads (h1 cls m fs hm hb f hf v hv e) he⟩

/-- C28 (reading part) and C22: if all model classes referred to are defined, reading raises nothing but validation
errors, except a `ParsingError`, and that exactly when the root tag is not the name of the class. -/
theorem C22_C28_only_validation_errors (env : Env) (hE : env.Everywhere (Ser.Resolved env)) (hv : env.ValidatorsRead)
    (hr : env.ValidatorsRaise) (eas : Bool) (n : Nat) (cls : String) (m : ModelSer) (hm : env.model cls = some m)
    (root : Node) (x : PyErr) :
    (fromXmlTree env eas n cls root).1 = .crash x ↔ root.tag ≠ m.elementName ∧ x = .parsingError := by
  have hs := ValidatorsSafe_of hv hr
  unfold fromXmlTree
  simp only [hm]
  split
  · rename_i ht
    have h1 := deserModel_safe env _ (fun s hs' l => deser_safe env hE hs eas n s hs' l) cls m (hE _ _ hm)
      (fun fs hb => hs cls m fs hm hb) [] ⟨fromNative env.backend root, []⟩ (fromNative_good _ _)
    constructor
    · intro h
      rw [h] at h1
      cases h1.1
    · rintro ⟨h, _⟩
      exact absurd ht h
  · rename_i ht
    simp only [Out.crash.injEq]
    exact ⟨fun h => ⟨ht, h.symm⟩, fun h => h.2.symm⟩

/-! ## C29 reading terminates -/

theorem shrink_of {env : Env} (h1 : env.ValidatorsRead) (h2 : env.ValidatorsTerminate) : env.ValidatorsShrink := by
  intro cls m fs hm hb f hf v hv e
  have h3 := h2 cls m fs hm hb f hf v hv e
  have h4 := h1 cls m fs hm hb f hf v hv e
  refine ⟨?_, left_rel.of_reads h4, size_rel.of_reads h4⟩
  cases h : (v e).1 <;> first | rfl | exact absurd h h3

theorem fromXmlTree_terminates (env : Env) (hv : env.ValidatorsRead) (ht : env.ValidatorsTerminate) (eas : Bool)
    (hE : env.Everywhere (Ser.ListsProgress eas)) (cls : String) (root : Node) :
    ∃ n r, r.1 ≠ .diverge ∧ ∀ m, n ≤ m → fromXmlTree env eas m cls root = r := by
  cases hm : env.model cls with
  | none => exact ⟨0, (.crash .assertionError, fromNative env.backend root), by simp, fun m _ => by simp only [fromXmlTree, hm]⟩
  | some m =>
    by_cases htag : root.tag = m.elementName
    · obtain ⟨n, hn⟩ := deserModel_terminates (shrink_of hv ht) eas hE cls m hm [] ⟨fromNative env.backend root, []⟩
      refine ⟨n, fromXmlTree env eas n cls root, ?_, ?_⟩
      · intro h
        simp only [fromXmlTree, hm, htag, if_true] at h
        rw [h] at hn
        cases hn
      · intro k hk
        simp only [fromXmlTree, hm, htag, if_true]
        rw [deserModel_mono env eas hk cls m [] _ hn]
    · exact ⟨0, (.crash .parsingError, fromNative env.backend root), by simp,
        fun k _ => by simp only [fromXmlTree, hm, htag, if_false]⟩

/-- C29: with the default treatment of empty text (`empty_as_string=False`) reading terminates on every document, for
all model classes, also self-referential ones: there is a number of steps from which on the result is the same and is
not "out of steps". -/
theorem C29_reading_terminates (env : Env) (hv : env.ValidatorsRead) (ht : env.ValidatorsTerminate) (cls : String)
    (root : Node) : ∃ n r, r.1 ≠ .diverge ∧ ∀ m, n ≤ m → fromXmlTree env false m cls root = r := by
  apply fromXmlTree_terminates env hv ht false
  have h : ∀ s : Ser, s.ListsProgress false := by
    intro s
    cases s with
    | homog t c inner => exact .inr (Ser.everywhere_of_all (fun s => by cases s <;> simp [Ser.Progressive]) inner)
    | _ => trivial
  intro c m hm
  cases hb : m.body with
  | fields fs => simp only [ModelSer.Everywhere, hb]; exact fun f _ => Ser.everywhere_of_all h _
  | root s => simp only [ModelSer.Everywhere, hb]; exact Ser.everywhere_of_all h _

/-- C29 (partial: the full statement has no hypothesis `hE`): with `empty_as_string=True` reading terminates if no list
field has the text of the element itself as its items.  The restriction is needed, see `C29_counterexample`. -/
theorem C29_empty_as_string_partial (env : Env) (hv : env.ValidatorsRead) (ht : env.ValidatorsTerminate)
    (hE : env.Everywhere Ser.NoTextItems) (cls : String) (root : Node) :
    ∃ n r, r.1 ≠ .diverge ∧ ∀ m, n ≤ m → fromXmlTree env true m cls root = r := by
  apply fromXmlTree_terminates env hv ht true
  have h : ∀ s : Ser, s.NoTextItems → s.ListsProgress true := by
    intro s h
    cases s with
    | homog t c inner =>
      exact .inr (Ser.everywhere_mono h (fun s => by cases s <;> simp [Ser.Progressive]))
    | _ => trivial
  intro c m hm
  have := hE c m hm
  cases hb : m.body with
  | fields fs =>
    simp only [ModelSer.Everywhere, hb] at this ⊢
    exact fun f hf => Ser.everywhere_mono (this f hf) h
  | root s =>
    simp only [ModelSer.Everywhere, hb] at this ⊢
    exact Ser.everywhere_mono this h

/-- `class Bad(BaseXmlModel, tag='bad'): items: List[Union[int, str]]` -/
def Ex.bad : Env where
  backend := .lxml
  model := fun c => if c = "Bad" then some { name := "Bad", elementName := "bad", body := .fields [
    { name := "items", ser := .homog "Bad" false (.primUnion false (.text false false)) }] } else none
  validate _ _ := .ok ([], [])
  toJsonable v := v
  reprOf _ := ""

theorem bad_loop (n k idx : Nat) (acc : List Val) (sm : SMap) (el : Elem) (loc : Loc) :
    (homogLoop (fun loc st => deser Ex.bad true k (.primUnion false (.text false false)) loc st) loc n idx acc []
      ⟨el, sm⟩).1 = .diverge := by
  induction n generalizing idx acc el with
  | zero => rfl
  | succ n ih =>
    unfold homogLoop
    cases k with
    | zero => rfl
    | succ k =>
      cases k with
      | zero => rfl
      | succ k =>
        have h : ∀ l, ∃ v, deser Ex.bad true (k + 1 + 1) (.primUnion false (.text false false)) l ⟨el, sm⟩ =
            (.ok (.str v), ⟨el.popText.2, sm⟩) := by
          intro l
          refine ⟨el.text.getD "", ?_⟩
          have ht : textVal true el.text = .str (el.text.getD "") := by
            cases el.text with
            | none => rfl
            | some t => by_cases h : t = "" <;> simp [textVal, h]
          rw [← ht]
          rfl
        obtain ⟨v, hv⟩ := h (loc ++ [.idx idx])
        simp only [hv, Val.isNone]
        exact ih (idx + 1) (acc ++ [.str v]) el.popText.2

/-- C29 fails in general: with `empty_as_string=True` the class `Bad`, whose list items are the text of the element,
reads `<bad>x</bad>` for ever: no number of steps is enough. -/
theorem C29_counterexample : ∀ n, (fromXmlTree Ex.bad true n "Bad" (Ex.el "bad" (some "x"))).1 = .diverge := by
  intro n
  cases n with
  | zero => rfl
  | succ n =>
    have h := bad_loop n n 0 [] [([.name "items"], -1)] (fromNative .lxml (Ex.el "bad" (some "x"))) [.name "items"]
    simp only [fromXmlTree]
    have h1 : Ex.bad.model "Bad" = some { name := "Bad", elementName := "bad", body := .fields [
      { name := "items", ser := .homog "Bad" false (.primUnion false (.text false false)) }] } := rfl
    simp only [h1]
    have h2 : (Ex.el "bad" (some "x")).tag = "bad" := rfl
    simp only [h2, if_true, deserModel, deserFields, deser, deserStep]
    have h3 : (Dict.set ([] : SMap) [LocPart.name "items"] (fromNative Ex.bad.backend (Ex.el "bad" (some "x"))).line) =
      [([.name "items"], -1)] := rfl
    rw [h3]
    have h4 : Ex.bad.backend = Backend.lxml := rfl
    rw [h4]
    simp only [Bool.false_eq_true, if_false]
    cases hl : homogLoop (fun loc st => deser Ex.bad true n (Ser.primUnion false (Ser.text false false)) loc st)
      [.name "items"] n 0 [] [] ⟨fromNative .lxml (Ex.el "bad" (some "x")), [([.name "items"], -1)]⟩ with
    | mk o st =>
      rw [hl] at h
      simp only at h
      subst h
      rfl

/-! ## The hypotheses are met -/

namespace Ex

/-- All conditions of this file on the example classes (self-referential, with lists, unions and wrapped paths). -/
example : (env .ordered).ValidatorsRead ∧ (env .ordered).ValidatorsTerminate ∧ (env .ordered).ValidatorsRaise ∧
    (env .ordered).ValidatorsDeliver ∧ (env .ordered).Everywhere Ser.NoTextItems ∧
    (env .ordered).Everywhere (Ser.Resolved (env .ordered)) := by
  refine ⟨Env.NoValidators.read noValidators, ?_, ?_, ?_, ?_, ?_⟩
  · intro cls m fs hm hb f hf v hv; rw [noValidators cls m fs hm hb f hf] at hv; cases hv
  · intro cls m fs hm hb f hf v hv; rw [noValidators cls m fs hm hb f hf] at hv; cases hv
  · intro cls m fs hm hb f hf v hv; rw [noValidators cls m fs hm hb f hf] at hv; cases hv
  · apply everywhere; simp [Ser.NoTextItems]
  · apply everywhere; simp [Ser.Resolved, env, model]

/-- The validation of the example classes does not multiply strings. -/
theorem noCopies {mode : Mode} {b : Backend} : (env mode b).NoCopies := by
  intro cls d fs set h a ha
  have hdecl : ((decl cls).map Prod.fst).Nodup := by
    unfold decl; split <;> decide
  simp only [env, validate] at h
  split at h
  · rename_i d
    simp only [check] at h
    split at h
    · injection h with h
      injection h with h1 h2
      subst h1
      change (Val.model cls _ set).weight a ≤ (Val.dict d).weight a
      rw [Val.weight_model, Val.weight_dict]
      exact Val.weightItems_select a (decl cls) hdecl d
    · cases h
  · cases h
  · rename_i v h1 h2
    injection h with h
    injection h with h1 h2
    subst h1
    simp [Val.strings, Val.stringsItems]

/-- A document that is read successfully, and whose strings are all different but one. -/
example : ∃ v rest, fromXmlTree (env .strict) false 9 "Person" personDoc = (.ok v, rest) ∧
    personDoc.isComment = false ∧ personDoc.strings.Nodup := by
  refine ⟨ann, _, rfl, rfl, ?_⟩
  decide

end Ex
end PXml
