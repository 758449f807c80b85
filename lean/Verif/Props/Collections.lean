import Verif.Lemmas.Items
import Verif.Example

/-!
# Collections: order and errors of items (C15, C34)
-/

namespace PXml

open Elem

namespace Elem

theorem matching_head (e : Elem) (t : String) (m : Mode) : (e.matching t m).head? = e.candidate t m := by
  cases m <;> simp only [matching, candidate]
  · cases e.unread with
    | nil => rfl
    | cons c l => by_cases h : c.tag = t <;> simp [h, Option.filter]
  · rw [List.head?_filter]
  · rw [List.head?_filter]

theorem setChild_unread_eq (e : Elem) (i : Nat) (c : Elem) (h : i < e.next) : (e.setChild i c).unread = e.unread := by
  show (e.elements.set i c).drop e.next = e.elements.drop e.next
  rw [List.drop_set, if_pos h]

/-- After the first matching child is taken, the others are left. -/
theorem matching_step {e : Elem} {t : String} {m : Mode} (hm : m ≠ .unordered) {i : Nat} {el' : Elem}
    (h : e.search t m true = (some i, el')) (c' : Elem) : (el'.setChild i c').matching t m = (e.matching t m).tail := by
  cases m with
  | strict =>
    simp only [search, strictSearch] at h
    split at h
    · rename_i c hc
      split at h
      · rename_i ht
        injection h with h1 h2
        injection h1 with h1
        simp only [if_true] at h2
        subst h1 h2
        simp only [matching]
        rw [setChild_unread_eq _ _ _ (by simp)]
        have hd : e.unread = c :: e.elements.drop (e.next + 1) := by
          obtain ⟨hlt, rfl⟩ := List.getElem?_eq_some_iff.1 hc
          exact List.drop_eq_getElem_cons hlt
        rw [hd, List.takeWhile_cons_of_pos (by simp [ht])]
        rfl
      · cases h
    · cases h
  | ordered =>
    simp only [search, orderedSearch] at h
    split at h
    · rename_i j hj
      injection h with h1 h2
      injection h1 with h1
      simp only [if_true] at h2
      subst h1 h2
      obtain ⟨pre, c, post, h3, h4, h5, h6⟩ := firstMatch_split hj
      simp only [matching]
      rw [setChild_unread_eq _ _ _ (by simp), h3]
      have hpost : ({ e with next := j + 1 } : Elem).unread = post := by
        show e.elements.drop (j + 1) = post
        have : e.elements.drop (j + 1) = e.unread.drop (pre.length + 1) := by
          rw [unread, List.drop_drop, h4]; congr 1
        rw [this, h3]
        simp
      have hpre : pre.filter (fun c => decide (c.tag = t)) = [] := by
        rw [List.filter_eq_nil_iff]
        intro x hx
        simpa using h6 x hx
      rw [hpost, List.filter_append, hpre, List.nil_append, List.filter_cons_of_pos (by simp [h5])]
      rfl
    · cases h
  | unordered => exact absurd rfl hm

end Elem

/-- The outcomes of the items from position `k` on, each read on its own. -/
def itemOuts (read : Nat → Elem → Out Val) : Nat → List Elem → List (Out Val)
  | _, [] => []
  | k, c :: cs => read k c :: itemOuts read (k + 1) cs

theorem itemOuts_eq (read : Nat → Elem → Out Val) (k : Nat) (l : List Elem) :
    itemOuts read k l = (l.zipIdx k).map fun ci => read ci.2 ci.1 := by
  induction l generalizing k with
  | nil => rfl
  | cons c l ih => simp [itemOuts, ih]

/-- The errors gathered by the loop. -/
def itemErrs : Nat → List (Out Val) → Dict ErrKey VErr
  | _, [] => []
  | k, .verr e :: os => (some (.idx k), e) :: itemErrs (k + 1) os
  | k, _ :: os => itemErrs (k + 1) os

theorem itemErrs_flatMap (title : Title) (k : Nat) (outs : List (Out Val)) :
    (intoValidationError title (itemErrs k outs)).errs =
      (outs.zipIdx k).flatMap fun oi => match oi.1 with | .verr e => e.under (.idx oi.2) | _ => [] := by
  induction outs generalizing k with
  | nil => rfl
  | cons o outs ih =>
    have ih := ih (k + 1)
    simp only [intoValidationError] at ih
    cases o <;> simp only [intoValidationError, itemErrs, List.zipIdx_cons, List.flatMap_cons, ih, List.nil_append]
    rfl

theorem itemErrs_nil (k : Nat) (outs : List (Out Val)) : itemErrs k outs = [] ↔ failures outs = [] := by
  induction outs generalizing k with
  | nil => simp [itemErrs, failures]
  | cons o outs ih =>
    cases o <;> simp only [itemErrs, failures, List.filterMap_cons, reduceCtorEq] <;> exact ih _

theorem homogLoop_items {env : Env} (hv : env.ValidatorsRead) {eas : Bool} {N : Nat} {s : Ser} {loc : Loc} {name : String}
    {mode : Mode} (hs : s.item? = some (name, mode)) (hr : s.Resolved env) (hm : mode ≠ .unordered) {stop : List Elem}
    (items : List Elem) (n k : Nat) (acc : List Val) (errs : Dict ErrKey VErr) (st : St) (hn : items.length < n)
    (hmatch : st.el.matching name mode = items ++ stop)
    (hitems : ∀ o ∈ itemOuts (fun i c => (deser env eas (N + 1) s (loc ++ [.idx i]) ⟨c.alone, []⟩).1) k items, o.IsItem)
    (hstop : ∀ c ∈ stop.head?, (deser env eas (N + 1) s (loc ++ [.idx (k + items.length)]) ⟨c.alone, []⟩).1 = .ok .none) :
    ∃ r st', homogLoop (fun loc st => deser env eas (N + 1) s loc st) loc n k acc errs st = (.ok r, st') ∧
      r.1 = acc ++ values (itemOuts (fun i c => (deser env eas (N + 1) s (loc ++ [.idx i]) ⟨c.alone, []⟩).1) k items) ∧
      ErrsRel (fun _ => -1) r.2
        (errs ++ itemErrs k (itemOuts (fun i c => (deser env eas (N + 1) s (loc ++ [.idx i]) ⟨c.alone, []⟩).1) k items)) ∧
      st'.el.matching name mode = stop.tail := by
  induction items generalizing n k acc errs st with
  | nil =>
    cases n with
    | zero => omega
    | succ n =>
      simp only [List.nil_append] at hmatch
      have hc := (matching_head st.el name mode).symm
      rw [hmatch] at hc
      simp only [homogLoop, itemOuts, values, List.filterMap_nil, List.append_nil, itemErrs]
      cases hstop' : stop with
      | nil =>
        rw [hstop'] at hc
        rw [deser_item_none hs hr hc]
        refine ⟨_, _, rfl, rfl, rfl, ?_⟩
        rw [hmatch, hstop']; rfl
      | cons c rest =>
        rw [hstop'] at hc
        have h0 := hstop c (by simp [hstop'])
        simp only [List.length_nil, Nat.add_zero] at h0
        obtain ⟨h1, i, el', c', h2, h3, h4, h5⟩ := deser_item_some hv (eas := eas) (n := N) (loc := loc ++ [.idx k]) hs hr hc
        rw [h0] at h1
        have h1 := noLines_ok.1 h1
        cases hd : deser env eas (N + 1) s (loc ++ [.idx k]) st with
        | mk o st' =>
          rw [hd] at h1 h5
          simp only at h1 h5
          subst h1
          refine ⟨_, _, rfl, rfl, rfl, ?_⟩
          rw [h5, matching_step hm h2, hmatch, hstop']
  | cons c items ih =>
    cases n with
    | zero => simp at hn
    | succ n =>
      have hc := (matching_head st.el name mode).symm
      rw [hmatch] at hc
      simp only [List.cons_append, List.head?_cons] at hc
      obtain ⟨h1, i, el', c', h2, h3, h4, h5⟩ := deser_item_some hv (eas := eas) (n := N) (loc := loc ++ [.idx k]) hs hr hc
      simp only [itemOuts, List.mem_cons, forall_eq_or_imp] at hitems
      have hmatch' : ∀ st' : St, st'.el = el'.setChild i c' → st'.el.matching name mode = items ++ stop := by
        intro st' h
        rw [h, matching_step hm h2, hmatch]; rfl
      have hstop' : ∀ c ∈ stop.head?,
          (deser env eas (N + 1) s (loc ++ [.idx (k + 1 + items.length)]) ⟨c.alone, []⟩).1 = .ok .none := by
        intro c hc
        have := hstop c hc
        simpa [Nat.add_assoc, Nat.add_comm, Nat.add_left_comm] using this
      have hn' : items.length < n := by simp at hn; omega
      simp only [homogLoop]
      cases hd : deser env eas (N + 1) s (loc ++ [.idx k]) st with
      | mk o st' =>
        rw [hd] at h1 h5
        simp only at h1 h5
        rcases hitems.1 with ⟨v, hv1, hv2⟩ | ⟨e, he⟩
        · rw [hv1] at h1
          have h1 := noLines_ok.1 h1
          subst h1
          have hnone : v.isNone = false := by cases v <;> simp_all [Val.isNone]
          simp only [hnone]
          obtain ⟨r, st'', h6, h7, h8, h9⟩ := ih n (k + 1) (acc ++ [v]) errs st' hn' (hmatch' _ h5) hitems.2 hstop'
          refine ⟨r, st'', h6, ?_, ?_, h9⟩
          · rw [h7]; simp [itemOuts, values, hv1]
          · simpa only [itemOuts, hv1, itemErrs] using h8
        · rw [he] at h1
          obtain ⟨e', he', hl⟩ := noLines_verr h1
          subst he'
          obtain ⟨r, st'', h6, h7, h8, h9⟩ := ih n (k + 1) acc (errs ++ [(some (.idx k), e')]) st' hn' (hmatch' _ h5)
            hitems.2 hstop'
          refine ⟨r, st'', h6, ?_, ?_, h9⟩
          · rw [h7]; simp [itemOuts, values, he]
          · unfold ErrsRel at h8 ⊢
            rw [h8]
            simp only [itemOuts, he, itemErrs, List.map_append, List.append_assoc, List.map_cons,
              List.singleton_append, hl]

section
variable (env : Env) (hv : env.ValidatorsRead) (eas : Bool) (n : Nat) (title : Title) (s : Ser) (loc : Loc)
  (name : String) (mode : Mode) (st : St)

/-- The outcome of reading a child as the item at position `i` of a list, on its own. -/
def readItem (i : Nat) (c : Elem) : Out Val := (deser env eas (n + 1) s (loc ++ [.idx i]) ⟨c.alone, []⟩).1

/-- C15 and C34, strict and ordered mode: a list of elements, sub-models, mappings or raw elements is read from the
matching children in document order.  Each child is read as it would be on its own, a failing one does not stop the
reading, and the outcome is the list of the values in document order, or one error that contains the errors of all failing
children, in order, each below the position of the child.  (`stop` are the matching children from the first one that is
read as `None`, if any: there the list ends, see `C34_counterexample`.) -/
theorem C15_C34_items (hv : env.ValidatorsRead) (hs : s.item? = some (name, mode)) (hr : s.Resolved env)
    (hm : mode ≠ .unordered) (items stop : List Elem)
    (hmatch : st.el.matching name mode = items ++ stop)
    (hitems : ∀ i c, items[i]? = some c → (readItem env eas n s loc i c).IsItem)
    (hstop : ∀ c ∈ stop.head?, readItem env eas n s loc items.length c = .ok .none) (hn : items.length ≤ n) :
    let outs := items.zipIdx.map fun ci => readItem env eas n s loc ci.2 ci.1
    let r := deser env eas (n + 2) (.homog title false s) loc st
    (failures outs = [] → r.1 = if items = [] then .ok .none else .ok (.list (values outs))) ∧
    (failures outs ≠ [] → r.1.noLines = (Out.verr ⟨title, itemErrors outs⟩ : Out Val).noLines) ∧
    r.2.el.matching name mode = stop.tail := by
  intro outs r
  have ho : outs = itemOuts (readItem env eas n s loc) 0 items := (itemOuts_eq _ 0 items).symm
  have hit : ∀ o ∈ itemOuts (readItem env eas n s loc) 0 items, o.IsItem := by
    rw [← ho]
    intro o ho
    obtain ⟨⟨c, i⟩, hci, rfl⟩ := List.mem_map.1 ho
    rw [List.mem_zipIdx_iff_getElem?] at hci
    exact hitems i c (by simpa using hci)
  obtain ⟨q, st', h1, h2, h3, h4⟩ := homogLoop_items hv (eas := eas) (N := n) (loc := loc) hs hr hm items (n + 1) 0 [] [] st
    (by omega) hmatch hit (by simpa [readItem] using hstop)
  have hr' : r = (homogFinish title q, st') := by
    show deserStep env eas (deser env eas (n + 1)) (n + 1) (.homog title false s) loc st = _
    simp only [deserStep, h1, Bool.false_eq_true, if_false]
  rw [List.nil_append] at h2 h3
  change q.1 = values (itemOuts (readItem env eas n s loc) 0 items) at h2
  change ErrsRel (fun _ => -1) q.2 (itemErrs 0 (itemOuts (readItem env eas n s loc) 0 items)) at h3
  rw [← ho] at h2 h3 hit
  refine ⟨?_, ?_, by rw [hr']; exact h4⟩
  · intro hf
    rw [hr']
    have hq : q.2 = [] := by
      have h5 := (itemErrs_nil 0 outs).2 hf
      rw [h5] at h3
      have : q.2.isEmpty = true := isEmpty_lines h3
      simpa using this
    simp only [homogFinish, hq, List.isEmpty_nil, if_true, h2]
    have hlen : values outs = [] ↔ items = [] := by
      constructor
      · intro h
        cases hi : items with
        | nil => rfl
        | cons c cs =>
          exfalso
          rw [ho, hi] at h hf hit
          simp only [itemOuts, List.mem_cons, forall_eq_or_imp] at hit
          rcases hit.1 with ⟨v, hv1, _⟩ | ⟨e, he⟩
          · simp [itemOuts, values, hv1] at h
          · simp [itemOuts, failures, he] at hf
      · rintro rfl
        rfl
    by_cases hi : items = []
    · simp [hlen.2 hi, hi]
    · rw [if_neg hi, if_neg]
      simpa [List.isEmpty_iff] using fun h => hi (hlen.1 h)
  · intro hf
    rw [hr']
    have hq : q.2.isEmpty = false := by
      rw [isEmpty_lines h3]
      simpa [itemErrs_nil] using hf
    simp only [homogFinish, hq, Bool.false_eq_true, if_false, Out.noLines, Out.lines, intoValidationError_lines]
    rw [h3, ← intoValidationError_lines]
    have := itemErrs_flatMap title 0 outs
    have this : (intoValidationError title (itemErrs 0 outs)).errs = itemErrors outs := this
    rw [← this]
    rfl

/-- C34: a list of text elements is read in document order. -/
theorem C34_texts_in_order (hv : env.ValidatorsRead) (nsmap : Option NsMap) (hm : mode ≠ .unordered) (strs : List String)
    (hmatch : (st.el.matching name mode).map Elem.text = strs.map some) (hne : ∀ t ∈ strs, t ≠ "") (hn : strs.length ≤ n)
    (h0 : strs ≠ []) :
    (deser env eas (n + 2) (.homog title false (.elem name nsmap mode false false)) loc st).1 =
      .ok (.list (strs.map .str)) := by
  have hread : ∀ i (c : Elem) t, c.tag = name → c.text = some t → t ≠ "" →
      readItem env eas n (.elem name nsmap mode false false) loc i c = .ok (.str t) := by
    intro i c t htag ht hne
    unfold readItem
    rw [deser_alone (s := .elem name nsmap mode false false) (name := name) (mode := mode) rfl trivial htag]
    simp [Ser.onItem, deserText, popText, ht, textVal, hne]
  have htags : ∀ c ∈ st.el.matching name mode, c.tag = name := by
    intro c hc
    cases mode <;> simp only [matching] at hc
    · simpa using List.all_eq_true.1 List.all_takeWhile c hc
    · simpa using (List.mem_filter.1 hc).2
    · simpa using (List.mem_filter.1 hc).2
  have hitem : ∀ (i : Nat) c, (st.el.matching name mode)[i]? = some c → ∃ t, strs[i]? = some t ∧
      readItem env eas n (.elem name nsmap mode false false) loc i c = .ok (.str t) := by
    intro i c hc
    have h1 := congrArg (fun l => l[i]?) hmatch
    simp only [List.getElem?_map, hc, Option.map_some] at h1
    cases hs : strs[i]? with
    | none => rw [hs] at h1; cases h1
    | some t =>
      rw [hs] at h1
      simp only [Option.map_some, Option.some.injEq] at h1
      exact ⟨t, rfl, hread i c t (htags c (List.mem_of_getElem? hc)) h1 (hne t (List.mem_of_getElem? hs))⟩
  have hlen : (st.el.matching name mode).length = strs.length := by
    have := congrArg List.length hmatch
    simpa using this
  have houts : ((st.el.matching name mode).zipIdx.map fun ci =>
      readItem env eas n (.elem name nsmap mode false false) loc ci.2 ci.1) = strs.map fun t => .ok (.str t) := by
    apply List.ext_getElem?
    intro i
    simp only [List.getElem?_map, List.getElem?_zipIdx]
    cases hc : (st.el.matching name mode)[i]? with
    | none =>
      have : strs[i]? = none := by rw [List.getElem?_eq_none_iff] at hc ⊢; omega
      simp [this]
    | some c =>
      obtain ⟨t, h1, h2⟩ := hitem i c hc
      simp [h1, h2]
  have := (C15_C34_items env eas n title (.elem name nsmap mode false false) loc name mode st hv rfl trivial hm
    (st.el.matching name mode) [] (by simp)
    (by
      intro i c hc
      obtain ⟨t, _, h2⟩ := hitem i c hc
      exact .inl ⟨.str t, h2, by simp⟩) (by simp) (by omega)).1
  rw [houts] at this
  have hf : failures (strs.map fun t => Out.ok (Val.str t)) = [] := by simp [failures, List.filterMap_map]
  have hval : values (strs.map fun t => Out.ok (Val.str t)) = strs.map .str := by
    simp only [values, List.filterMap_map]
    induction strs with
    | nil => rfl
    | cons t l ih => simp [Function.comp_def]
  rw [this hf, if_neg, hval]
  intro h
  rw [h] at hlen
  exact h0 (List.length_eq_zero_iff.1 hlen.symm)
end

/-! ## Tuples -/

/-- The items of a tuple read one after the other: all outcomes and the final state. -/
def runTuple (read : Ser → Loc → St → Out Val × St) (loc : Loc) : List Ser → Nat → St → List (Out Val) × St
  | [], _, st => ([], st)
  | s :: ss, i, st =>
    match read s (loc ++ [.idx i]) st with
    | (o, st') => match runTuple read loc ss (i + 1) st' with | (os, st'') => (o :: os, st'')

theorem heteroLoop_run (read : Ser → Loc → St → Out Val × St) (loc : Loc) (ss : List Ser) (k : Nat) (acc : List Val)
    (errs : Dict ErrKey VErr) (st : St) (h : ∀ o ∈ (runTuple read loc ss k st).1, o.Returns) :
    heteroLoop read loc ss k acc errs st =
      (.ok (acc ++ values (runTuple read loc ss k st).1, errs ++ itemErrs k (runTuple read loc ss k st).1),
        (runTuple read loc ss k st).2) := by
  induction ss generalizing k acc errs st with
  | nil => simp [heteroLoop, runTuple, values, itemErrs]
  | cons s ss ih =>
    simp only [runTuple, List.mem_cons, forall_eq_or_imp] at h
    simp only [heteroLoop, runTuple]
    cases hr : read s (loc ++ [.idx k]) st with
    | mk o st' =>
      rw [hr] at h
      simp only at h ⊢
      rcases h.1 with ⟨v, rfl⟩ | ⟨e, rfl⟩
      · simp only
        rw [ih _ _ _ _ h.2]
        simp [values, itemErrs]
      · simp only
        rw [ih _ _ _ _ h.2]
        simp [values, itemErrs]

/-- C15 for tuples and named tuples: the items are read one after the other from what the previous ones have left, a failing
item does not stop the reading; if some fail, one error is raised with the errors of all failing items, in order, each
below the position of the item. -/
theorem C15_tuples (env : Env) (eas : Bool) (n : Nat) (title : Title) (ss : List Ser) (loc : Loc) (st : St)
    (h : ∀ o ∈ (runTuple (deser env eas n) loc ss 0 st).1, o.Returns) :
    let outs := (runTuple (deser env eas n) loc ss 0 st).1
    deser env eas (n + 1) (.hetero title false ss) loc st =
      (if failures outs = [] then (if ∀ v ∈ values outs, v.isNone = true then .ok .none else .ok (.list (values outs)))
       else .verr ⟨title, itemErrors outs⟩, (runTuple (deser env eas n) loc ss 0 st).2) := by
  intro outs
  change deserStep env eas (deser env eas n) n (.hetero title false ss) loc st = _
  simp only [deserStep, Bool.false_eq_true, if_false, heteroLoop_run _ _ _ _ _ _ _ h, List.nil_append, heteroFinish]
  congr 1
  have h1 := itemErrs_nil 0 outs
  by_cases hf : failures outs = []
  · simp only [outs] at h1 hf
    rw [h1.2 hf]
    simp [hf, outs, List.all_eq_true]
  · have hne : itemErrs 0 outs ≠ [] := fun h => hf (h1.1 h)
    rw [if_neg hf, if_neg (by simpa [List.isEmpty_iff] using hne)]
    have := itemErrs_flatMap title 0 outs
    simp only [intoValidationError] at this ⊢
    rw [this]; rfl

/-! ## Examples and counterexample -/

namespace Ex

/-- `C34_texts_in_order` applies in both modes; in ordered mode foreign elements are skipped. -/
example : (deser (env) false 5 (.homog "M" false (.elem "a" none .strict false false)) []
    ⟨fromNative .lxml (el "r" none [el "a" (some "1"), el "a" (some "2"), el "b", el "a" (some "3")]), []⟩).1 =
      .ok (.list [.str "1", .str "2"]) :=
  C34_texts_in_order (env) false 3 "M" [] "a" .strict _ (Env.NoValidators.read noValidators) none (by decide) ["1", "2"]
    rfl (by decide) (by decide) (by decide)

example : (deser (env) false 6 (.homog "M" false (.elem "a" none .ordered false false)) []
    ⟨fromNative .lxml (el "r" none [el "a" (some "1"), el "a" (some "2"), el "b", el "a" (some "3")]), []⟩).1 =
      .ok (.list [.str "1", .str "2", .str "3"]) :=
  C34_texts_in_order (env) false 4 "M" [] "a" .ordered _ (Env.NoValidators.read noValidators) none (by decide)
    ["1", "2", "3"] rfl (by decide) (by decide) (by decide)

/-- `C15_C34_items` applies: the second and fourth of four sub-models are invalid. -/
example :
    let st : St := ⟨fromNative .lxml (el "r" none [el "home" none [] [("zip", "1")], el "home" (some "A"),
      el "home" none [] [("zip", "3")], el "home" (some "B")]), []⟩
    (deser (env) false 8 (.homog "M" false (.proxy { cls := "Address", name := "home" })) [.name "homes"] st).1.noLines =
      .verr ⟨"M", [⟨"missing", "Field required", [.idx 1, .name "zip"], .dict [("street", .str "A")], some (-1)⟩,
        ⟨"missing", "Field required", [.idx 3, .name "zip"], .dict [("street", .str "B")], some (-1)⟩]⟩ := by
  intro st
  have h := (C15_C34_items (env) false 6 "M" (.proxy { cls := "Address", name := "home" }) [.name "homes"] "home" .strict st
    (Env.NoValidators.read noValidators) rfl rfl (by decide) (st.el.matching "home" .strict) [] (by simp)
    (by
      intro i c hc
      match i, hc with
      | 0, hc => injection hc with hc; subst hc; exact .inl ⟨_, rfl, by simp⟩
      | 1, hc => injection hc with hc; subst hc; exact .inr ⟨_, rfl⟩
      | 2, hc => injection hc with hc; subst hc; exact .inl ⟨_, rfl, by simp⟩
      | 3, hc => injection hc with hc; subst hc; exact .inr ⟨_, rfl⟩
      | _ + 4, hc => cases hc) (by simp) (by decide)).2.1
  exact h (by intro h; cases h)

/-- C34, the limits of reading lists: an empty item ends the list, the items after it are lost. -/
theorem C34_counterexample :
    (deser (env) false 9 (.homog "M" false (.elem "a" none .strict false false)) []
      ⟨fromNative .lxml (el "r" none [el "a" (some "1"), el "a", el "a" (some "3")]), []⟩).1 =
        .ok (.list [.str "1"]) := rfl

/-- `C15_tuples` applies: a pair of a text element and a sub-model; the second item fails. -/
example :
    let st : St := ⟨fromNative .lxml (el "r" none [el "a" (some "1"), el "home" (some "A")]), []⟩
    (deser (env) false 9 (.hetero "M" false [.elem "a" none .strict false false, .proxy { cls := "Address", name := "home" }])
      [.name "pair"] st).1.noLines =
      .verr ⟨"M", [⟨"missing", "Field required", [.idx 1, .name "zip"], .dict [("street", .str "A")], some (-1)⟩]⟩ := by
  intro st
  rw [C15_tuples (env) false 8 "M" _ [.name "pair"] st (by
    intro o ho
    have hr : (runTuple (deser (env) false 8) [.name "pair"] [.elem "a" none .strict false false,
        .proxy { cls := "Address", name := "home" }] 0 st).1 = [.ok (.str "1"), .verr _] := rfl
    rw [hr] at ho
    simp only [List.mem_cons, List.not_mem_nil, or_false] at ho
    rcases ho with rfl | rfl
    · exact .inl ⟨_, rfl⟩
    · exact .inr ⟨_, rfl⟩)]
  rfl

end Ex

end PXml
