import Verif.Props.Stricter

/-!
# C96: a tuple of equal items is a list of that length
-/

namespace PXml

theorem list_to_tuple (f : Loc → St → Out Val × St) (g : Ser → Loc → St → Out Val × St) (s : Ser) (hg : ∀ loc st, g s loc st = f loc st) (loc : Loc)
    (fuel idx : Nat) (acc out : List Val) (st : St) (h : (homogLoop f loc fuel idx acc [] st).1 = .ok (out, [])) :
    ∃ vs, out = acc ++ vs ∧ (∀ v ∈ vs, v ≠ .none) ∧ (heteroLoop g loc (List.replicate vs.length s) idx acc [] st).1 = .ok (out, []) := by
  have herr : ∀ fuel idx acc errs st, errs ≠ [] → (homogLoop f loc fuel idx acc errs st).1 ≠ .ok (out, []) := by
    intro fuel
    induction fuel with
    | zero => intro idx acc errs st _ h; cases h
    | succ n ih =>
      intro idx acc errs st he h
      unfold homogLoop at h
      cases hf : f (loc ++ [.idx idx]) st with
      | mk o st' =>
        rw [hf] at h
        cases o with
        | ok v =>
          simp only at h
          split at h
          · injection h with h; injection h with h1 h2; exact he h2
          · exact ih _ _ _ _ he h
        | verr e => exact ih _ _ _ _ (by simp) h
        | crash e => cases h
        | diverge => cases h
  induction fuel generalizing idx acc st with
  | zero => cases h
  | succ n ih =>
    unfold homogLoop at h
    cases hf : f (loc ++ [.idx idx]) st with
    | mk o st' =>
      rw [hf] at h
      cases o with
      | ok v =>
        simp only at h
        split at h
        · injection h with h; injection h with h1 h2
          subst h1
          exact ⟨[], by simp, by simp, rfl⟩
        · rename_i hv
          obtain ⟨vs, h1, h2, h3⟩ := ih _ _ _ h
          refine ⟨v :: vs, by rw [h1]; simp, ?_, ?_⟩
          · intro w hw
            rcases List.mem_cons.1 hw with rfl | hw
            · exact fun h => hv (isNone_iff.2 h)
            · exact h2 w hw
          · simp only [List.length_cons, List.replicate_succ, heteroLoop, hg, hf]
            exact h3
      | verr e => exact absurd h (herr _ _ _ _ _ (by simp))
      | crash e => cases h
      | diverge => cases h

theorem tuple_to_list (f : Loc → St → Out Val × St) (g : Ser → Loc → St → Out Val × St) (s : Ser) (hg : ∀ loc st, g s loc st = f loc st) (loc : Loc)
    (k fuel idx : Nat) (acc vs : List Val) (hk : k < fuel) (st : St) (h : (heteroLoop g loc (List.replicate k s) idx acc [] st).1 = .ok (acc ++ vs, []))
    (hne : ∀ v ∈ vs, v ≠ .none) (hend : (f (loc ++ [.idx (idx + k)]) (heteroLoop g loc (List.replicate k s) idx acc [] st).2).1 = .ok .none) :
    (homogLoop f loc fuel idx acc [] st).1 = .ok (acc ++ vs, []) := by
  have herr : ∀ k idx acc errs out st, errs ≠ [] → (heteroLoop g loc (List.replicate k s) idx acc errs st).1 ≠ .ok (out, []) := by
    intro k
    induction k with
    | zero => intro idx acc errs out st he h; injection h with h; injection h with h1 h2; exact he h2
    | succ k ih =>
      intro idx acc errs out st he h
      simp only [List.replicate_succ, heteroLoop] at h
      cases hf : g s (loc ++ [.idx idx]) st with
      | mk o st' =>
        rw [hf] at h
        cases o with
        | ok v => exact ih _ _ _ _ _ he h
        | verr e => exact ih _ _ _ _ _ (by simp) h
        | crash e => cases h
        | diverge => cases h
  have hacc : ∀ k idx acc out st, (heteroLoop g loc (List.replicate k s) idx acc [] st).1 = .ok (out, []) → ∃ l, out = acc ++ l := by
    intro k
    induction k with
    | zero => intro idx acc out st h; injection h with h; injection h with h1 _; exact ⟨[], by simp [h1]⟩
    | succ k ih =>
      intro idx acc out st h
      simp only [List.replicate_succ, heteroLoop] at h
      cases hf : g s (loc ++ [.idx idx]) st with
      | mk o st' =>
        rw [hf] at h
        cases o with
        | ok v => obtain ⟨l, hl⟩ := ih _ _ _ _ h; exact ⟨v :: l, by rw [hl]; simp⟩
        | verr e => exact absurd h (herr _ _ _ _ _ _ (by simp))
        | crash e => cases h
        | diverge => cases h
  induction k generalizing fuel idx acc vs st with
  | zero =>
    cases fuel with
    | zero => omega
    | succ fuel =>
      simp only [List.replicate_zero, heteroLoop, Out.ok.injEq, Prod.mk.injEq, List.self_eq_append_right, and_true] at h
      subst h
      simp only [List.replicate_zero, heteroLoop, Nat.add_zero] at hend
      unfold homogLoop
      cases hf : f (loc ++ [.idx idx]) st with
      | mk o st' =>
        rw [hf] at hend
        simp only at hend
        subst hend
        simp [Val.isNone]
  | succ k ih =>
    cases fuel with
    | zero => omega
    | succ fuel =>
      simp only [List.replicate_succ, heteroLoop, hg] at h hend
      unfold homogLoop
      cases hf : f (loc ++ [.idx idx]) st with
      | mk o st' =>
        rw [hf] at h hend
        cases o with
        | ok v =>
          obtain ⟨l, hl⟩ := hacc _ _ _ _ _ h
          have hvs : vs = v :: l := by simpa using hl
          subst hvs
          have hv : v.isNone = false := by
            have := hne v (by simp)
            cases v <;> first | rfl | exact absurd rfl this
          simp only [hv, Bool.false_eq_true, if_false]
          have := ih fuel (idx + 1) (acc ++ [v]) l (by omega) st' (by simpa using h) (fun w hw => hne w (by simp [hw]))
            (by rw [show idx + 1 + k = idx + (k + 1) from by omega]; exact hend)
          simpa using this
        | verr e => exact absurd h (herr _ _ _ _ _ _ (by simp))
        | crash e => cases h
        | diverge => cases h

/-- C96, reading: a document from which `List[T]` reads `k` items gives the same items as a tuple of `k` times `T`. -/
theorem C96_list_as_tuple (env : Env) (eas : Bool) (n : Nat) (title title' : Title) (s : Ser) (loc : Loc) (st : St) (vs : List Val)
    (h : (deser env eas (n + 1) (.homog title false s) loc st).1 = .ok (.list vs)) :
    (deser env eas (n + 1) (.hetero title' false (List.replicate vs.length s)) loc st).1 = .ok (.list vs) := by
  change (deserStep env eas (deser env eas n) n _ loc st).1 = _ at h ⊢
  simp only [deserStep, Bool.false_eq_true, if_false] at h ⊢
  cases hl : homogLoop (fun loc st => deser env eas n s loc st) loc n 0 [] [] st with
  | mk o st' =>
    rw [hl] at h
    cases o with
    | ok r =>
      obtain ⟨out, errs⟩ := r
      simp only [homogFinish] at h
      split at h
      · rename_i he
        simp only [List.isEmpty_iff] at he; subst he
        split at h
        · cases h
        · rename_i hne
          injection h with h; injection h with h; subst h
          obtain ⟨ws, h1, h2, h3⟩ := list_to_tuple (fun loc st => deser env eas n s loc st) (deser env eas n) s (fun _ _ => rfl) loc n 0 [] out st (by rw [hl])
          rw [List.nil_append] at h1; subst h1
          cases hh : heteroLoop (deser env eas n) loc (List.replicate out.length s) 0 [] [] st with
          | mk o2 st2 =>
            rw [hh] at h3
            simp only at h3; subst h3
            have hall : out.all Val.isNone = false := by
              cases out with
              | nil => simp at hne
              | cons v vs =>
                rw [List.all_eq_false]
                exact ⟨v, by simp, by rw [isNone_iff]; exact h2 v (by simp)⟩
            simp [heteroFinish, hall]
      · cases h
    | verr e => cases h
    | crash e => cases h
    | diverge => cases h

/-- C96, reading, conversely: if a tuple of `k` times `T` reads `k` items, none of them `None`, and there is no further item, then `List[T]` reads these
items (the loops of the model count their rounds, which is why `k < n` is needed; every `n` large enough will do). -/
theorem C96_tuple_as_list (env : Env) (eas : Bool) (n k : Nat) (hn : k < n) (title title' : Title) (s : Ser) (loc : Loc) (st : St) (vs : List Val)
    (h : (deser env eas (n + 1) (.hetero title false (List.replicate k s)) loc st).1 = .ok (.list vs)) (hne : ∀ v ∈ vs, v ≠ .none)
    (hend : (deser env eas n s (loc ++ [.idx k]) (deser env eas (n + 1) (.hetero title false (List.replicate k s)) loc st).2).1 = .ok .none) :
    (deser env eas (n + 1) (.homog title' false s) loc st).1 = .ok (.list vs) := by
  have hX : deser env eas (n + 1) (.hetero title false (List.replicate k s)) loc st =
    deserStep env eas (deser env eas n) n (.hetero title false (List.replicate k s)) loc st := rfl
  rw [hX] at h hend
  change (deserStep env eas (deser env eas n) n _ loc st).1 = _
  simp only [deserStep, Bool.false_eq_true, if_false] at h hend ⊢
  cases hl : heteroLoop (deser env eas n) loc (List.replicate k s) 0 [] [] st with
  | mk o st' =>
    rw [hl] at h hend
    cases o with
    | ok r =>
      obtain ⟨out, errs⟩ := r
      simp only [heteroFinish] at h hend
      split at h
      · rename_i he
        simp only [List.isEmpty_iff] at he; subst he
        split at h
        · cases h
        · rename_i hall
          injection h with h; injection h with h; subst h
          have := tuple_to_list (fun loc st => deser env eas n s loc st) (deser env eas n) s (fun _ _ => rfl) loc k n 0 [] out hn st (by rw [hl]; rfl) hne
            (by rw [hl]; simpa using hend)
          cases hh : homogLoop (fun loc st => deser env eas n s loc st) loc n 0 [] [] st with
          | mk o2 st2 =>
            rw [hh] at this
            simp only [List.nil_append] at this; subst this
            have hempty : out.isEmpty = false := by
              cases out with
              | nil => simp at hall
              | cons => rfl
            simp [homogFinish, hempty]
      · cases h
    | verr e => cases h
    | crash e => cases h
    | diverge => cases h

/-- C96, writing: a tuple of `k` times `T` is written as the list of its items, unless `skip_empty` leaves out an item that is `None`. -/
theorem C96_write (env : Env) (n : Nat) (fl : Flags) (title title' : Title) (c c' : Bool) (s : Ser) (el : Elem) (vs encs : List Val)
    (hne : fl.skipEmpty = true → ∀ v ∈ vs, v ≠ .none) :
    ser env (n + 1) fl (.homog title c s) el (.list vs) (.list encs) =
      ser env (n + 1) fl (.hetero title' c' (List.replicate vs.length s)) el (.list vs) (.list encs) := by
  change serStep env (ser env n) fl _ el _ _ = serStep env (ser env n) fl _ el _ _
  simp only [serStep, Val.isNone, Bool.false_eq_true, if_false]
  have key : ∀ (vs encs : List Val) (el : Elem), (fl.skipEmpty = true → ∀ v ∈ vs, v ≠ .none) →
      serItems (ser env n fl s) fl vs encs el = serTuple (ser env n fl) (List.replicate vs.length s) vs encs el := by
    intro vs
    induction vs with
    | nil => intro encs el _; simp [serItems, serTuple]
    | cons v vs ih =>
      intro encs el hne
      cases encs with
      | nil => simp [serItems, serTuple]
      | cons enc encs =>
        simp only [List.length_cons, List.replicate_succ, serItems, serTuple]
        rw [if_neg]
        · cases ser env n fl s el v enc with
          | ok e => exact ih encs e (fun h w hw => hne h w (by simp [hw]))
          | _ => rfl
        · simp only [Bool.and_eq_true, not_and]
          intro h
          rw [isNone_iff]
          exact hne h v (by simp)
  rw [key vs encs el hne]
  split
  · rename_i h
    simp only [Bool.and_eq_true, List.isEmpty_iff] at h
    rw [h.2]; rfl
  · simp

/-! ## Non-vacuity -/

namespace Ex

/-- Three scores, then something else. -/
def scoresDoc : Elem := fromNative .lxml (el "doc" none [el "s" (some "1"), el "s" (some "2"), el "s" (some "3"), el "t"])

def scoreSer : Ser := .elem "s" none .strict false false

/-- The hypotheses of the reading theorems hold. -/
example :
    (deser env false 6 (.homog "A" false scoreSer) [] ⟨scoresDoc, []⟩).1 = .ok (.list [.str "1", .str "2", .str "3"]) ∧
    (deser env false 6 (.hetero "A" false (List.replicate 3 scoreSer)) [] ⟨scoresDoc, []⟩).1 = .ok (.list [.str "1", .str "2", .str "3"]) ∧
    (deser env false 5 scoreSer ([] ++ [.idx 3]) (deser env false 6 (.hetero "A" false (List.replicate 3 scoreSer)) [] ⟨scoresDoc, []⟩).2).1 = .ok .none :=
  ⟨by kernel_rfl, by kernel_rfl, by kernel_rfl⟩

end Ex

/-- C96: that there is no further item is needed: a tuple of two reads two of three items, the list all of them. -/
theorem C96_end_needed :
    (deser Ex.env false 6 (.hetero "A" false (List.replicate 2 Ex.scoreSer)) [] ⟨Ex.scoresDoc, []⟩).1 = .ok (.list [.str "1", .str "2"]) ∧
    (deser Ex.env false 6 (.homog "A" false Ex.scoreSer) [] ⟨Ex.scoresDoc, []⟩).1 = .ok (.list [.str "1", .str "2", .str "3"]) :=
  ⟨by kernel_rfl, by kernel_rfl⟩

end PXml
