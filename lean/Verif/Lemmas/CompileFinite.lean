import Verif.Lemmas.CompileMono

/-!
# Class definitions terminate on types that unfold to finite trees
-/

namespace PXml

/-- The computation ends, with a result or an error. -/
def Stops {α : Type} (r : Except DefErr α) : Prop := r ≠ .error .diverge

theorem Stops.map {α β : Type} {r : Except DefErr α} {f : α → β} (h : Stops r) : Stops (r.map f) := by
  cases r with
  | ok x => intro h; cases h
  | error e => intro h'; cases h'; exact h rfl

theorem fromAlias_stops (tag : String) (ns : Option String) (m : Option NsMap) (b : Bool) : Stops (QName.fromAlias tag ns m b) := by
  unfold QName.fromAlias
  repeat' split
  all_goals (intro h; cases h)

theorem elementName_stops (ctx : Ctx) : Stops (elementName ctx) := by
  unfold elementName
  simp only
  split
  · intro h; cases h
  · exact (fromAlias_stops _ _ _ _).map

theorem attrOf_stops (ctx : Ctx) : Stops (attrOf ctx) := by
  unfold attrOf
  simp only
  generalize selectNs [ctx.ns, if ctx.nsAttrs then ctx.parentNs else none] = ns
  by_cases hn : ns = some ""
  · rw [if_pos hn]; intro h; cases h
  · rw [if_neg hn]
    split
    · intro h; cases h
    · exact (fromAlias_stops _ _ _ _).map

theorem primOf_stops (ctx : Ctx) : Stops (primOf ctx) := by
  unfold primOf
  split
  · exact (elementName_stops _).map
  · exact attrOf_stops _
  · intro h; cases h
  · intro h; cases h

theorem mappingOf_stops (ctx : Ctx) : Stops (mappingOf ctx) := by
  unfold mappingOf
  split
  · exact (elementName_stops _).map
  · intro h; cases h
  · intro h; cases h
  · intro h; cases h

theorem rawOf_stops (ctx : Ctx) : Stops (rawOf ctx) := by
  unfold rawOf
  split
  · exact (elementName_stops _).map
  · exact (elementName_stops _).map
  · intro h; cases h
  · intro h; cases h

theorem modelOf_stops (classes : Classes) (cls : String) (ctx : Ctx) : Stops (modelOf classes cls ctx) := by
  unfold modelOf
  split
  · intro h; cases h
  · intro h; cases h
  · refine Stops.map ?_
    unfold proxyOf
    split
    · intro h; cases h
    · exact (fromAlias_stops _ _ _ _).map

theorem pathNames_stops (ns : Option String) (m : NsMap) : ∀ ps : List String, Stops (pathNames ns m ps)
  | [] => by intro h; cases h
  | p :: ps => by
    unfold pathNames
    have h1 := fromAlias_stops p ns (some m) false
    have h2 := pathNames_stops ns m ps
    cases h : QName.fromAlias p ns (some m) false with
    | error e => rw [h] at h1; exact fun h' => by cases h'; exact h1 rfl
    | ok q =>
      cases h : pathNames ns m ps with
      | error e => rw [h] at h2; exact fun h' => by cases h'; exact h2 rfl
      | ok q => intro h; cases h

theorem discriminatorAttr_stops (built : Built) (d c : String) : Stops (discriminatorAttr built d c) := by
  unfold discriminatorAttr
  repeat' split
  all_goals (intro h; cases h)

/-- Preprocessing ends and leaves the context as it is. -/
def Calm (n : Nat) (s : Schema) (ctx : Ctx) : Prop :=
  Stops (preprocess n s ctx) ∧ ∀ t ctx', preprocess n s ctx = .ok (t, ctx') → ctx' = ctx

theorem primitives_stops {n : Nat} {ctx : Ctx} : ∀ {ss : List Schema}, (∀ s ∈ ss, Calm n s ctx) → Stops (primitives n ctx ss)
  | [], _ => by intro h; cases h
  | s :: ss, h => by
    unfold primitives
    obtain ⟨h1, -⟩ := h s (by simp)
    have ih := primitives_stops fun s hs => h s (List.mem_cons_of_mem _ hs)
    cases hp : preprocess n s ctx with
    | error e => rw [hp] at h1; exact fun h' => by cases h'; exact h1 rfl
    | ok x =>
      simp only
      split
      · exact ih
      · intro h; cases h

theorem tupleItems_stops {n : Nat} {ctx : Ctx} : ∀ {ss : List Schema}, (∀ s ∈ ss, Calm n s ctx) →
    Stops (tupleItems n ss ctx) ∧ ∀ ctx', tupleItems n ss ctx = .ok ctx' → ctx' = ctx
  | [], _ => ⟨(by intro h; cases h), fun ctx' h => by cases h; rfl⟩
  | s :: ss, h => by
    unfold tupleItems
    obtain ⟨h1, h2⟩ := h s (by simp)
    have ih := tupleItems_stops fun s hs => h s (List.mem_cons_of_mem _ hs)
    cases hp : preprocess n s ctx with
    | error e =>
      rw [hp] at h1
      exact ⟨fun h' => by cases h'; exact h1 rfl, fun ctx' h => by cases h⟩
    | ok x =>
      obtain ⟨t, c⟩ := x
      have := h2 t c hp
      subst this
      simp only
      split
      · exact ⟨(by intro h; cases h), fun ctx' h => by cases h⟩
      · split
        · exact ⟨(by intro h; cases h), fun ctx' h => by cases h⟩
        · exact ih

theorem unionFamilies_stops {n : Nat} {ctx : Ctx} : ∀ {ss : List Schema}, (∀ s ∈ ss, Calm n s ctx) →
    Stops (unionFamilies n ss ctx) ∧ ∀ r, unionFamilies n ss ctx = .ok r → r.2 = ctx
  | [], _ => ⟨(by intro h; cases h), fun ctx' h => by cases h; rfl⟩
  | s :: ss, h => by
    unfold unionFamilies
    obtain ⟨h1, h2⟩ := h s (by simp)
    have ih := unionFamilies_stops fun s hs => h s (List.mem_cons_of_mem _ hs)
    cases hp : preprocess n s ctx with
    | error e =>
      rw [hp] at h1
      exact ⟨fun h' => by cases h'; exact h1 rfl, fun ctx' h => by cases h⟩
    | ok x =>
      obtain ⟨t, c⟩ := x
      have := h2 t c hp
      subst this
      simp only
      cases hu : unionFamilies n ss c with
      | error e =>
        have hne : e ≠ .diverge := fun he => ih.1 (by rw [hu, he])
        split
        all_goals exact ⟨(by intro h; cases h; try exact hne rfl), fun ctx' h => by cases h⟩
      | ok r =>
        have hr := ih.2 r hu
        split
        · exact ⟨(by intro h; cases h), fun ctx' h => by cases h; exact hr⟩
        · exact ⟨(by intro h; cases h), fun ctx' h => by cases h; exact hr⟩
        · exact ⟨(by intro h; cases h), fun ctx' h => by cases h; exact hr⟩
        · exact ⟨(by intro h; cases h), fun ctx' h => by cases h⟩

theorem taggedChoices_stops {n : Nat} {ctx : Ctx} : ∀ {ss : List Schema}, (∀ s ∈ ss, Calm n s ctx) →
    Stops (taggedChoices n ss ctx) ∧ ∀ ctx', taggedChoices n ss ctx = .ok ctx' → ctx' = ctx
  | [], _ => ⟨(by intro h; cases h), fun ctx' h => by cases h; rfl⟩
  | s :: ss, h => by
    unfold taggedChoices
    obtain ⟨h1, h2⟩ := h s (by simp)
    have ih := taggedChoices_stops fun s hs => h s (List.mem_cons_of_mem _ hs)
    cases hp : preprocess n s ctx with
    | error e =>
      rw [hp] at h1
      exact ⟨fun h' => by cases h'; exact h1 rfl, fun ctx' h => by cases h⟩
    | ok x =>
      obtain ⟨t, c⟩ := x
      have := h2 t c hp
      subst this
      cases t with
      | model cls r => cases r with
        | false => exact ih
        | true => exact ⟨(by intro h; cases h), fun ctx' h => by cases h⟩
      | _ => exact ⟨(by intro h; cases h), fun ctx' h => by cases h⟩

section
variable {rec : Schema → Ctx → Except DefErr Ser} {ctx : Ctx}

theorem parseAll_stops : ∀ {ss : List Schema}, (∀ s ∈ ss, Stops (rec s ctx)) → Stops (parseAll rec ctx ss)
  | [], _ => by intro h; cases h
  | s :: ss, h => by
    unfold parseAll
    have h1 := h s (by simp)
    have ih := parseAll_stops fun s hs => h s (List.mem_cons_of_mem _ hs)
    cases hp : rec s ctx with
    | error e => rw [hp] at h1; exact fun h' => by cases h'; exact h1 rfl
    | ok x =>
      cases hq : parseAll rec ctx ss with
      | error e => rw [hq] at ih; exact fun h' => by cases h'; exact ih rfl
      | ok x => intro h; cases h

theorem parseProxy_stops {s : Schema} (h : Stops (rec s ctx)) : Stops (parseProxy rec ctx s) := by
  unfold parseProxy
  cases hp : rec s ctx with
  | error e => rw [hp] at h; exact fun h' => by cases h'; exact h rfl
  | ok x => cases x <;> (intro h; cases h)

theorem parseProxies_stops : ∀ {ss : List Schema}, (∀ s ∈ ss, Stops (rec s ctx)) → Stops (parseProxies rec ctx ss)
  | [], _ => by intro h; cases h
  | s :: ss, h => by
    unfold parseProxies
    have h1 := parseProxy_stops (h s (by simp))
    have ih := parseProxies_stops fun s hs => h s (List.mem_cons_of_mem _ hs)
    cases hp : parseProxy rec ctx s with
    | error e => rw [hp] at h1; exact fun h' => by cases h'; exact h1 rfl
    | ok x =>
      cases hq : parseProxies rec ctx ss with
      | error e => rw [hq] at ih; exact fun h' => by cases h'; exact ih rfl
      | ok x => intro h; cases h

theorem taggedLoopOf_stops (built : Built) (discr : String) : ∀ {cs : List (Option String × Schema)} {a : Option String}
    {acc : Dict String Proxy}, (∀ c ∈ cs, Stops (rec c.2 ctx)) → Stops (taggedLoopOf rec built discr ctx cs a acc)
  | [], _, _, _ => by intro h; cases h
  | (none, _) :: _, _, _, _ => by intro h; cases h
  | (some tag, s) :: cs, a, acc, h => by
    unfold taggedLoopOf
    have h1 := parseProxy_stops (h (some tag, s) (by simp))
    cases hp : parseProxy rec ctx s with
    | error e => rw [hp] at h1; exact fun h' => by cases h'; exact h1 rfl
    | ok p =>
      simp only
      have h2 := discriminatorAttr_stops built discr p.cls
      cases hd : discriminatorAttr built discr p.cls with
      | error e => rw [hd] at h2; exact fun h' => by cases h'; exact h2 rfl
      | ok b =>
        simp only
        split
        · intro h; cases h
        · exact taggedLoopOf_stops built discr fun c hc => h c (List.mem_cons_of_mem _ hc)

theorem collectionOf_stops {r : Except DefErr Ser} (h : Stops r) : Stops (collectionOf ctx r) := by
  unfold collectionOf
  split
  · intro h; cases h
  · intro h; cases h
  · exact h

theorem homogOf_stops {n : Nat} {items : Schema} (h1 : Calm n items ctx) (h2 : Stops (rec items ctx)) :
    Stops (homogOf rec n items ctx) := by
  unfold homogOf
  cases hp : preprocess n items ctx with
  | error e => have := h1.1; rw [hp] at this; exact fun h' => by cases h'; exact this rfl
  | ok x =>
    obtain ⟨t, c⟩ := x
    have := h1.2 t c hp
    subst this
    simp only
    split
    · intro h; cases h
    · split
      · intro h; cases h
      · exact collectionOf_stops h2.map

theorem heteroOf_stops {n : Nat} {items : List Schema} (h1 : ∀ i ∈ items, Calm n i ctx) (h2 : ∀ i ∈ items, Stops (rec i ctx)) :
    Stops (heteroOf rec n items ctx) := by
  unfold heteroOf
  obtain ⟨h3, h4⟩ := tupleItems_stops h1
  cases hp : tupleItems n items ctx with
  | error e => rw [hp] at h3; exact fun h' => by cases h'; exact h3 rfl
  | ok c =>
    have := h4 c hp
    subst this
    exact collectionOf_stops (parseAll_stops h2).map

theorem unionOf_stops {n : Nat} {cs : List Schema} (h1 : ∀ i ∈ cs, Calm n i ctx) (h2 : ∀ i ∈ cs, Stops (rec i ctx)) :
    Stops (unionOf rec n cs ctx) := by
  unfold unionOf
  obtain ⟨h3, h4⟩ := unionFamilies_stops h1
  cases hp : unionFamilies n cs ctx with
  | error e => rw [hp] at h3; exact fun h' => by cases h'; exact h3 rfl
  | ok r =>
    obtain ⟨fams, c⟩ := r
    have := h4 _ hp
    simp only at this
    subst this
    simp only
    split
    · intro h; cases h
    · split
      · intro h; cases h
      · split
        · unfold modelUnionOf
          have h5 := parseProxies_stops h2
          cases hq : parseProxies rec c cs with
          | error e => rw [hq] at h5; exact fun h' => by cases h'; exact h5 rfl
          | ok l => cases l <;> (intro h; cases h)
        · split
          · unfold primUnionOf
            have h5 := parseAll_stops h2
            cases hq : parseAll rec c cs with
            | error e => rw [hq] at h5; exact fun h' => by cases h'; exact h5 rfl
            | ok l =>
              cases l with
              | nil => intro h; cases h
              | cons x xs =>
                simp only
                split <;> (intro h; cases h)
          · intro h; cases h

theorem taggedOf_stops {n : Nat} (built : Built) (discr : Option String) {cs : List (Option String × Schema)}
    (h1 : ∀ c ∈ cs, Calm n c.2 ctx) (h2 : ∀ c ∈ cs, Stops (rec c.2 ctx)) : Stops (taggedOf rec n built discr cs ctx) := by
  unfold taggedOf
  obtain ⟨h3, h4⟩ := taggedChoices_stops (n := n) (ctx := ctx) (ss := cs.map Prod.snd) (by
    intro s hs
    obtain ⟨c, hc, rfl⟩ := List.mem_map.1 hs
    exact h1 c hc)
  cases hp : taggedChoices n (cs.map Prod.snd) ctx with
  | error e => rw [hp] at h3; exact fun h' => by cases h'; exact h3 rfl
  | ok c =>
    have := h4 _ hp
    subst this
    cases discr with
    | none => intro h; cases h
    | some d =>
      simp only
      have h5 := taggedLoopOf_stops (rec := rec) (ctx := c) built d (a := none) (acc := []) h2
      cases hq : taggedLoopOf rec built d c cs none [] with
      | error e => rw [hq] at h5; exact fun h' => by cases h'; exact h5 rfl
      | ok r =>
        obtain ⟨o, l⟩ := r
        cases o <;> (intro h; cases h)

theorem wrapOf_stops {s : Schema} (h : Stops (rec s (ctx.child ctx.wrapped))) : Stops (wrapOf rec s ctx) := by
  unfold wrapOf
  split
  · intro h; cases h
  · simp only
    cases hp : rec s (ctx.child ctx.wrapped) with
    | error e => rw [hp] at h; exact fun h' => by cases h'; exact h rfl
    | ok x =>
      simp only
      split
      · rename_i hq
        have := pathNames_stops (selectNs [ctx.ns, ctx.parentNs]) (mergeNsmaps [ctx.nsmap, ctx.parentNsmap]) (splitPath ‹String›)
        rw [hq] at this
        exact fun h' => by cases h'; exact this rfl
      · intro h; cases h
end

/-- `parse` ends on the schema, for all contexts with the entity and the definitions. -/
def Ends (classes : Classes) (built : Built) (d : Dict String Schema) (info : Option EntityInfo) (s : Schema) : Prop :=
  ∃ N, ∀ n, N ≤ n → ∀ ctx : Ctx, ctx.defs = d → ctx.info = info → Calm n s ctx ∧ Stops (parse classes built n s ctx)

variable {classes : Classes} {built : Built} {d : Dict String Schema} {info : Option EntityInfo}

/-- Preprocessing steps do not matter. -/
theorem Ends.step {s i : Schema} (h : Ends classes built d info i)
    (hs : ∀ n ctx, ctx.defs = d → preprocess (n + 1) s ctx = preprocess n i ctx) : Ends classes built d info s := by
  obtain ⟨N, hN⟩ := h
  refine ⟨N + 2, fun n hn ctx hd hi => ?_⟩
  obtain ⟨k, rfl⟩ : ∃ k, n = k + 2 := ⟨n - 2, by omega⟩
  obtain ⟨h1, -⟩ := hN (k + 1) (by omega) ctx hd hi
  obtain ⟨h2, h3⟩ := hN (k + 2) (by omega) ctx hd hi
  obtain ⟨h4, -⟩ := hN k (by omega) ctx hd hi
  have e : preprocess (k + 1) i ctx = preprocess k i ctx := by
    rcases preprocess_mono k i ctx with h | h
    · exact absurd h h4.1
    · exact h
  refine ⟨?_, ?_⟩
  · unfold Calm
    rw [hs _ _ hd]
    exact h1
  · have : parse classes built (k + 2) s ctx = parse classes built (k + 2) i ctx := by
      unfold parse
      rw [hs _ _ hd, e]
    rw [this]
    exact h3

/-- The other types: their parts matter. -/
theorem Ends.select {s : Schema} (parts : List Schema) (hpre : ∀ n ctx, preprocess (n + 1) s ctx = .ok (s, ctx))
    (hparts : ∀ i ∈ parts, Ends classes built d info i)
    (hw : info.bind EntityInfo.location = some .wrapped → Ends classes built d (info.bind EntityInfo.wrapped) s)
    (hsel : ∀ rec n ctx, ctx.location ≠ some .wrapped → (∀ i ∈ parts, Calm n i ctx) → (∀ i ∈ parts, Stops (rec i ctx)) →
      Stops (PXml.select classes built rec n s ctx)) : Ends classes built d info s := by
  obtain ⟨N, hN⟩ := exists_bound (l := parts)
    (P := fun i n => ∀ ctx : Ctx, ctx.defs = d → ctx.info = info → Calm n i ctx ∧ Stops (parse classes built n i ctx)) hparts
  have hq : ∀ n ctx, Calm (n + 1) s ctx := by
    intro n ctx
    unfold Calm
    rw [hpre]
    exact ⟨(by intro h; cases h), fun t c h => by cases h; rfl⟩
  have hp : ∀ n ctx, parse classes built (n + 2) s ctx = PXml.select classes built (parse classes built (n + 1)) (n + 1) s ctx := by
    intro n ctx
    rw [parse, hpre]
  by_cases hwr : info.bind EntityInfo.location = some .wrapped
  · obtain ⟨M, hM⟩ := hw hwr
    refine ⟨M + 2, fun n hn ctx hd hi => ?_⟩
    obtain ⟨k, rfl⟩ : ∃ k, n = k + 2 := ⟨n - 2, by omega⟩
    refine ⟨hq _ _, ?_⟩
    rw [hp]
    unfold PXml.select
    rw [if_pos (by subst hi; exact hwr)]
    refine wrapOf_stops (hM (k + 1) (by omega) _ ?_ ?_).2
    · exact hd
    · subst hi; rfl
  · refine ⟨N + 2, fun n hn ctx hd hi => ?_⟩
    obtain ⟨k, rfl⟩ : ∃ k, n = k + 2 := ⟨n - 2, by omega⟩
    refine ⟨hq _ _, ?_⟩
    rw [hp]
    exact hsel _ _ _ (by subst hi; exact hwr) (fun i h => (hN _ (by omega) i h ctx hd hi).1)
      (fun i h => (hN _ (by omega) i h ctx hd hi).2)

theorem finite_ends_aux (k : Nat) : ∀ info : Option EntityInfo, sizeOf info ≤ k → ∀ {s : Schema}, s.Finite d →
    Ends classes built d info s := by
  induction k with
  | zero => intro info h; cases info <;> simp at h
  | succ k ihk =>
    intro info hk s hs
    have hw : ∀ {s : Schema}, s.Finite d → info.bind EntityInfo.location = some .wrapped →
        Ends classes built d (info.bind EntityInfo.wrapped) s := by
      intro s hs hl
      refine ihk _ ?_ hs
      cases info with
      | none => cases hl
      | some i =>
        cases i with
        | mk l p n m nl w =>
          change sizeOf w ≤ k
          simp only [Option.some.sizeOf_spec, EntityInfo.mk.sizeOf_spec] at hk
          omega
    induction hs with
    | prim =>
      exact .select [] (fun _ _ => rfl) (by simp) (hw .prim) fun rec n ctx hl _ _ => by
        unfold PXml.select; rw [if_neg hl]; exact primOf_stops _
    | model =>
      exact .select [] (fun _ _ => rfl) (by simp) (hw .model) fun rec n ctx hl _ _ => by
        unfold PXml.select; rw [if_neg hl]; exact modelOf_stops _ _ _
    | isInst =>
      exact .select [] (fun _ _ => rfl) (by simp) (hw .isInst) fun rec n ctx hl _ _ => by
        unfold PXml.select
        rw [if_neg hl]
        simp only
        split
        · exact rawOf_stops _
        · exact primOf_stops _
    | other =>
      refine ⟨2, fun n hn ctx _ _ => ?_⟩
      obtain ⟨k, rfl⟩ : ∃ k, n = k + 2 := ⟨n - 2, by omega⟩
      refine ⟨⟨(by intro h; cases h), fun t c h => by cases h⟩, by intro h; cases h⟩
    | plainNone =>
      refine ⟨2, fun n hn ctx _ _ => ?_⟩
      obtain ⟨k, rfl⟩ : ∃ k, n = k + 2 := ⟨n - 2, by omega⟩
      refine ⟨⟨(by intro h; cases h), fun t c h => by cases h⟩, by intro h; cases h⟩
    | @unknown r hr =>
      refine ⟨2, fun n hn ctx hd _ => ?_⟩
      obtain ⟨k, rfl⟩ : ∃ k, n = k + 2 := ⟨n - 2, by omega⟩
      subst hd
      have e : ∀ m, preprocess (m + 1) (.ref r) ctx = .error (.modelError ("schema reference " ++ r ++ " not found")) := by
        intro m
        unfold preprocess
        simp only [hr]
      refine ⟨?_, ?_⟩
      · unfold Calm
        rw [e]
        exact ⟨(by intro h; cases h), fun t c h => by cases h⟩
      · unfold parse
        rw [e]
        intro h; cases h
    | func _ ih => exact ih.step fun _ _ _ => rfl
    | plainSome _ ih => exact ih.step fun _ _ _ => rfl
    | default _ ih => exact ih.step fun _ _ _ => rfl
    | nullable _ ih => exact ih.step fun _ _ _ => rfl
    | jsonOrPython _ ih => exact ih.step fun _ _ _ => rfl
    | @ref r s hr _ ih =>
      refine ih.step fun n ctx hd => ?_
      subst hd
      rw [preprocess]
      simp only [hr]
    | @list i h ih =>
      exact .select [i] (fun _ _ => rfl) (by simpa using ih) (hw (.list h)) fun rec n ctx hl h1 h2 => by
        unfold PXml.select
        rw [if_neg hl]
        exact homogOf_stops (h1 i (by simp)) (h2 i (by simp))
    | @tuple is v h ih =>
      exact .select is (fun _ _ => rfl) ih (hw (.tuple h)) fun rec n ctx hl h1 h2 => by
        unfold PXml.select
        rw [if_neg hl]
        cases v with
        | none => exact heteroOf_stops h1 h2
        | some k =>
          cases k with
          | succ k => intro h; cases h
          | zero =>
            cases is with
            | nil => intro h; cases h
            | cons i is => cases is with
              | nil => exact homogOf_stops (h1 i (by simp)) (h2 i (by simp))
              | cons j js => intro h; cases h
    | @dict a b h1 h2 ih1 ih2 =>
      exact .select [a, b] (fun _ _ => rfl) (by simpa using ⟨ih1, ih2⟩) (hw (.dict h1 h2))
        fun rec n ctx hl h3 h4 => by
          unfold PXml.select
          rw [if_neg hl]
          simp only
          have := primitives_stops h3
          cases hp : primitives n ctx [a, b] with
          | error e => rw [hp] at this; exact fun h' => by cases h'; exact this rfl
          | ok u => exact mappingOf_stops _
    | @typedDict vs h ih =>
      exact .select vs (fun _ _ => rfl) ih (hw (.typedDict h)) fun rec n ctx hl h3 h4 => by
        unfold PXml.select
        rw [if_neg hl]
        simp only
        have := primitives_stops h3
        cases hp : primitives n ctx vs with
        | error e => rw [hp] at this; exact fun h' => by cases h'; exact this rfl
        | ok u => exact mappingOf_stops _
    | @union cs h ih =>
      exact .select cs (fun _ _ => rfl) ih (hw (.union h)) fun rec n ctx hl h3 h4 => by
        unfold PXml.select
        rw [if_neg hl]
        exact unionOf_stops h3 h4
    | @tagged o cs h ih =>
      refine .select (cs.map Prod.snd) (fun _ _ => rfl) ?_ (hw (.tagged h)) fun rec n ctx hl h3 h4 => ?_
      · intro i hi
        obtain ⟨c, hc, rfl⟩ := List.mem_map.1 hi
        exact ih c hc
      · unfold PXml.select
        rw [if_neg hl]
        exact taggedOf_stops built o (fun c hc => h3 _ (List.mem_map.2 ⟨c, hc, rfl⟩)) (fun c hc => h4 _ (List.mem_map.2 ⟨c, hc, rfl⟩))
    | @call b args h ih =>
      exact .select args (fun _ _ => rfl) ih (hw (.call h)) fun rec n ctx hl h3 h4 => by
        unfold PXml.select
        rw [if_neg hl]
        cases b with
        | true => exact heteroOf_stops h3 h4
        | false => intro h; cases h

theorem finite_ends {s : Schema} (hs : s.Finite d) (ctx : Ctx) (hd : ctx.defs = d) :
    ∃ N, ∀ n, N ≤ n → Stops (parse classes built n s ctx) := by
  obtain ⟨N, hN⟩ := finite_ends_aux (classes := classes) (built := built) _ ctx.info (Nat.le_refl _) hs
  exact ⟨N, fun n hn => (hN n hn ctx hd rfl).2⟩

end PXml
