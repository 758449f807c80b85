import Verif.Lemmas.CompileMono

/-!
# A class definition that succeeds gives the same result when more classes have been built before it
-/

namespace PXml

/-- If `r` succeeds, so does `r'`, with the same result. -/
def Retains {α : Type} (r r' : Except DefErr α) : Prop := ∀ x, r = .ok x → r' = .ok x

theorem Retains.refl {α : Type} (r : Except DefErr α) : Retains r r := fun _ h => h

theorem Retains.error {α : Type} (e : DefErr) (r : Except DefErr α) : Retains (.error e) r := fun _ h => by cases h

theorem Retains.map {α β : Type} {r r' : Except DefErr α} (f : α → β) (h : Retains r r') : Retains (r.map f) (r'.map f) := by
  intro x hx
  cases hr : r with
  | error e => rw [hr] at hx; cases hx
  | ok a => rw [hr] at hx; rw [h a hr]; exact hx

section
variable {rec rec' : Schema → Ctx → Except DefErr Ser} (hr : ∀ s ctx, Retains (rec s ctx) (rec' s ctx))
include hr

theorem parseAll_keeps (ctx : Ctx) : ∀ ss : List Schema, Retains (parseAll rec ctx ss) (parseAll rec' ctx ss)
  | [] => .refl _
  | s :: ss => by
    have ih := parseAll_keeps ctx ss
    unfold parseAll
    cases h : rec s ctx with
    | error e => exact .error _ _
    | ok x =>
      rw [hr _ _ _ h]
      simp only
      cases h' : parseAll rec ctx ss with
      | error e => exact .error _ _
      | ok xs => rw [ih _ h']; exact .refl _

theorem parseProxy_keeps (ctx : Ctx) (s : Schema) : Retains (parseProxy rec ctx s) (parseProxy rec' ctx s) := by
  unfold parseProxy
  cases h : rec s ctx with
  | error e => exact .error _ _
  | ok x => rw [hr _ _ _ h]; exact .refl _

theorem parseProxies_keeps (ctx : Ctx) : ∀ ss : List Schema, Retains (parseProxies rec ctx ss) (parseProxies rec' ctx ss)
  | [] => .refl _
  | s :: ss => by
    have ih := parseProxies_keeps ctx ss
    unfold parseProxies
    cases h : parseProxy rec ctx s with
    | error e => exact .error _ _
    | ok x =>
      rw [parseProxy_keeps hr _ _ _ h]
      simp only
      cases h' : parseProxies rec ctx ss with
      | error e => exact .error _ _
      | ok xs => rw [ih _ h']; exact .refl _

omit hr in
theorem collectionOf_keeps {r r' : Except DefErr Ser} (ctx : Ctx) (h : Retains r r') :
    Retains (collectionOf ctx r) (collectionOf ctx r') := by
  unfold collectionOf
  split
  · exact .refl _
  · exact .refl _
  · exact h

theorem homogOf_keeps (n : Nat) (items : Schema) (ctx : Ctx) : Retains (homogOf rec n items ctx) (homogOf rec' n items ctx) := by
  unfold homogOf
  cases preprocess n items ctx with
  | error e => exact .refl _
  | ok x =>
    simp only
    split
    · exact .refl _
    · split
      · exact .refl _
      · exact collectionOf_keeps _ ((hr _ _).map _)

theorem heteroOf_keeps (n : Nat) (items : List Schema) (ctx : Ctx) : Retains (heteroOf rec n items ctx) (heteroOf rec' n items ctx) := by
  unfold heteroOf
  cases tupleItems n items ctx with
  | error e => exact .refl _
  | ok x => exact collectionOf_keeps _ ((parseAll_keeps hr _ _).map _)

theorem primUnionOf_keeps (cs : List Schema) (ctx : Ctx) : Retains (primUnionOf rec cs ctx) (primUnionOf rec' cs ctx) := by
  unfold primUnionOf
  cases h : parseAll rec ctx cs with
  | error e => exact .error _ _
  | ok x => rw [parseAll_keeps hr _ _ _ h]; exact .refl _

theorem modelUnionOf_keeps (cs : List Schema) (ctx : Ctx) : Retains (modelUnionOf rec cs ctx) (modelUnionOf rec' cs ctx) := by
  unfold modelUnionOf
  cases h : parseProxies rec ctx cs with
  | error e => exact .error _ _
  | ok x => rw [parseProxies_keeps hr _ _ _ h]; exact .refl _

theorem unionOf_keeps (n : Nat) (cs : List Schema) (ctx : Ctx) : Retains (unionOf rec n cs ctx) (unionOf rec' n cs ctx) := by
  unfold unionOf
  cases unionFamilies n cs ctx with
  | error e => exact .refl _
  | ok x =>
    simp only
    split
    · exact .refl _
    · split
      · exact .refl _
      · split
        · exact modelUnionOf_keeps hr _ _
        · split
          · exact primUnionOf_keeps hr _ _
          · exact .refl _

/-- `built'` has all classes of `built`, and possibly more. -/
def Built.Le (built built' : Built) : Prop := ∀ c m, built c = some m → built' c = some m

omit hr in
theorem discriminatorAttr_keeps {built built' : Built} (hb : built.Le built') (discr cls : String) :
    Retains (discriminatorAttr built discr cls) (discriminatorAttr built' discr cls) := by
  unfold discriminatorAttr
  cases h : built cls with
  | none => exact .error _ _
  | some m => rw [hb _ _ h]; exact .refl _

theorem taggedLoopOf_keeps {built built' : Built} (hb : built.Le built') (discr : String) (ctx : Ctx) :
    ∀ (cs : List (Option String × Schema)) (a : Option String) (acc : Dict String Proxy),
      Retains (taggedLoopOf rec built discr ctx cs a acc) (taggedLoopOf rec' built' discr ctx cs a acc)
  | [], _, _ => .refl _
  | (none, _) :: _, _, _ => .refl _
  | (some tag, s) :: cs, a, acc => by
    unfold taggedLoopOf
    cases h : parseProxy rec ctx s with
    | error e => exact .error _ _
    | ok p =>
      rw [parseProxy_keeps hr _ _ _ h]
      simp only
      cases h' : discriminatorAttr built discr p.cls with
      | error e => exact .error _ _
      | ok b =>
        rw [discriminatorAttr_keeps hb _ _ _ h']
        simp only
        split
        · exact .refl _
        · exact taggedLoopOf_keeps hb discr ctx cs _ _

theorem taggedOf_keeps {built built' : Built} (hb : built.Le built') (n : Nat) (discr : Option String)
    (cs : List (Option String × Schema)) (ctx : Ctx) :
    Retains (taggedOf rec n built discr cs ctx) (taggedOf rec' n built' discr cs ctx) := by
  unfold taggedOf
  cases taggedChoices n (cs.map Prod.snd) ctx with
  | error e => exact .refl _
  | ok x =>
    cases discr with
    | none => exact .refl _
    | some d =>
      simp only
      cases h : taggedLoopOf rec built d x cs none [] with
      | error e => exact .error _ _
      | ok y => rw [taggedLoopOf_keeps hr hb _ _ _ _ _ _ h]; exact .refl _

theorem wrapOf_keeps (s : Schema) (ctx : Ctx) : Retains (wrapOf rec s ctx) (wrapOf rec' s ctx) := by
  unfold wrapOf
  cases ctx.path with
  | none => exact .refl _
  | some p =>
    simp only
    cases h : rec s (ctx.child ctx.wrapped) with
    | error e => exact .error _ _
    | ok x => rw [hr _ _ _ h]; exact .refl _

theorem select_keeps (classes : Classes) {built built' : Built} (hb : built.Le built') (n : Nat) (s : Schema) (ctx : Ctx) :
    Retains (select classes built rec n s ctx) (select classes built' rec' n s ctx) := by
  unfold select
  split
  · exact wrapOf_keeps hr _ _
  · cases s with
    | list i => exact homogOf_keeps hr _ _ _
    | tuple is v =>
      cases v with
      | none => exact heteroOf_keeps hr _ _ _
      | some k =>
        cases k with
        | succ k => exact .refl _
        | zero =>
          cases is with
          | nil => exact .refl _
          | cons i is => cases is with
            | nil => exact homogOf_keeps hr _ _ _
            | cons j js => exact .refl _
    | union cs => exact unionOf_keeps hr _ _ _
    | tagged d cs => exact taggedOf_keeps hr hb _ _ _ _
    | call b args =>
      cases b with
      | true => exact heteroOf_keeps hr _ _ _
      | false => exact .refl _
    | _ => exact .refl _

theorem compileFields_keeps (cd : ClassDef) (ctx : Ctx) : ∀ fs : List FieldDef,
    Retains (compileFields rec cd ctx fs) (compileFields rec' cd ctx fs)
  | [] => .refl _
  | f :: fs => by
    have ih := compileFields_keeps cd ctx fs
    unfold compileFields
    split
    · exact ih
    · cases h : rec f.schema (f.ctx ctx) with
      | error e => exact .error _ _
      | ok x =>
        rw [hr _ _ _ h]
        simp only
        cases h' : compileFields rec cd ctx fs with
        | error e => exact .error _ _
        | ok xs => rw [ih _ h']; exact .refl _

theorem compileComputed_keeps (cd : ClassDef) (ctx : Ctx) : ∀ cs : List ComputedDef,
    Retains (compileComputed rec cd ctx cs) (compileComputed rec' cd ctx cs)
  | [] => .refl _
  | c :: cs => by
    have ih := compileComputed_keeps cd ctx cs
    unfold compileComputed
    cases h : rec c.schema (c.ctx ctx) with
    | error e => exact .error _ _
    | ok x =>
      rw [hr _ _ _ h]
      simp only
      cases h' : compileComputed rec cd ctx cs with
      | error e => exact .error _ _
      | ok xs => rw [ih _ h']; exact .refl _

theorem compileClass_keeps (cd : ClassDef) (ctx : Ctx) : Retains (compileClass rec cd ctx) (compileClass rec' cd ctx) := by
  unfold compileClass
  simp only
  generalize cd.inside ctx = ctx
  cases cd.body with
  | fields fs cs =>
    simp only
    cases h : compileFields rec cd ctx fs with
    | error e => exact .error _ _
    | ok a =>
      rw [compileFields_keeps hr _ _ _ _ h]
      simp only
      cases h' : compileComputed rec cd ctx cs with
      | error e => exact .error _ _
      | ok b => rw [compileComputed_keeps hr _ _ _ _ h']; exact .refl _
  | root s infos =>
    simp only
    cases h : rec s { ctx.child (EntityInfo.extract infos) with fieldName := none } with
    | error e => exact .error _ _
    | ok a => rw [hr _ _ _ h]; exact .refl _

end

theorem parse_keeps (classes : Classes) {built built' : Built} (hb : built.Le built') : ∀ (n : Nat) (s : Schema) (ctx : Ctx),
    Retains (parse classes built n s ctx) (parse classes built' n s ctx)
  | 0, s, ctx => .error _ _
  | n + 1, s, ctx => by
    unfold parse
    cases preprocess n s ctx with
    | error e => exact .refl _
    | ok x => exact select_keeps (parse_keeps classes hb n) classes hb n _ _

theorem buildClass_keeps (classes : Classes) {built built' : Built} (hb : built.Le built') (n : Nat) (cd : ClassDef) :
    Retains (buildClass classes built n cd) (buildClass classes built' n cd) := by
  unfold buildClass
  split
  · cases preprocess n cd.schema cd.ctx with
    | error e => exact .refl _
    | ok x =>
      obtain ⟨s, ctx⟩ := x
      cases s with
      | model cls r =>
        simp only
        cases classes cls with
        | none => exact .refl _
        | some cd' => exact (compileClass_keeps (parse_keeps classes hb n) _ _).map _
      | _ => exact .refl _
  · exact .refl _

theorem Below.keeps {α : Type} {r r' : Except DefErr α} (h : Below r r') : Retains r r' := by
  rcases h with h | h
  · rw [h]; exact .error _ _
  · rw [h]; exact .refl _

/-- More fuel does not change the result of a class statement. -/
theorem buildClass_fuel (classes : Classes) (built : Built) {n k : Nat} (hn : n ≤ k) (cd : ClassDef) :
    Retains (buildClass classes built n cd) (buildClass classes built k cd) := by
  unfold buildClass
  split
  · have hp := (preprocess_mono_le hn cd.schema cd.ctx).keeps
    cases h : preprocess n cd.schema cd.ctx with
    | error e => exact .error _ _
    | ok x =>
      rw [hp x h]
      obtain ⟨s, ctx⟩ := x
      cases s with
      | model cls r =>
        simp only
        cases classes cls with
        | none => exact .refl _
        | some cd' => exact (compileClass_keeps (fun s ctx => (parse_mono_le hn s ctx).keeps) _ _).map _
      | _ => exact .refl _
  · exact .refl _

/-- The two do not contradict each other. -/
def Built.Agree (b b' : Built) : Prop := ∀ c m m', b c = some m → b' c = some m' → m = m'

theorem buildClass_agree (classes : Classes) {b b' : Built} (h : b.Agree b') (n : Nat) (cd : ClassDef) {m m' : Option ModelSer}
    (h1 : buildClass classes b n cd = .ok m) (h2 : buildClass classes b' n cd = .ok m') : m = m' := by
  have hj1 : b.Le fun c => (b c).or (b' c) := fun c m hc => by simp [hc]
  have hj2 : b'.Le fun c => (b c).or (b' c) := fun c m hc => by
    cases hb : b c with
    | none => simp [hb, hc]
    | some a => rw [h c a m hb hc] at hb; simp [hb]
  have e1 := buildClass_keeps classes hj1 n cd _ h1
  have e2 := buildClass_keeps classes hj2 n cd _ h2
  rw [e1] at e2
  exact (Except.ok.inj e2)

end PXml
