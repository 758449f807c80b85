import Verif.Lemmas.CompileSupported

/-!
# More fuel does not change the result of a class definition
-/

namespace PXml

/-- `r` did not terminate, or `r'` is the same. -/
def Below {α : Type} (r r' : Except DefErr α) : Prop := r = .error .diverge ∨ r' = r

theorem Below.refl {α : Type} (r : Except DefErr α) : Below r r := Or.inr rfl

theorem Below.trans {α : Type} {a b c : Except DefErr α} (h1 : Below a b) (h2 : Below b c) : Below a c := by
  rcases h1 with h1 | h1
  · exact Or.inl h1
  · subst h1; exact h2

theorem Below.map {α β : Type} {r r' : Except DefErr α} (f : α → β) (h : Below r r') : Below (r.map f) (r'.map f) := by
  rcases h with h | h
  · subst h; exact Or.inl rfl
  · subst h; exact .refl _

theorem preprocess_mono : ∀ (n : Nat) (s : Schema) (ctx : Ctx), Below (preprocess n s ctx) (preprocess (n + 1) s ctx)
  | 0, s, ctx => Or.inl rfl
  | n + 1, s, ctx => by
    cases s with
    | funcPlain o => cases o with
      | none => exact .refl _
      | some i => exact preprocess_mono n _ _
    | func i => exact preprocess_mono n _ _
    | default i => exact preprocess_mono n _ _
    | nullable i => exact preprocess_mono n _ _
    | jsonOrPython i => exact preprocess_mono n _ _
    | definitions d i => exact preprocess_mono n _ _
    | ref r =>
      unfold preprocess
      simp only
      cases ctx.defs.get? r with
      | none => exact .refl _
      | some s => exact preprocess_mono n _ _
    | _ => exact .refl _

section
variable {rec rec' : Schema → Ctx → Except DefErr Ser} (hr : ∀ s ctx, Below (rec s ctx) (rec' s ctx))
include hr

theorem parseAll_mono (ctx : Ctx) : ∀ ss : List Schema, Below (parseAll rec ctx ss) (parseAll rec' ctx ss)
  | [] => .refl _
  | s :: ss => by
    have ih := parseAll_mono ctx ss
    unfold parseAll
    rcases hr s ctx with h | h
    · rw [h]; exact Or.inl rfl
    · rw [h]
      cases rec s ctx with
      | error e => exact .refl _
      | ok x =>
        rcases ih with h | h
        · simp only [h]; exact Or.inl rfl
        · simp only [h]; exact .refl _

theorem parseProxy_mono (ctx : Ctx) (s : Schema) : Below (parseProxy rec ctx s) (parseProxy rec' ctx s) := by
  unfold parseProxy
  rcases hr s ctx with h | h
  · rw [h]; exact Or.inl rfl
  · rw [h]; exact .refl _

theorem parseProxies_mono (ctx : Ctx) : ∀ ss : List Schema, Below (parseProxies rec ctx ss) (parseProxies rec' ctx ss)
  | [] => .refl _
  | s :: ss => by
    have ih := parseProxies_mono ctx ss
    unfold parseProxies
    rcases parseProxy_mono hr ctx s with h | h
    · rw [h]; exact Or.inl rfl
    · rw [h]
      cases parseProxy rec ctx s with
      | error e => exact .refl _
      | ok x =>
        rcases ih with h | h
        · simp only [h]; exact Or.inl rfl
        · simp only [h]; exact .refl _

omit hr in
theorem collectionOf_mono {r r' : Except DefErr Ser} (ctx : Ctx) (h : Below r r') :
    Below (collectionOf ctx r) (collectionOf ctx r') := by
  unfold collectionOf
  split
  · exact .refl _
  · exact .refl _
  · exact h

theorem homogOf_mono (n : Nat) (items : Schema) (ctx : Ctx) : Below (homogOf rec n items ctx) (homogOf rec' (n + 1) items ctx) := by
  unfold homogOf
  rcases preprocess_mono n items ctx with h | h
  · rw [h]; exact Or.inl rfl
  · rw [h]
    cases preprocess n items ctx with
    | error e => exact .refl _
    | ok x =>
      simp only
      split
      · exact .refl _
      · split
        · exact .refl _
        · exact collectionOf_mono _ ((hr _ _).map _)

omit hr in
theorem tupleItems_mono (n : Nat) : ∀ (ss : List Schema) (ctx : Ctx), Below (tupleItems n ss ctx) (tupleItems (n + 1) ss ctx)
  | [], _ => .refl _
  | s :: ss, ctx => by
    unfold tupleItems
    rcases preprocess_mono n s ctx with h | h
    · rw [h]; exact Or.inl rfl
    · rw [h]
      cases preprocess n s ctx with
      | error e => exact .refl _
      | ok x =>
        simp only
        split
        · exact .refl _
        · split
          · exact .refl _
          · exact tupleItems_mono n ss _

theorem heteroOf_mono (n : Nat) (items : List Schema) (ctx : Ctx) : Below (heteroOf rec n items ctx) (heteroOf rec' (n + 1) items ctx) := by
  unfold heteroOf
  rcases tupleItems_mono n items ctx with h | h
  · rw [h]; exact Or.inl rfl
  · rw [h]
    cases tupleItems n items ctx with
    | error e => exact .refl _
    | ok x => exact collectionOf_mono _ ((parseAll_mono hr _ _).map _)

omit hr in
theorem primitives_mono (n : Nat) (ctx : Ctx) : ∀ (ss : List Schema), Below (primitives n ctx ss) (primitives (n + 1) ctx ss)
  | [] => .refl _
  | s :: ss => by
    unfold primitives
    rcases preprocess_mono n s ctx with h | h
    · rw [h]; exact Or.inl rfl
    · rw [h]
      cases preprocess n s ctx with
      | error e => exact .refl _
      | ok x =>
        simp only
        split
        · exact primitives_mono n ctx ss
        · exact .refl _

theorem primUnionOf_mono (cs : List Schema) (ctx : Ctx) : Below (primUnionOf rec cs ctx) (primUnionOf rec' cs ctx) := by
  unfold primUnionOf
  rcases parseAll_mono hr ctx cs with h | h
  · rw [h]; exact Or.inl rfl
  · rw [h]; exact .refl _

theorem modelUnionOf_mono (cs : List Schema) (ctx : Ctx) : Below (modelUnionOf rec cs ctx) (modelUnionOf rec' cs ctx) := by
  unfold modelUnionOf
  rcases parseProxies_mono hr ctx cs with h | h
  · rw [h]; exact Or.inl rfl
  · rw [h]; exact .refl _

omit hr in
theorem unionFamilies_mono (n : Nat) : ∀ (ss : List Schema) (ctx : Ctx), Below (unionFamilies n ss ctx) (unionFamilies (n + 1) ss ctx)
  | [], _ => .refl _
  | s :: ss, ctx => by
    unfold unionFamilies
    rcases preprocess_mono n s ctx with h | h
    · rw [h]; exact Or.inl rfl
    · rw [h]
      cases preprocess n s ctx with
      | error e => exact .refl _
      | ok x =>
        simp only
        rcases unionFamilies_mono n ss x.2 with h | h
        · rw [h]
          split
          · exact Or.inl rfl
          · exact Or.inl rfl
          · exact Or.inl rfl
          · exact .refl _
        · rw [h]; exact .refl _

theorem unionOf_mono (n : Nat) (cs : List Schema) (ctx : Ctx) : Below (unionOf rec n cs ctx) (unionOf rec' (n + 1) cs ctx) := by
  unfold unionOf
  rcases unionFamilies_mono n cs ctx with h | h
  · rw [h]; exact Or.inl rfl
  · rw [h]
    cases unionFamilies n cs ctx with
    | error e => exact .refl _
    | ok x =>
      simp only
      split
      · exact .refl _
      · split
        · exact .refl _
        · split
          · exact modelUnionOf_mono hr _ _
          · split
            · exact primUnionOf_mono hr _ _
            · exact .refl _

omit hr in
theorem taggedChoices_mono (n : Nat) : ∀ (ss : List Schema) (ctx : Ctx), Below (taggedChoices n ss ctx) (taggedChoices (n + 1) ss ctx)
  | [], _ => .refl _
  | s :: ss, ctx => by
    unfold taggedChoices
    rcases preprocess_mono n s ctx with h | h
    · rw [h]; exact Or.inl rfl
    · rw [h]
      cases preprocess n s ctx with
      | error e => exact .refl _
      | ok x =>
        obtain ⟨t, ctx'⟩ := x
        cases t with
        | model c r => cases r with
          | false => exact taggedChoices_mono n ss _
          | true => exact .refl _
        | _ => exact .refl _

theorem taggedLoopOf_mono (built : Built) (discr : String) (ctx : Ctx) :
    ∀ (cs : List (Option String × Schema)) (a : Option String) (acc : Dict String Proxy),
      Below (taggedLoopOf rec built discr ctx cs a acc) (taggedLoopOf rec' built discr ctx cs a acc)
  | [], _, _ => .refl _
  | (none, _) :: _, _, _ => .refl _
  | (some tag, s) :: cs, a, acc => by
    unfold taggedLoopOf
    rcases parseProxy_mono hr ctx s with h | h
    · rw [h]; exact Or.inl rfl
    · rw [h]
      cases parseProxy rec ctx s with
      | error e => exact .refl _
      | ok p =>
        simp only
        cases discriminatorAttr built discr p.cls with
        | error e => exact .refl _
        | ok b =>
          simp only
          split
          · exact .refl _
          · exact taggedLoopOf_mono built discr ctx cs _ _

theorem taggedOf_mono (n : Nat) (built : Built) (discr : Option String) (cs : List (Option String × Schema)) (ctx : Ctx) :
    Below (taggedOf rec n built discr cs ctx) (taggedOf rec' (n + 1) built discr cs ctx) := by
  unfold taggedOf
  rcases taggedChoices_mono n (cs.map Prod.snd) ctx with h | h
  · rw [h]; exact Or.inl rfl
  · rw [h]
    cases taggedChoices n (cs.map Prod.snd) ctx with
    | error e => exact .refl _
    | ok x =>
      cases discr with
      | none => exact .refl _
      | some d =>
        simp only
        rcases taggedLoopOf_mono hr built d x cs none [] with h | h
        · rw [h]; exact Or.inl rfl
        · rw [h]; exact .refl _

theorem wrapOf_mono (s : Schema) (ctx : Ctx) : Below (wrapOf rec s ctx) (wrapOf rec' s ctx) := by
  unfold wrapOf
  cases ctx.path with
  | none => exact .refl _
  | some p =>
    simp only
    rcases hr s (ctx.child ctx.wrapped) with h | h
    · rw [h]; exact Or.inl rfl
    · rw [h]; exact .refl _

theorem select_mono (classes : Classes) (built : Built) (n : Nat) (s : Schema) (ctx : Ctx) :
    Below (select classes built rec n s ctx) (select classes built rec' (n + 1) s ctx) := by
  unfold select
  split
  · exact wrapOf_mono hr _ _
  · cases s with
    | list i => exact homogOf_mono hr _ _ _
    | tuple is v =>
      cases v with
      | none => exact heteroOf_mono hr _ _ _
      | some k =>
        cases k with
        | succ k => exact .refl _
        | zero =>
          cases is with
          | nil => exact .refl _
          | cons i is => cases is with
            | nil => exact homogOf_mono hr _ _ _
            | cons j js => exact .refl _
    | dict k v =>
      simp only
      rcases primitives_mono n ctx [k, v] with h | h
      · rw [h]; exact Or.inl rfl
      · rw [h]; exact .refl _
    | typedDict vs =>
      simp only
      rcases primitives_mono n ctx vs with h | h
      · rw [h]; exact Or.inl rfl
      · rw [h]; exact .refl _
    | union cs => exact unionOf_mono hr _ _ _
    | tagged d cs => exact taggedOf_mono hr _ _ _ _ _
    | call b args =>
      cases b with
      | true => exact heteroOf_mono hr _ _ _
      | false => exact .refl _
    | _ => exact .refl _

end

theorem parse_mono (classes : Classes) (built : Built) : ∀ (n : Nat) (s : Schema) (ctx : Ctx),
    Below (parse classes built n s ctx) (parse classes built (n + 1) s ctx)
  | 0, s, ctx => Or.inl rfl
  | n + 1, s, ctx => by
    unfold parse
    rcases preprocess_mono n s ctx with h | h
    · rw [h]; exact Or.inl rfl
    · rw [h]
      cases preprocess n s ctx with
      | error e => exact .refl _
      | ok x => exact select_mono (parse_mono classes built n) classes built n _ _

theorem parse_mono_le {classes : Classes} {built : Built} {n m : Nat} (h : n ≤ m) (s : Schema) (ctx : Ctx) :
    Below (parse classes built n s ctx) (parse classes built m s ctx) := by
  induction h with
  | refl => exact .refl _
  | step _ ih => exact ih.trans (parse_mono _ _ _ _ _)

theorem preprocess_mono_le {n m : Nat} (h : n ≤ m) (s : Schema) (ctx : Ctx) :
    Below (preprocess n s ctx) (preprocess m s ctx) := by
  induction h with
  | refl => exact .refl _
  | step _ ih => exact ih.trans (preprocess_mono _ _ _)

end PXml
