import Verif.SpecCompile
import Verif.Lemmas.Dict

/-! Inversion of the definition-time functions. -/

namespace PXml

theorem Schema.family_isSome (s : Schema) : s.family.isSome = s.isType := by cases s <;> rfl

theorem Schema.family_list {s : Schema} : s.family = some .homogeneous ↔ ∃ i, s = .list i := by cases s <;> simp [Schema.family]

theorem Schema.family_tuple {s : Schema} : s.family = some .tuple ↔ ∃ is v, s = .tuple is v := by cases s <;> simp [Schema.family]

theorem Schema.family_model {s : Schema} : s.family = some .model ↔ ∃ c r, s = .model c r := by cases s <;> simp [Schema.family]

theorem Schema.family_union {s : Schema} : s.family = some .union ↔ ∃ cs, s = .union cs := by cases s <;> simp [Schema.family]

theorem Schema.family_named {s : Schema} : Family.namedItem s.family = true ↔ s.SelfNamed := by
  cases s <;> simp [Schema.family, Family.namedItem, Schema.SelfNamed]

/-! ## Preprocessing -/

theorem preprocess_strips : ∀ (n : Nat) (s : Schema) (ctx : Ctx) {t : Schema} {ctx' : Ctx},
    preprocess n s ctx = .ok (t, ctx') → Strips ctx.defs s ctx'.defs t ∧ ctx' = { ctx with defs := ctx'.defs } := by
  intro n
  induction n with
  | zero => intro s ctx t ctx' h; cases h
  | succ n ih =>
    intro s ctx t ctx' h
    cases s with
    | other ty => cases h
    | func i => obtain ⟨h1, h2⟩ := ih i ctx h; exact ⟨.func h1, h2⟩
    | funcPlain i =>
      cases i with
      | none => cases h
      | some i => obtain ⟨h1, h2⟩ := ih i ctx h; exact ⟨.funcPlain h1, h2⟩
    | default i => obtain ⟨h1, h2⟩ := ih i ctx h; exact ⟨.default h1, h2⟩
    | nullable i => obtain ⟨h1, h2⟩ := ih i ctx h; exact ⟨.nullable h1, h2⟩
    | jsonOrPython i => obtain ⟨h1, h2⟩ := ih i ctx h; exact ⟨.jsonOrPython h1, h2⟩
    | definitions defs i =>
      obtain ⟨h1, h2⟩ := ih i { ctx with defs := Dict.update ctx.defs defs } h
      exact ⟨.definitions h1, h2⟩
    | ref r =>
      simp only [preprocess] at h
      split at h
      · rename_i s hs
        obtain ⟨h1, h2⟩ := ih s ctx h
        exact ⟨.ref hs h1, h2⟩
      · cases h
    | prim _ => cases h; exact ⟨.done rfl, rfl⟩
    | model _ _ => cases h; exact ⟨.done rfl, rfl⟩
    | list _ => cases h; exact ⟨.done rfl, rfl⟩
    | tuple _ _ => cases h; exact ⟨.done rfl, rfl⟩
    | dict _ _ => cases h; exact ⟨.done rfl, rfl⟩
    | typedDict _ => cases h; exact ⟨.done rfl, rfl⟩
    | union _ => cases h; exact ⟨.done rfl, rfl⟩
    | tagged _ _ => cases h; exact ⟨.done rfl, rfl⟩
    | isInst _ => cases h; exact ⟨.done rfl, rfl⟩
    | call _ _ => cases h; exact ⟨.done rfl, rfl⟩

theorem Strips.preprocess {d d' : Dict String Schema} {s t : Schema} (h : Strips d s d' t) :
    ∃ n, ∀ m, n ≤ m → ∀ ctx : Ctx, ctx.defs = d → PXml.preprocess m s ctx = .ok (t, { ctx with defs := d' }) := by
  induction h with
  | @done d s hs =>
    refine ⟨1, fun m hm ctx hd => ?_⟩
    obtain ⟨k, rfl⟩ : ∃ k, m = k + 1 := ⟨m - 1, by omega⟩
    subst hd
    cases s <;> first | rfl | cases hs
  | @definitions d defs i d' t _ ih =>
    obtain ⟨n, ih⟩ := ih
    refine ⟨n + 1, fun m hm ctx hd => ?_⟩
    obtain ⟨k, rfl⟩ : ∃ k, m = k + 1 := ⟨m - 1, by omega⟩
    subst hd
    exact ih k (by omega) { ctx with defs := Dict.update ctx.defs defs } rfl
  | @ref d r s d' t hr _ ih =>
    obtain ⟨n, ih⟩ := ih
    refine ⟨n + 1, fun m hm ctx hd => ?_⟩
    obtain ⟨k, rfl⟩ : ∃ k, m = k + 1 := ⟨m - 1, by omega⟩
    subst hd
    simp only [PXml.preprocess, hr]
    exact ih k (by omega) ctx rfl
  | _ _ ih =>
    obtain ⟨n, ih⟩ := ih
    refine ⟨n + 1, fun m hm ctx hd => ?_⟩
    obtain ⟨k, rfl⟩ : ∃ k, m = k + 1 := ⟨m - 1, by omega⟩
    exact ih k (by omega) ctx hd

theorem Strips.family {d d' : Dict String Schema} {s t : Schema} (h : Strips d s d' t) : t.family.isSome = true := by
  induction h with
  | done h => rw [Schema.family_isSome]; exact h
  | _ => assumption

theorem Strips.isType {d d' : Dict String Schema} {s t : Schema} (h : Strips d s d' t) : t.isType = true := by
  rw [← Schema.family_isSome]; exact h.family

theorem Strips.det {d d1 d2 : Dict String Schema} {s t1 t2 : Schema} (h1 : Strips d s d1 t1) (h2 : Strips d s d2 t2) :
    d1 = d2 ∧ t1 = t2 := by
  obtain ⟨n1, h1⟩ := h1.preprocess
  obtain ⟨n2, h2⟩ := h2.preprocess
  have e1 := h1 (max n1 n2) (by omega) { modelName := "", defs := d } rfl
  have e2 := h2 (max n1 n2) (by omega) { modelName := "", defs := d } rfl
  rw [e1] at e2
  simp only [Except.ok.injEq, Prod.mk.injEq, Ctx.mk.injEq] at e2
  exact ⟨e2.2.2.2.2.2.2.2.2.1, e2.1⟩

/-! ## Lists of schemas -/

theorem parseAll_ok {rec : Schema → Ctx → Except DefErr Ser} {ctx : Ctx} :
    ∀ {ss : List Schema} {xs : List Ser}, parseAll rec ctx ss = .ok xs →
      Each (fun s x => rec s ctx = .ok x) ss xs := by
  intro ss
  induction ss with
  | nil => intro xs h; cases h; exact .nil
  | cons s ss ih =>
    intro xs h
    simp only [parseAll] at h
    split at h
    · cases h
    · rename_i x hx
      split at h
      · cases h
      · rename_i ys hy
        cases h
        exact .cons hx (ih hy)

theorem parseAll_of {rec : Schema → Ctx → Except DefErr Ser} {ctx : Ctx} {ss : List Schema} {xs : List Ser}
    (h : Each (fun s x => rec s ctx = .ok x) ss xs) : parseAll rec ctx ss = .ok xs := by
  induction h with
  | nil => rfl
  | cons h _ ih => simp only [parseAll, h, ih]

theorem parseProxy_ok {rec : Schema → Ctx → Except DefErr Ser} {ctx : Ctx} {s : Schema} {p : Proxy}
    (h : parseProxy rec ctx s = .ok p) : rec s ctx = .ok (.proxy p) := by
  unfold parseProxy at h
  split at h
  · cases h
  · rename_i q hq; cases h; exact hq
  · cases h

theorem parseProxies_ok {rec : Schema → Ctx → Except DefErr Ser} {ctx : Ctx} :
    ∀ {ss : List Schema} {ps : List Proxy}, parseProxies rec ctx ss = .ok ps →
      Each (fun s p => rec s ctx = .ok (.proxy p)) ss ps := by
  intro ss
  induction ss with
  | nil => intro xs h; cases h; exact .nil
  | cons s ss ih =>
    intro xs h
    simp only [parseProxies] at h
    split at h
    · cases h
    · rename_i x hx
      split at h
      · cases h
      · rename_i ys hy
        cases h
        exact .cons (parseProxy_ok hx) (ih hy)

/-- The part of a context that preprocessing does not change. -/
theorem tupleItems_ctx {n : Nat} : ∀ {ss : List Schema} {ctx ctx' : Ctx}, tupleItems n ss ctx = .ok ctx' →
    ctx' = { ctx with defs := ctx'.defs } := by
  intro ss
  induction ss with
  | nil => intro ctx ctx' h; cases h; rfl
  | cons s ss ih =>
    intro ctx ctx' h
    simp only [tupleItems] at h
    split at h
    · cases h
    · rename_i t c hc
      have := (preprocess_strips _ _ _ hc).2
      split at h
      · cases h
      · split at h
        · cases h
        · rw [ih h, this]

theorem unionFamilies_ctx {n : Nat} : ∀ {ss : List Schema} {ctx ctx' : Ctx} {fams : List Family},
    unionFamilies n ss ctx = .ok (fams, ctx') → ctx' = { ctx with defs := ctx'.defs } := by
  intro ss
  induction ss with
  | nil => intro ctx ctx' fams h; cases h; rfl
  | cons s ss ih =>
    intro ctx ctx' fams h
    simp only [unionFamilies] at h
    split at h
    · cases h
    · rename_i t c hc
      have := (preprocess_strips _ _ _ hc).2
      split at h
      all_goals first
        | (cases h; done)
        | (split at h
           · cases h
           · rename_i fs c' hc'
             cases h
             rw [ih hc', this])

theorem taggedChoices_ctx {n : Nat} : ∀ {ss : List Schema} {ctx ctx' : Ctx},
    taggedChoices n ss ctx = .ok ctx' → ctx' = { ctx with defs := ctx'.defs } := by
  intro ss
  induction ss with
  | nil => intro ctx ctx' h; cases h; rfl
  | cons s ss ih =>
    intro ctx ctx' h
    simp only [taggedChoices] at h
    split at h
    · cases h
    · rename_i cls c hc
      have := (preprocess_strips _ _ _ hc).2
      rw [ih h, this]
    · cases h
    · cases h

/-- What the loop over the choices of a tagged union establishes. -/
theorem taggedLoopOf_ok {rec : Schema → Ctx → Except DefErr Ser} {built : Built} {discr : String} {ctx : Ctx} :
    ∀ {cs : List (Option String × Schema)} {attr attr' : Option String} {acc acc' : Dict String Proxy},
      taggedLoopOf rec built discr ctx cs attr acc = .ok (attr', acc') →
      (attr.isSome = true → attr' = attr) ∧
      (∀ x ∈ acc', x ∈ acc ∨ ∃ s, (some x.1, s) ∈ cs ∧ rec s ctx = .ok (.proxy x.2) ∧
        ∃ a, discriminatorAttr built discr x.2.cls = .ok a ∧ attr' = some a) ∧
      (∀ c ∈ cs, ∃ tag p, c.1 = some tag ∧ rec c.2 ctx = .ok (.proxy p)) := by
  intro cs
  induction cs with
  | nil => intro attr attr' acc acc' h; cases h; exact ⟨fun _ => rfl, fun x hx => .inl hx, by simp⟩
  | cons c cs ih =>
    intro attr attr' acc acc' h
    obtain ⟨tag, s⟩ := c
    cases tag with
    | none => cases h
    | some tag =>
      simp only [taggedLoopOf] at h
      split at h
      · cases h
      · rename_i p hp
        split at h
        · cases h
        · rename_i a ha
          split at h
          · cases h
          · rename_i hc
            obtain ⟨h1, h2, h3⟩ := ih h
            have h1 := h1 rfl
            refine ⟨?_, ?_, ?_⟩
            · intro hs
              rw [h1]
              cases attr with
              | none => cases hs
              | some b => simp only [Option.isSome_some, Bool.true_and, ne_eq, decide_eq_true_eq, Option.some.injEq] at hc
                          exact congrArg some (Classical.not_not.1 hc).symm
            · intro x hx
              rcases h2 x hx with h | ⟨s', h4, h5, h6⟩
              · have hk : x ∈ acc ∨ x = (tag, p) := by
                  have hset : ∀ (d : Dict String Proxy), x ∈ d.set tag p → x ∈ d ∨ x = (tag, p) := by
                    intro d
                    induction d with
                    | nil => intro h; simp only [Dict.set, List.mem_singleton] at h; exact .inr h
                    | cons y d ihd =>
                      intro h
                      obtain ⟨k', v'⟩ := y
                      simp only [Dict.set] at h
                      split at h
                      · rcases List.mem_cons.1 h with rfl | h
                        · exact .inr rfl
                        · exact .inl (List.mem_cons_of_mem _ h)
                      · rcases List.mem_cons.1 h with rfl | h
                        · exact .inl List.mem_cons_self
                        · rcases ihd h with h | h
                          · exact .inl (List.mem_cons_of_mem _ h)
                          · exact .inr h
                  exact hset acc h
                rcases hk with hk | rfl
                · exact .inl hk
                · exact .inr ⟨s, List.mem_cons_self, parseProxy_ok hp, a, ha, h1⟩
              · exact .inr ⟨s', List.mem_cons_of_mem _ h4, h5, h6⟩
            · intro c hc
              rcases List.mem_cons.1 hc with rfl | hc
              · exact ⟨tag, p, rfl, parseProxy_ok hp⟩
              · exact h3 c hc

/-! ## The cases of `select_serializer` -/

/-- The ways in which `select` succeeds. -/
inductive Sel (classes : Classes) (built : Built) (rec : Schema → Ctx → Except DefErr Ser) (n : Nat) (ctx : Ctx) :
    Schema → Ser → Prop
  | wrap {t : Schema} {path : String} {inner : Ser} {names : List String} : ctx.location = some .wrapped →
      ctx.path = some path → rec t (ctx.child ctx.wrapped) = .ok inner →
      pathNames (selectNs [ctx.ns, ctx.parentNs]) (mergeNsmaps [ctx.nsmap, ctx.parentNsmap]) (splitPath path) = .ok names →
      Sel classes built rec n ctx t
        (.wrap names (some (mergeNsmaps [ctx.nsmap, ctx.parentNsmap])) ctx.mode ctx.computed inner)
  | prim {ty : String} {s : Ser} : primOf ctx = .ok s → Sel classes built rec n ctx (.prim ty) s
  | inst {s : Ser} : primOf ctx = .ok s → Sel classes built rec n ctx (.isInst false) s
  | raw {s : Ser} : rawOf ctx = .ok s → Sel classes built rec n ctx (.isInst true) s
  | model {cls : String} {r : Bool} {p : Proxy} : ctx.location ≠ some .wrapped → ctx.location ≠ some .attribute →
      proxyOf classes cls ctx = .ok p → Sel classes built rec n ctx (.model cls r) (.proxy p)
  | dict {k v : Schema} {s : Ser} : primitives n ctx [k, v] = .ok () → mappingOf ctx = .ok s →
      Sel classes built rec n ctx (.dict k v) s
  | typedDict {vs : List Schema} {s : Ser} : primitives n ctx vs = .ok () → mappingOf ctx = .ok s →
      Sel classes built rec n ctx (.typedDict vs) s
  | homog {t items is : Schema} {ctx' : Ctx} {inner : Ser} : t = .list items ∨ t = .tuple [items] (some 0) →
      preprocess n items ctx = .ok (is, ctx') → Family.isItem is.family = true →
      (Family.namedItem is.family = true ∨ ctx.location ≠ none) → ctx.location ≠ some .wrapped →
      ctx.location ≠ some .attribute → rec items ctx' = .ok inner →
      Sel classes built rec n ctx t (.homog ctx.title ctx.computed inner)
  | hetero {t : Schema} {items : List Schema} {ctx' : Ctx} {inners : List Ser} :
      t = .tuple items none ∨ t = .call true items → tupleItems n items ctx = .ok ctx' →
      ctx.location ≠ some .wrapped → ctx.location ≠ some .attribute → parseAll rec ctx' items = .ok inners →
      Sel classes built rec n ctx t (.hetero ctx.title ctx.computed inners)
  | primUnion {choices : List Schema} {fams : List Family} {ctx' : Ctx} {s : Ser} {ss : List Ser} :
      ctx.location ≠ some .wrapped → unionFamilies n choices ctx = .ok (fams, ctx') → fams.contains .model = false →
      fams.contains .primitive = true → parseAll rec ctx' choices = .ok (s :: ss) → (∀ x ∈ ss, x.kind = s.kind) →
      Sel classes built rec n ctx (.union choices) (.primUnion ctx.computed s)
  | modelUnion {choices : List Schema} {fams : List Family} {ctx' : Ctx} {p : Proxy} {ps : List Proxy} :
      ctx.location ≠ some .wrapped → unionFamilies n choices ctx = .ok (fams, ctx') → fams.contains .model = true →
      fams.contains .primitive = false → fams.contains .isInstance = false →
      parseProxies rec ctx' choices = .ok (p :: ps) →
      Sel classes built rec n ctx (.union choices) (.modelUnion ctx.title ctx.computed (p :: ps))
  | tagged {discr attr : String} {choices : List (Option String × Schema)} {ctx' : Ctx} {alts : Dict String Proxy} :
      ctx.location ≠ some .wrapped → taggedChoices n (choices.map Prod.snd) ctx = .ok ctx' →
      taggedLoopOf rec built discr ctx' choices none [] = .ok (some attr, alts) →
      Sel classes built rec n ctx (.tagged (some discr) choices) (.tagged ctx.computed discr attr ctx.mode alts)

theorem Ctx.location_defs (c : Ctx) (d : Dict String Schema) : { c with defs := d }.location = c.location := rfl

theorem homogOf_sel {classes : Classes} {built : Built} {rec : Schema → Ctx → Except DefErr Ser} {n : Nat} {ctx : Ctx}
    {t items : Schema} {x : Ser} (ht : t = .list items ∨ t = .tuple [items] (some 0))
    (hl : ctx.location ≠ some .wrapped) (h : homogOf rec n items ctx = .ok x) : Sel classes built rec n ctx t x := by
  unfold homogOf at h
  split at h
  · cases h
  · rename_i is ctx' hp
    have hc := (preprocess_strips _ _ _ hp).2
    have hloc : ctx'.location = ctx.location := by rw [hc]; rfl
    split at h
    · cases h
    · rename_i hi
      split at h
      · cases h
      · rename_i hn
        unfold collectionOf at h
        split at h
        · cases h
        · cases h
        · rename_i h1 h2
          cases hr : rec items ctx' with
          | error e => rw [hr] at h; cases h
          | ok inner =>
            rw [hr] at h
            cases h
            have e1 : ctx'.title = ctx.title := by rw [hc]; rfl
            have e2 : ctx'.computed = ctx.computed := by rw [hc]
            rw [e1, e2]
            refine .homog ht hp ?_ ?_ hl ?_ hr
            · simpa using hi
            · cases hna : Family.namedItem is.family with
              | true => exact .inl rfl
              | false =>
                right
                intro h0
                apply hn
                simp [hna, hloc, h0]
            · rw [← hloc]; exact h1

theorem heteroOf_sel {classes : Classes} {built : Built} {rec : Schema → Ctx → Except DefErr Ser} {n : Nat} {ctx : Ctx}
    {t : Schema} {items : List Schema} {x : Ser} (ht : t = .tuple items none ∨ t = .call true items)
    (hl : ctx.location ≠ some .wrapped) (h : heteroOf rec n items ctx = .ok x) : Sel classes built rec n ctx t x := by
  unfold heteroOf at h
  split at h
  · cases h
  · rename_i ctx' hp
    have hc := tupleItems_ctx hp
    have hloc : ctx'.location = ctx.location := by rw [hc]; rfl
    unfold collectionOf at h
    split at h
    · cases h
    · cases h
    · rename_i h1 h2
      cases hr : parseAll rec ctx' items with
      | error e => rw [hr] at h; cases h
      | ok inners =>
        rw [hr] at h
        cases h
        have e1 : ctx'.title = ctx.title := by rw [hc]; rfl
        have e2 : ctx'.computed = ctx.computed := by rw [hc]
        rw [e1, e2]
        exact .hetero ht hp hl (by rw [← hloc]; exact h1) hr

theorem select_sel {classes : Classes} {built : Built} {rec : Schema → Ctx → Except DefErr Ser} {n : Nat} {ctx : Ctx}
    {t : Schema} {x : Ser} (h : select classes built rec n t ctx = .ok x) : Sel classes built rec n ctx t x := by
  unfold select at h
  split at h
  · rename_i hl
    unfold wrapOf at h
    split at h
    · cases h
    · rename_i path hp
      simp only at h
      split at h
      · cases h
      · rename_i inner hi
        split at h
        · cases h
        · rename_i names hn
          cases h
          exact .wrap hl hp hi hn
  · rename_i hl
    split at h
    · exact .prim h
    · rename_i cls r
      unfold modelOf at h
      split at h
      · cases h
      · cases h
      · rename_i h1 h2
        cases hp : proxyOf classes cls ctx with
        | error e => rw [hp] at h; cases h
        | ok p => rw [hp] at h; cases h; exact .model h2 h1 hp
    · exact homogOf_sel (.inl rfl) hl h
    · split at h
      · exact heteroOf_sel (.inl rfl) hl h
      · split at h
        · exact homogOf_sel (.inr rfl) hl h
        · cases h
      · cases h
    · split at h
      · cases h
      · rename_i hp; exact .dict hp h
    · split at h
      · cases h
      · rename_i hp; exact .typedDict hp h
    · rename_i choices
      unfold unionOf at h
      split at h
      · cases h
      · rename_i fams ctx' hf
        have hc := unionFamilies_ctx hf
        have e1 : ctx'.title = ctx.title := by rw [hc]; rfl
        have e2 : ctx'.computed = ctx.computed := by rw [hc]
        split at h
        · cases h
        · split at h
          · cases h
          · rename_i hmix
            split at h
            · rename_i hm
              unfold modelUnionOf at h
              split at h
              · cases h
              · cases h
              · rename_i p ps hps
                cases h
                rw [e1, e2]
                simp only [hm, Bool.and_true, Bool.or_eq_true, not_or, Bool.not_eq_true] at hmix
                exact .modelUnion hl hf hm hmix.1 hmix.2 hps
            · rename_i hm
              split at h
              · rename_i hpr
                unfold primUnionOf at h
                split at h
                · cases h
                · cases h
                · rename_i s ss hss
                  split at h
                  · rename_i hk
                    cases h
                    rw [e2]
                    refine .primUnion hl hf (by simpa using hm) hpr hss ?_
                    simpa using hk
                  · cases h
              · cases h
    · rename_i discr choices
      unfold taggedOf at h
      split at h
      · cases h
      · rename_i ctx' hc
        have hctx := taggedChoices_ctx hc
        have e1 : ctx'.computed = ctx.computed := by rw [hctx]
        have e2 : ctx'.mode = ctx.mode := by rw [hctx]
        split at h
        · cases h
        · rename_i discr
          split at h
          · cases h
          · cases h
          · rename_i attr alts hal
            cases h
            rw [e1, e2]
            exact .tagged hl hc hal
    · rename_i native
      split at h
      · rename_i hn; subst hn; exact .raw h
      · rename_i hn
        have : native = false := by simpa using hn
        subst this
        exact .inst h
    · rename_i isTuple args
      split at h
      · rename_i hn; subst hn; exact heteroOf_sel (.inr rfl) hl h
      · cases h
    · cases h

/-- `parse` succeeds: the schema stands for a type, and `select` has succeeded on it. -/
theorem parse_sel {classes : Classes} {built : Built} {n : Nat} {ctx : Ctx} {s : Schema} {x : Ser}
    (h : parse classes built (n + 1) s ctx = .ok x) : ∃ t d, Strips ctx.defs s d t ∧
      Sel classes built (parse classes built n) n { ctx with defs := d } t x := by
  simp only [parse] at h
  split at h
  · cases h
  · rename_i t ctx' hp
    obtain ⟨h1, h2⟩ := preprocess_strips _ _ _ hp
    refine ⟨t, ctx'.defs, h1, ?_⟩
    rw [← h2]
    exact select_sel h

end PXml
