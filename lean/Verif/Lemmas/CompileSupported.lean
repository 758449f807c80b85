import Verif.Lemmas.CompileNames

/-! Which definitions are accepted, for `Verif/Props/Definition.lean`. -/

namespace PXml

variable {classes : Classes} {built : Built} {ctx : Ctx}

theorem get?_all_none {m : NsMap} : m = [] ↔ ∀ b, Dict.get? m b = none := by
  constructor
  · rintro rfl b; rfl
  · intro h
    cases m with
    | nil => rfl
    | cons x m =>
      have := h x.1
      simp [Dict.get?] at this

theorem fromAlias_ok_iff {tag : String} {ns : Option String} {m : NsMap} {isAttr : Bool} :
    (∃ q, QName.fromAlias tag ns (some m) isAttr = .ok q) ↔ ∀ a, ns = some a → m.get? a ≠ none ∨ m = [] := by
  constructor
  · rintro ⟨q, h⟩ a ha
    exact fromAlias_declared h a ha
  · intro h
    unfold QName.fromAlias
    split
    · split
      · exact ⟨_, rfl⟩
      · rename_i a _
        split
        · rename_i ht
          have h1 := h a rfl
          simp only [Option.getD_some]
          cases hg : m.get? a with
          | some u => exact ⟨_, rfl⟩
          | none =>
            rcases h1 with h1 | h1
            · exact absurd hg h1
            · subst h1; cases ht
        · exact ⟨_, rfl⟩
    · exact ⟨_, rfl⟩

theorem fromAlias_iff {tag : String} {ns : Option String} {m : NsMap} {isAttr : Bool} {scope : List (Option NsMap)}
    (h : ∀ a, m.get? a = uriIn scope a) :
    (∃ q, QName.fromAlias tag ns (some m) isAttr = .ok q) ↔ Declared scope ns := by
  rw [fromAlias_ok_iff]
  unfold Declared
  rw [get?_all_none]
  simp only [h]

theorem elementName_iff (hp : ctx.place.Proper) (hf : ctx.fieldName ≠ some "") :
    (∃ nm, elementName ctx = .ok nm) ↔ ctx.place.ElementOk := by
  unfold PXml.elementName Place.ElementOk
  simp only
  rw [given_eq hf, prefix?_eq]
  cases strOr ctx.path (strOr ctx.fieldAlias ctx.fieldName) with
  | none =>
    constructor
    · rintro ⟨_, h⟩; cases h
    · rintro ⟨h, -⟩; exact absurd rfl h
  | some tag =>
    have := fromAlias_iff (tag := tag) (ns := ctx.place.prefix?) (isAttr := false) (scope_eq hp)
    rw [← this]
    constructor
    · rintro ⟨_, h⟩
      refine ⟨by simp, ?_⟩
      cases hq : QName.fromAlias tag ctx.place.prefix? (some (mergeNsmaps [ctx.nsmap, ctx.parentNsmap])) false with
      | error e => simp only [hq] at h; cases h
      | ok q => exact ⟨q, rfl⟩
    · rintro ⟨-, q, hq⟩
      simp only [hq]
      exact ⟨_, rfl⟩

theorem map_ok_iff {ε α β : Type} {f : α → β} {x : Except ε α} : (∃ y, x.map f = .ok y) ↔ ∃ y, x = .ok y := by
  cases x with
  | error e =>
    constructor
    · rintro ⟨_, h⟩; cases h
    · rintro ⟨_, h⟩; cases h
  | ok a => exact ⟨fun _ => ⟨a, rfl⟩, fun _ => ⟨f a, rfl⟩⟩

theorem attrOf_iff (hp : ctx.place.Proper) (hf : ctx.fieldName ≠ some "") :
    (∃ s, attrOf ctx = .ok s) ↔ ctx.place.AttrOk := by
  unfold attrOf Place.AttrOk
  simp only
  rw [given_eq hf, attrPrefix?_eq]
  by_cases hd : ctx.place.attrPrefix? = some ""
  · rw [if_pos hd]
    constructor
    · rintro ⟨_, h⟩; cases h
    · intro h; exact absurd hd h.2.1
  · rw [if_neg hd]
    cases strOr ctx.path (strOr ctx.fieldAlias ctx.fieldName) with
    | none =>
      constructor
      · rintro ⟨_, h⟩; cases h
      · rintro ⟨h, -⟩; exact absurd rfl h
    | some tag =>
      simp only
      rw [map_ok_iff, fromAlias_iff (scope_eq hp)]
      exact ⟨fun h => ⟨by simp, hd, h⟩, fun h => h.2.2⟩

theorem location_eq : ctx.place.location = ctx.location := rfl

theorem primOf_iff (hp : ctx.place.Proper) (hf : ctx.fieldName ≠ some "") :
    (∃ s, primOf ctx = .ok s) ↔ ctx.place.Scalar := by
  unfold primOf Place.Scalar
  rw [location_eq]
  cases hl : ctx.location with
  | none => simp
  | some l =>
    cases l with
    | element => simp only [elemOf, map_ok_iff, elementName_iff hp hf]; simp
    | «attribute» => simp only [attrOf_iff hp hf]; simp
    | wrapped => simp

theorem mappingOf_iff (hp : ctx.place.Proper) (hf : ctx.fieldName ≠ some "") :
    (∃ s, mappingOf ctx = .ok s) ↔ ctx.place.Mapping := by
  unfold mappingOf Place.Mapping
  rw [location_eq]
  cases hl : ctx.location with
  | none => simp
  | some l =>
    cases l with
    | element => simp only [mapElemOf, map_ok_iff, elementName_iff hp hf]; simp
    | «attribute» => simp
    | wrapped => simp

theorem rawOf_iff (hp : ctx.place.Proper) (hf : ctx.fieldName ≠ some "") :
    (∃ s, rawOf ctx = .ok s) ↔ ctx.place.Compound ∧ ctx.place.ElementOk := by
  unfold rawOf Place.Compound
  rw [location_eq]
  cases hl : ctx.location with
  | none => simp only [rawElemOf, map_ok_iff, elementName_iff hp hf]; simp
  | some l =>
    cases l with
    | element => simp only [rawElemOf, map_ok_iff, elementName_iff hp hf]; simp
    | «attribute» => simp
    | wrapped => simp

theorem proxyOf_iff (hc : classes.Proper) (hp : ctx.place.Proper) {cls : String} :
    (∃ x, proxyOf classes cls ctx = .ok x) ↔ ∃ cd, classes cls = some cd ∧ ctx.place.ModelOk cd := by
  unfold proxyOf
  cases hcd : classes cls with
  | none => simp
  | some cd =>
    simp only
    rw [map_ok_iff, fromAlias_iff (modelScope_eq hp (hc cls cd hcd).2), modelPrefix?_eq]
    simp [Place.ModelOk]

theorem splitSlash_ne (l : List Char) : ∃ p ps, splitPath (String.ofList l) = p :: ps := by
  unfold splitPath
  exact ⟨_, _, rfl⟩

theorem splitPath_ne (s : String) : ∃ p ps, splitPath s = p :: ps := by
  unfold splitPath
  exact ⟨_, _, rfl⟩

theorem pathNames_iff (hp : ctx.place.Proper) {parts : List String} (hne : parts ≠ []) :
    (∃ names, pathNames (selectNs [ctx.ns, ctx.parentNs]) (mergeNsmaps [ctx.nsmap, ctx.parentNsmap]) parts = .ok names) ↔
      Declared ctx.place.scope ctx.place.prefix? := by
  rw [prefix?_eq]
  constructor
  · rintro ⟨names, h⟩
    cases parts with
    | nil => exact absurd rfl hne
    | cons p ps =>
      simp only [pathNames] at h
      split at h
      · cases h
      · rename_i q hq
        exact (fromAlias_iff (scope_eq hp)).1 ⟨q, hq⟩
  · intro h
    clear hne
    induction parts with
    | nil => exact ⟨[], rfl⟩
    | cons p ps ih =>
      obtain ⟨names, hn⟩ := ih
      obtain ⟨q, hq⟩ := (fromAlias_iff (tag := p) (isAttr := false) (scope_eq hp)).2 h
      exact ⟨q.uri :: names, by simp only [pathNames, hq, hn]⟩

/-! ## Schemas without definitions inside -/

theorem Strips.plain {d d' : Dict String Schema} {s t : Schema} (hd : PlainDefs d) (h : Strips d s d' t) (hs : s.Plain) :
    d' = d ∧ t.Plain := by
  induction h with
  | done _ => exact ⟨rfl, hs⟩
  | func _ ih => cases hs with | func hs => exact ih hd hs
  | funcPlain _ ih => cases hs with | funcPlain hs => exact ih hd (hs _ rfl)
  | default _ ih => cases hs with | default hs => exact ih hd hs
  | nullable _ ih => cases hs with | nullable hs => exact ih hd hs
  | jsonOrPython _ ih => cases hs with | jsonOrPython hs => exact ih hd hs
  | definitions _ _ => cases hs
  | ref h _ ih => exact ih hd (hd _ _ h)

theorem preprocess_plain {n : Nat} {s t : Schema} {ctx ctx' : Ctx} (hd : PlainDefs ctx.defs) (hs : s.Plain)
    (h : preprocess n s ctx = .ok (t, ctx')) : ctx' = ctx ∧ Strips ctx.defs s ctx.defs t ∧ t.Plain := by
  obtain ⟨h1, h2⟩ := preprocess_strips _ _ _ h
  obtain ⟨h3, h4⟩ := h1.plain hd hs
  rw [h3] at h1 h2
  exact ⟨h2, h1, h4⟩

theorem tupleItems_plain {n : Nat} : ∀ {ss : List Schema} {ctx ctx' : Ctx}, PlainDefs ctx.defs → (∀ s ∈ ss, s.Plain) →
    tupleItems n ss ctx = .ok ctx' →
    ctx' = ctx ∧ ∀ s ∈ ss, ∃ t, Strips ctx.defs s ctx.defs t ∧ Family.isTupleItem t.family = true ∧
      (ctx.location = none → t.family = some .model ∨ t.family = some .union) := by
  intro ss
  induction ss with
  | nil => intro ctx ctx' _ _ h; cases h; exact ⟨rfl, by simp⟩
  | cons s ss ih =>
    intro ctx ctx' hd hs h
    simp only [tupleItems] at h
    split at h
    · cases h
    · rename_i t c hpre
      obtain ⟨rfl, h1, -⟩ := preprocess_plain hd (hs s (by simp)) hpre
      split at h
      · cases h
      · rename_i hi
        split at h
        · cases h
        · rename_i hn
          obtain ⟨h2, h3⟩ := ih hd (fun s hs' => hs s (by simp [hs'])) h
          refine ⟨h2, ?_⟩
          intro x hx
          rcases List.mem_cons.1 hx with rfl | hx
          · refine ⟨t, h1, by simpa using hi, fun hl => ?_⟩
            simp [hl] at hn
            exact Classical.or_iff_not_imp_left.2 hn
          · exact h3 x hx

theorem unionFamilies_plain {n : Nat} : ∀ {ss : List Schema} {ctx ctx' : Ctx} {fams : List Family}, PlainDefs ctx.defs →
    (∀ s ∈ ss, s.Plain) → unionFamilies n ss ctx = .ok (fams, ctx') →
    ctx' = ctx ∧ Each (fun s f => ∃ t, Strips ctx.defs s ctx.defs t ∧ t.family = some f ∧
      (f = .primitive ∨ f = .isInstance ∨ f = .model)) ss fams := by
  intro ss
  induction ss with
  | nil => intro ctx ctx' fams _ _ h; cases h; exact ⟨rfl, .nil⟩
  | cons s ss ih =>
    intro ctx ctx' fams hd hs h
    simp only [unionFamilies] at h
    split at h
    · cases h
    · rename_i t c hpre
      obtain ⟨rfl, h1, -⟩ := preprocess_plain hd (hs s (by simp)) hpre
      have key : ∀ f, t.family = some f → (f = .primitive ∨ f = .isInstance ∨ f = .model) →
          (match unionFamilies n ss c with
            | .error e => Except.error e
            | .ok (fs, ctx) => Except.ok (t.family.getD .primitive :: fs, ctx)) = .ok (fams, ctx') →
          ctx' = c ∧ Each (fun s f => ∃ t, Strips c.defs s c.defs t ∧ t.family = some f ∧
            (f = .primitive ∨ f = .isInstance ∨ f = .model)) (s :: ss) fams := by
        intro f hf hf' h
        split at h
        · cases h
        · rename_i fs c2 hu
          cases h
          obtain ⟨h2, h3⟩ := ih hd (fun s hs' => hs s (by simp [hs'])) hu
          refine ⟨h2, .cons ⟨t, h1, ?_, ?_⟩ h3⟩
          · rw [hf]; rfl
          · rw [hf]; exact hf'
      split at h
      · rename_i hf; exact key _ hf (by simp) h
      · rename_i hf; exact key _ hf (by simp) h
      · rename_i hf; exact key _ hf (by simp) h
      · cases h

theorem taggedChoices_plain {n : Nat} : ∀ {ss : List Schema} {ctx ctx' : Ctx}, PlainDefs ctx.defs → (∀ s ∈ ss, s.Plain) →
    taggedChoices n ss ctx = .ok ctx' → ctx' = ctx ∧ ∀ s ∈ ss, ∃ cls, Strips ctx.defs s ctx.defs (.model cls false) := by
  intro ss
  induction ss with
  | nil => intro ctx ctx' _ _ h; cases h; exact ⟨rfl, by simp⟩
  | cons s ss ih =>
    intro ctx ctx' hd hs h
    simp only [taggedChoices] at h
    split at h
    · cases h
    · rename_i cls c hpre
      obtain ⟨rfl, h1, -⟩ := preprocess_plain hd (hs s (by simp)) hpre
      obtain ⟨h2, h3⟩ := ih hd (fun s hs' => hs s (by simp [hs'])) h
      refine ⟨h2, ?_⟩
      intro x hx
      rcases List.mem_cons.1 hx with rfl | hx
      · exact ⟨cls, h1⟩
      · exact h3 x hx
    · cases h
    · cases h

theorem primitives_plain {n : Nat} {ctx : Ctx} (hd : PlainDefs ctx.defs) : ∀ {ss : List Schema}, (∀ s ∈ ss, s.Plain) →
    primitives n ctx ss = .ok () → ∀ s ∈ ss, ∃ ty, Strips ctx.defs s ctx.defs (.prim ty) := by
  intro ss
  induction ss with
  | nil => intro _ _ s hs; simp at hs
  | cons s ss ih =>
    intro hs h
    simp only [primitives] at h
    split at h
    · cases h
    · rename_i t c hpre
      obtain ⟨rfl, h1, -⟩ := preprocess_plain hd (hs s (by simp)) hpre
      split at h
      · rename_i hf
        intro x hx
        rcases List.mem_cons.1 hx with rfl | hx
        · cases t with
          | prim ty => exact ⟨ty, h1⟩
          | _ => cases hf
        · exact ih (fun s hs' => hs s (by simp [hs'])) h x hx
      · cases h

/-- The kind of serializer of a primitive value. -/
def scalarKind : Option Location → SerKind
  | some .element => .elem
  | some .attribute => .attr
  | _ => .text

theorem primOf_kind {s : Ser} (h : primOf ctx = .ok s) : s.kind = scalarKind ctx.location := by
  unfold primOf at h
  split at h
  · rename_i hl
    rw [hl]
    unfold elemOf at h
    cases hn : PXml.elementName ctx with
    | error e => rw [hn] at h; cases h
    | ok nm => rw [hn] at h; cases h; rfl
  · rename_i hl
    rw [hl]
    unfold attrOf at h
    dsimp only at h
    rw [attrPrefix?_eq] at h
    by_cases hd : ctx.place.attrPrefix? = some ""
    · rw [if_pos hd] at h
      cases h
    · rw [if_neg hd] at h
      split at h
      · cases h
      · rename_i name _
        revert h
        generalize QName.fromAlias name _ _ true = q
        cases q with
        | error e => intro h; cases h
        | ok q => intro h; cases h; rfl
  · rename_i hl; rw [hl]; cases h; rfl
  · cases h

theorem rawOf_kind {s : Ser} (h : rawOf ctx = .ok s) : s.kind = .raw := by
  have : rawElemOf ctx = .ok s → s.kind = .raw := by
    intro h
    unfold rawElemOf at h
    cases hn : PXml.elementName ctx with
    | error e => rw [hn] at h; cases h
    | ok nm => rw [hn] at h; cases h; rfl
  unfold rawOf at h
  split at h
  · exact this h
  · exact this h
  · cases h
  · cases h

theorem Each.exists_left {α β : Type} {R : α → β → Prop} {as : List α} {bs : List β} (h : Each R as bs) :
    ∀ a ∈ as, ∃ b ∈ bs, R a b := by
  induction h with
  | nil => simp
  | cons h _ ih =>
    intro b hb
    rcases List.mem_cons.1 hb with rfl | hb
    · exact ⟨_, List.mem_cons_self, h⟩
    · obtain ⟨a, ha, hr⟩ := ih b hb
      exact ⟨a, List.mem_cons_of_mem _ ha, hr⟩

/-! ## Accepted definitions -/

theorem parse_sel_plain {n : Nat} {s : Schema} {x : Ser} (hd : PlainDefs ctx.defs) (hs : s.Plain)
    (h : parse classes built n s ctx = .ok x) :
    ∃ k t, n = k + 1 ∧ Strips ctx.defs s ctx.defs t ∧ t.Plain ∧ Sel classes built (parse classes built k) k ctx t x := by
  cases n with
  | zero => cases h
  | succ k =>
    obtain ⟨t, d, h1, h2⟩ := parse_sel h
    obtain ⟨rfl, h3⟩ := h1.plain hd hs
    exact ⟨k, t, rfl, h1, h3, h2⟩

theorem parse_form {n : Nat} {s t : Schema} {x : Ser} (hd : PlainDefs ctx.defs) (hs : s.Plain)
    (ht : Strips ctx.defs s ctx.defs t) (h : parse classes built n s ctx = .ok x) :
    ∃ k, n = k + 1 ∧ Sel classes built (parse classes built k) k ctx t x := by
  obtain ⟨k, t', hk, h1, -, h2⟩ := parse_sel_plain hd hs h
  obtain ⟨-, rfl⟩ := h1.det ht
  exact ⟨k, hk, h2⟩

theorem parse_prim {n : Nat} {s : Schema} {x : Ser} {ty : String} (hd : PlainDefs ctx.defs) (hs : s.Plain)
    (ht : Strips ctx.defs s ctx.defs (.prim ty)) (hl : ctx.location ≠ some .wrapped)
    (h : parse classes built n s ctx = .ok x) : primOf ctx = .ok x := by
  obtain ⟨k, -, hsel⟩ := parse_form hd hs ht h
  clear h
  cases hsel with
  | wrap h => exact absurd h hl
  | prim h => exact h
  | homog h => rcases h with h | h <;> cases h
  | hetero h => rcases h with h | h <;> cases h

theorem parse_inst {n : Nat} {s : Schema} {x : Ser} (hd : PlainDefs ctx.defs) (hs : s.Plain)
    (ht : Strips ctx.defs s ctx.defs (.isInst false)) (hl : ctx.location ≠ some .wrapped)
    (h : parse classes built n s ctx = .ok x) : primOf ctx = .ok x := by
  obtain ⟨k, -, hsel⟩ := parse_form hd hs ht h
  clear h
  cases hsel with
  | wrap h => exact absurd h hl
  | inst h => exact h
  | homog h => rcases h with h | h <;> cases h
  | hetero h => rcases h with h | h <;> cases h

theorem parse_raw {n : Nat} {s : Schema} {x : Ser} (hd : PlainDefs ctx.defs) (hs : s.Plain)
    (ht : Strips ctx.defs s ctx.defs (.isInst true)) (hl : ctx.location ≠ some .wrapped)
    (h : parse classes built n s ctx = .ok x) : rawOf ctx = .ok x := by
  obtain ⟨k, -, hsel⟩ := parse_form hd hs ht h
  clear h
  cases hsel with
  | wrap h => exact absurd h hl
  | raw h => exact h
  | homog h => rcases h with h | h <;> cases h
  | hetero h => rcases h with h | h <;> cases h

theorem parse_model {n : Nat} {s : Schema} {x : Ser} {cls : String} {r : Bool} (hd : PlainDefs ctx.defs) (hs : s.Plain)
    (ht : Strips ctx.defs s ctx.defs (.model cls r)) (hl : ctx.location ≠ some .wrapped)
    (h : parse classes built n s ctx = .ok x) :
    ctx.location ≠ some .attribute ∧ ∃ p, x = .proxy p ∧ proxyOf classes cls ctx = .ok p := by
  obtain ⟨k, -, hsel⟩ := parse_form hd hs ht h
  clear h
  cases hsel with
  | wrap h => exact absurd h hl
  | model _ h1 h2 => exact ⟨h1, _, rfl, h2⟩
  | homog h => rcases h with h | h <;> cases h
  | hetero h => rcases h with h | h <;> cases h

theorem compound_of {ctx : Ctx} (h1 : ctx.location ≠ some .wrapped) (h2 : ctx.location ≠ some .attribute) :
    ctx.place.Compound := by
  unfold Place.Compound
  rw [location_eq]
  cases h : ctx.location with
  | none => exact .inl rfl
  | some l => cases l <;> simp_all

theorem proxyOf_cls {cls : String} {p : Proxy} (h : proxyOf classes cls ctx = .ok p) : p.cls = cls := by
  unfold proxyOf at h
  split at h
  · cases h
  · simp only at h
    revert h
    generalize QName.fromAlias _ _ _ false = q
    cases q with
    | error e => intro h; cases h
    | ok q => intro h; cases h; rfl

theorem taggedLoopOf_all {rec : Schema → Ctx → Except DefErr Ser} {discr : String} {ctx : Ctx} :
    ∀ {cs : List (Option String × Schema)} {attr attr' : Option String} {acc acc' : Dict String Proxy},
      taggedLoopOf rec built discr ctx cs attr acc = .ok (attr', acc') →
      (attr.isSome = true → attr' = attr) ∧
      ∀ c ∈ cs, ∃ tag p a, c.1 = some tag ∧ rec c.2 ctx = .ok (.proxy p) ∧ discriminatorAttr built discr p.cls = .ok a ∧
        attr' = some a := by
  intro cs
  induction cs with
  | nil => intro attr attr' acc acc' h; cases h; exact ⟨fun _ => rfl, by simp⟩
  | cons c cs ih =>
    intro attr attr' acc acc' h
    obtain ⟨o, s⟩ := c
    cases o with
    | none => cases h
    | some tag =>
      simp only [taggedLoopOf] at h
      split at h
      · cases h
      · rename_i p hp
        split at h
        · cases h
        · rename_i a ha
          split at h
          · cases h
          · rename_i hc
            obtain ⟨h1, h2⟩ := ih h
            have h3 := h1 rfl
            refine ⟨?_, ?_⟩
            · intro hs
              rw [h3]
              cases attr with
              | none => cases hs
              | some b =>
                simp at hc
                rw [hc]
            · intro c hc
              rcases List.mem_cons.1 hc with rfl | hc
              · exact ⟨tag, p, a, rfl, parseProxy_ok hp, ha, h3⟩
              · exact h2 c hc

theorem discriminatorAttr_ok {discr cls a : String} (h : discriminatorAttr built discr cls = .ok a) :
    built.Keyed cls discr a := by
  unfold discriminatorAttr at h
  split at h
  · rename_i hb
    split at h
    · rename_i hf
      cases h
      exact ⟨_, _, _, _, hb, rfl, hf, rfl⟩
    · cases h
  · cases h

/-- A definition that is accepted is supported. -/
theorem parse_supported (hc : classes.Proper) : ∀ (n : Nat) (s : Schema) (ctx : Ctx) {x : Ser}, PlainDefs ctx.defs →
    s.Plain → ctx.place.Proper → ctx.fieldName ≠ some "" → parse classes built n s ctx = .ok x →
    s.Supported classes built.Keyed ctx.defs ctx.place := by
  intro n
  induction n with
  | zero => intro s ctx x _ _ _ _ h; cases h
  | succ n ih =>
    intro s ctx x hd hs hp hf h
    obtain ⟨k, t, hk, hst, htp, hsel⟩ := parse_sel_plain hd hs h
    cases hk
    cases hsel with
    | wrap h1 h2 h3 h4 =>
      refine .wrapped hst h1 h2 ((pathNames_iff hp ?_).1 ⟨_, h4⟩) (ih _ (ctx.child ctx.wrapped) hd htp hp.inside hf h3)
      obtain ⟨p, ps, he⟩ := splitPath_ne ‹String›
      rw [he]
      simp
    | prim h => exact .prim hst ((primOf_iff hp hf).1 ⟨_, h⟩)
    | inst h => exact .inst hst ((primOf_iff hp hf).1 ⟨_, h⟩)
    | raw h => exact .raw hst ((rawOf_iff hp hf).1 ⟨_, h⟩).1 ((rawOf_iff hp hf).1 ⟨_, h⟩).2
    | model h1 h2 hx =>
      obtain ⟨cd, h3, h4⟩ := (proxyOf_iff hc hp).1 ⟨_, hx⟩
      exact .model hst h3 (compound_of h1 h2) h4
    | dict hpr h =>
      cases htp with
      | dict hk hv =>
        have h1 := primitives_plain hd (ss := [_, _]) (by
          intro s hs
          simp only [List.mem_cons, List.not_mem_nil, or_false] at hs
          rcases hs with rfl | rfl
          · exact hk
          · exact hv) hpr
        obtain ⟨ty, h2⟩ := h1 _ List.mem_cons_self
        obtain ⟨ty', h3⟩ := h1 _ (List.mem_cons_of_mem _ List.mem_cons_self)
        exact .dict hst h2 h3 ((mappingOf_iff hp hf).1 ⟨_, h⟩)
    | typedDict hpr h =>
      cases htp with
      | typedDict hv => exact .typedDict hst (primitives_plain hd hv hpr) ((mappingOf_iff hp hf).1 ⟨_, h⟩)
    | @homog _ item is ctx' inner ht h1 h2 h3 h4 h5 h6 =>
      have hip : item.Plain := by
        rcases ht with rfl | rfl
        · cases htp with | list h => exact h
        · cases htp with | tuple h => exact h _ (by simp)
      obtain ⟨rfl, h7, -⟩ := preprocess_plain hd hip h1
      have h8 : ∀ i, is ≠ .list i := by
        rintro i rfl; cases h2
      have h9 := ih _ ctx' hd hip hp hf h6
      rcases compound_of h4 h5 with hl | hl
      · refine .collection hst ht h7 h8 hl ?_ h9
        exact Schema.family_named.1 (h3.resolve_right (fun h => h hl))
      · exact .elements hst ht h7 h8 hl h9
    | @hetero _ items ctx' inners ht h1 h2 h3 h4 =>
      have hip : ∀ i ∈ items, i.Plain := by
        rcases ht with rfl | rfl
        · cases htp with | tuple h => exact h
        · cases htp with | call h => exact h
      obtain ⟨rfl, h5⟩ := tupleItems_plain hd hip h1
      refine .tuple hst ht ?_ (compound_of h2 h3) ?_
      · intro i hi
        obtain ⟨t, h6, h7, h8⟩ := h5 i hi
        refine ⟨t, h6, ?_, ?_, fun hl => (h8 hl).imp Schema.family_model.1 Schema.family_union.1⟩
        · rintro i rfl; cases h7
        · rintro is v rfl; cases h7
      · intro i hi
        obtain ⟨y, -, hy⟩ := (parseAll_ok h4).exists_left i hi
        exact ih _ ctx' hd (hip i hi) hp hf hy
    | @primUnion choices fams ctx' s0 ss h1 h2 h3 h4 h5 h6 =>
      have hip : ∀ i ∈ choices, i.Plain := by
        cases htp with | union h => exact h
      obtain ⟨rfl, h7⟩ := unionFamilies_plain hd hip h2
      have hall := parseAll_ok h5
      have hkind : ∀ y ∈ s0 :: ss, y.kind = s0.kind := by
        intro y hy
        rcases List.mem_cons.1 hy with rfl | hy
        · rfl
        · exact h6 y hy
      obtain ⟨c0, hc0, t0, ht0, hf0, -⟩ := h7.mem_right .primitive (by simpa using h4)
      obtain ⟨ty, rfl⟩ : ∃ ty, t0 = .prim ty := by cases t0 <;> first | exact ⟨_, rfl⟩ | cases hf0
      obtain ⟨y0, hy0, hp0⟩ := hall.exists_left c0 hc0
      have hpr := parse_prim hd (hip _ hc0) ht0 h1 hp0
      have hk0 := (hkind y0 hy0).symm.trans (primOf_kind hpr)
      refine .primUnion hst ?_ ⟨c0, hc0, ty, ht0⟩ ((primOf_iff hp hf).1 ⟨_, hpr⟩)
      intro c hcm
      obtain ⟨f, hfm, t, ht, hft, hff⟩ := h7.exists_left c hcm
      obtain ⟨y, hy, hpy⟩ := hall.exists_left c hcm
      rcases hff with rfl | rfl | rfl
      · left
        cases t <;> first | exact ⟨_, ht⟩ | cases hft
      · right
        cases t with
        | isInst b =>
          cases b with
          | false => exact ht
          | true =>
            exfalso
            have h8 := rawOf_kind (parse_raw hd (hip _ hcm) ht h1 hpy)
            rw [hkind y hy, hk0] at h8
            unfold scalarKind at h8
            split at h8 <;> cases h8
        | _ => cases hft
      · simp at h3
        exact absurd hfm h3
    | @modelUnion choices fams ctx' p ps h1 h2 h3 h4 h5 h6 =>
      have hip : ∀ i ∈ choices, i.Plain := by
        cases htp with | union h => exact h
      obtain ⟨rfl, h7⟩ := unionFamilies_plain hd hip h2
      have hall := parseProxies_ok h6
      have hm : ∀ c ∈ choices, ∃ cls r cd, Strips ctx'.defs c ctx'.defs (.model cls r) ∧ classes cls = some cd ∧
          ctx'.place.ModelOk cd ∧ ctx'.location ≠ some .attribute := by
        intro c hcm
        obtain ⟨f, hfm, t, ht, hft, hff⟩ := h7.exists_left c hcm
        obtain ⟨y, hy, hpy⟩ := hall.exists_left c hcm
        rcases hff with rfl | rfl | rfl
        · simp at h4; exact absurd hfm h4
        · simp at h5; exact absurd hfm h5
        · obtain ⟨cls, r, rfl⟩ : ∃ cls r, t = .model cls r := by cases t <;> first | exact ⟨_, _, rfl⟩ | cases hft
          obtain ⟨h8, q, -, h9⟩ := parse_model hd (hip _ hcm) ht h1 hpy
          obtain ⟨cd, h10, h11⟩ := (proxyOf_iff hc hp).1 ⟨_, h9⟩
          exact ⟨cls, r, cd, ht, h10, h11, h8⟩
      obtain ⟨c0, hc0, -⟩ := hall.mem_right p (by simp)
      obtain ⟨_, _, _, _, _, _, hla⟩ := hm c0 hc0
      refine .modelUnion hst ?_ (compound_of h1 hla) ?_
      · rintro rfl; simp at hc0
      · intro c hcm
        obtain ⟨cls, r, cd, h8, h9, h10, -⟩ := hm c hcm
        exact ⟨cls, r, cd, h8, h9, h10⟩
    | @tagged discr attr choices ctx' alts h1 h2 h3 =>
      have hip : ∀ i ∈ choices, i.2.Plain := by
        cases htp with | tagged h => exact h
      obtain ⟨rfl, h4⟩ := taggedChoices_plain hd (by
        intro s hs
        obtain ⟨c, hc, rfl⟩ := List.mem_map.1 hs
        exact hip c hc) h2
      obtain ⟨-, h5⟩ := taggedLoopOf_all h3
      have hm : ∀ c ∈ choices, ctx'.location ≠ some .attribute ∧ ∃ tag cls cd, c.1 = some tag ∧
          Strips ctx'.defs c.2 ctx'.defs (.model cls false) ∧ classes cls = some cd ∧
          ctx'.place.ModelOk cd ∧ built.Keyed cls discr attr := by
        intro c hcm
        obtain ⟨tag, p, a, h6, h7, h8, h9⟩ := h5 c hcm
        cases h9
        obtain ⟨cls, h10⟩ := h4 c.2 (List.mem_map_of_mem hcm)
        obtain ⟨h11, q, h12, h13⟩ := parse_model hd (hip _ hcm) h10 h1 h7
        cases h12
        obtain ⟨cd, h14, h15⟩ := (proxyOf_iff hc hp).1 ⟨_, h13⟩
        rw [proxyOf_cls h13] at h8
        exact ⟨h11, tag, cls, cd, h6, h10, h14, h15, discriminatorAttr_ok h8⟩
      have hne : choices ≠ [] := by
        rintro rfl
        cases h3
      obtain ⟨c0, cs0, hcons⟩ := List.exists_cons_of_ne_nil hne
      refine .tagged hst hne (compound_of h1 (hm c0 (by rw [hcons]; simp)).1) fun c hcm => (hm c hcm).2

/-! ## Supported definitions -/

theorem strips_parse {d : Dict String Schema} {s t : Schema} (h : Strips d s d t) :
    ∃ N, ∀ n, N ≤ n → ∀ ctx : Ctx, ctx.defs = d →
      parse classes built (n + 1) s ctx = select classes built (parse classes built n) n t ctx := by
  obtain ⟨N, hN⟩ := h.preprocess
  refine ⟨N, fun n hn ctx hd => ?_⟩
  simp only [parse, hN n hn ctx hd]
  subst hd
  rfl

theorem exists_bound {α : Type} {P : α → Nat → Prop} : ∀ {l : List α}, (∀ a ∈ l, ∃ N, ∀ n, N ≤ n → P a n) →
    ∃ N, ∀ n, N ≤ n → ∀ a ∈ l, P a n := by
  intro l
  induction l with
  | nil => intro _; exact ⟨0, by simp⟩
  | cons a l ih =>
    intro h
    obtain ⟨N1, h1⟩ := h a (by simp)
    obtain ⟨N2, h2⟩ := ih fun b hb => h b (by simp [hb])
    refine ⟨max N1 N2, fun n hn b hb => ?_⟩
    rcases List.mem_cons.1 hb with rfl | hb
    · exact h1 n (by omega)
    · exact h2 n (by omega) b hb

theorem parseAll_some {rec : Schema → Ctx → Except DefErr Ser} : ∀ {ss : List Schema},
    (∀ s ∈ ss, ∃ x, rec s ctx = .ok x) → ∃ xs, parseAll rec ctx ss = .ok xs := by
  intro ss
  induction ss with
  | nil => intro _; exact ⟨[], rfl⟩
  | cons s ss ih =>
    intro h
    obtain ⟨x, hx⟩ := h s (by simp)
    obtain ⟨xs, hxs⟩ := ih fun s hs => h s (by simp [hs])
    exact ⟨x :: xs, by simp only [parseAll, hx, hxs]⟩

theorem parseProxies_some {rec : Schema → Ctx → Except DefErr Ser} : ∀ {ss : List Schema},
    (∀ s ∈ ss, ∃ p, rec s ctx = .ok (.proxy p)) → ∃ ps, parseProxies rec ctx ss = .ok ps ∧ (ss ≠ [] → ps ≠ []) := by
  intro ss
  induction ss with
  | nil => intro _; exact ⟨[], rfl, fun h => absurd rfl h⟩
  | cons s ss ih =>
    intro h
    obtain ⟨x, hx⟩ := h s (by simp)
    obtain ⟨xs, hxs, -⟩ := ih fun s hs => h s (by simp [hs])
    exact ⟨x :: xs, by simp only [parseProxies, parseProxy, hx, hxs], by simp⟩

theorem primitives_some {n : Nat} : ∀ {ss : List Schema},
    (∀ s ∈ ss, ∃ ty, ∃ c, preprocess n s ctx = .ok (.prim ty, c)) → primitives n ctx ss = .ok () := by
  intro ss
  induction ss with
  | nil => intro _; rfl
  | cons s ss ih =>
    intro h
    obtain ⟨ty, c, hx⟩ := h s (by simp)
    simp only [primitives, hx]
    rw [if_pos (show (Schema.prim ty).family = some .primitive from rfl)]
    exact ih fun s hs => h s (by simp [hs])

theorem tupleItems_some {n : Nat} : ∀ {ss : List Schema},
    (∀ s ∈ ss, ∃ t, preprocess n s ctx = .ok (t, ctx) ∧ Family.isTupleItem t.family = true ∧
      (ctx.location = none → t.family = some .model ∨ t.family = some .union)) → tupleItems n ss ctx = .ok ctx := by
  intro ss
  induction ss with
  | nil => intro _; rfl
  | cons s ss ih =>
    intro h
    obtain ⟨t, hx, h1, h2⟩ := h s (by simp)
    simp only [tupleItems, hx, h1]
    rw [if_neg (by simp), if_neg ?_]
    · exact ih fun s hs => h s (by simp [hs])
    · intro hh
      simp only [Bool.and_eq_true, Bool.not_eq_true', Bool.or_eq_false_iff, decide_eq_false_iff_not, decide_eq_true_eq] at hh
      rcases h2 hh.2 with h3 | h3
      · exact hh.1.1 h3
      · exact hh.1.2 h3

theorem unionFamilies_some {n : Nat} : ∀ {ss : List Schema},
    (∀ s ∈ ss, ∃ t f, preprocess n s ctx = .ok (t, ctx) ∧ t.family = some f ∧ (f = .primitive ∨ f = .isInstance ∨ f = .model)) →
    ∃ fams, unionFamilies n ss ctx = .ok (fams, ctx) ∧
      Each (fun s f => ∃ t, preprocess n s ctx = .ok (t, ctx) ∧ t.family = some f) ss fams := by
  intro ss
  induction ss with
  | nil => intro _; exact ⟨[], rfl, .nil⟩
  | cons s ss ih =>
    intro h
    obtain ⟨t, f, hx, h1, h2⟩ := h s (by simp)
    obtain ⟨fams, h3, h4⟩ := ih fun s hs => h s (by simp [hs])
    refine ⟨f :: fams, ?_, .cons ⟨t, hx, h1⟩ h4⟩
    simp only [unionFamilies, hx]
    rcases h2 with rfl | rfl | rfl <;> simp only [h1, h3, Option.getD_some]

theorem taggedChoices_some {n : Nat} : ∀ {ss : List Schema},
    (∀ s ∈ ss, ∃ cls, preprocess n s ctx = .ok (.model cls false, ctx)) → taggedChoices n ss ctx = .ok ctx := by
  intro ss
  induction ss with
  | nil => intro _; rfl
  | cons s ss ih =>
    intro h
    obtain ⟨cls, hx⟩ := h s (by simp)
    simp only [taggedChoices, hx]
    exact ih fun s hs => h s (by simp [hs])

theorem taggedLoopOf_some {rec : Schema → Ctx → Except DefErr Ser} {discr a : String} :
    ∀ {cs : List (Option String × Schema)} {attr : Option String} {acc : Dict String Proxy},
    (attr = none ∨ attr = some a) → (∀ c ∈ cs, ∃ tag p, c.1 = some tag ∧ rec c.2 ctx = .ok (.proxy p) ∧
      discriminatorAttr built discr p.cls = .ok a) →
    ∃ acc', taggedLoopOf rec built discr ctx cs attr acc = .ok (if cs = [] then attr else some a, acc') := by
  intro cs
  induction cs with
  | nil => intro attr acc _ _; exact ⟨acc, rfl⟩
  | cons c cs ih =>
    intro attr acc ha h
    obtain ⟨o, s⟩ := c
    obtain ⟨tag, p, h1, h2, h3⟩ := h (o, s) (by simp)
    simp only at h1 h2
    subst h1
    obtain ⟨acc', h4⟩ := ih (attr := some a) (acc := acc.set tag p) (.inr rfl) fun c hc => h c (by simp [hc])
    refine ⟨acc', ?_⟩
    simp only [taggedLoopOf, parseProxy, h2, h3]
    rw [if_neg ?_, h4]
    · simp
    · rcases ha with rfl | rfl <;> simp

theorem Place.Compound.not_wrapped (h : ctx.place.Compound) : ctx.location ≠ some .wrapped := by
  unfold Place.Compound at h
  rw [location_eq] at h
  rcases h with h | h <;> rw [h] <;> simp

theorem Place.Compound.not_attribute (h : ctx.place.Compound) : ctx.location ≠ some .attribute := by
  unfold Place.Compound at h
  rw [location_eq] at h
  rcases h with h | h <;> rw [h] <;> simp

theorem Place.Mapping.not_wrapped (h : ctx.place.Mapping) : ctx.location ≠ some .wrapped := by
  unfold Place.Mapping at h
  rw [location_eq] at h
  rcases h with h | ⟨h, -⟩ <;> rw [h] <;> simp

theorem Place.Scalar.not_wrapped (h : ctx.place.Scalar) : ctx.location ≠ some .wrapped := by
  unfold Place.Scalar at h
  rw [location_eq] at h
  rcases h with h | ⟨h, -⟩ | ⟨h, -⟩ <;> rw [h] <;> simp

theorem collectionOf_compound {r : Except DefErr Ser} (h : ctx.place.Compound) : collectionOf ctx r = r := by
  unfold collectionOf
  split
  · rename_i hl; exact absurd hl h.not_attribute
  · rename_i hl; exact absurd hl h.not_wrapped
  · rfl

theorem modelOf_some (hc : classes.Proper) (hp : ctx.place.Proper) {cls : String} {cd : ClassDef} (h1 : classes cls = some cd)
    (h2 : ctx.place.Compound) (h3 : ctx.place.ModelOk cd) :
    ∃ p, modelOf classes cls ctx = .ok (.proxy p) ∧ p.cls = cls := by
  obtain ⟨p, hx⟩ := (proxyOf_iff hc hp).2 ⟨cd, h1, h3⟩
  refine ⟨p, ?_, proxyOf_cls hx⟩
  unfold modelOf
  split
  · rename_i hl; exact absurd hl h2.not_attribute
  · rename_i hl; exact absurd hl h2.not_wrapped
  · rw [hx]; rfl

theorem model_parse (hc : classes.Proper) {d : Dict String Schema} {p : Place} {s : Schema} {cls : String} {r : Bool}
    {cd : ClassDef} (hst : Strips d s d (.model cls r)) (h1 : classes cls = some cd)
    (h2 : p.Compound) (h3 : p.ModelOk cd) : ∃ N, ∀ n, N ≤ n → ∀ ctx : Ctx, ctx.place = p → ctx.defs = d → p.Proper →
      ∃ x, parse classes built n s ctx = .ok (.proxy x) ∧ x.cls = cls := by
  obtain ⟨N, hN⟩ := strips_parse (classes := classes) (built := built) hst
  refine ⟨N + 1, fun n hn ctx hcp hd hp => ?_⟩
  obtain ⟨k, rfl⟩ : ∃ k, n = k + 1 := ⟨n - 1, by omega⟩
  subst hcp
  rw [hN k (by omega) ctx hd]
  unfold select
  rw [if_neg h2.not_wrapped]
  exact modelOf_some hc hp h1 h2 h3

theorem scalar_parse {d : Dict String Schema} {p : Place} {s t : Schema} (hst : Strips d s d t)
    (ht : (∃ ty, t = .prim ty) ∨ t = .isInst false) (h2 : p.Scalar) :
    ∃ N, ∀ n, N ≤ n → ∀ ctx : Ctx, ctx.place = p → ctx.defs = d → parse classes built n s ctx = primOf ctx := by
  obtain ⟨N, hN⟩ := strips_parse (classes := classes) (built := built) hst
  refine ⟨N + 1, fun n hn ctx hcp hd => ?_⟩
  obtain ⟨k, rfl⟩ : ∃ k, n = k + 1 := ⟨n - 1, by omega⟩
  subst hcp
  rw [hN k (by omega) ctx hd]
  unfold select
  rw [if_neg h2.not_wrapped]
  rcases ht with ⟨ty, rfl⟩ | rfl <;> rfl

/-- A definition that is supported is accepted. -/
theorem supported_parse (hc : classes.Proper) {d : Dict String Schema} {p : Place} {s : Schema}
    (h : s.Supported classes built.Keyed d p) : ∃ N, ∀ n, N ≤ n → ∀ ctx : Ctx, ctx.place = p → ctx.defs = d → p.Proper →
      p.fieldName ≠ some "" → ∃ x, parse classes built n s ctx = .ok x := by
  induction h with
  | @wrapped p s t path hst hl hpa hdec _ ih =>
    obtain ⟨N1, hN1⟩ := strips_parse (classes := classes) (built := built) hst
    obtain ⟨N2, hN2⟩ := ih
    refine ⟨max N1 N2 + 1, fun n hn ctx hcp hd hp hf => ?_⟩
    obtain ⟨k, rfl⟩ : ∃ k, n = k + 1 := ⟨n - 1, by omega⟩
    subst hcp
    rw [hN1 k (by omega) ctx hd]
    obtain ⟨x, hx⟩ := hN2 k (by omega) (ctx.child ctx.wrapped) rfl hd hp.inside hf
    obtain ⟨names, hn⟩ := (pathNames_iff hp (parts := splitPath path) (by
      obtain ⟨a, b, e⟩ := splitPath_ne path; rw [e]; simp)).2 hdec
    unfold select
    rw [if_pos (show ctx.location = some .wrapped from hl)]
    unfold wrapOf
    rw [show ctx.path = some path from hpa]
    simp only [hx, hn]
    exact ⟨_, rfl⟩
  | prim hst hsc =>
    obtain ⟨N, hN⟩ := scalar_parse (classes := classes) (built := built) hst (.inl ⟨_, rfl⟩) hsc
    refine ⟨N, fun n hn ctx hcp hd hp hf => ?_⟩
    rw [hN n hn ctx hcp hd]
    subst hcp
    exact (primOf_iff hp hf).2 hsc
  | inst hst hsc =>
    obtain ⟨N, hN⟩ := scalar_parse (classes := classes) (built := built) hst (.inr rfl) hsc
    refine ⟨N, fun n hn ctx hcp hd hp hf => ?_⟩
    rw [hN n hn ctx hcp hd]
    subst hcp
    exact (primOf_iff hp hf).2 hsc
  | raw hst hco hok =>
    obtain ⟨N, hN⟩ := strips_parse (classes := classes) (built := built) hst
    refine ⟨N + 1, fun n hn ctx hcp hd hp hf => ?_⟩
    obtain ⟨k, rfl⟩ : ∃ k, n = k + 1 := ⟨n - 1, by omega⟩
    subst hcp
    rw [hN k (by omega) ctx hd]
    unfold select
    rw [if_neg hco.not_wrapped]
    exact (rawOf_iff hp hf).2 ⟨hco, hok⟩
  | model hst hcd hco hok =>
    obtain ⟨N, hN⟩ := model_parse (built := built) hc hst hcd hco hok
    refine ⟨N, fun n hn ctx hcp hd hp _ => ?_⟩
    obtain ⟨x, hx, -⟩ := hN n hn ctx hcp hd hp
    exact ⟨_, hx⟩
  | dict hst hk hv hm =>
    obtain ⟨N, hN⟩ := strips_parse (classes := classes) (built := built) hst
    obtain ⟨N1, hN1⟩ := hk.preprocess
    obtain ⟨N2, hN2⟩ := hv.preprocess
    refine ⟨max N (max N1 N2) + 1, fun n hn ctx hcp hd hp hf => ?_⟩
    obtain ⟨k, rfl⟩ : ∃ k, n = k + 1 := ⟨n - 1, by omega⟩
    subst hcp
    rw [hN k (by omega) ctx hd]
    unfold select
    rw [if_neg hm.not_wrapped]
    simp only
    rw [primitives_some (by
      intro s hs
      simp only [List.mem_cons, List.not_mem_nil, or_false] at hs
      rcases hs with rfl | rfl
      · exact ⟨_, _, hN1 k (by omega) ctx hd⟩
      · exact ⟨_, _, hN2 k (by omega) ctx hd⟩)]
    exact (mappingOf_iff hp hf).2 hm
  | typedDict hst hv hm =>
    obtain ⟨N, hN⟩ := strips_parse (classes := classes) (built := built) hst
    obtain ⟨N1, hN1⟩ := exists_bound (P := fun s n => ∀ ctx : Ctx, ctx.defs = d → ∃ ty c, preprocess n s ctx = .ok (.prim ty, c)) fun v hvm => by
      obtain ⟨ty, h1⟩ := hv v hvm
      obtain ⟨N, h2⟩ := h1.preprocess
      exact ⟨N, fun n hn ctx hd => ⟨ty, _, h2 n hn ctx hd⟩⟩
    refine ⟨max N N1 + 1, fun n hn ctx hcp hd hp hf => ?_⟩
    obtain ⟨k, rfl⟩ : ∃ k, n = k + 1 := ⟨n - 1, by omega⟩
    subst hcp
    rw [hN k (by omega) ctx hd]
    unfold select
    rw [if_neg hm.not_wrapped]
    simp only
    rw [primitives_some fun v hvm => hN1 k (by omega) v hvm ctx hd]
    exact (mappingOf_iff hp hf).2 hm
  | @collection p s t item it hst ht hit hfam hl hnamed _ ih =>
    obtain ⟨N, hN⟩ := strips_parse (classes := classes) (built := built) hst
    obtain ⟨N1, hN1⟩ := hit.preprocess
    obtain ⟨N2, hN2⟩ := ih
    refine ⟨max N (max N1 N2) + 1, fun n hn ctx hcp hd hp hf => ?_⟩
    obtain ⟨k, rfl⟩ : ∃ k, n = k + 1 := ⟨n - 1, by omega⟩
    replace hN2 := hN2 k (by omega) ctx hcp hd hp hf
    subst hcp
    have hco : ctx.place.Compound := .inl hl
    rw [hN k (by omega) ctx hd]
    have : ∃ x, homogOf (parse classes built k) k item ctx = .ok x := by
      unfold homogOf
      rw [hN1 k (by omega) ctx hd]
      subst hd
      simp only
      have hi : Family.isItem it.family = true := by
        cases hf' : it.family with
        | none => have := hit.family; rw [hf'] at this; cases this
        | some f => cases f <;> first | rfl | exact (Schema.family_list.1 hf').elim fun i e => absurd e (hfam i)
      have hnm : Family.namedItem it.family = true := by
        exact Schema.family_named.2 hnamed
      rw [hi, hnm]
      simp only [Bool.not_true, Bool.false_eq_true, if_false, Bool.false_and]
      rw [collectionOf_compound hco, map_ok_iff]
      exact hN2
    unfold select
    rw [if_neg hco.not_wrapped]
    rcases ht with rfl | rfl <;> exact this
  | @elements p s t item it hst ht hit hfam hl _ ih =>
    obtain ⟨N, hN⟩ := strips_parse (classes := classes) (built := built) hst
    obtain ⟨N1, hN1⟩ := hit.preprocess
    obtain ⟨N2, hN2⟩ := ih
    refine ⟨max N (max N1 N2) + 1, fun n hn ctx hcp hd hp hf => ?_⟩
    obtain ⟨k, rfl⟩ : ∃ k, n = k + 1 := ⟨n - 1, by omega⟩
    replace hN2 := hN2 k (by omega) ctx hcp hd hp hf
    subst hcp
    have hco : ctx.place.Compound := .inr hl
    rw [hN k (by omega) ctx hd]
    have : ∃ x, homogOf (parse classes built k) k item ctx = .ok x := by
      unfold homogOf
      rw [hN1 k (by omega) ctx hd]
      subst hd
      simp only
      have hi : Family.isItem it.family = true := by
        cases hf' : it.family with
        | none => have := hit.family; rw [hf'] at this; cases this
        | some f => cases f <;> first | rfl | exact (Schema.family_list.1 hf').elim fun i e => absurd e (hfam i)
      have hle : ctx.location = some .element := hl
      have hle' : ({ ctx with defs := ctx.defs } : Ctx).location = some .element := hl
      rw [hi, if_neg (by simp), if_neg (by simp [hle'])]
      rw [collectionOf_compound hco, map_ok_iff]
      exact hN2
    unfold select
    rw [if_neg hco.not_wrapped]
    rcases ht with rfl | rfl <;> exact this
  | @tuple p s t items hst ht hit hco _ ih =>
    obtain ⟨N, hN⟩ := strips_parse (classes := classes) (built := built) hst
    obtain ⟨N1, hN1⟩ := exists_bound (l := items) (P := fun s n => ∀ ctx : Ctx, ctx.place = p → ctx.defs = d → p.Proper → p.fieldName ≠ some "" →
      ∃ x, parse classes built n s ctx = .ok x) ih
    obtain ⟨N2, hN2⟩ := exists_bound (l := items) (P := fun s n => ∀ ctx : Ctx, ctx.place = p → ctx.defs = d →
      ∃ t, preprocess n s ctx = .ok (t, ctx) ∧ Family.isTupleItem t.family = true ∧
      (ctx.location = none → t.family = some .model ∨ t.family = some .union)) fun i hi => by
        obtain ⟨it, h1, h2, h3, h4⟩ := hit i hi
        obtain ⟨N, h5⟩ := h1.preprocess
        refine ⟨N, fun n hn ctx hcp hd => ⟨it, ?_, ?_, ?_⟩⟩
        · rw [h5 n hn ctx hd]; subst hd; rfl
        · cases hf' : it.family with
          | none => have := h1.family; rw [hf'] at this; cases this
          | some f => cases f <;> first | rfl | exact (Schema.family_list.1 hf').elim fun i e => absurd e (h2 i) |
              exact (Schema.family_tuple.1 hf').elim fun is h => h.elim fun v e => absurd e (h3 is v)
        · subst hcp; exact fun hl => (h4 hl).imp Schema.family_model.2 Schema.family_union.2
    refine ⟨max N (max N1 N2) + 1, fun n hn ctx hcp hd hp hf => ?_⟩
    obtain ⟨k, rfl⟩ : ∃ k, n = k + 1 := ⟨n - 1, by omega⟩
    replace hN1 := fun i hi => hN1 k (by omega) i hi ctx hcp hd hp hf
    replace hN2 := fun i hi => hN2 k (by omega) i hi ctx hcp hd
    subst hcp
    rw [hN k (by omega) ctx hd]
    have : ∃ x, heteroOf (parse classes built k) k items ctx = .ok x := by
      unfold heteroOf
      rw [tupleItems_some hN2]
      simp only
      rw [collectionOf_compound hco, map_ok_iff]
      exact parseAll_some hN1
    unfold select
    rw [if_neg hco.not_wrapped]
    rcases ht with rfl | rfl <;> exact this
  | @primUnion p s cs hst hcs hex hsc =>
    obtain ⟨N, hN⟩ := strips_parse (classes := classes) (built := built) hst
    have hform : ∀ c ∈ cs, ∃ t f, Strips d c d t ∧ ((∃ ty, t = .prim ty) ∨ t = .isInst false) ∧ t.family = some f ∧
        (f = .primitive ∨ f = .isInstance) := by
      intro c hcm
      rcases hcs c hcm with ⟨ty, h⟩ | h
      · exact ⟨_, .primitive, h, .inl ⟨ty, rfl⟩, rfl, .inl rfl⟩
      · exact ⟨_, .isInstance, h, .inr rfl, rfl, .inr rfl⟩
    obtain ⟨N1, hN1⟩ := exists_bound (l := cs) (P := fun s n => ∀ ctx : Ctx, ctx.place = p → ctx.defs = d →
      parse classes built n s ctx = primOf ctx) fun c hcm => by
        obtain ⟨t, f, h1, h2, -⟩ := hform c hcm
        exact scalar_parse h1 h2 hsc
    obtain ⟨N2, hN2⟩ := exists_bound (l := cs) (P := fun s n => ∀ ctx : Ctx, ctx.defs = d →
      ∃ t f, preprocess n s ctx = .ok (t, ctx) ∧ Strips d s d t ∧ t.family = some f ∧ (f = .primitive ∨ f = .isInstance)) fun c hcm => by
        obtain ⟨t, f, h1, -, h2, h3⟩ := hform c hcm
        obtain ⟨N, h5⟩ := h1.preprocess
        exact ⟨N, fun n hn ctx hd => ⟨t, f, by rw [h5 n hn ctx hd]; subst hd; rfl, h1, h2, h3⟩⟩
    refine ⟨max N (max N1 N2) + 1, fun n hn ctx hcp hd hp hf => ?_⟩
    obtain ⟨k, rfl⟩ : ∃ k, n = k + 1 := ⟨n - 1, by omega⟩
    replace hN1 := fun i hi => hN1 k (by omega) i hi ctx hcp hd
    replace hN2 := fun i hi => hN2 k (by omega) i hi ctx hd
    subst hcp
    rw [hN k (by omega) ctx hd]
    unfold select
    rw [if_neg hsc.not_wrapped]
    simp only
    unfold unionOf
    obtain ⟨fams, hu, heach⟩ := unionFamilies_some (n := k) (ctx := ctx) (ss := cs) fun c hcm => by
      obtain ⟨t, f, h1, h2, h3, h4⟩ := hN2 c hcm
      exact ⟨t, f, h1, h3, h4.elim .inl fun h => .inr (.inl h)⟩
    rw [hu]
    simp only
    have hnm : fams.contains .model = false := by
      cases hcon : fams.contains .model with
      | false => rfl
      | true =>
        exfalso
        obtain ⟨c, hcm, t, h1, h2⟩ := heach.mem_right .model (by simpa using hcon)
        obtain ⟨t', f, h3, h4, h5, h6⟩ := hN2 c hcm
        rw [h1] at h3
        cases h3
        rw [h2] at h5
        cases h5
        rcases h6 with h | h <;> cases h
    have hpm : fams.contains .primitive = true := by
      obtain ⟨c, hcm, ty, h⟩ := hex
      obtain ⟨f, hfm, t, h1, h2⟩ := heach.exists_left c hcm
      obtain ⟨t', f', h3, h4, h5, h6⟩ := hN2 c hcm
      rw [h1] at h3
      cases h3
      obtain ⟨-, rfl⟩ := h4.det h
      cases h2
      simpa using hfm
    have hne : fams.isEmpty = false := by
      cases fams with
      | nil => simp at hpm
      | cons _ _ => rfl
    rw [hne, hnm, hpm]
    simp only [Bool.false_eq_true, if_false, Bool.and_false, if_true]
    unfold primUnionOf
    obtain ⟨x0, hx0⟩ := (primOf_iff hp hf).2 hsc
    have hpa : parseAll (parse classes built k) ctx cs = .ok (cs.map fun _ => x0) := by
      apply parseAll_of
      clear hex heach hu hcs hform hst hN hN2
      induction cs with
      | nil => exact .nil
      | cons c cs ih => exact .cons (by rw [hN1 c (by simp), hx0]) (ih fun i hi => hN1 i (by simp [hi]))
    rw [hpa]
    obtain ⟨c, hcm, -⟩ := hex
    cases cs with
    | nil => simp at hcm
    | cons c0 cs0 =>
      simp only [List.map_cons]
      rw [if_pos (by simp)]
      exact ⟨_, rfl⟩
  | @modelUnion p s cs hst hne hco hcs =>
    obtain ⟨N, hN⟩ := strips_parse (classes := classes) (built := built) hst
    obtain ⟨N1, hN1⟩ := exists_bound (l := cs) (P := fun s n => ∀ ctx : Ctx, ctx.place = p → ctx.defs = d → p.Proper →
      ∃ x, parse classes built n s ctx = .ok (.proxy x)) fun c hcm => by
        obtain ⟨cls, r, cd, h1, h2, h3⟩ := hcs c hcm
        obtain ⟨N, h⟩ := model_parse (built := built) hc h1 h2 hco h3
        exact ⟨N, fun n hn ctx a b e => by obtain ⟨x, hx, -⟩ := h n hn ctx a b e; exact ⟨x, hx⟩⟩
    obtain ⟨N2, hN2⟩ := exists_bound (l := cs) (P := fun s n => ∀ ctx : Ctx, ctx.defs = d →
      ∃ t, preprocess n s ctx = .ok (t, ctx) ∧ t.family = some .model) fun c hcm => by
        obtain ⟨cls, r, cd, h1, -⟩ := hcs c hcm
        obtain ⟨N, h5⟩ := h1.preprocess
        exact ⟨N, fun n hn ctx hd => ⟨_, by rw [h5 n hn ctx hd]; subst hd; rfl, rfl⟩⟩
    refine ⟨max N (max N1 N2) + 1, fun n hn ctx hcp hd hp hf => ?_⟩
    obtain ⟨k, rfl⟩ : ∃ k, n = k + 1 := ⟨n - 1, by omega⟩
    replace hN1 := fun i hi => hN1 k (by omega) i hi ctx hcp hd hp
    replace hN2 := fun i hi => hN2 k (by omega) i hi ctx hd
    subst hcp
    rw [hN k (by omega) ctx hd]
    unfold select
    rw [if_neg hco.not_wrapped]
    simp only
    unfold unionOf
    obtain ⟨fams, hu, heach⟩ := unionFamilies_some (n := k) (ctx := ctx) (ss := cs) fun c hcm => by
      obtain ⟨t, h1, h2⟩ := hN2 c hcm
      exact ⟨t, _, h1, h2, .inr (.inr rfl)⟩
    rw [hu]
    simp only
    have hall : ∀ f ∈ fams, f = .model := by
      intro f hfm
      obtain ⟨c, hcm, t, h1, h2⟩ := heach.mem_right f hfm
      obtain ⟨t', h3, h4⟩ := hN2 c hcm
      rw [h1] at h3
      cases h3
      rw [h2] at h4
      cases h4
      rfl
    have hno : ∀ f, f ≠ .model → fams.contains f = false := by
      intro f hf
      cases hcon : fams.contains f with
      | false => rfl
      | true => exact absurd (hall f (by simpa using hcon)) hf
    obtain ⟨f0, fs0, rfl⟩ : ∃ f0 fs0, fams = f0 :: fs0 := by
      cases heach with
      | nil => exact absurd rfl hne
      | cons _ _ => exact ⟨_, _, rfl⟩
    have h0 := hall f0 (by simp)
    subst h0
    rw [hno .primitive (by simp), hno .isInstance (by simp)]
    simp only [List.isEmpty_cons, Bool.false_eq_true, if_false, Bool.or_self, Bool.false_and, List.contains_cons, BEq.rfl,
      Bool.true_or, if_true]
    unfold modelUnionOf
    obtain ⟨ps, h1, h2⟩ := parseProxies_some hN1
    rw [h1]
    cases ps with
    | nil => exact absurd rfl (h2 hne)
    | cons p ps => exact ⟨_, rfl⟩
  | @tagged p s discr cs attr hst hne hco hcs =>
    obtain ⟨N, hN⟩ := strips_parse (classes := classes) (built := built) hst
    obtain ⟨N1, hN1⟩ := exists_bound (l := cs) (P := fun c n => ∀ ctx : Ctx, ctx.place = p → ctx.defs = d → p.Proper →
      ∃ tag x, c.1 = some tag ∧ parse classes built n c.2 ctx = .ok (.proxy x) ∧ discriminatorAttr built discr x.cls = .ok attr) fun c hcm => by
        obtain ⟨tag, cls, cd, h1, h2, h3, h4, m, fs, f, comp, h5, h6, h7, h8⟩ := hcs c hcm
        obtain ⟨N, h⟩ := model_parse (built := built) hc h2 h3 hco h4
        refine ⟨N, fun n hn ctx a b e => ?_⟩
        obtain ⟨x, hx, hxc⟩ := h n hn ctx a b e
        refine ⟨tag, x, h1, hx, ?_⟩
        unfold discriminatorAttr
        rw [hxc, h5]
        obtain ⟨_, _, _, b, _, _⟩ := m
        simp only at h6
        subst h6
        simp only [h7]
        obtain ⟨_, sr, _, _, _, _⟩ := f
        simp only at h8
        subst h8
        rfl
    obtain ⟨N2, hN2⟩ := exists_bound (l := cs) (P := fun c n => ∀ ctx : Ctx, ctx.defs = d →
      ∃ cls, preprocess n c.2 ctx = .ok (.model cls false, ctx)) fun c hcm => by
        obtain ⟨tag, cls, cd, h1, h2, -⟩ := hcs c hcm
        obtain ⟨N, h5⟩ := h2.preprocess
        exact ⟨N, fun n hn ctx hd => ⟨cls, by rw [h5 n hn ctx hd]; subst hd; rfl⟩⟩
    refine ⟨max N (max N1 N2) + 1, fun n hn ctx hcp hd hp hf => ?_⟩
    obtain ⟨k, rfl⟩ : ∃ k, n = k + 1 := ⟨n - 1, by omega⟩
    replace hN1 := fun i hi => hN1 k (by omega) i hi ctx hcp hd hp
    replace hN2 := fun i hi => hN2 k (by omega) i hi ctx hd
    subst hcp
    rw [hN k (by omega) ctx hd]
    unfold select
    rw [if_neg hco.not_wrapped]
    simp only
    unfold taggedOf
    rw [taggedChoices_some (by
      intro s hs
      obtain ⟨c, hcm, rfl⟩ := List.mem_map.1 hs
      exact hN2 c hcm)]
    simp only
    obtain ⟨acc, h⟩ := taggedLoopOf_some (rec := parse classes built k) (ctx := ctx) (built := built) (acc := []) (.inl rfl) hN1
    rw [h, if_neg hne]
    exact ⟨_, rfl⟩

end PXml
