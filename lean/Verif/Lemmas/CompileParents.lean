import Verif.Compile

/-!
# What a field's serializer takes from the entities around it

The serializer of a field depends on the entities around the field only through the namespace and the namespace map in scope.
-/

namespace PXml

/-- The context with other entities around it. -/
def Ctx.inside (c : Ctx) (P : List (Option EntityInfo)) : Ctx := { c with parents := P }

/-- The same namespace and the same namespace map are in scope. -/
def Alike (P P' : List (Option EntityInfo)) : Prop :=
  Ctx.parentNsOf P = Ctx.parentNsOf P' ∧ Ctx.parentNsmapOf P = Ctx.parentNsmapOf P'

theorem Alike.cons {P P' : List (Option EntityInfo)} (h : Alike P P') (i : Option EntityInfo) : Alike (i :: P) (i :: P') := by
  simp only [Alike, Ctx.parentNsOf, Ctx.parentNsmapOf, h.1, h.2, and_self]

section
variable {P : List (Option EntityInfo)} {c : Ctx} (h : Alike c.parents P)
include h

theorem parentNs_inside : (c.inside P).parentNs = c.parentNs := h.1.symm
theorem parentNsmap_inside : (c.inside P).parentNsmap = c.parentNsmap := h.2.symm

theorem attrOf_inside : attrOf (c.inside P) = attrOf c := by
  simp only [attrOf, parentNs_inside h, parentNsmap_inside h]; rfl

theorem elementName_inside : elementName (c.inside P) = elementName c := by
  simp only [elementName, parentNs_inside h, parentNsmap_inside h]; rfl

theorem attrsOf_inside : attrsOf (c.inside P) = attrsOf c := by
  simp only [attrsOf, parentNs_inside h, parentNsmap_inside h]; rfl

theorem primOf_inside : primOf (c.inside P) = primOf c := by
  simp only [primOf, elemOf, attrOf_inside h, elementName_inside h]; rfl

theorem mappingOf_inside : mappingOf (c.inside P) = mappingOf c := by
  simp only [mappingOf, mapElemOf, attrsOf_inside h, elementName_inside h]; rfl

theorem rawOf_inside : rawOf (c.inside P) = rawOf c := by
  simp only [rawOf, rawElemOf, elementName_inside h]; rfl

theorem proxyOf_inside (classes : Classes) (cls : String) : proxyOf classes cls (c.inside P) = proxyOf classes cls c := by
  simp only [proxyOf, parentNs_inside h, parentNsmap_inside h]; rfl

theorem modelOf_inside (classes : Classes) (cls : String) : modelOf classes cls (c.inside P) = modelOf classes cls c := by
  simp only [modelOf, proxyOf_inside h]; rfl

end

theorem collectionOf_inside (P : List (Option EntityInfo)) (c : Ctx) (r : Except DefErr Ser) :
    collectionOf (c.inside P) r = collectionOf c r := rfl

theorem preprocess_inside (P : List (Option EntityInfo)) : ∀ (n : Nat) (s : Schema) (c : Ctx),
    preprocess n s (c.inside P) = (preprocess n s c).map fun r => (r.1, r.2.inside P)
  | 0, _, _ => rfl
  | n + 1, s, c => by
    cases s with
    | funcPlain o => cases o with
      | none => rfl
      | some i => exact preprocess_inside P n _ _
    | func i => exact preprocess_inside P n _ _
    | default i => exact preprocess_inside P n _ _
    | nullable i => exact preprocess_inside P n _ _
    | jsonOrPython i => exact preprocess_inside P n _ _
    | definitions d i => exact preprocess_inside P n _ { c with defs := Dict.update c.defs d }
    | ref r =>
      unfold preprocess
      simp only [Ctx.inside]
      cases c.defs.get? r with
      | none => rfl
      | some s => exact preprocess_inside P n _ c
    | _ => rfl

theorem preprocess_parents : ∀ (n : Nat) (s : Schema) (c : Ctx) (s' : Schema) (c' : Ctx),
    preprocess n s c = .ok (s', c') → c'.parents = c.parents
  | 0, _, _, _, _, h => by cases h
  | n + 1, s, c, s', c', h => by
    cases s with
    | funcPlain o => cases o with
      | none => cases h
      | some i => exact preprocess_parents n _ _ _ _ h
    | func i => exact preprocess_parents n _ _ _ _ h
    | default i => exact preprocess_parents n _ _ _ _ h
    | nullable i => exact preprocess_parents n _ _ _ _ h
    | jsonOrPython i => exact preprocess_parents n _ _ _ _ h
    | definitions d i => exact preprocess_parents n _ { c with defs := Dict.update c.defs d } _ _ h
    | ref r =>
      unfold preprocess at h
      simp only at h
      split at h
      · exact preprocess_parents n _ c _ _ h
      · cases h
    | other t => cases h
    | _ => unfold preprocess at h; injection h with h; injection h with _ h; subst h; rfl

section
variable {rec : Schema → Ctx → Except DefErr Ser}
  (hr : ∀ (s : Schema) (c : Ctx) (P : List (Option EntityInfo)), Alike c.parents P → rec s (c.inside P) = rec s c)
include hr

theorem parseAll_inside {P : List (Option EntityInfo)} {c : Ctx} (h : Alike c.parents P) :
    ∀ ss : List Schema, parseAll rec (c.inside P) ss = parseAll rec c ss
  | [] => rfl
  | s :: ss => by unfold parseAll; rw [hr s c P h, parseAll_inside h ss]

theorem parseProxy_inside {P : List (Option EntityInfo)} {c : Ctx} (h : Alike c.parents P) (s : Schema) :
    parseProxy rec (c.inside P) s = parseProxy rec c s := by
  unfold parseProxy; rw [hr s c P h]

theorem parseProxies_inside {P : List (Option EntityInfo)} {c : Ctx} (h : Alike c.parents P) :
    ∀ ss : List Schema, parseProxies rec (c.inside P) ss = parseProxies rec c ss
  | [] => rfl
  | s :: ss => by unfold parseProxies; rw [parseProxy_inside hr h, parseProxies_inside h ss]

theorem homogOf_inside {P : List (Option EntityInfo)} {c : Ctx} (h : Alike c.parents P) (n : Nat) (items : Schema) :
    homogOf rec n items (c.inside P) = homogOf rec n items c := by
  unfold homogOf
  rw [preprocess_inside]
  cases hp : preprocess n items c with
  | error e => rfl
  | ok r =>
    obtain ⟨is, c'⟩ := r
    simp only [Except.map, collectionOf_inside]
    rw [hr items c' P (by rw [preprocess_parents _ _ _ _ _ hp]; exact h)]
    rfl

omit hr in
theorem tupleItems_inside (P : List (Option EntityInfo)) (n : Nat) : ∀ (ss : List Schema) (c : Ctx),
    tupleItems n ss (c.inside P) = (tupleItems n ss c).map fun r => r.inside P
  | [], _ => rfl
  | s :: ss, c => by
    unfold tupleItems
    rw [preprocess_inside]
    cases preprocess n s c with
    | error e => rfl
    | ok r =>
      obtain ⟨s', c'⟩ := r
      simp only [Except.map]
      by_cases h1 : (!Family.isTupleItem s'.family) = true
      · simp only [h1, if_true]
      · have e1 : (c'.inside P).location = c'.location := rfl
        simp only [e1]
        rw [if_neg h1, if_neg h1]
        split
        · rfl
        · exact tupleItems_inside P n ss c'

omit hr in
theorem tupleItems_parents (n : Nat) : ∀ (ss : List Schema) (c c' : Ctx), tupleItems n ss c = .ok c' → c'.parents = c.parents
  | [], c, c', h => by unfold tupleItems at h; injection h with h; subst h; rfl
  | s :: ss, c, c', h => by
    unfold tupleItems at h
    cases hp : preprocess n s c with
    | error e => rw [hp] at h; cases h
    | ok r =>
      obtain ⟨s', c1⟩ := r
      rw [hp] at h
      simp only at h
      split at h
      · cases h
      · split at h
        · cases h
        · rw [tupleItems_parents n ss c1 c' h, preprocess_parents _ _ _ _ _ hp]

theorem heteroOf_inside {P : List (Option EntityInfo)} {c : Ctx} (h : Alike c.parents P) (n : Nat) (items : List Schema) :
    heteroOf rec n items (c.inside P) = heteroOf rec n items c := by
  unfold heteroOf
  rw [tupleItems_inside]
  cases hp : tupleItems n items c with
  | error e => rfl
  | ok c' =>
    simp only [Except.map, collectionOf_inside]
    rw [parseAll_inside hr (by rw [tupleItems_parents _ _ _ _ hp]; exact h)]
    rfl

omit hr in
theorem primitives_inside (P : List (Option EntityInfo)) (n : Nat) (c : Ctx) : ∀ ss : List Schema,
    primitives n (c.inside P) ss = primitives n c ss
  | [] => rfl
  | s :: ss => by
    unfold primitives
    rw [preprocess_inside, primitives_inside P n c ss]
    cases preprocess n s c <;> rfl

theorem primUnionOf_inside {P : List (Option EntityInfo)} {c : Ctx} (h : Alike c.parents P) (ss : List Schema) :
    primUnionOf rec ss (c.inside P) = primUnionOf rec ss c := by
  unfold primUnionOf; rw [parseAll_inside hr h]; rfl

theorem modelUnionOf_inside {P : List (Option EntityInfo)} {c : Ctx} (h : Alike c.parents P) (ss : List Schema) :
    modelUnionOf rec ss (c.inside P) = modelUnionOf rec ss c := by
  unfold modelUnionOf; rw [parseProxies_inside hr h]; rfl

omit hr in
theorem unionFamilies_inside (P : List (Option EntityInfo)) (n : Nat) : ∀ (ss : List Schema) (c : Ctx),
    unionFamilies n ss (c.inside P) = (unionFamilies n ss c).map fun r => (r.1, r.2.inside P)
  | [], _ => rfl
  | s :: ss, c => by
    unfold unionFamilies
    rw [preprocess_inside]
    cases preprocess n s c with
    | error e => rfl
    | ok r =>
      obtain ⟨s', c'⟩ := r
      simp only [Except.map]
      have ih := unionFamilies_inside P n ss c'
      cases hu : unionFamilies n ss c' with
      | error e => rw [hu] at ih; rw [ih]; split <;> rfl
      | ok q => rw [hu] at ih; rw [ih]; split <;> rfl

omit hr in
theorem unionFamilies_parents (n : Nat) : ∀ (ss : List Schema) (c : Ctx) (fs : List Family) (c' : Ctx),
    unionFamilies n ss c = .ok (fs, c') → c'.parents = c.parents
  | [], c, fs, c', h => by unfold unionFamilies at h; injection h with h; injection h with _ h; subst h; rfl
  | s :: ss, c, fs, c', h => by
    unfold unionFamilies at h
    cases hp : preprocess n s c with
    | error e => rw [hp] at h; cases h
    | ok r =>
      obtain ⟨s', c1⟩ := r
      rw [hp] at h
      simp only at h
      cases hu : unionFamilies n ss c1 with
      | error e => rw [hu] at h; split at h <;> cases h
      | ok q =>
        obtain ⟨fs', c2⟩ := q
        rw [hu] at h
        have h3 : c2.parents = c1.parents := unionFamilies_parents n ss c1 fs' c2 hu
        have : c' = c2 := by
          split at h
          all_goals first | (injection h with h; injection h with _ h; exact h.symm) | cases h
        rw [this, h3, preprocess_parents _ _ _ _ _ hp]

theorem unionOf_inside {P : List (Option EntityInfo)} {c : Ctx} (h : Alike c.parents P) (n : Nat) (ss : List Schema) :
    unionOf rec n ss (c.inside P) = unionOf rec n ss c := by
  unfold unionOf
  rw [unionFamilies_inside]
  cases hp : unionFamilies n ss c with
  | error e => rfl
  | ok r =>
    obtain ⟨fs, c'⟩ := r
    have h' : Alike c'.parents P := by rw [unionFamilies_parents _ _ _ _ _ hp]; exact h
    simp only [Except.map, modelUnionOf_inside hr h', primUnionOf_inside hr h']

omit hr in
theorem taggedChoices_inside (P : List (Option EntityInfo)) (n : Nat) : ∀ (ss : List Schema) (c : Ctx),
    taggedChoices n ss (c.inside P) = (taggedChoices n ss c).map fun r => r.inside P
  | [], _ => rfl
  | s :: ss, c => by
    unfold taggedChoices
    rw [preprocess_inside]
    cases preprocess n s c with
    | error e => rfl
    | ok r =>
      obtain ⟨s', c'⟩ := r
      have ih := taggedChoices_inside P n ss c'
      cases s' with
      | model cls root => cases root <;> simp only [Except.map] <;> first | rfl | exact ih
      | _ => rfl

omit hr in
theorem taggedChoices_parents (n : Nat) : ∀ (ss : List Schema) (c c' : Ctx), taggedChoices n ss c = .ok c' → c'.parents = c.parents
  | [], c, c', h => by unfold taggedChoices at h; injection h with h; subst h; rfl
  | s :: ss, c, c', h => by
    unfold taggedChoices at h
    cases hp : preprocess n s c with
    | error e => rw [hp] at h; cases h
    | ok r =>
      obtain ⟨s', c1⟩ := r
      rw [hp] at h
      cases s' with
      | model cls root =>
        cases root with
        | true => cases h
        | false => rw [taggedChoices_parents n ss c1 c' h, preprocess_parents _ _ _ _ _ hp]
      | _ => cases h

theorem taggedLoopOf_inside {P : List (Option EntityInfo)} {c : Ctx} (h : Alike c.parents P) (built : Built) (discr : String) :
    ∀ (l : List (Option String × Schema)) (a : Option String) (acc : Dict String Proxy),
    taggedLoopOf rec built discr (c.inside P) l a acc = taggedLoopOf rec built discr c l a acc
  | [], _, _ => rfl
  | (none, _) :: _, _, _ => rfl
  | (some tag, s) :: rest, a, acc => by
    unfold taggedLoopOf
    rw [parseProxy_inside hr h]
    cases parseProxy rec c s with
    | error e => rfl
    | ok p =>
      simp only
      cases discriminatorAttr built discr p.cls with
      | error e => rfl
      | ok a' =>
        simp only
        split
        · rfl
        · exact taggedLoopOf_inside h built discr rest _ _

theorem taggedOf_inside {P : List (Option EntityInfo)} {c : Ctx} (h : Alike c.parents P) (n : Nat) (built : Built) (discr : Option String)
    (choices : List (Option String × Schema)) :
    taggedOf rec n built discr choices (c.inside P) = taggedOf rec n built discr choices c := by
  unfold taggedOf
  rw [taggedChoices_inside]
  cases hp : taggedChoices n (choices.map Prod.snd) c with
  | error e => rfl
  | ok c' =>
    have h' : Alike c'.parents P := by rw [taggedChoices_parents _ _ _ _ hp]; exact h
    simp only [Except.map]
    cases discr with
    | none => rfl
    | some d => simp only [taggedLoopOf_inside hr h']; rfl

theorem wrapOf_inside {P : List (Option EntityInfo)} {c : Ctx} (h : Alike c.parents P) (s : Schema) :
    wrapOf rec s (c.inside P) = wrapOf rec s c := by
  have e : rec s ((c.inside P).child (c.inside P).wrapped) = rec s (c.child c.wrapped) :=
    hr s (c.child c.wrapped) (c.info :: P) (h.cons c.info)
  unfold wrapOf
  simp only [e, parentNs_inside h, parentNsmap_inside h]
  rfl

theorem select_inside {P : List (Option EntityInfo)} {c : Ctx} (h : Alike c.parents P) (classes : Classes) (built : Built) (n : Nat)
    (s : Schema) : select classes built rec n s (c.inside P) = select classes built rec n s c := by
  unfold select
  have e : (c.inside P).location = c.location := rfl
  rw [e, wrapOf_inside hr h]
  split
  · rfl
  · cases s with
    | prim t => exact primOf_inside h
    | model cls r => exact modelOf_inside h classes cls
    | list items => exact homogOf_inside hr h n items
    | tuple items v =>
      simp only [heteroOf_inside hr h]
      cases v with
      | none => rfl
      | some k =>
        cases k with
        | zero =>
          simp only
          split
          · exact homogOf_inside hr h n _
          · rfl
        | succ k => rfl
    | dict k v => simp only [primitives_inside, mappingOf_inside h]
    | typedDict vs => simp only [primitives_inside, mappingOf_inside h]
    | union cs => exact unionOf_inside hr h n cs
    | tagged d cs => exact taggedOf_inside hr h n built d cs
    | isInst b => simp only [rawOf_inside h, primOf_inside h]
    | call b args => simp only [heteroOf_inside hr h]
    | _ => rfl

end

/-- The serializer of a field is the same if the same namespace and namespace map are in scope. -/
theorem parse_inside (classes : Classes) (built : Built) : ∀ (n : Nat) (s : Schema) (c : Ctx) (P : List (Option EntityInfo)),
    Alike c.parents P → parse classes built n s (c.inside P) = parse classes built n s c
  | 0, _, _, _, _ => rfl
  | n + 1, s, c, P, h => by
    unfold parse
    rw [preprocess_inside]
    cases hp : preprocess n s c with
    | error e => rfl
    | ok r =>
      obtain ⟨s', c'⟩ := r
      simp only [Except.map]
      exact select_inside (parse_inside classes built n) (by rw [preprocess_parents _ _ _ _ _ hp]; exact h) classes built n s'

end PXml
