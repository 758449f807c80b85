import Verif.Lemmas.CompileParents
import Verif.Lemmas.Compile
import Verif.Lemmas.CompileNames
import Verif.Lemmas.CompileMono
import Verif.Props.Wrapped
import Verif.Example

/-!
# A path in one step or in several: C53

`wrapped('a/b', entity)` means the same as `wrapped('a', wrapped('b', entity))`.
-/

namespace PXml

open Elem

/-! ## Definition -/

theorem splitSlash_append (a b : List Char) :
    (splitSlash (a ++ '/' :: b)).1 :: (splitSlash (a ++ '/' :: b)).2 =
      ((splitSlash a).1 :: (splitSlash a).2) ++ ((splitSlash b).1 :: (splitSlash b).2) := by
  induction a with
  | nil => simp [splitSlash]
  | cons c cs ih =>
    simp only [List.cons_append, splitSlash]
    split
    · rw [ih]
    · simp only [List.cons_append, List.cons.injEq] at ih ⊢
      rw [ih.1, ih.2]
      exact ⟨⟨trivial, rfl⟩, rfl⟩

/-- The parts of `a/b` are the parts of `a` and the parts of `b`. -/
theorem splitPath_append (a b : String) : splitPath (a ++ "/" ++ b) = splitPath a ++ splitPath b := by
  have h : (a ++ "/" ++ b).toList = a.toList ++ '/' :: b.toList := by simp
  have := splitSlash_append a.toList b.toList
  simp only [splitPath, h, this]
  simp only [List.map_append]

theorem splitPath_segs (a : String) : splitPath a ≠ [] := (splitPath_segments a).1

/-- The names of the path `p ++ q`. -/
theorem pathNames_append (ns : Option String) (m : NsMap) (p q : List String) :
    pathNames ns m (p ++ q) = match pathNames ns m p with
      | .error e => .error e
      | .ok np => match pathNames ns m q with | .error e => .error e | .ok nq => .ok (np ++ nq) := by
  induction p with
  | nil => simp only [List.nil_append, pathNames]; cases pathNames ns m q <;> rfl
  | cons t ts ih =>
    simp only [List.cons_append, pathNames, ih]
    cases QName.fromAlias t ns (some m) false with
    | error e => rfl
    | ok u =>
      simp only
      cases pathNames ns m ts with
      | error e => rfl
      | ok np =>
        simp only
        cases pathNames ns m q <;> rfl

/-- The only error, and it does not depend on the path. -/
theorem pathNames_error {ns : Option String} {m : NsMap} {p : List String} {e : DefErr} (h : pathNames ns m p = .error e) :
    ∀ q : List String, q ≠ [] → pathNames ns m q = .error e := by
  have one : ∀ t t' : String, ∀ e, QName.fromAlias t ns (some m) false = .error e → QName.fromAlias t' ns (some m) false = .error e := by
    intro t t' e h
    unfold QName.fromAlias at h ⊢
    simp only [Bool.not_false, Bool.true_or, if_true] at h ⊢
    cases ns with
    | none => cases h
    | some a =>
      simp only at h ⊢
      split at h
      · rename_i ht
        split at h
        · cases h
        · rename_i hg; rw [if_pos ht]; exact h
      · cases h
  intro q hq
  induction p with
  | nil => cases h
  | cons t ts ih =>
    simp only [pathNames] at h
    cases hf : QName.fromAlias t ns (some m) false with
    | error e' =>
      rw [hf] at h
      cases h
      cases q with
      | nil => exact absurd rfl hq
      | cons t' ts' => simp only [pathNames, one t t' _ hf]
    | ok u =>
      rw [hf] at h
      simp only at h
      cases hp : pathNames ns m ts with
      | error e' => rw [hp] at h; cases h; exact ih hp
      | ok np => rw [hp] at h; cases h

theorem update_nil_twice (M : NsMap) : Dict.update [] (Dict.update [] M) = Dict.update [] M :=
  Dict.ofItems_of_wf (Dict.wf_ofItems M)

theorem set_ne_nil {α β : Type} [DecidableEq α] (d : Dict α β) (k : α) (v : β) : d.set k v ≠ [] := by
  cases d with
  | nil => simp [Dict.set]
  | cons x d => obtain ⟨k', v'⟩ := x; simp only [Dict.set]; split <;> simp

theorem update_ne_nil {α β : Type} [DecidableEq α] (a b : Dict α β) (h : a ≠ [] ∨ b ≠ []) : Dict.update a b ≠ [] := by
  induction b generalizing a with
  | nil => rcases h with h | h; · exact h
           · exact absurd rfl h
  | cons x b ih => obtain ⟨k, v⟩ := x; rw [Dict.update_cons]; exact ih _ (Or.inl (set_ne_nil a k v))

theorem truthyMap_update (M : NsMap) : truthyMap (some (Dict.update [] M)) = truthyMap (some M) := by
  cases M with
  | nil => rfl
  | cons x M =>
    have := update_ne_nil ([] : NsMap) (x :: M) (Or.inr (by simp))
    cases h : Dict.update ([] : NsMap) (x :: M) with
    | nil => exact absurd h this
    | cons y l => rfl

/-- A wrapper without a namespace map hands on the one in scope. -/
theorem mergeNsmaps_inherited (x : Option NsMap) :
    mergeNsmaps [none, some (Dict.update [] (x.getD []))] = mergeNsmaps [none, x] := by
  cases x with
  | none => rfl
  | some M =>
    cases hM : truthyMap (some M) with
    | false =>
      simp only [mergeNsmaps, List.filter, Option.getD_some, truthyMap_update, hM]
    | true =>
      simp only [mergeNsmaps, List.filter, Option.getD_some, truthyMap_update, hM]
      change chainMap [Dict.update [] M] = chainMap [M]
      exact update_nil_twice M

/-- Preprocessing does not look at the entity. -/
theorem preprocess_info (i : Option EntityInfo) : ∀ (n : Nat) (s : Schema) (c : Ctx),
    preprocess n s { c with info := i } = (preprocess n s c).map fun r => (r.1, { r.2 with info := i })
  | 0, _, _ => rfl
  | n + 1, s, c => by
    cases s with
    | funcPlain o => cases o with
      | none => rfl
      | some j => exact preprocess_info i n _ _
    | func j => exact preprocess_info i n _ _
    | default j => exact preprocess_info i n _ _
    | nullable j => exact preprocess_info i n _ _
    | jsonOrPython j => exact preprocess_info i n _ _
    | definitions d j => exact preprocess_info i n _ { c with defs := Dict.update c.defs d }
    | ref r =>
      unfold preprocess
      simp only
      cases c.defs.get? r with
      | none => rfl
      | some s => exact preprocess_info i n _ c
    | _ => rfl

/-- A schema that is already preprocessed. -/
theorem preprocess_done {s : Schema} (h : s.family.isSome = true) (n : Nat) (c : Ctx) : preprocess (n + 1) s c = .ok (s, c) := by
  cases s <;> first | rfl | cases h

theorem select_wrapped (classes : Classes) (built : Built) (rec : Schema → Ctx → Except DefErr Ser) (n : Nat) (s : Schema) (ctx : Ctx)
    (h : ctx.location = some .wrapped) : select classes built rec n s ctx = wrapOf rec s ctx := if_pos h

theorem pathNames_ne {ns : Option String} {m : NsMap} {p l : List String} (hp : p ≠ []) (h : pathNames ns m p = .ok l) : l ≠ [] := by
  cases p with
  | nil => exact absurd rfl hp
  | cons t ts =>
    simp only [pathNames] at h
    split at h
    · cases h
    · split at h
      · cases h
      · cases h; simp

theorem wrapped_folded (classes : Classes) (built : Built) (a b : String) (ns : Option String) (w : Option EntityInfo)
    (s : Schema) (hs : s.family.isSome = true) (ctx : Ctx) (n : Nat) :
    Folded (wrapOf (parse classes built (n + 1)) s { ctx with info := some (wrappedInfo (a ++ "/" ++ b) ns w) })
      (wrapOf (parse classes built (n + 2)) s { ctx with info := some (wrappedInfo a ns (some (wrappedInfo b none w))) }) := by
  have hP : Alike (some (wrappedInfo (a ++ "/" ++ b) ns w) :: ctx.parents)
      (some (wrappedInfo b none w) :: some (wrappedInfo a ns (some (wrappedInfo b none w))) :: ctx.parents) := by
    constructor
    · cases ns <;> simp [Ctx.parentNsOf, selectNs, wrappedInfo, EntityInfo.ns] <;> cases Ctx.parentNsOf ctx.parents <;> rfl
    · simp only [Ctx.parentNsmapOf, wrappedInfo, EntityInfo.nsmap, Option.bind_some, Option.getD_none, Option.getD_some,
        update_nil_twice]
  have hin := parse_inside classes built (n + 1) s
    { ctx with info := w, parents := some (wrappedInfo (a ++ "/" ++ b) ns w) :: ctx.parents } _ hP
  have hns : selectNs [none, selectNs [ns, Ctx.parentNsOf ctx.parents]] = selectNs [ns, Ctx.parentNsOf ctx.parents] := by
    cases ns <;> simp [selectNs] <;> cases Ctx.parentNsOf ctx.parents <;> rfl
  -- the two wrappers one after the other
  have inner : parse classes built (n + 2) s
      { ctx with info := some (wrappedInfo b none w), parents := some (wrappedInfo a ns (some (wrappedInfo b none w))) :: ctx.parents } =
      match parse classes built (n + 1) s { ctx with info := w, parents := some (wrappedInfo (a ++ "/" ++ b) ns w) :: ctx.parents } with
      | .error e => .error e
      | .ok inner =>
        match pathNames (selectNs [ns, Ctx.parentNsOf ctx.parents]) (mergeNsmaps [none, Ctx.parentNsmapOf ctx.parents]) (splitPath b) with
        | .error e => .error e
        | .ok names => .ok (.wrap names (some (mergeNsmaps [none, Ctx.parentNsmapOf ctx.parents])) ctx.mode ctx.computed inner) := by
    rw [parse, preprocess_done hs]
    simp only
    rw [select_wrapped _ _ _ _ _ _ rfl]
    unfold wrapOf
    simp only [Ctx.path, wrappedInfo, EntityInfo.path, Option.bind_some, Ctx.ns, EntityInfo.ns, Ctx.nsmap, EntityInfo.nsmap,
      Ctx.parentNs, Ctx.parentNsmap, Ctx.parentNsOf, Ctx.parentNsmapOf, Option.getD_none, hns, mergeNsmaps_inherited, Ctx.child,
      Ctx.wrapped, EntityInfo.wrapped]
    simp only [Ctx.inside, wrappedInfo] at hin
    rw [hin]
    rfl
  unfold wrapOf
  simp only [Ctx.path, wrappedInfo, EntityInfo.path, Option.bind_some, Ctx.ns, EntityInfo.ns, Ctx.nsmap, EntityInfo.nsmap,
    Ctx.parentNs, Ctx.parentNsmap, Ctx.child, Ctx.wrapped, EntityInfo.wrapped]
  simp only [wrappedInfo] at inner
  rw [inner]
  cases parse classes built (n + 1) s
    { ctx with info := w, parents := some (.mk (some .wrapped) (some (a ++ "/" ++ b)) ns none none w) :: ctx.parents } with
  | error e => exact .error e
  | ok i =>
    simp only [splitPath_append, pathNames_append]
    cases hb : pathNames (selectNs [ns, Ctx.parentNsOf ctx.parents]) (mergeNsmaps [none, Ctx.parentNsmapOf ctx.parents]) (splitPath b) with
    | error e =>
      rw [pathNames_error hb _ (splitPath_segs a)]
      exact .error e
    | ok nb =>
      simp only
      cases ha : pathNames (selectNs [ns, Ctx.parentNsOf ctx.parents]) (mergeNsmaps [none, Ctx.parentNsmapOf ctx.parents]) (splitPath a) with
      | error e => exact .error e
      | ok na => exact .ok na nb _ _ _ i (pathNames_ne (splitPath_segs a) ha) (pathNames_ne (splitPath_segs b) hb)

/-- At sufficient fuel. -/
theorem parse_folded (classes : Classes) (built : Built) (a b : String) (ns : Option String) (w : Option EntityInfo)
    (s : Schema) (ctx : Ctx) (n : Nat) (hd : preprocess (n + 1) s ctx ≠ .error .diverge) :
    Folded (parse classes built (n + 2) s { ctx with info := some (wrappedInfo (a ++ "/" ++ b) ns w) })
      (parse classes built (n + 3) s { ctx with info := some (wrappedInfo a ns (some (wrappedInfo b none w))) }) := by
  rw [parse, parse]
  simp only [preprocess_info]
  have hm : preprocess (n + 2) s ctx = preprocess (n + 1) s ctx := by
    rcases preprocess_mono (n + 1) s ctx with h | h
    · exact absurd h hd
    · exact h
  rw [hm]
  cases hp : preprocess (n + 1) s ctx with
  | error e => exact .error e
  | ok r =>
    obtain ⟨t, c⟩ := r
    simp only [Except.map]
    rw [select_wrapped _ _ _ _ _ _ rfl, select_wrapped _ _ _ _ _ _ rfl]
    exact wrapped_folded classes built a b ns w t (preprocess_strips _ _ _ hp).1.family c n

/-- **C53** (definition). A field annotated with `wrapped('a/b', entity)` and one annotated with `wrapped('a', wrapped('b',
entity))` are accepted alike: both are rejected with the same error, or both are accepted and have the same names, namespace
maps and settings, one wrapper covering the whole path in the first case and one wrapper containing another in the second. -/
theorem C53_definition (classes : Classes) (built : Built) (a b : String) (ns : Option String) (w : Option EntityInfo)
    (s : Schema) (ctx : Ctx) :
    let flat := { ctx with info := some (wrappedInfo (a ++ "/" ++ b) ns w) }
    let nested := { ctx with info := some (wrappedInfo a ns (some (wrappedInfo b none w))) }
    (∀ r, Compiles classes built s flat r → ∃ r', Compiles classes built s nested r' ∧ Folded r r') ∧
    (∀ r', Compiles classes built s nested r' → ∃ r, Compiles classes built s flat r ∧ Folded r r') := by
  intro flat nested
  have nd : ∀ {r r' : Except DefErr Ser}, Folded r r' → (r ≠ .error .diverge ↔ r' ≠ .error .diverge) := by
    intro r r' h
    cases h <;> simp
  have hpre : ∀ (i : Option EntityInfo) (n : Nat), preprocess n s ctx = .error .diverge →
      parse classes built (n + 1) s { ctx with info := i } = .error .diverge := by
    intro i n h
    rw [parse, preprocess_info, h]
    rfl
  have up : ∀ {n m : Nat} {c : Ctx}, n ≤ m → parse classes built n s c ≠ .error .diverge →
      parse classes built m s c = parse classes built n s c := by
    intro n m c h hn
    rcases parse_mono_le (classes := classes) (built := built) h s c with h1 | h1
    · exact absurd h1 hn
    · exact h1
  constructor
  · rintro r ⟨hr, n, hn⟩
    have h2 := up (c := flat) (show n ≤ n + 2 by omega) (by rw [hn]; exact hr)
    have hd : preprocess (n + 1) s ctx ≠ .error .diverge := fun h => by
      have := hpre flat.info (n + 1) h
      change parse classes built (n + 2) s flat = _ at this
      rw [h2, hn] at this
      exact hr this
    have hf := parse_folded classes built a b ns w s ctx n hd
    change Folded (parse classes built (n + 2) s flat) _ at hf
    rw [h2, hn] at hf
    exact ⟨_, ⟨(nd hf).1 hr, _, rfl⟩, hf⟩
  · rintro r' ⟨hr, n, hn⟩
    have h2 := up (c := nested) (show n ≤ n + 2 by omega) (by rw [hn]; exact hr)
    have h3 := up (c := nested) (show n ≤ n + 3 by omega) (by rw [hn]; exact hr)
    have hd : preprocess (n + 1) s ctx ≠ .error .diverge := fun h => by
      have := hpre nested.info (n + 1) h
      change parse classes built (n + 2) s nested = _ at this
      rw [h2, hn] at this
      exact hr this
    have hf := parse_folded classes built a b ns w s ctx n hd
    change Folded _ (parse classes built (n + 3) s nested) at hf
    rw [h3, hn] at hf
    exact ⟨_, ⟨(nd hf).2 hr, _, rfl⟩, hf⟩

/-! ## Reading and writing -/

theorem set_set {α β : Type} [DecidableEq α] (d : Dict α β) (k : α) (v w : β) : (d.set k v).set k w = d.set k w := by
  induction d with
  | nil => simp [Dict.set]
  | cons x d ih =>
    obtain ⟨k', v'⟩ := x
    simp only [Dict.set]
    split
    · rename_i h; simp [Dict.set]
    · rename_i h; simp only [Dict.set, h, if_false, ih]

/-- The results of reading with one wrapper and with two. -/
def ReadsAlike (loc : Loc) (st : St) (r1 r2 : Out Val × St) : Prop :=
  r1 = r2 ∨
    ((r1.1 = .ok .none ∨ ∃ e, r1.1 = .crash e) ∧ r2.1 = r1.1 ∧ r2.2.el = r1.2.el ∧ r1.2.sm = st.sm ∧ ∃ line, r2.2.sm = st.sm.set loc line)

/-- Descending with a continuation that first notes the line. -/
theorem descend_note (mode : Mode) (f : St → Out Val × St) (loc : Loc) (q : List String) (hq : q ≠ []) (st : St) (l : Int) :
    ReadsAlike loc st (descend mode (fun c => f { c with sm := c.sm.set loc c.el.line }) q st)
      (descend mode (fun c => f { c with sm := c.sm.set loc c.el.line }) q { st with sm := st.sm.set loc l }) := by
  induction q generalizing st with
  | nil => exact absurd rfl hq
  | cons t ts ih =>
    simp only [descend]
    cases hf : st.el.findElement t mode with
    | error e => exact Or.inr ⟨Or.inr ⟨e, rfl⟩, rfl, rfl, rfl, l, rfl⟩
    | ok r =>
      obtain ⟨o, el⟩ := r
      cases o with
      | none => exact Or.inr ⟨Or.inl rfl, rfl, rfl, rfl, l, rfl⟩
      | some i =>
        simp only [onChild]
        cases el.elements[i]? with
        | none => exact Or.inr ⟨Or.inr ⟨_, rfl⟩, rfl, rfl, rfl, l, rfl⟩
        | some c =>
          simp only
          cases ts with
          | nil =>
            left
            simp only [descend, set_set]
          | cons t' ts' =>
            rcases ih (by simp) { st with el := c } with h | ⟨h1, h2, h3, h4, line, h5⟩
            · left
              simp only [h]
            · right
              exact ⟨h1, h2, by simp only [h3], h4, line, h5⟩
theorem descend_notes (mode : Mode) (f : St → Out Val × St) (loc : Loc) (p q : List String) (hq : q ≠ []) (st : St) :
    ReadsAlike loc st (descend mode (fun c => f { c with sm := c.sm.set loc c.el.line }) (p ++ q) st)
      (descend mode (fun c => descend mode (fun c => f { c with sm := c.sm.set loc c.el.line }) q { c with sm := c.sm.set loc c.el.line })
        p st) := by
  induction p generalizing st with
  | nil => exact descend_note mode f loc q hq st st.el.line
  | cons t ts ih =>
    simp only [List.cons_append, descend]
    cases hf : st.el.findElement t mode with
    | error e => exact Or.inl rfl
    | ok r =>
      obtain ⟨o, el⟩ := r
      cases o with
      | none => exact Or.inl rfl
      | some i =>
        simp only [onChild]
        cases el.elements[i]? with
        | none => exact Or.inl rfl
        | some c =>
          simp only
          rcases ih ⟨c, st.sm⟩ with h | ⟨h1, h2, h3, h4, line, h5⟩
          · left
            simp only [h]
          · right
            exact ⟨h1, h2, by simp only [h3], h4, line, h5⟩

/-- **C53** (reading). A field with one wrapper for the whole path and one with a wrapper inside another read the same: from the
same element they have the same outcome (value, error or exception) and leave the same behind. The source lines they note are the
same as well, except if the path exists only in part: then the field is absent, and the nested wrappers note a line for it. -/
theorem C53_read (env : Env) (eas : Bool) (n : Nat) (p q : List String) (hq : q ≠ []) (m1 m2 m3 : Option NsMap) (mode : Mode)
    (computed : Bool) (inner : Ser) (loc : Loc) (st : St) :
    let flat := deser env eas (n + 1) (.wrap (p ++ q) m1 mode computed inner) loc st
    let nested := deser env eas (n + 2) (.wrap p m2 mode computed (.wrap q m3 mode computed inner)) loc st
    nested.1 = flat.1 ∧ nested.2.el = flat.2.el ∧
      (nested.2.sm = flat.2.sm ∨
        (flat.1 = .ok .none ∨ ∃ e, flat.1 = .crash e) ∧ flat.2.sm = st.sm ∧ ∃ line, nested.2.sm = st.sm.set loc line) := by
  intro flat nested
  have h : ReadsAlike loc st flat nested := by
    change ReadsAlike loc st (deserStep env eas (deser env eas n) n _ loc st) (deserStep env eas (deser env eas (n + 1)) (n + 1) _ loc st)
    simp only [deserStep]
    cases computed with
    | true => exact Or.inl rfl
    | false =>
      simp only [Bool.false_eq_true, if_false]
      have e : ∀ c : St, deser env eas (n + 1) (.wrap q m3 mode false inner) loc c =
          descend mode (fun c => deser env eas n inner loc { c with sm := c.sm.set loc c.el.line }) q c := by
        intro c
        change deserStep env eas (deser env eas n) n _ loc c = _
        simp only [deserStep, Bool.false_eq_true, if_false]
      simp only [e]
      exact descend_notes mode (deser env eas n inner loc) loc p q hq st
  rcases h with h | ⟨h1, h2, h3, h4, h5⟩
  · rw [h]; exact ⟨rfl, rfl, Or.inl rfl⟩
  · exact ⟨h2, h3, Or.inr ⟨h1, h4, h5⟩⟩

theorem ascend_append (b : Backend) (mode : Mode) (m : Option NsMap) (f : Elem → Out Elem) (p q : List String) (e : Elem) :
    ascend b mode m f (p ++ q) e = ascend b mode m (ascend b mode m f q) p e := by
  induction p generalizing e with
  | nil => rfl
  | cons t ts ih =>
    simp only [List.cons_append, ascend]
    have : ascend b mode m f (ts ++ q) = ascend b mode m (ascend b mode m f q) ts := funext fun e => ih e
    rw [this]

/-- **C53** (writing). A field with one wrapper for the whole path and one with a wrapper inside another write the same. -/
theorem C53_write (env : Env) (n : Nat) (fl : Flags) (p q : List String) (m : Option NsMap) (mode : Mode) (computed : Bool)
    (inner : Ser) (el : Elem) (v enc : Val) :
    ser env (n + 2) fl (.wrap p m mode computed (.wrap q m mode computed inner)) el v enc =
      ser env (n + 1) fl (.wrap (p ++ q) m mode computed inner) el v enc := by
  change serStep env (ser env (n + 1)) fl _ el v enc = serStep env (ser env n) fl _ el v enc
  simp only [serStep]
  split
  · rfl
  · rename_i hv
    split
    · rfl
    · rename_i hl
      rw [ascend_append]
      congr 1
      funext c
      change serStep env (ser env n) fl _ c v enc = _
      simp only [serStep]
      rw [if_neg hv, if_neg hl]

/-! ### Concrete cases -/

namespace Ex

/-- A class with a namespace, in which `x: str = wrapped('a/b', element())` is declared. -/
def pathCtx : Ctx where
  modelName := "M"
  fieldName := some "x"
  mode := .ordered
  parents := [some (.mk none none (some "n") (some [("n", "urn:n")]) none none)]

example : Compiles (fun _ => none) (fun _ => none) (.nullable (.prim "str"))
    { pathCtx with info := some (wrappedInfo ("a" ++ "/" ++ "b") none (some (.mk (some .element) none none none none none))) }
    (.ok (.wrap ["{urn:n}a", "{urn:n}b"] (some [("n", "urn:n")]) .ordered false
      (.elem "{urn:n}x" (some [("n", "urn:n")]) .ordered false false))) :=
  ⟨by simp, 5, by kernel_rfl⟩

example : Compiles (fun _ => none) (fun _ => none) (.nullable (.prim "str"))
    { pathCtx with info := some (wrappedInfo "a" none (some (wrappedInfo "b" none (some (.mk (some .element) none none none none none))))) }
    (.ok (.wrap ["{urn:n}a"] (some [("n", "urn:n")]) .ordered false (.wrap ["{urn:n}b"] (some [("n", "urn:n")]) .ordered false
      (.elem "{urn:n}x" (some [("n", "urn:n")]) .ordered false false)))) :=
  ⟨by simp, 5, by kernel_rfl⟩

/-- The same error. -/
example : Compiles (fun _ => none) (fun _ => none) (.prim "str")
    { pathCtx with info := some (wrappedInfo ("a" ++ "/" ++ "b") (some "z") (some (.mk (some .element) (some "t") (some "n") none none none))) }
    (.error (.modelError "namespace alias not declared in nsmap")) :=
  ⟨by simp, 5, by kernel_rfl⟩

/-- A document with the whole path and one with a part of it. -/
def pathDoc : Elem := fromNative .lxml (.elem "M" [] [] none none [.elem "a" [] [] none none [.elem "b" [] [] (some "v") none [] (some 3)] (some 2)] (some 1))
def pathPart : Elem := fromNative .lxml (.elem "M" [] [] none none [.elem "a" [] [] none none [] (some 2)] (some 1))

example : (deser env false 5 (.wrap (["a"] ++ ["b"]) none .strict false (.text false false)) [.name "x"] ⟨pathDoc, []⟩).1 = .ok (.str "v") ∧
    (deser env false 6 (.wrap ["a"] none .strict false (.wrap ["b"] none .strict false (.text false false))) [.name "x"] ⟨pathDoc, []⟩).1 =
      .ok (.str "v") := ⟨by kernel_rfl, by kernel_rfl⟩

/-- The line that only the nested wrappers note. -/
example : (deser env false 5 (.wrap (["a"] ++ ["b"]) none .strict false (.text false false)) [.name "x"] ⟨pathPart, []⟩).2.sm = [] ∧
    (deser env false 6 (.wrap ["a"] none .strict false (.wrap ["b"] none .strict false (.text false false))) [.name "x"] ⟨pathPart, []⟩).2.sm =
      [([.name "x"], 2)] := ⟨by kernel_rfl, by kernel_rfl⟩

end Ex

end PXml
