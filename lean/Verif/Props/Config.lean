import Verif.SpecConfig

/-!
# C71, C72: environment variables, the mypy plugin
-/

namespace PXml

/-! ## Environment variables -/

theorem lowerChar_iff (c w : Char) (hw : ¬ ('A' ≤ w ∧ w ≤ 'Z')) :
    lowerChar c = w ↔ c = w ∨ ('a' ≤ w ∧ w ≤ 'z' ∧ w.toNat = c.toNat + 32) := by
  have hle : ∀ a b : Char, a ≤ b ↔ a.toNat ≤ b.toNat := fun a b => Iff.rfl
  have hA : 'A'.toNat = 65 := rfl
  have hZ : 'Z'.toNat = 90 := rfl
  have ha : 'a'.toNat = 97 := rfl
  have hz : 'z'.toNat = 122 := rfl
  simp only [hle, hA, hZ] at hw
  unfold lowerChar
  simp only [hle, hA, hZ, ha, hz]
  split
  · next h =>
    have hv : (Char.ofNat (c.toNat + 32)).toNat = c.toNat + 32 := by
      have hvalid : (c.toNat + 32).isValidChar := .inl (by omega)
      unfold Char.ofNat
      rw [dif_pos hvalid]
      rfl
    constructor
    · rintro rfl
      exact .inr ⟨by omega, by omega, hv⟩
    · rintro (rfl | ⟨h1, h2, h3⟩)
      · exact absurd h hw
      · apply Char.toNat_inj.1; omega
  · next h =>
    constructor
    · exact .inl
    · rintro (rfl | ⟨h1, h2, h3⟩)
      · rfl
      · exact absurd ⟨by omega, by omega⟩ h

theorem map_lower_iff (cs ws : List Char) (hw : ∀ w ∈ ws, ¬ ('A' ≤ w ∧ w ≤ 'Z')) : cs.map lowerChar = ws ↔ Spells cs ws := by
  induction cs generalizing ws with
  | nil => cases ws <;> simp [Spells]
  | cons c cs ih =>
    cases ws with
    | nil => simp [Spells]
    | cons w ws =>
      simp only [List.map_cons, List.cons.injEq, Spells]
      rw [ih ws fun x hx => hw x (.tail _ hx), lowerChar_iff c w (hw w (.head _))]

theorem boolWords_small : ∀ b, ∀ s ∈ boolWords b, ∀ w ∈ s.toList, ¬ ('A' ≤ w ∧ w ≤ 'Z') := by decide

theorem contains_words (val : String) (b : Bool) :
    (boolWords b).contains (String.ofList (val.toList.map lowerChar)) = true ↔ ∃ w ∈ boolWords b, Spells val.toList w.toList := by
  rw [List.contains_iff_mem]
  constructor
  · intro h
    refine ⟨_, h, (map_lower_iff _ _ (boolWords_small b _ h)).1 ?_⟩
    simp
  · rintro ⟨w, hw, h⟩
    rw [← map_lower_iff _ _ (boolWords_small b _ hw)] at h
    rw [h]; simpa using hw

/-- C71: a value is understood as a boolean exactly if it spells one of its words, in small or capital letters. -/
theorem C71_strtobool (val : String) (b : Bool) : strtobool val = some b ↔ ∃ w ∈ boolWords b, Spells val.toList w.toList := by
  have h1 := contains_words val true
  have h2 := contains_words val false
  have hdis : ∀ s ∈ boolWords true, s ∉ boolWords false := by decide
  simp only [boolWords] at h1 h2 hdis
  unfold strtobool
  cases b <;> simp only [boolWords]
  · rw [← h2]
    constructor
    · intro h; split at h
      · cases h
      · split at h
        · assumption
        · cases h
    · intro h
      have : ["y", "yes", "t", "true", "on", "1"].contains (String.ofList (val.toList.map lowerChar)) = false := by
        rw [Bool.eq_false_iff]; intro h'
        exact hdis _ (List.contains_iff_mem.1 h') (List.contains_iff_mem.1 h)
      simp only [this, h, Bool.false_eq_true, if_false, if_true]
  · rw [← h1]
    constructor
    · intro h; split at h
      · assumption
      · split at h <;> cases h
    · intro h; simp only [h, if_true]

theorem says_iff (var : Option String) (default b : Bool) (d : String) (hd : ∀ b, strtobool d = some b ↔ b = default) :
    strtobool (var.getD d) = some b ↔ Says var default b := by
  cases var with
  | none => exact hd b
  | some s => exact C71_strtobool s b

/-- C71: the package is imported exactly if the two variables, where they are set, spell booleans; otherwise the import raises.  Prefixes
are registered if `REGISTER_NS_PREFIXES` says so or is not set, and the standard library is used if `FORCE_STD_XML` says so or lxml is
not there. -/
theorem C71_import (environ : String → Option String) (lxml : Bool) (cfg : Config) :
    importConfig environ lxml = some cfg ↔
      Says (environ "REGISTER_NS_PREFIXES") true cfg.registerPrefixes ∧
      ∃ force, Says (environ "FORCE_STD_XML") false force ∧ (cfg.backend = .std ↔ force = true ∨ lxml = false) := by
  have h1 := fun b => says_iff (environ "REGISTER_NS_PREFIXES") true b "true" (by decide)
  have h2 := fun b => says_iff (environ "FORCE_STD_XML") false b "false" (by decide)
  simp only [← h1, ← h2]
  unfold importConfig
  obtain ⟨r, bk⟩ := cfg
  cases strtobool ((environ "REGISTER_NS_PREFIXES").getD "true") with
  | none => simp
  | some x =>
    cases strtobool ((environ "FORCE_STD_XML").getD "false") with
    | none => simp
    | some y => cases y <;> cases lxml <;> cases bk <;> simp

/-- Non-vacuity: `FORCE_STD_XML=Yes` is understood, `FORCE_STD_XML=2` is not. -/
example : importConfig (fun v => if v = "FORCE_STD_XML" then some "Yes" else none) true = some ⟨true, .std⟩ ∧
    importConfig (fun v => if v = "FORCE_STD_XML" then some "2" else none) true = none ∧
    importConfig (fun _ => none) true = some ⟨true, .lxml⟩ ∧ importConfig (fun _ => none) false = some ⟨true, .std⟩ := by decide

/-! ## The mypy plugin -/

namespace Mypy

theorem given_nil (k : String) : given [] k = none := rfl

theorem given_cons (n : Option String) (e : Expr) (rest : List (Option String × Expr)) (k : String) :
    given ((n, e) :: rest) k = if n = some k then some e else given rest k := by
  unfold given
  rw [List.find?_cons]
  by_cases h : n = some k <;> simp [h]

theorem hasDefaultLoop_eq (args : List (Option String × Expr)) (h : given args "default" = none ∨ given args "default_factory" = none) :
    hasDefaultLoop args = match given args "default", given args "default_factory" with
      | some e, _ => !e.isEllipsis
      | none, some e => !e.isName "builtins.None"
      | none, none => false := by
  induction args with
  | nil => rfl
  | cons a rest ih =>
    obtain ⟨n, e⟩ := a
    simp only [given_cons] at h ⊢
    unfold hasDefaultLoop
    by_cases h1 : n = some "default"
    · subst h1; simp
    · by_cases h2 : n = some "default_factory"
      · subst h2
        simp only [reduceCtorEq, or_false, if_true] at h
        simp at h
        simp [h]
      · simp only [h1, h2, if_false] at h ⊢
        exact ih h

theorem get?_defaults (val : Expr → PyArg) (dots : PyArg) (hv : Eval val dots) (constraints : Kwargs → List Nat) (kwargs : Kwargs)
    (d f : Option Expr) (hk1 : kwargs.get? "default" = none) (hk2 : kwargs.get? "default_factory" = none) :
    let i := FieldInfo.new constraints (withDefaults (valueOr val d) (valueOr val f) kwargs)
    i.attrs.get? "default" = d.map val ∧ i.attrs.get? "default_factory" = f.map val := by
  have hf : ∀ (k : Kwargs) key, k.get? key = none → Dict.get? (k.filter fun kv => kv.2 ≠ .undefined) key = none := by
    intro k key h
    induction k with
    | nil => rfl
    | cons a k ih =>
      obtain ⟨x, y⟩ := a
      simp only [Dict.get?] at h
      split at h
      · cases h
      · next hne =>
        rw [List.filter_cons]
        split
        · simp only [Dict.get?, hne, if_false]; exact ih h
        · exact ih h
  have h1 := hf kwargs _ hk1
  have h2 := hf kwargs _ hk2
  have hu := hv.undefined
  simp only [FieldInfo.new, withDefaults]
  cases d <;> cases f <;> simp [valueOr, Dict.get?, hu] <;> simp_all

theorem Expr.isEllipsis_iff {e : Expr} : e.isEllipsis = true ↔ e = .ellipsis := by cases e <;> simp [Expr.isEllipsis]

theorem Expr.isName_iff {e : Expr} {f : String} : e.isName f = true ↔ e = .name f := by cases e <;> simp [Expr.isName]

theorem required_iff (val : Expr → PyArg) (dots : PyArg) (hv : Eval val dots) (d f : Option Expr) (i : FieldInfo)
    (h : i.attrs.get? "default" = d.map val ∧ i.attrs.get? "default_factory" = f.map val) :
    Required dots i ↔ (∀ e, d = some e → e.isEllipsis = true) ∧ (∀ e, f = some e → e.isName "builtins.None" = true) := by
  unfold Required
  rw [h.1, h.2]
  cases d <;> cases f <;> simp [hv.ellipsis, hv.none, Expr.isEllipsis_iff, Expr.isName_iff]

theorem prepare_get? (kwargs : Kwargs) (key : String) (h1 : key ≠ "serialization_alias") (h2 : key ≠ "validation_alias") :
    (prepareFieldKwargs kwargs).get? key = kwargs.get? key := by
  have hset : ∀ (k : Kwargs) x y, x ≠ key → (Dict.set k x y).get? key = k.get? key := by
    intro k x y hne
    induction k with
    | nil => simp [Dict.set, Dict.get?, hne]
    | cons a k ih =>
      obtain ⟨u, v⟩ := a
      simp only [Dict.set]
      split
      · next he => subst he; simp [Dict.get?, hne]
      · simp only [Dict.get?, ih]
  unfold prepareFieldKwargs
  simp only
  split <;> split <;> simp [hset, Ne.symm h1, Ne.symm h2]

/-- C72: if the plugin recognises the constructor and not both `default` and `default_factory` are given, then mypy regards a field as
having a default exactly if it is not required at run time.  `attr`, `element`, and `wrapped` without an entity of its own.

Missing: the constructors are not recognised (`C72_counterexample_names`), nor is it right with both arguments
(`C72_counterexample_both`) or for wrapped entities (`C72_counterexample_wrapped`). -/
theorem C72_has_default_partial (names : List String) (sup : Transformer) (callee : String) (hc : callee ∈ names)
    (args : List (Option String × Expr)) (hone : given args "default" = none ∨ given args "default_factory" = none)
    (val : Expr → PyArg) (dots : PyArg) (hv : Eval val dots) (constraints : Kwargs → List Nat) (kwargs : Kwargs)
    (hk : kwargs.get? "default" = none ∧ kwargs.get? "default_factory" = none) :
    (∀ name ns, (transformer names sup).hasDefault (.call (some callee) args) = true ↔
      ¬ Required dots (attrField constraints name ns (valueOr val (given args "default")) (valueOr val (given args "default_factory"))
        kwargs)) ∧
    (∀ tag ns nsmap nillable, (transformer names sup).hasDefault (.call (some callee) args) = true ↔
      ¬ Required dots (elementField constraints tag ns nsmap nillable (valueOr val (given args "default"))
        (valueOr val (given args "default_factory")) kwargs)) ∧
    (∀ path ns nsmap, (transformer names sup).hasDefault (.call (some callee) args) = true ↔
      ¬ Required dots (wrappedField constraints path none ns nsmap (valueOr val (given args "default"))
        (valueOr val (given args "default_factory")) kwargs)) := by
  have hl : (transformer names sup).hasDefault (.call (some callee) args) = hasDefaultLoop args := by
    simp [transformer, Expr.entityArgs, hc]
  have key : ∀ kw : Kwargs, kw.get? "default" = none → kw.get? "default_factory" = none → ∀ i : FieldInfo,
      i.attrs = (FieldInfo.new constraints (withDefaults (valueOr val (given args "default"))
        (valueOr val (given args "default_factory")) kw)).attrs →
      ((transformer names sup).hasDefault (.call (some callee) args) = true ↔ ¬ Required dots i) := by
    intro kw h1 h2 i hi
    have hg := get?_defaults val dots hv constraints kw (given args "default") (given args "default_factory") h1 h2
    rw [required_iff val dots hv (given args "default") (given args "default_factory") i (by rw [hi]; exact hg), hl,
      hasDefaultLoop_eq args hone]
    rcases hone with h | h
    · rw [h]
      cases given args "default_factory" <;> simp
    · rw [h]
      cases given args "default" <;> simp
  refine ⟨fun name ns => ?_, fun tag ns nsmap nillable => ?_, fun path ns nsmap => ?_⟩
  · refine key (prepareFieldKwargs kwargs) ?_ ?_ _ rfl
    · rw [prepare_get? _ _ (by decide) (by decide)]; exact hk.1
    · rw [prepare_get? _ _ (by decide) (by decide)]; exact hk.2
  · refine key (prepareFieldKwargs kwargs) ?_ ?_ _ rfl
    · rw [prepare_get? _ _ (by decide) (by decide)]; exact hk.1
    · rw [prepare_get? _ _ (by decide) (by decide)]; exact hk.2
  · exact key kwargs hk.1 hk.2 _ rfl

theorem aliasLoop_eq (args : List (Option String × Expr)) :
    aliasLoop args = (given args "alias").map fun e => match e with | .str s => (some s, false) | _ => (none, true) := by
  induction args with
  | nil => rfl
  | cons a rest ih =>
    obtain ⟨n, e⟩ := a
    rw [given_cons]
    by_cases h : n = some "alias"
    · subst h
      cases e <;> rfl
    · unfold aliasLoop
      simp only [h, ne_eq, not_false_eq_true, if_false, if_true]; exact ih

theorem strictLoop_eq (args : List (Option String × Expr)) :
    strictLoop args = (given args "strict").map fun e => if e.isName "builtins.True" then some true
      else if e.isName "builtins.False" then some false else none := by
  induction args with
  | nil => rfl
  | cons a rest ih =>
    obtain ⟨n, e⟩ := a
    rw [strictLoop, given_cons]
    by_cases h : n = some "strict"
    · simp only [h, ne_eq, not_true_eq_false, if_false, if_true, Option.map]
      split
      · rfl
      · split <;> rfl
    · simp only [h, ne_eq, not_false_eq_true, if_false, if_true]; exact ih

theorem frozenLoop_eq (args : List (Option String × Expr)) :
    frozenLoop args = (given args "frozen").map fun e => e.isName "builtins.True" := by
  induction args with
  | nil => rfl
  | cons a rest ih =>
    obtain ⟨n, e⟩ := a
    rw [frozenLoop, given_cons]
    by_cases h : n = some "frozen" <;> simp [h, ih]

/-- C72: if the plugin recognises the constructor, mypy knows the alias exactly if it is given as a string literal, `strict` and `frozen`
exactly if they are given as literals.

Missing: the constructors are not recognised (`C72_counterexample_names`). -/
theorem C72_arguments_partial (names : List String) (sup : Transformer) (hsup : sup.Standard) (callee : String) (hc : callee ∈ names)
    (hf : callee ≠ "pydantic.fields.Field") (args : List (Option String × Expr)) :
    (∀ s, ((transformer names sup).aliasInfo (.call (some callee) args)).1 = some s ↔ ∃ e, given args "alias" = some e ∧ e = .str s) ∧
    (∀ b, (transformer names sup).strict (.call (some callee) args) = some b ↔
      ∃ e, given args "strict" = some e ∧ e = .name (if b then "builtins.True" else "builtins.False")) ∧
    ((transformer names sup).frozen (.call (some callee) args) = true ↔
      ∃ e, given args "frozen" = some e ∧ e = .name "builtins.True") := by
  have hn : names.contains callee = true := List.contains_iff_mem.2 hc
  have hne : some callee ≠ some "pydantic.fields.Field" := by simpa using hf
  simp only [transformer, Expr.entityArgs, hn, if_true, aliasLoop_eq, strictLoop_eq, frozenLoop_eq, hsup.aliasInfo _ _ hne,
    hsup.strict _ _ hne, hsup.frozen _ _ hne]
  refine ⟨fun s => ?_, fun b => ?_, ?_⟩
  · cases given args "alias" with
    | none => simp
    | some e => cases e <;> simp
  · cases given args "strict" with
    | none => simp
    | some e =>
      simp only [Option.map_some, Option.getD_some, Option.some.injEq, exists_eq_left']
      cases e with
      | name f =>
        simp only [Expr.isName]
        cases b
        · by_cases h1 : f = "builtins.True"
          · subst h1; simp
          · by_cases h2 : f = "builtins.False" <;> simp [h2] <;> exact fun h => absurd h h1
        · by_cases h1 : f = "builtins.True"
          · simp [h1]
          · by_cases h2 : f = "builtins.False" <;> simp [h1, h2]
      | _ => simp [Expr.isName]
  · cases given args "frozen" with
    | none => simp
    | some e => simp [Expr.isName_iff]

/-- C72, counterexample: the plugin looks for the constructors under the module `pydantic_xml.model`, but they are defined in
`pydantic_xml.fields`.  So it takes every field made by them for one with a default value and no alias, although `element()` is
required at run time. -/
theorem C72_counterexample_names (sup : Transformer) (hsup : sup.Standard) :
    (∀ f ∈ constructors, ∀ args, (plugin sup).hasDefault (.call (some f) args) = true ∧
      (plugin sup).aliasInfo (.call (some f) args) = (none, false) ∧ (plugin sup).strict (.call (some f) args) = none ∧
      (plugin sup).frozen (.call (some f) args) = false) ∧
    ∀ dots constraints, Required dots (elementField constraints none none none none .undefined .undefined []) := by
  constructor
  · intro f hf args
    have h1 : entities.contains f = false := by
      simp only [constructors, List.mem_cons, List.not_mem_nil, or_false] at hf
      rcases hf with rfl | rfl | rfl <;> decide
    have h2 : some f ≠ some "pydantic.fields.Field" := by
      simp only [constructors, List.mem_cons, List.not_mem_nil, or_false] at hf
      rcases hf with rfl | rfl | rfl <;> decide
    simp only [plugin, transformer, Expr.entityArgs, h1]
    exact ⟨hsup.hasDefault _ _ h2, hsup.aliasInfo _ _ h2, hsup.strict _ _ h2, rfl⟩
  · intro dots constraints
    exact ⟨.inl rfl, .inl rfl⟩

/-- C72, counterexample: of `default` and `default_factory` the first one given decides, so with `element(default_factory=None,
default=3)` the default value is not seen. -/
theorem C72_counterexample_both (names : List String) (sup : Transformer) (callee : String) (hc : callee ∈ names)
    (val : Expr → PyArg) (dots : PyArg) (hv : Eval val dots) (constraints : Kwargs → List Nat) :
    let args := [(some "default_factory", Expr.name "builtins.None"), (some "default", Expr.other 3)]
    (transformer names sup).hasDefault (.call (some callee) args) = false ∧
    ¬ Required dots (elementField constraints none none none none (valueOr val (given args "default"))
      (valueOr val (given args "default_factory")) []) := by
  have hn : names.contains callee = true := List.contains_iff_mem.2 hc
  constructor
  · simp [transformer, Expr.entityArgs, hc, hasDefaultLoop, Expr.isName]
  · intro h
    have hg := get?_defaults val dots hv constraints (prepareFieldKwargs []) (some (.other 3)) (some (.name "builtins.None"))
      (by decide) (by decide)
    have := ((required_iff val dots hv _ _ _ hg).1 h).1 _ rfl
    cases this

/-- C72, counterexample: the default value of a wrapped entity, `wrapped('a', element(default=3))`, is not seen. -/
theorem C72_counterexample_wrapped (names : List String) (sup : Transformer) (callee : String) (hc : callee ∈ names)
    (val : Expr → PyArg) (dots : PyArg) (hv : Eval val dots) (constraints : Kwargs → List Nat) :
    (transformer names sup).hasDefault (.call (some callee) [(none, .str "a"),
      (none, .call (some callee) [(some "default", .other 3)])]) = false ∧
    ¬ Required dots (wrappedField constraints "a" (some (elementField constraints none none none none (val (.other 3)) .undefined []))
      none none .undefined .undefined []) := by
  constructor
  · simp [transformer, Expr.entityArgs, hc, hasDefaultLoop]
  · rintro ⟨h, -⟩
    have hu := hv.undefined (.other 3)
    have hd : val (.other 3) ≠ dots := fun h => by cases (hv.ellipsis _).1 h
    simp [wrappedField, elementField, prepareFieldKwargs, FieldInfo.append, FieldInfo.merge2, FieldInfo.new, withDefaults, Dict.update,
      Dict.set, Dict.get?, List.filter_cons, hu, PyArg.isUnset, Kwargs.getOrNone] at h
    exact hd h

/-- Non-vacuity: an evaluation, a plugin of pydantic, and calls with and without a default. -/
def sampleVal : Expr → PyArg
  | .ellipsis => .obj 0
  | .name f => if f = "builtins.None" then .none else .obj 1
  | .str s => .str s
  | .temp => .obj 1
  | .call _ _ => .obj 1
  | .other _ => .obj 1

def sampleSup : Transformer where
  hasDefault e := !e.isEllipsis
  aliasInfo _ := (none, false)
  strict _ := none
  frozen _ := false

theorem sample_eval : Eval sampleVal (.obj 0) where
  ellipsis e := by cases e <;> simp [sampleVal]; split <;> simp
  none e := by cases e <;> simp [sampleVal]
  undefined e := by cases e <;> simp [sampleVal]; split <;> simp
  dots := by simp

theorem sample_standard : sampleSup.Standard := ⟨fun _ _ _ => rfl, fun _ _ _ => rfl, fun _ _ _ => rfl, fun _ _ _ => rfl⟩

example : (transformer constructors sampleSup).hasDefault (.call (some "pydantic_xml.fields.element") [(some "default", .other 3)]) = true ∧
    (transformer constructors sampleSup).hasDefault (.call (some "pydantic_xml.fields.element") [(some "default", .ellipsis)]) = false ∧
    (transformer constructors sampleSup).hasDefault (.call (some "pydantic_xml.fields.element") [(some "alias", .str "a")]) = false ∧
    (plugin sampleSup).hasDefault (.call (some "pydantic_xml.fields.element") [(some "alias", .str "a")]) = true ∧
    (given [(some "default", Expr.other 3)] "default_factory" = none) := ⟨rfl, rfl, rfl, rfl, rfl⟩

/-- C72: the plugin itself describes the calls of exactly three names, whatever pydantic's plugin says about them; classes are treated as
models exactly if their metaclass is that of pydantic-xml or pydantic's plugin knows it. -/
theorem C72_recognised :
    (∀ f, (∀ sup sup' args, (plugin sup).hasDefault (.call (some f) args) = (plugin sup').hasDefault (.call (some f) args)) ↔
      f = "pydantic_xml.model.attr" ∨ f = "pydantic_xml.model.element" ∨ f = "pydantic_xml.model.wrapped") ∧
    (∀ sup f, isModelMetaclass sup f = true ↔ f = "pydantic_xml.model.XmlModelMeta" ∨ sup f = true) := by
  constructor
  · intro f
    constructor
    · intro h
      have := h ⟨fun _ => true, fun _ => (none, false), fun _ => none, fun _ => false⟩
        ⟨fun _ => false, fun _ => (none, false), fun _ => none, fun _ => false⟩ []
      simp only [plugin, transformer, Expr.entityArgs] at this
      by_cases hc : entities.contains f = true
      · simpa [entities] using hc
      · rw [if_neg hc] at this
        cases this
    · intro h sup sup' args
      have hc : entities.contains f = true := by simpa [entities] using h
      simp only [plugin, transformer, Expr.entityArgs, hc, if_true]
  · intro sup f
    simp [isModelMetaclass]

/-- C72: fields made otherwise, as by pydantic's `Field`, are described as pydantic's plugin describes them.

Missing: whether they are frozen (`C72_counterexample_frozen`). -/
theorem C72_others_partial (names : List String) (sup : Transformer) (e : Expr) (ht : e ≠ .temp)
    (hn : ∀ f args, e = .call (some f) args → f ∉ names) :
    (transformer names sup).hasDefault e = sup.hasDefault e ∧ (transformer names sup).aliasInfo e = sup.aliasInfo e ∧
      (transformer names sup).strict e = sup.strict e := by
  have h : e.entityArgs names = none := by
    cases e with
    | call c args =>
      cases c with
      | none => rfl
      | some f =>
        simp [Expr.entityArgs, hn f args rfl]
    | _ => rfl
  cases e <;> first | exact absurd rfl ht | simp [transformer, h]

/-- C72, counterexample: a field made by pydantic's `Field(frozen=True)` is not frozen for mypy, although pydantic's plugin says so. -/
theorem C72_counterexample_frozen (sup : Transformer) (args : List (Option String × Expr)) :
    (plugin sup).frozen (.call (some "pydantic.fields.Field") args) = false := by
  have : entities.contains "pydantic.fields.Field" = false := by decide
  simp only [plugin, transformer, Expr.entityArgs, this]
  rfl

example : ∃ sup : Transformer, sup.frozen (.call (some "pydantic.fields.Field") [(some "frozen", .name "builtins.True")]) = true :=
  ⟨{ sampleSup with frozen := fun _ => true }, rfl⟩

end Mypy
end PXml
