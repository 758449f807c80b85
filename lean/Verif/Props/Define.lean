import Verif.Lemmas.Define

/-!
# Field constructors (C65), `create_model` (C66)
-/

namespace PXml

section
variable (constraints : Kwargs → List Nat)

/-- C65: `element(tag, ns, nsmap, nillable, **kwargs)` describes exactly this element, an `alias` is used for validation and for
serialization unless another one is given for it, and every other argument reaches pydantic as it was passed. -/
theorem C65_element (tag ns : Option String) (nsmap : Option NsMap) (nillable : Option Bool) (default factory : PyArg) (kw : Kwargs)
    (h : kw.Proper) :
    (elementField constraints tag ns nsmap nillable default factory kw).infos = [.mk (some .element) tag ns nsmap nillable none] ∧
    (∀ k ∈ aliasKeys, (elementField constraints tag ns nsmap nillable default factory kw).attrs.given k =
      (kw.given k).or (kw.given "alias")) ∧
    (∀ k, k ∉ aliasKeys → (elementField constraints tag ns nsmap nillable default factory kw).attrs.get? k =
      (withDefaults default factory kw).passed k) := by
  refine ⟨?_, ?_, ?_⟩
  · simp [elementField, infos_append, infos_new]
  · intro k hk
    simp only [elementField, FieldInfo.append, FieldInfo.new]
    rw [given_filter _ (h.prepare.withDefaults default factory), given_withDefaults, prepare_given]
    have h1 : k ≠ "default" := by rintro rfl; exact absurd hk (by decide)
    have h2 : k ≠ "default_factory" := by rintro rfl; exact absurd hk (by decide)
    simp [h1, h2, hk]
  · intro k hk
    simp only [elementField, FieldInfo.append, FieldInfo.new]
    rw [get?_filter _ (h.prepare.withDefaults default factory)]
    unfold Kwargs.passed withDefaults
    simp only [Dict.get?_cons, prepare_get kw k hk]

/-- A field with alias, default and title: the hypothesis is met, and the alias is used for writing but not for reading, where another
one is given. -/
example :
    let kw : Kwargs := [("alias", .str "a"), ("validation_alias", .str "v"), ("title", .str "T"), ("repr", .undefined)]
    let f := elementField (fun _ => [7]) (some "t") none none (some true) (.str "d") .undefined kw
    kw.Proper ∧ f.attrs.given "validation_alias" = some (.str "v") ∧ f.attrs.given "serialization_alias" = some (.str "a") ∧
      f.attrs.get? "title" = some (.str "T") ∧ f.attrs.get? "default" = some (.str "d") ∧ f.attrs.get? "repr" = none ∧
      f.attrs.get? "default_factory" = none := by
  refine ⟨⟨?_, ?_, ?_⟩, ?_⟩ <;> decide

/-- C65: the same for `attr(name, ns, **kwargs)`. -/
theorem C65_attr (name ns : Option String) (default factory : PyArg) (kw : Kwargs) (h : kw.Proper) :
    (attrField constraints name ns default factory kw).infos = [.mk (some .attribute) name ns none none none] ∧
    (∀ k ∈ aliasKeys, (attrField constraints name ns default factory kw).attrs.given k = (kw.given k).or (kw.given "alias")) ∧
    (∀ k, k ∉ aliasKeys → (attrField constraints name ns default factory kw).attrs.get? k =
      (withDefaults default factory kw).passed k) := by
  refine ⟨?_, (C65_element constraints name ns none none default factory kw h).2⟩
  simp [attrField, infos_append, infos_new]

/-- C65: `wrapped(path, entity, ns, nsmap, **kwargs)` describes exactly this path around the entity; nothing of the entity's own
description leaks into the wrapper; an argument that is set in the entity wins, all others are those given to `wrapped`. -/
theorem C65_wrapped (path : String) (entity : FieldInfo) (ns : Option String) (nsmap : Option NsMap) (default factory : PyArg)
    (kw : Kwargs) (h : kw.Proper) (he : entity.attrs.WF) :
    (wrappedField constraints path (some entity) ns nsmap default factory kw).infos =
      [.mk (some .wrapped) (some path) ns nsmap none (EntityInfo.extract entity.infos)] ∧
    (∀ k, (wrappedField constraints path (some entity) ns nsmap default factory kw).attrs.get? k =
      (entity.attrs.get? k).or ((withDefaults default factory kw).passed k)) := by
  refine ⟨?_, ?_⟩
  · simp only [wrappedField, infos_append, infos_merge2, infos_new, infos_strip, List.nil_append]
  · intro k
    simp only [wrappedField, FieldInfo.append, FieldInfo.merge2, FieldInfo.new]
    rw [Dict.get?_update _ _ he, get?_filter _ (h.withDefaults default factory)]

/-- C65: without an entity, the content of the wrapper element has no description of its own. -/
theorem C65_wrapped_alone (path : String) (ns : Option String) (nsmap : Option NsMap) (default factory : PyArg)
    (kw : Kwargs) (h : kw.Proper) :
    (wrappedField constraints path none ns nsmap default factory kw).infos = [.mk (some .wrapped) (some path) ns nsmap none none] ∧
    (∀ k, (wrappedField constraints path none ns nsmap default factory kw).attrs.get? k = (withDefaults default factory kw).passed k) := by
  refine ⟨?_, ?_⟩
  · simp [wrappedField, infos_append, infos_new]
  · intro k
    simp only [wrappedField, FieldInfo.append, FieldInfo.new]
    rw [get?_filter _ (h.withDefaults default factory)]

/-- `wrapped` calls nested to any depth around a field. -/
def wrapAll : List (String × Option String × Option NsMap) → FieldInfo → FieldInfo
  | [], f => f
  | (path, ns, nsmap) :: ws, f => wrappedField constraints path (some (wrapAll ws f)) ns nsmap .undefined .undefined []

/-- C65: nested `wrapped` calls describe the nested elements, from the outermost to the entity. -/
theorem C65_nested (ws : List (String × Option String × Option NsMap)) (hw : ∀ w ∈ ws, ∀ m, w.2.2 = some m → m.WF)
    (f : FieldInfo) (i : EntityInfo) (hf : f.infos = [i]) (hi : ∀ m, i.nsmap = some m → m.WF) :
    EntityInfo.extract (wrapAll constraints ws f).infos = some (EntityInfo.wrappedIn ws i) := by
  induction ws with
  | nil => simp only [wrapAll, hf, extract_single i hi, EntityInfo.wrappedIn]
  | cons w ws ih =>
    obtain ⟨path, ns, nsmap⟩ := w
    have ih := ih fun w h => hw w (List.mem_cons_of_mem _ h)
    have hm := hw _ List.mem_cons_self
    simp only [wrapAll, wrappedField, infos_append, infos_merge2, infos_new, infos_strip, List.nil_append, ih]
    rw [extract_single]
    · rfl
    · exact hm

/-- `wrapped('a', wrapped('b', element(tag='c', nillable=True)))`. -/
example :
    EntityInfo.extract (wrapAll (fun _ => []) [("a", some "p", none), ("b", none, some [("q", "u")])]
      (elementField (fun _ => []) (some "c") none none (some true) .undefined .undefined [("title", .str "T")])).infos =
    some (.mk (some .wrapped) (some "a") (some "p") none none
      (some (.mk (some .wrapped) (some "b") none (some [("q", "u")]) none
        (some (.mk (some .element) (some "c") none none (some true) none))))) :=
  C65_nested _ _ (by simp [Dict.WF, Dict.keys]) _ _ rfl (by simp [EntityInfo.nsmap])

/-! ## Aliases of wrapped fields -/

/-- C65: the aliases of a wrapped element are those given with the element. -/
theorem C65_wrapped_alias_partial (path : String) (ns ns' tag : Option String) (nsmap nsmap' : Option NsMap) (nillable : Option Bool)
    (default factory default' factory' : PyArg) (kw kw' : Kwargs) (h : kw.Proper) (h' : kw'.Proper)
    (ha : kw'.get? "alias" ≠ some .undefined) (k : String) (hk : k ∈ aliasKeys) :
    (wrappedField constraints path (some (elementField constraints tag ns' nsmap' nillable default' factory' kw')) ns nsmap default
      factory kw).attrs.given k = (kw'.given k).or (kw'.given "alias") := by
  rw [← (C65_element constraints tag ns' nsmap' nillable default' factory' kw' h').2.1 k hk]
  have hwf : (elementField constraints tag ns' nsmap' nillable default' factory' kw').attrs.WF := by
    simp only [elementField, FieldInfo.append, FieldInfo.new]
    have := h'.prepare.withDefaults default' factory'
    simp only [Dict.WF, Dict.keys] at this ⊢
    exact (List.filter_sublist.map _).nodup this
  unfold Kwargs.given
  rw [(C65_wrapped constraints path _ ns nsmap default factory kw h hwf).2 k]
  obtain ⟨v, hv, hu⟩ := prepare_sets kw' ha k hk
  have h1 : k ≠ "default" := by rintro rfl; exact absurd hk (by decide)
  have h2 : k ≠ "default_factory" := by rintro rfl; exact absurd hk (by decide)
  have : (elementField constraints tag ns' nsmap' nillable default' factory' kw').attrs.get? k = some v := by
    simp only [elementField, FieldInfo.append, FieldInfo.new]
    rw [get?_filter _ (h'.prepare.withDefaults default' factory')]
    unfold Kwargs.passed withDefaults
    simp only [Dict.get?_cons, Ne.symm h1, Ne.symm h2, if_false, hv]
    simp [Option.filter, hu]
  rw [this]
  rfl

/-- C65: an alias given to `wrapped` itself is lost: with an entity and without one, it is used neither for validation nor for
serialization. -/
theorem C65_counterexample_wrapped_alias :
    (∀ k ∈ aliasKeys, (elementField (fun _ => []) none none none none .undefined .undefined [("alias", .str "x")]).attrs.given k =
      some (.str "x")) ∧
    (∀ k ∈ aliasKeys, (wrappedField (fun _ => []) "p" (some (elementField (fun _ => []) none none none none .undefined .undefined []))
      none none .undefined .undefined [("alias", .str "x")]).attrs.given k = none) ∧
    (∀ k ∈ aliasKeys, (wrappedField (fun _ => []) "p" none none none .undefined .undefined [("alias", .str "x")]).attrs.given k =
      none) := by
  decide

end

/-! ## Computed fields -/

/-- C65: the first use of the decorator `computed_element(tag=..., ns=..., nsmap=..., nillable=..., **kwargs)` describes exactly this
element and hands the other arguments to pydantic. -/
theorem C65_computed_element_partial (tag ns nsmap nillable : PyArg) (kw : Kwargs) :
    let (location, kwargs) := computedElement tag ns nsmap nillable kw
    computedUses location 1 kwargs = [⟨.element, tag, ns, nsmap, nillable, kw⟩] := by
  simp [computedElement, computedUses, computedDecorator, Kwargs.getOrNone, Dict.get?, Dict.erase]

/-- C65: the same for `computed_attr`. -/
theorem C65_computed_attr_partial (name ns : PyArg) (kw : Kwargs) (h1 : "nsmap" ∉ kw.keys) (h2 : "nillable" ∉ kw.keys) :
    let (location, kwargs) := computedAttr name ns kw
    computedUses location 1 kwargs = [⟨.attribute, name, ns, .none, .none, kw⟩] := by
  have e1 := Dict.erase_of_not_mem (d := kw) (k := "nsmap") h1
  have e2 := Dict.erase_of_not_mem (d := kw) (k := "nillable") h2
  simp [computedAttr, computedUses, computedDecorator, Kwargs.getOrNone, Dict.get?, Dict.erase, e1, e2,
    (Dict.get?_eq_none_iff kw _).2 h1, (Dict.get?_eq_none_iff kw _).2 h2]

/-- C65: a decorator object that is used for a second property has lost tag, namespace, namespace map and nillability. -/
theorem C65_counterexample_decorator_reuse (tag ns nsmap nillable : PyArg) (kw : Kwargs) (h : ∀ k ∈ ["path", "ns", "nsmap", "nillable"], k ∉ kw.keys) :
    let (location, kwargs) := computedElement tag ns nsmap nillable kw
    computedUses location 2 kwargs = [⟨.element, tag, ns, nsmap, nillable, kw⟩, ⟨.element, .none, .none, .none, .none, kw⟩] := by
  have he : ∀ k ∈ ["path", "ns", "nsmap", "nillable"], Dict.erase kw k = kw := fun k hk => Dict.erase_of_not_mem (h k hk)
  have hg : ∀ k ∈ ["path", "ns", "nsmap", "nillable"], Dict.get? kw k = none := fun k hk => (Dict.get?_eq_none_iff kw k).2 (h k hk)
  simp only [List.mem_cons, List.not_mem_nil, or_false, forall_eq_or_imp, forall_eq] at he hg
  simp [computedElement, computedUses, computedDecorator, Kwargs.getOrNone, Dict.get?, Dict.erase, he, hg]

/-! ## `create_model` -/

/-- C66: `create_model(name, __base__=..., __tag__=..., ..., __cls_kwargs__=...)` makes the same class as the class statement with these
bases, class parameters and further keyword arguments. -/
theorem C66_same_class (mro : List Base → List Cls) (hmro : PlainBasesIgnored mro) (a : CreateArgs) (module : String)
    (hk : ∀ k ∈ a.clsKwargs.keys, k ≠ "metaclass" ∧ k ∉ ClassArgs.names) :
    (createModel mro a).1.cls = (classStatement mro module a.name a.base (a.args.written ++ a.clsKwargs)).cls ∧
    (createModel mro a).1.extra = (classStatement mro module a.name a.base (a.args.written ++ a.clsKwargs)).extra ∧
    (createModel mro a).1.name = (classStatement mro module a.name a.base (a.args.written ++ a.clsKwargs)).name := by
  have hn : ∀ k ∈ a.clsKwargs.keys, k ∉ ClassArgs.names := fun k h => (hk k h).2
  have hm : "metaclass" ∉ a.clsKwargs.keys := fun h => (hk _ h).1 rfl
  have hb : mro (if a.hasConfig then (if a.base.isEmpty then [.plain "BaseXmlModel"] else a.base) ++ [.plain (a.name ++ "Base")]
      else (if a.base.isEmpty then [.plain "BaseXmlModel"] else a.base)) = mro a.base := by
    apply hmro
    cases hb : a.base with
    | nil => cases a.hasConfig <;> rfl
    | cons b bs => cases a.hasConfig <;> simp only [List.isEmpty_cons, Bool.false_eq_true, if_false, if_true, List.filterMap_append] <;> simp [Base.cls?]
  have h1 : (createModel mro a).1 = classStatement mro "pydantic_xml.model" a.name
      (if a.hasConfig then (if a.base.isEmpty then [.plain "BaseXmlModel"] else a.base) ++ [.plain (a.name ++ "Base")]
        else (if a.base.isEmpty then [.plain "BaseXmlModel"] else a.base)) (createModel mro a).2 := rfl
  have h2 : Dict.erase (a.args.written ++ a.clsKwargs) "metaclass" = a.args.written ++ a.clsKwargs :=
    written_erase a.args a.clsKwargs hm
  rw [h1, createModel_kwargs mro a hk]
  have h3 : Dict.erase (a.clsKwargs ++ ("metaclass", PyArg.obj 0) :: createdKwargs a) "metaclass" = a.clsKwargs ++ createdKwargs a := by
    rw [erase_append _ _ _ hm]
    simp [Dict.erase]
  simp only [classStatement, h3, h2, created_get a a.clsKwargs hn, written_get a.args a.clsKwargs hn, written_extra a.args a.clsKwargs hn, hb,
    and_self]

/-- C66: the class has the parameters that the class statement with this base would have: those given, the others inherited. -/
theorem C66_parameters (mro : List Base → List Cls) (hmro : PlainBasesIgnored mro) (a : CreateArgs)
    (hk : ∀ k ∈ a.clsKwargs.keys, k ≠ "metaclass" ∧ k ∉ ClassArgs.names) :
    (createModel mro a).1.cls.params = (Cls.mk a.args (mro a.base)).params := by
  rw [(C66_same_class mro hmro a "m" hk).1]
  have hm : "metaclass" ∉ a.clsKwargs.keys := fun h => (hk _ h).1 rfl
  have h2 : Dict.erase (a.args.written ++ a.clsKwargs) "metaclass" = a.args.written ++ a.clsKwargs :=
    written_erase a.args a.clsKwargs hm
  simp only [classStatement, h2, written_get a.args a.clsKwargs fun k h => (hk k h).2]

/-- The linearisation for model classes without a common ancestor: the classes in the order of the bases, each before those behind it. -/
def simpleMro (bs : List Base) : List Cls :=
  (bs.filterMap Base.cls?).flatMap fun c => match c with | .mk _ rest => c :: rest

example : PlainBasesIgnored simpleMro := by
  intro bs bs' h
  simp only [simpleMro, h]

/-- A class created with a tag, a configuration and a base: the tag is the one given, namespace and search mode are those of the base. -/
example :
    let base : Cls := .mk { tag := some "base", ns := some "p", nsmap := some [("p", "u")], searchMode := some .ordered } []
    let a : CreateArgs :=
      { name := "M", args := { tag := some "m" }, base := [.xml base], clsKwargs := [("frozen", .bool true)], hasConfig := true }
    (∀ k ∈ a.clsKwargs.keys, k ≠ "metaclass" ∧ k ∉ ClassArgs.names) ∧ (createModel simpleMro a).1.cls.params.tag = some "m" ∧
      (createModel simpleMro a).1.cls.params.ns = some "p" ∧ (createModel simpleMro a).1.cls.params.searchMode = .ordered ∧
      (createModel simpleMro a).1.extra = [("frozen", .bool true)] := by
  decide

/-- C66: the module given to `create_model` is not the module of the class, and class parameters given in `__cls_kwargs__` are ignored
and deleted from the dictionary. -/
theorem C66_counterexample (mro : List Base → List Cls) :
    (createModel mro { name := "M", module := some "app.models" }).1.module ≠ "app.models" ∧
    (createModel mro { name := "M", clsKwargs := [("tag", .str "m")] }).1.cls.params.tag = (createModel mro { name := "M" }).1.cls.params.tag ∧
    (createModel mro { name := "M", clsKwargs := [("tag", .str "m")] }).2.get? "tag" = some .none := by
  refine ⟨?_, rfl, rfl⟩
  show "pydantic_xml.model" ≠ "app.models"
  decide

/-! ## Versions -/

/-- C67: the version of every release `major.minor.micro`, with or without a suffix such as `b1`, `rc2` or `.post1`, is recognised. -/
theorem C67_release (major minor micro : Nat) (suffix : String) (h : ∀ c ∈ suffix.toList.head?, c.isDigit = false) :
    parseVersion (toString major ++ "." ++ toString minor ++ "." ++ toString micro ++ suffix) = (major, minor, micro) := by
  have h3 := span_digits micro suffix.toList fun c hc => by rw [isAsciiDigit_iff]; exact h c hc
  have h2 := span_digits minor ('.' :: (Nat.toDigits 10 micro ++ suffix.toList)) (by simp [isAsciiDigit])
  have h1 := span_digits major ('.' :: (Nat.toDigits 10 minor ++ '.' :: (Nat.toDigits 10 micro ++ suffix.toList))) (by simp [isAsciiDigit])
  have e : (toString major ++ "." ++ toString minor ++ "." ++ toString micro ++ suffix).toList =
      Nat.toDigits 10 major ++ '.' :: (Nat.toDigits 10 minor ++ '.' :: (Nat.toDigits 10 micro ++ suffix.toList)) := by
    simp
  simp only [parseVersion, e, h1.1, h1.2, dropDot, h2.1, h2.2, h3.1, digitsValue_toDigits]

/-- C67: so the version that decides how fields are merged is compared as it should be. -/
theorem C67_comparison (major minor micro : Nat) (suffix : String) (h : ∀ c ∈ suffix.toList.head?, c.isDigit = false) :
    let v := parseVersion (toString major ++ "." ++ toString minor ++ "." ++ toString micro ++ suffix)
    (v.1 > 2 ∨ v.1 = 2 ∧ v.2.1 ≥ 12) ↔ (major > 2 ∨ major = 2 ∧ minor ≥ 12) := by
  simp only [C67_release major minor micro suffix h]

example : parseVersion "2.12.0b1" = (2, 12, 0) ∧ parseVersion "2.9.2" = (2, 9, 2) ∧ parseVersion "2.10" = (2, 10, 0) := by decide

end PXml
