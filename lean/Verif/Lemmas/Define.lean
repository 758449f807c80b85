import Verif.SpecDefine
import Verif.Lemmas.Dict

/-!
# Keyword arguments
-/

namespace PXml


theorem given_filter (kw : Kwargs) (h : kw.WF) (k : String) :
    Kwargs.given (kw.filter fun kv => kv.2 ≠ .undefined) k = kw.given k := by
  unfold Kwargs.given
  induction kw with
  | nil => rfl
  | cons kv kw ih =>
    obtain ⟨k', v⟩ := kv
    have hw : Dict.WF kw := by
      have := h; simp only [Dict.WF, Dict.keys, List.map_cons, List.nodup_cons] at this; exact this.2
    have hk : k' ∉ Dict.keys kw := by
      have := h; simp only [Dict.WF, Dict.keys, List.map_cons, List.nodup_cons] at this; exact this.1
    by_cases hv : v = .undefined
    · subst hv
      simp only [List.filter_cons, ne_eq, not_true_eq_false, decide_false, Bool.false_eq_true, if_false]
      have ih := ih hw
      simp only [ne_eq] at ih ⊢
      rw [ih, Dict.get?_cons]
      by_cases hkk : k' = k
      · subst hkk
        rw [(Dict.get?_eq_none_iff kw k').2 hk]
        simp only [if_true]; rfl
      · simp [hkk]
    · simp only [List.filter_cons, ne_eq, hv, not_false_eq_true, decide_true, if_true]
      rw [Dict.get?_cons, Dict.get?_cons]
      have ih := ih hw
      simp only [ne_eq] at ih
      by_cases hkk : k' = k
      · simp [hkk]
      · simp only [hkk, if_false]; exact ih

theorem isUnset_iff (kw : Kwargs) (k : String) : PyArg.isUnset (kw.get? k) = true ↔ kw.given k = none := by
  unfold Kwargs.given
  cases kw.get? k with
  | none => simp [PyArg.isUnset]
  | some a => cases a <;> simp [PyArg.isUnset]

theorem given_set (kw : Kwargs) (k k' : String) (v : PyArg) :
    Kwargs.given (kw.set k v) k' = if k = k' then (some v).filter (fun a => a ≠ .none && a ≠ .undefined) else kw.given k' := by
  unfold Kwargs.given
  rw [Dict.get?_set]
  by_cases h : k = k'
  · simp [h]
  · simp [h]

theorem filter_getOrNone (kw : Kwargs) (k : String) :
    (some (kw.getOrNone k)).filter (fun a => a ≠ .none && a ≠ .undefined) = kw.given k := by
  unfold Kwargs.given Kwargs.getOrNone
  cases kw.get? k with
  | none => rfl
  | some a => rfl

theorem given_setIfUnset (kw : Kwargs) (key k : String) :
    Kwargs.given (if PyArg.isUnset (kw.get? key) = true then Dict.set kw key (Kwargs.getOrNone kw "alias") else kw) k =
      if k = key then (kw.given k).or (kw.given "alias") else kw.given k := by
  by_cases h : PyArg.isUnset (kw.get? key) = true
  · simp only [h, if_true, given_set, filter_getOrNone]
    by_cases hk : key = k
    · subst hk; simp [(isUnset_iff kw _).1 h]
    · simp [hk, Ne.symm hk]
  · simp only [h]
    by_cases hk : k = key
    · subst hk
      rw [isUnset_iff] at h
      cases hg : kw.given k with
      | none => exact absurd hg h
      | some v => simp [hg]
    · simp [hk]

theorem prepare_given (kw : Kwargs) (k : String) :
    (prepareFieldKwargs kw).given k = if k ∈ aliasKeys then (kw.given k).or (kw.given "alias") else kw.given k := by
  unfold prepareFieldKwargs
  simp only [aliasKeys, List.mem_cons, List.not_mem_nil, or_false]
  have h1 := given_setIfUnset kw "serialization_alias"
  generalize (if PyArg.isUnset (kw.get? "serialization_alias") = true then Dict.set kw "serialization_alias" (Kwargs.getOrNone kw "alias")
    else kw) = kw1 at h1 ⊢
  rw [given_setIfUnset kw1 "validation_alias" k, h1 k, h1 "alias"]
  have : ("alias" = "serialization_alias") = False := by simp
  simp only [this, if_false]
  by_cases h2 : k = "validation_alias"
  · subst h2
    have : ("validation_alias" = "serialization_alias") = False := by simp
    simp [this]
  · simp [h2]

theorem wf_setIfUnset (kw : Kwargs) (h : kw.WF) (key : String) :
    Dict.WF (if PyArg.isUnset (kw.get? key) = true then Dict.set kw key (Kwargs.getOrNone kw "alias") else kw) := by
  split
  · exact Dict.wf_set h _ _
  · exact h

theorem prepare_wf (kw : Kwargs) (h : kw.WF) : (prepareFieldKwargs kw).WF :=
  wf_setIfUnset _ (wf_setIfUnset kw h _) _

theorem keys_setIfUnset (kw : Kwargs) (key k : String) (hk : k ≠ key) (h : k ∉ kw.keys) :
    k ∉ Dict.keys (if PyArg.isUnset (kw.get? key) = true then Dict.set kw key (Kwargs.getOrNone kw "alias") else kw) := by
  split
  · rw [← Dict.get?_eq_none_iff, Dict.get?_set_ne _ _ (Ne.symm hk), Dict.get?_eq_none_iff]; exact h
  · exact h

theorem prepare_keys (kw : Kwargs) (k : String) (h1 : k ∉ aliasKeys) (h : k ∉ kw.keys) : k ∉ (prepareFieldKwargs kw).keys := by
  simp only [aliasKeys, List.mem_cons, List.not_mem_nil, or_false, not_or] at h1
  exact keys_setIfUnset _ _ _ h1.1 (keys_setIfUnset kw _ _ h1.2 h)

theorem given_withDefaults (d f : PyArg) (kw : Kwargs) (k : String) :
    Kwargs.given (withDefaults d f kw) k =
      if k = "default" then (some d).filter (fun a => a ≠ .none && a ≠ .undefined)
      else if k = "default_factory" then (some f).filter (fun a => a ≠ .none && a ≠ .undefined) else kw.given k := by
  unfold Kwargs.given withDefaults
  rw [Dict.get?_cons, Dict.get?_cons]
  by_cases h1 : k = "default"
  · subst h1; simp
  · by_cases h2 : k = "default_factory"
    · subst h2; simp
    · simp [h1, h2, Ne.symm h1, Ne.symm h2]

theorem wf_withDefaults (d f : PyArg) (kw : Kwargs) (h : kw.WF) (h1 : "default" ∉ kw.keys) (h2 : "default_factory" ∉ kw.keys) :
    (withDefaults d f kw).WF := by
  simp only [Dict.WF, Dict.keys, withDefaults, List.map_cons, List.nodup_cons, List.mem_cons, not_or] at *
  exact ⟨⟨by simp, h1⟩, h2, h⟩

theorem get?_filter (kw : Kwargs) (h : kw.WF) (k : String) :
    Dict.get? (kw.filter fun kv => kv.2 ≠ .undefined) k = kw.passed k := by
  unfold Kwargs.passed
  induction kw with
  | nil => rfl
  | cons kv kw ih =>
    obtain ⟨k', v⟩ := kv
    simp only [Dict.WF, Dict.keys, List.map_cons, List.nodup_cons] at h
    have ih := ih h.2
    simp only [ne_eq] at ih
    by_cases hv : v = .undefined
    · subst hv
      simp only [List.filter_cons, ne_eq, not_true_eq_false, decide_false, Bool.false_eq_true, if_false]
      rw [ih, Dict.get?_cons]
      by_cases hkk : k' = k
      · subst hkk
        rw [(Dict.get?_eq_none_iff kw k').2 h.1]
        simp only [if_true]; rfl
      · simp [hkk]
    · simp only [List.filter_cons, ne_eq, hv, not_false_eq_true, decide_true, if_true]
      rw [Dict.get?_cons, Dict.get?_cons]
      by_cases hkk : k' = k
      · simp [hkk, Option.filter, hv]
      · simp only [hkk, if_false]; exact ih

theorem get?_setIfUnset_ne (kw : Kwargs) (key k : String) (hk : k ≠ key) :
    Dict.get? (if PyArg.isUnset (kw.get? key) = true then Dict.set kw key (Kwargs.getOrNone kw "alias") else kw) k = kw.get? k := by
  split
  · exact Dict.get?_set_ne _ _ (Ne.symm hk)
  · rfl

theorem prepare_get (kw : Kwargs) (k : String) (h1 : k ∉ aliasKeys) : (prepareFieldKwargs kw).get? k = kw.get? k := by
  simp only [aliasKeys, List.mem_cons, List.not_mem_nil, or_false, not_or] at h1
  unfold prepareFieldKwargs
  rw [get?_setIfUnset_ne _ _ _ h1.1, get?_setIfUnset_ne _ _ _ h1.2]

theorem prepare_sets (kw : Kwargs) (ha : kw.get? "alias" ≠ some .undefined) (k : String) (hk : k ∈ aliasKeys) :
    ∃ v, (prepareFieldKwargs kw).get? k = some v ∧ v ≠ .undefined := by
  have hget : ∀ kw : Kwargs, kw.get? "alias" ≠ some .undefined → ∀ key, ∃ v,
      Dict.get? (if PyArg.isUnset (kw.get? key) = true then Dict.set kw key (Kwargs.getOrNone kw "alias") else kw) key = some v ∧
        v ≠ .undefined := by
    intro kw ha key
    by_cases h : PyArg.isUnset (kw.get? key) = true
    · simp only [h, if_true]
      refine ⟨_, Dict.get?_set_self _ _ _, ?_⟩
      unfold Kwargs.getOrNone
      cases hx : kw.get? "alias" with
      | none => simp
      | some v => rintro rfl; exact ha hx
    · simp only [h]
      cases hx : kw.get? key with
      | none => rw [hx] at h; exact absurd rfl h
      | some v => exact ⟨v, by simpa using hx, by rintro rfl; rw [hx] at h; exact absurd rfl h⟩
  simp only [aliasKeys, List.mem_cons, List.not_mem_nil, or_false] at hk
  unfold prepareFieldKwargs
  rcases hk with rfl | rfl
  · refine hget _ ?_ _
    rw [get?_setIfUnset_ne _ _ _ (by decide)]
    exact ha
  · rw [get?_setIfUnset_ne _ _ _ (by decide)]
    exact hget kw ha _

theorem Kwargs.Proper.prepare {kw : Kwargs} (h : kw.Proper) : (prepareFieldKwargs kw).Proper :=
  ⟨prepare_wf kw h.wf, prepare_keys kw _ (by decide) h.noDefault, prepare_keys kw _ (by decide) h.noFactory⟩

theorem Kwargs.Proper.withDefaults {kw : Kwargs} (h : kw.Proper) (d f : PyArg) : (withDefaults d f kw).WF :=
  wf_withDefaults d f kw h.wf h.noDefault h.noFactory

theorem infos_new (constraints : Kwargs → List Nat) (kw : Kwargs) : (FieldInfo.new constraints kw).infos = [] := by
  simp [FieldInfo.infos, FieldInfo.new, MetaItem.info?, List.filterMap_map]

theorem infos_append (f : FieldInfo) (i : EntityInfo) : (f.append i).infos = f.infos ++ [i] := by
  simp [FieldInfo.infos, FieldInfo.append, MetaItem.info?]

theorem infos_merge2 (f g : FieldInfo) : (f.merge2 g).infos = f.infos ++ g.infos := by
  simp [FieldInfo.infos, FieldInfo.merge2]

theorem infos_strip (f : FieldInfo) : FieldInfo.infos { f with metadata := f.metadata.filter fun m => m.info?.isNone } = [] := by
  simp only [FieldInfo.infos, List.filterMap_eq_nil_iff, List.mem_filter]
  rintro m ⟨_, h⟩
  simpa using h

/-- A single info merges to itself. -/
theorem extract_single (i : EntityInfo) (h : ∀ m, i.nsmap = some m → m.WF) : EntityInfo.extract [i] = some i := by
  obtain ⟨l, p, ns, nsmap, nl, w⟩ := i
  cases nsmap with
  | none => simp [EntityInfo.extract, EntityInfo.merge, EntityInfo.mergeStep, EntityInfo.unset, EntityInfo.location, EntityInfo.path,
      EntityInfo.ns, EntityInfo.nsmap, EntityInfo.nillable, EntityInfo.wrapped]
  | some m =>
    have hm : mergeNsmaps [some m, none] = m := by
      have hw := h m rfl
      cases m with
      | nil => rfl
      | cons a m =>
        simp only [mergeNsmaps, truthyMap, List.filter_cons, if_true, Bool.false_eq_true, if_false, List.filter_nil, List.map_cons,
          List.map_nil, Option.getD_some, chainMap, List.reverse_cons, List.reverse_nil, List.nil_append, List.foldl_cons, List.foldl_nil]
        have := Dict.update_of_disjoint ([] : NsMap) (a :: m) hw (by simp [Dict.keys])
        simpa using this
    simp [EntityInfo.extract, EntityInfo.merge, EntityInfo.mergeStep, EntityInfo.unset, EntityInfo.location, EntityInfo.path,
      EntityInfo.ns, EntityInfo.nsmap, EntityInfo.nillable, EntityInfo.wrapped, hm]

/-! ## Class arguments -/

theorem get?_block {α : Type} (o : Option α) (n k : String) (f : α → PyArg) :
    Dict.get? (o.toList.map fun x => (n, f x)) k = if n = k then o.map f else none := by
  cases o <;> simp [Dict.get?]

theorem written_get (a : ClassArgs) (kw : Kwargs) (hk : ∀ k ∈ kw.keys, k ∉ ClassArgs.names) :
    (initSubclassArgs (a.written ++ kw)).1 = a := by
  have h : ∀ k ∈ ClassArgs.names, Dict.get? kw k = none := by
    intro k hk'
    rw [Dict.get?_eq_none_iff]
    exact fun h => hk k h hk'
  simp only [ClassArgs.names, List.mem_cons, List.not_mem_nil, or_false, forall_eq_or_imp, forall_eq] at h
  obtain ⟨h1, h2, h3, h4, h5, h6⟩ := h
  obtain ⟨tag, ns, nsmap, na, se, sm⟩ := a
  simp only [initSubclassArgs, ClassArgs.written, Dict.get?_append, get?_block, h1, h2, h3, h4, h5, h6]
  cases tag <;> cases ns <;> cases nsmap <;> cases na <;> cases se <;> cases sm <;> rfl

theorem written_extra (a : ClassArgs) (kw : Kwargs) (hk : ∀ k ∈ kw.keys, k ∉ ClassArgs.names) :
    (initSubclassArgs (a.written ++ kw)).2 = kw := by
  have hf : (kw.filter fun kv => !(["tag", "ns", "nsmap", "ns_attrs", "skip_empty", "search_mode"].contains kv.1)) = kw := by
    rw [List.filter_eq_self]
    intro kv h
    have := hk kv.1 (List.mem_map_of_mem h)
    simpa [ClassArgs.names] using this
  obtain ⟨tag, ns, nsmap, na, se, sm⟩ := a
  simp only [initSubclassArgs, List.filter_append, hf]
  have : ((ClassArgs.written ⟨tag, ns, nsmap, na, se, sm⟩).filter
      fun kv => !(["tag", "ns", "nsmap", "ns_attrs", "skip_empty", "search_mode"].contains kv.1)) = [] := by
    simp only [ClassArgs.written, List.filter_append]
    cases tag <;> cases ns <;> cases nsmap <;> cases na <;> cases se <;> cases sm <;> rfl
  rw [this]; rfl

theorem set_new (d : Kwargs) (k : String) (v : PyArg) (h : k ∉ d.keys) : Dict.set d k v = d ++ [(k, v)] := by
  induction d with
  | nil => rfl
  | cons kv d ih =>
    obtain ⟨k', v'⟩ := kv
    simp only [Dict.keys, List.map_cons, List.mem_cons, not_or] at h
    simp only [Dict.set, Ne.symm h.1, if_false, List.cons_append, List.cons.injEq, true_and]
    exact ih h.2

theorem erase_append (d e : Kwargs) (k : String) (h : k ∉ d.keys) : Dict.erase (d ++ e) k = d ++ Dict.erase e k := by
  induction d with
  | nil => rfl
  | cons kv d ih =>
    obtain ⟨k', v'⟩ := kv
    simp only [Dict.keys, List.map_cons, List.mem_cons, not_or] at h
    simp only [List.cons_append, Dict.erase, Ne.symm h.1, if_false, List.cons.injEq, true_and]
    exact ih h.2

/-- The keyword arguments `create_model` makes. -/
def createdKwargs (a : CreateArgs) : Kwargs :=
  [("tag", optArg .str a.args.tag), ("ns", optArg .str a.args.ns), ("nsmap", optArg .map a.args.nsmap),
   ("ns_attrs", optArg .bool a.args.nsAttrs), ("skip_empty", optArg .bool a.args.skipEmpty),
   ("search_mode", optArg .mode a.args.searchMode)]

theorem createModel_kwargs (mro : List Base → List Cls) (a : CreateArgs)
    (hk : ∀ k ∈ a.clsKwargs.keys, k ≠ "metaclass" ∧ k ∉ ClassArgs.names) :
    (createModel mro a).2 = a.clsKwargs ++ ("metaclass", .obj 0) :: createdKwargs a := by
  have h : ∀ k, k = "metaclass" ∨ k ∈ ClassArgs.names → k ∉ a.clsKwargs.keys := by
    rintro k (rfl | hk') hm
    · exact (hk _ hm).1 rfl
    · exact (hk _ hm).2 hk'
  have hset : ∀ (e : Kwargs) (k : String) (v : PyArg), (k = "metaclass" ∨ k ∈ ClassArgs.names) → k ∉ e.keys →
      Dict.set (a.clsKwargs ++ e) k v = a.clsKwargs ++ (e ++ [(k, v)]) := by
    intro e k v hk' he
    rw [set_new, List.append_assoc]
    simp only [Dict.keys, List.map_append, List.mem_append, not_or]
    exact ⟨h k hk', he⟩
  simp only [createModel]
  rw [show Dict.set a.clsKwargs "metaclass" (.obj 0) = a.clsKwargs ++ [("metaclass", .obj 0)] from set_new _ _ _ (h _ (.inl rfl))]
  repeat rw [hset _ _ _ (by decide) (by simp [Dict.keys])]
  rfl

theorem created_get (a : CreateArgs) (kw : Kwargs) (hk : ∀ k ∈ kw.keys, k ∉ ClassArgs.names) :
    initSubclassArgs (kw ++ createdKwargs a) = (a.args, kw) := by
  have h : ∀ k ∈ ClassArgs.names, Dict.get? kw k = none := by
    intro k hk'
    rw [Dict.get?_eq_none_iff]
    exact fun h => hk k h hk'
  simp only [ClassArgs.names, List.mem_cons, List.not_mem_nil, or_false, forall_eq_or_imp, forall_eq] at h
  obtain ⟨h1, h2, h3, h4, h5, h6⟩ := h
  have hf : (kw.filter fun kv => !(["tag", "ns", "nsmap", "ns_attrs", "skip_empty", "search_mode"].contains kv.1)) = kw := by
    rw [List.filter_eq_self]
    intro kv h
    have := hk kv.1 (List.mem_map_of_mem h)
    simpa [ClassArgs.names] using this
  obtain ⟨name, ⟨tag, ns, nsmap, na, se, sm⟩, base, module, ck, cfg⟩ := a
  simp only [initSubclassArgs, Dict.get?_append, h1, h2, h3, h4, h5, h6, List.filter_append, hf]
  cases tag <;> cases ns <;> cases nsmap <;> cases na <;> cases se <;> cases sm <;>
    simp [createdKwargs, optArg, Dict.get?]

theorem written_erase (a : ClassArgs) (kw : Kwargs) (hm : "metaclass" ∉ kw.keys) :
    Dict.erase (a.written ++ kw) "metaclass" = a.written ++ kw := by
  apply Dict.erase_of_not_mem
  rw [← Dict.get?_eq_none_iff]
  simp only [ClassArgs.written, Dict.get?_append, get?_block, (Dict.get?_eq_none_iff kw _).2 hm]
  simp

/-! ## Digits -/

theorem isAsciiDigit_iff (c : Char) : isAsciiDigit c = c.isDigit := by
  simp only [isAsciiDigit, Char.isDigit, Char.le_def]

theorem digits_all (n : Nat) : ∀ c ∈ Nat.toDigits 10 n, isAsciiDigit c = true := by
  intro c hc
  rw [isAsciiDigit_iff]
  exact Nat.isDigit_of_mem_toDigits (by omega) (by omega) hc

theorem digitsValue_toDigits (n : Nat) : digitsValue (Nat.toDigits 10 n) = n := by
  have := Nat.ofDigitChars_toDigits (b := 10) (n := n) (by omega) (by omega)
  exact this

theorem span_digits (n : Nat) (cs : List Char) (h : ∀ c ∈ cs.head?, isAsciiDigit c = false) :
    (Nat.toDigits 10 n ++ cs).takeWhile isAsciiDigit = Nat.toDigits 10 n ∧
    (Nat.toDigits 10 n ++ cs).dropWhile isAsciiDigit = cs := by
  have hd := digits_all n
  generalize Nat.toDigits 10 n = ds at hd
  induction ds with
  | nil =>
    cases cs with
    | nil => exact ⟨rfl, rfl⟩
    | cons c cs =>
      have := h c (by simp)
      simp [this]
  | cons d ds ih =>
    have h1 := hd d List.mem_cons_self
    have := ih fun c hc => hd c (List.mem_cons_of_mem _ hc)
    simp [h1, this.1, this.2]

end PXml
