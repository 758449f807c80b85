import Verif.Lemmas.Emit

/-! Fields that write child elements: one child, unions, lists and tuples. -/

namespace PXml

open Elem

variable {wh : Bool}

/-! ## Looking for the next child -/

theorem search_front {r : Elem} {S U : List Elem} {c : Elem} (h1 : r.elements = S ++ c :: U) (h2 : r.next = S.length) {t : String}
    (ht : c.tag = t) (mode : Mode) (step : Bool) :
    r.search t mode step = (some S.length, if step then { r with next := S.length + 1 } else r) := by
  have hget : r.elements[r.next]? = some c := by rw [h1, h2]; simp
  have hfm : r.firstMatch t = some r.next := by
    unfold firstMatch
    rw [h1, h2]
    simp [firstFrom, ht]
  cases mode with
  | strict =>
    simp only [search, strictSearch, hget, ht, if_true]
    rw [h2]
  | ordered => simp only [search, orderedSearch, hfm, h2]
  | unordered =>
    simp only [search, unorderedSearch, hfm, swap_self, h2]
    cases step
    · simp only [Bool.false_eq_true, if_false]
      rw [← h2]
      exact congrArg _ (Elem.eta r).symm
    · simp only [if_true]

theorem setChild_front {S U : List Elem} {c c' : Elem} {r : Elem} (h1 : r.elements = S ++ c :: U) :
    (r.setChild S.length c').elements = S ++ c' :: U := by
  simp [setChild, h1]

theorem item_name_slots {s : Ser} {t : String} {m : Mode} (h : s.item? = some (t, m)) : s.slots = [.child t] := by
  cases s <;> simp only [Ser.item?, reduceCtorEq] at h
  case elem nm ns m c nl => cases c <;> simp_all [Ser.slots]
  case mapElem => split at h <;> simp_all [Ser.slots]
  case raw nm m c => cases c <;> simp_all [Ser.slots]
  case proxy => split at h <;> simp_all [Ser.slots]

/-! ## One child -/

theorem emits_child {env : Env} {eas : Bool} {fl : Flags} {s : Ser} {v enc d : Val} {t : String} {mode : Mode} {c c' : Elem}
    (hs : s.item? = some (t, mode)) (hr : s.Resolved env) (ht : c.tag = t)
    (hw : ∃ N, ∀ n ≥ N, ∀ w, ser env n fl s w v enc = .ok (w.append c))
    (hrd : ∃ N, ∀ n ≥ N, ∀ loc sm, ∃ sm', s.onItem env eas n loc ⟨c.reread, sm⟩ = (.ok d, ⟨c', sm'⟩))
    (hc : c'.Clean wh) (hct : c'.tag = t) (hcar : ∀ k x, Carries env fl s (some (v, enc)) k x → c.getAttrib k = some x) :
    Emits wh env eas fl s (some (v, enc)) d { kids := [c] } := by
  have hsl := item_name_slots hs
  refine ⟨by simp [Dict.keys], Dict.wf_nil, by simp [hsl, ht], by simp, by simp, ?_, ?_, ?_, ?_⟩
  · intro w _ _ _
    obtain ⟨N, hN⟩ := hw
    exact ⟨w.append c, ⟨rfl, N, fun n hn => hN n hn w⟩, Adds.append w c⟩
  · intro S rest A2 r hf _
    have hel : r.elements = S ++ c.reread :: rest := by simpa using hf.elements
    refine ⟨({ r with next := S.length + 1 } : Elem).setChild S.length c', ⟨rfl, ?_⟩, ?_⟩
    · obtain ⟨N, hN⟩ := hrd
      refine ⟨N + 1, fun n hn loc sm => ?_⟩
      obtain ⟨k, rfl⟩ : ∃ k, n = k + 1 := ⟨n - 1, by omega⟩
      obtain ⟨sm', h⟩ := hN k (by omega) loc sm
      refine ⟨sm', ?_⟩
      rw [deser_item hs hr, search_front hel hf.next (by rw [reread_tag]; exact ht)]
      simp only [if_true, onChild]
      have : ({ r with next := S.length + 1 } : Elem).elements[S.length]? = some c.reread := by
        change r.elements[S.length]? = _
        rw [hel]; simp
      rw [this]
      simp only [h]
    · refine ⟨rfl, rfl, fun h => ?_, fun _ => rfl, by simpa [setChild] using hf.attrib, fun _ h => by simpa [setChild] using h, [c'], ?_, rfl, ?_, ?_⟩
      · rw [hsl] at h; simp at h
      · simp [setChild, hel]
      · simpa using hc
      · simp [ht, hct]
  · intro k x h c1 hc1
    simp only [List.mem_singleton] at hc1
    subst hc1
    exact hcar k x h
  · intro k v enc h
    subst h; cases hs

theorem fresh_atEnd (b : Backend) (t : String) (ns : Option NsMap) : (makeElement b t ns).AtEnd := rfl

/-- What was written into a fresh element and read again leaves nothing. -/
theorem Takes.clean {ss : List Slot} {M : Em} {r r' : Elem} (h : Takes wh ss M [] [] [] r r') (ht : .text ∉ ss → r.text = none)
    (htail : r.tail = none) : r'.Clean wh := by
  obtain ⟨K', h1, _, h3, _⟩ := h.kids
  refine clean_of ?_ (.inl (by rw [h.tail, htail])) h.attrib ?_
  · by_cases hx : Slot.text ∈ ss
    · exact h.blank hx
    · exact .inl (by rw [h.text hx, ht hx])
  · rw [h1]; simpa using h3

theorem faces_reread {ss : List Slot} {M : Em} {w w' : Elem} (h : Adds M w w') (hw1 : w.text = none) (hw2 : w.attrib = none)
    (hw3 : w.elements = []) : Faces ss M [] [] [] w'.reread := by
  refine ⟨?_, by simp, ?_, ?_, by simp [Dict.keys], ?_⟩
  · simp [h.elements, hw3]
  · simp [h.attrib, hw2]
  · exact fun _ => ⟨by simp, rfl⟩
  · intro _; rw [reread_text, h.text, hw1]; simp

/-- The inner part of a field on a fresh child. -/
theorem Emits.onFresh {env : Env} {eas : Bool} {fl : Flags} {s : Ser} {v enc d : Val} {M : Em}
    (h : Emits wh env eas fl s (some (v, enc)) d M) (b : Backend) (t : String) (ns : Option NsMap) :
    ∃ c c', (∃ N, ∀ n ≥ N, ser env n fl s (makeElement b t ns) v enc = .ok c) ∧ c.tag = t ∧ c'.Clean wh ∧ c'.tag = t ∧
      (∃ N, ∀ n ≥ N, ∀ loc sm, ∃ sm', deser env eas n s loc ⟨c.reread, sm⟩ = (.ok d, ⟨c', sm'⟩)) ∧ (M.Solid → c.isEmpty = false) := by
  obtain ⟨c, ⟨h1, h2⟩, h3⟩ := h.writes (makeElement b t ns) (fresh_atEnd _ _ _) (by simp [makeElement, Dict.keys]) (fun _ => rfl)
  obtain ⟨c', ⟨h4, h5⟩, h6⟩ := h.reads [] [] [] c.reread (faces_reread h3 rfl rfl rfl) (.inr (by simp))
  refine ⟨c, c', h2, h1, h6.clean ?_ ?_, ?_, h5, h3.solid ⟨rfl, rfl⟩⟩
  · intro hx
    rw [reread_text, h3.text]
    cases hm : M.text with
    | none => rfl
    | some x => exact absurd (h.text (by rw [hm]; simp)) hx
  · rw [reread_tail, h3.tail]; rfl
  · rw [h4, reread_tag, h1]; rfl

/-! ## Elements with text, mappings -/

theorem append_solid {fl : Flags} {w c : Elem} (h : fl.skipEmpty = true → c.isEmpty = false) : appendUnlessEmpty fl w c = w.append c := by
  unfold appendUnlessEmpty
  cases hfl : fl.skipEmpty with
  | false => rfl
  | true => rw [h hfl]; rfl

theorem emits_elem {env : Env} {eas : Bool} {fl : Flags} {name : String} {nsmap : Option NsMap}
    {mode : Mode} {nl : Bool} {v enc d : Val} {M : Em} (hv : v ≠ .none ∨ ¬fl.NoneSkipped) (hM : fl.skipEmpty = true → M.Solid)
    (h : Emits wh env eas fl (.text false nl) (some (v, enc)) d M) :
    ∃ M', Emits wh env eas fl (.elem name nsmap mode false nl) (some (v, enc)) d M' ∧ M'.Solid := by
  obtain ⟨c, c', ⟨N1, h1⟩, h2, h3, h4, ⟨N2, h5⟩, h6⟩ := h.onFresh env.backend name nsmap
  have hc : c = serText env nl fl (makeElement env.backend name nsmap) v enc := by
    have := h1 (N1 + 1) (by omega)
    injection this with this
    exact this.symm
  refine ⟨_, emits_child (t := name) (mode := mode) rfl trivial h2 ⟨1, fun n hn w => ?_⟩ ⟨0, fun n _ loc sm => ?_⟩ h3 h4 ?_,
    .inr (.inr (by simp))⟩
  · obtain ⟨k, rfl⟩ : ∃ k, n = k + 1 := ⟨n - 1, by omega⟩
    change serStep env (ser env k) fl (.elem name nsmap mode false nl) w v enc = _
    have : (v.isNone && (fl.skipEmpty || fl.excludeNone)) = false := by
      rcases hv with hv | hv
      · simp [Val.isNone_of_ne hv]
      · unfold Flags.NoneSkipped at hv
        simp only [not_or, Bool.not_eq_true] at hv
        simp [hv]
    simp only [serStep]
    rw [if_neg (by rw [this]; simp), ← hc, append_solid fun hfl => h6 (hM hfl)]
  · exact h5 (N2 + 1) (by omega) loc (Dict.set sm loc c.reread.line)
  · rintro k x ⟨p, _, _, _, _, _, _, _, _, hp, _⟩; cases hp

/-- With `skip_empty` an element without text is not written. -/
theorem emits_elem_skip {env : Env} {eas : Bool} {fl : Flags} {name : String} {nsmap : Option NsMap} {mode : Mode} {nl : Bool} {v enc : Val}
    (hv : v ≠ .none) (hfl : fl.skipEmpty = true) (he : encodePrimitive env enc = "") :
    Emits wh env eas fl (.elem name nsmap mode false nl) (some (v, enc)) .none {} := by
  refine emits_nothing (env := env) (s := .elem name nsmap mode false nl) (.mk trivial (by simp [Ser.subs])) (.item .elem) trivial _ (fun w => ⟨rfl, 1, fun n hn => ?_⟩)
    (by simp [hfl]) (fun k v enc h => by cases h)
  obtain ⟨k, rfl⟩ : ∃ k, n = k + 1 := ⟨n - 1, by omega⟩
  change serStep env (ser env k) fl (.elem name nsmap mode false nl) w v enc = _
  simp [serStep, Val.isNone_of_ne hv, serText, appendUnlessEmpty, hfl, he, setText, makeElement, isEmpty, truthy, truthyMap]

theorem emits_mapElem {env : Env} {eas : Bool} {fl : Flags} {a : AttrsSer} {name : String}
    {mode : Mode} {v enc d : Val} {M : Em} (hc : a.computed = false) (hv : fl.skipEmpty = true → ∃ l, v.len? = some (l + 1))
    (hM : fl.skipEmpty = true → M.Solid) (h : Emits wh env eas fl (.attrs a) (some (v, enc)) d M) :
    ∃ M', Emits wh env eas fl (.mapElem a name mode) (some (v, enc)) d M' ∧ M'.Solid := by
  obtain ⟨c, c', ⟨N1, h1⟩, h2, h3, h4, ⟨N2, h5⟩, h6⟩ := h.onFresh env.backend name a.nsmap
  have hc' : serAttrs env a (makeElement env.backend name a.nsmap) v enc = .ok c := h1 (N1 + 1) (by omega)
  refine ⟨_, emits_child (t := name) (mode := mode) (by simp [Ser.item?, hc]) trivial h2 ⟨1, fun n hn w => ?_⟩
    ⟨0, fun n _ loc sm => ?_⟩ h3 h4 ?_, .inr (.inr (by simp))⟩
  · obtain ⟨k, rfl⟩ : ∃ k, n = k + 1 := ⟨n - 1, by omega⟩
    change serStep env (ser env k) fl (.mapElem a name mode) w v enc = _
    cases hfl : fl.skipEmpty with
    | false => simp only [serStep, hfl, Bool.false_eq_true, if_false, hc', Out.bind]
    | true =>
      obtain ⟨l, hl⟩ := hv hfl
      simp only [serStep, hfl, if_true, hl, hc', Out.bind, append_solid fun hfl => h6 (hM hfl)]
  · exact h5 (N2 + 1) (by omega) loc (Dict.set sm loc c.reread.line)
  · rintro k x ⟨p, _, _, _, _, _, _, _, _, hp, _⟩; cases hp

/-- With `skip_empty` an empty dictionary is not written. -/
theorem emits_mapElem_skip {env : Env} {eas : Bool} {fl : Flags} {a : AttrsSer} {name : String} {mode : Mode} {v enc : Val}
    (hfl : fl.skipEmpty = true) (hv : v.len? = some 0) : Emits wh env eas fl (.mapElem a name mode) (some (v, enc)) .none {} := by
  refine emits_nothing (env := env) (s := .mapElem a name mode) (.mk trivial (by simp [Ser.subs])) (.item .mapElem) trivial _ (fun w => ⟨rfl, 1, fun n hn => ?_⟩)
    (by simp [hfl]) (fun k v enc h => by cases h)
  obtain ⟨k, rfl⟩ : ∃ k, n = k + 1 := ⟨n - 1, by omega⟩
  change serStep env (ser env k) fl (.mapElem a name mode) w v enc = _
  simp [serStep, hfl, hv]

theorem fromNative_isEmpty (b : Backend) {node : Node} {name : String} (h1 : node.tag = name) (h2 : node.NoPIs) (h3 : node.isComment = false)
    (h : ¬node.plain.Empty name) : (fromNative b node).isEmpty = false := by
  cases node with
  | comment => cases h3
  | pi => exact absurd h2 id
  | elem tag attrib ns text tail children line =>
    refine Bool.eq_false_iff.2 fun he => h ?_
    simp only [fromNative, isEmpty, Bool.and_eq_true, Bool.not_eq_true', List.isEmpty_iff] at he
    obtain ⟨⟨⟨h4, _⟩, h5⟩, h6⟩ := he
    have hk : ∀ l : List Node, fromNativeList b l = [] → Node.dropCommentsList l = [] := by
      intro l
      induction l with
      | nil => intro _; rfl
      | cons n l ih =>
        intro hl
        cases n with
        | comment => exact ih hl
        | elem | pi => simp [fromNativeList, Node.isComment] at hl
    refine ⟨h1, ?_, ?_, ?_⟩
    · cases text with
      | none => exact .inl rfl
      | some x => right; simpa [truthy] using h4
    · cases attrib with
      | nil => rfl
      | cons => cases h5
    · rw [hk children h6]; rfl

theorem emits_raw {env : Env} {eas : Bool} {fl : Flags} {name : String} {mode : Mode} {node : Node}
    {enc : Val} (h1 : node.tag = name) (h2 : node.NoPIs) (h3 : node.isComment = false)
    (h4 : fl.skipEmpty = true → ¬node.plain.Empty name) :
    ∃ M', Emits wh env eas fl (.raw name mode false) (some (.raw node, enc)) (.raw node.plain) M' ∧ M'.Solid := by
  have ht : (fromNative env.backend node).tag = name := by
    cases node with
    | elem => exact h1
    | comment => cases h3
    | pi => exact absurd h2 id
  refine ⟨_, emits_child (t := name) (mode := mode) (c := fromNative env.backend node)
    (c' := (fromNative env.backend node).reread.hollow) rfl trivial ht ⟨1, fun n hn w => ?_⟩ ⟨0, fun n _ loc sm => ?_⟩ ?_ ?_ ?_,
    .inr (.inr (by simp))⟩
  · obtain ⟨k, rfl⟩ : ∃ k, n = k + 1 := ⟨n - 1, by omega⟩
    change serStep env (ser env k) fl (.raw name mode false) w (.raw node) enc = _
    simp [serStep, append_solid fun hfl => fromNative_isEmpty env.backend h1 h2 h3 (h4 hfl)]
  · refine ⟨Dict.set sm loc (fromNative env.backend node).reread.line, ?_⟩
    simp only [Ser.onItem]
    have : (fromNative env.backend node).reread.detached = (fromNative env.backend node).reread := by
      rw [reread_eq]; rfl
    rw [this, toNative_reread, toNative_fromNative _ _ h2 h3, dropPrefixes_plain]
  · exact clean_of (.inl rfl) (.inl rfl) rfl (by simp [hollow])
  · rw [show (fromNative env.backend node).reread.hollow.tag = (fromNative env.backend node).reread.tag from rfl, reread_tag, ht]
  · rintro k x ⟨p, _, _, _, _, _, _, _, _, hp, _⟩; cases hp

/-! ## Primitive unions -/

theorem emits_primUnion {env : Env} {eas : Bool} {fl : Flags} {inner : Ser} {val : Val × Val} {d : Val} {M : Em}
    (h : Emits wh env eas fl inner (some val) d M) : Emits wh env eas fl (.primUnion false inner) (some val) d M := by
  have hi : (Ser.primUnion false inner).Item → inner.Item := by intro h; cases h with | primUnion h => exact h
  refine ⟨h.keys, h.wf, h.tags, h.text, fun hfl hx => h.item hfl (hi hx), ?_, ?_, ?_, ?_⟩
  · intro w h1 h2 h3
    obtain ⟨w', ⟨h4, N, h5⟩, h6⟩ := h.writes w h1 h2 h3
    refine ⟨w', ⟨h4, N + 1, fun n hn => ?_⟩, h6⟩
    obtain ⟨k, rfl⟩ : ∃ k, n = k + 1 := ⟨n - 1, by omega⟩
    exact h5 k (by omega)
  · intro S rest A2 r hf hrest
    obtain ⟨r', ⟨h4, N, h5⟩, h6⟩ := h.reads S rest A2 r hf (hrest.imp (fun h => ⟨hi h.1, h.2⟩) id)
    refine ⟨r', ⟨h4, N + 1, fun n hn loc sm => ?_⟩, h6⟩
    obtain ⟨k, rfl⟩ : ∃ k, n = k + 1 := ⟨n - 1, by omega⟩
    exact h5 k (by omega) loc sm
  · rintro k x ⟨p, _, _, _, _, _, _, _, _, hp, _⟩; cases hp
  · intro k v enc h; cases h

/-! ## Unions of models -/

theorem rd_proxy_absent {env : Env} {eas : Bool} {p : Proxy} (hr : (env.model p.cls).isSome = true) {r : Elem}
    (h : r.candidate p.name p.mode = none) (n : Nat) (loc : Loc) (sm : SMap) :
    deser env eas (n + 1) (.proxy p) loc ⟨r, sm⟩ = (.ok .none, ⟨r, sm⟩) := by
  change deserStep env eas (deser env eas n) n (.proxy p) loc ⟨r, sm⟩ = _
  obtain ⟨m, hm⟩ := Option.isSome_iff_exists.1 hr
  simp only [deserStep, hm, popElement, candidate_none h, ite_self]

theorem candidate_front_other {r : Elem} {S U : List Elem} {c : Elem} {t : String} {mode : Mode} (h1 : r.elements = S ++ c :: U)
    (h2 : r.next = S.length) (ht : c.tag ≠ t) (h : mode = .strict ∨ ∀ x ∈ U, x.tag ≠ t) : r.candidate t mode = none := by
  have hu : r.unread = c :: U := by unfold Elem.unread; rw [h1, h2]; simp
  rcases h with rfl | h
  · simp [candidate, hu, Option.filter, ht]
  · exact candidate_of_unread (by rw [hu]; simpa [ht] using h)

theorem Emits.no_attrs {env : Env} {eas : Bool} {fl : Flags} {s : Ser} {val : Option (Val × Val)} {d : Val} {M : Em}
    (h : Emits wh env eas fl s val d M) (hs : ∀ a ∈ s.slots, ∃ t, a = .child t) : M.attrs = [] ∧ M.text = none := by
  refine ⟨?_, ?_⟩
  · cases ha : M.attrs with
    | nil => rfl
    | cons kv l =>
      have := h.keys kv.1 (by rw [ha]; simp [Dict.keys])
      rcases this with h1 | ⟨h1, _⟩
      · obtain ⟨t, ht⟩ := hs _ h1; cases ht
      · obtain ⟨t, ht⟩ := hs _ h1; cases ht
  · cases ht : M.text with
    | none => rfl
    | some x =>
      obtain ⟨t, h2⟩ := hs _ (h.text (by rw [ht]; simp))
      cases h2

theorem item_child {s : Ser} (h : s.Item) : ∀ a ∈ s.slots, ∃ t, a = .child t := by
  induction h with
  | primUnion _ ih => simpa [Ser.slots] using ih
  | hetero _ _ ih =>
    simp only [Ser.slots, slotsList_mem]
    rintro a ⟨s, hs, ha⟩
    exact ih s hs a ha
  | modelUnion _ => simp only [Ser.slots, List.mem_map]; rintro a ⟨q, _, rfl⟩; exact ⟨_, rfl⟩
  | tagged _ => simp only [Ser.slots, List.mem_map]; rintro a ⟨q, _, rfl⟩; exact ⟨_, rfl⟩
  | _ => simp [Ser.slots]

/-- What is written for an item that is there. -/
theorem Emits.kids_ne {env : Env} {eas : Bool} {fl : Flags} {s : Ser} {val : Option (Val × Val)} {d : Val} {M : Em}
    (h : Emits wh env eas fl s val d M) (hi : s.Item) (hv : ∃ v enc, val = some (v, enc) ∧ v ≠ .none) (hM : fl.skipEmpty = true → M.Solid) :
    M.kids ≠ [] := by
  cases hfl : fl.skipEmpty with
  | false => exact h.item hfl hi hv
  | true =>
    obtain ⟨h1, h2⟩ := h.no_attrs (item_child hi)
    rcases hM hfl with h | h | h
    · rw [h2] at h; cases h
    · exact absurd h1 h
    · exact h

/-- What is written for a sub-model that is there: children with its name, at least one. -/
theorem Emits.proxy_kids {env : Env} {eas : Bool} {fl : Flags} {p : Proxy} {v enc d : Val} {M : Em}
    (h : Emits wh env eas fl (.proxy p) (some (v, enc)) d M) (hv : v ≠ .none) (hM : fl.skipEmpty = true → M.Solid) :
    ∃ c K, M.kids = c :: K ∧ c.tag = p.name ∧ ∀ x ∈ K, x.tag = p.name := by
  have h1 := h.kids_ne .proxy ⟨v, enc, rfl, hv⟩ hM
  have h2 := h.tags
  simp only [Ser.slots, List.mem_singleton, Slot.child.injEq] at h2
  cases hk : M.kids with
  | nil => exact absurd hk h1
  | cons c K => rw [hk] at h2; exact ⟨c, K, rfl, h2 c (by simp), fun x hx => h2 x (by simp [hx])⟩

/-- The element seen by a field that only has children, as seen by a part of the field. -/
theorem Faces.narrow {ss ss' : List Slot} {M : Em} {S rest : List Elem} {A2 : Dict String String} {r : Elem} (h : Faces ss M S rest A2 r)
    (hs : ∀ a ∈ ss', ∃ t, a = .child t) : Faces ss' M S rest A2 r := by
  refine ⟨h.elements, h.next, h.attrib, fun hx => ?_, fun k _ hx => ?_, fun hx => ?_⟩
  · obtain ⟨t, ht⟩ := hs _ hx; cases ht
  · obtain ⟨t, ht⟩ := hs _ hx; cases ht
  · obtain ⟨t, ht⟩ := hs _ hx; cases ht

theorem Takes.widen {ss ss' : List Slot} {M : Em} {S rest : List Elem} {A2 : Dict String String} {r r' : Elem}
    (h : Takes wh ss M S rest A2 r r') (hs : ∀ a ∈ ss, ∃ t, a = .child t) (hs' : ∀ a ∈ ss', ∃ t, a = .child t) :
    Takes wh ss' M S rest A2 r r' := by
  refine ⟨h.tag, h.tail, fun hx => ?_, fun _ => h.text fun hx => ?_, h.attrib, fun _ => h.some fun hx => ?_, h.kids⟩
  · obtain ⟨t, ht⟩ := hs' _ hx; cases ht
  · obtain ⟨t, ht⟩ := hs _ hx; cases ht
  · obtain ⟨t, ht⟩ := hs _ hx; cases ht

theorem proxy_child (p : Proxy) : ∀ a ∈ (Ser.proxy p).slots, ∃ t, a = .child t := by simp [Ser.slots]

theorem applySnapshot_line {e s : Elem} (h : s.line = e.line) : e.applySnapshot s = s := by
  unfold applySnapshot
  rw [← h]
  exact (Elem.eta s).symm

theorem emits_modelUnion {env : Env} {eas : Bool} {fl : Flags} {title : Title} {cls : String} {pre post : List Proxy} {p : Proxy}
    {fields : List (String × Val)} {set : List String} {enc d : Val} {M : Em}
    (hr : ∀ q ∈ pre, (env.model q.cls).isSome = true) (hp : p.cls = cls) (hpre : ∀ q ∈ pre, q.cls ≠ cls ∧ q.name ≠ p.name)
    (hd : d ≠ .none) (hM : fl.skipEmpty = true → M.Solid)
    (h : Emits wh env eas fl (.proxy p) (some (.model cls fields set, enc)) d M) :
    Emits wh env eas fl (.modelUnion title false (pre ++ p :: post)) (some (.model cls fields set, enc)) d M := by
  have hsl : ∀ a ∈ (Ser.modelUnion title false (pre ++ p :: post)).slots, ∃ t, a = .child t := by
    simp only [Ser.slots, List.mem_map]
    rintro a ⟨q, _, rfl⟩
    exact ⟨_, rfl⟩
  have hmem : ∀ q ∈ pre ++ p :: post, Slot.child q.name ∈ (Ser.modelUnion title false (pre ++ p :: post)).slots := by
    intro q hq
    simp only [Ser.slots, List.mem_map]
    exact ⟨q, hq, rfl⟩
  obtain ⟨c0, K0, hkids, hc0, hK0⟩ := h.proxy_kids (by simp) hM
  obtain ⟨hA, hT⟩ := h.no_attrs (proxy_child p)
  refine ⟨by simp [hA, Dict.keys], h.wf, ?_, by simp [hT], fun _ _ _ => by simp [hkids], ?_, ?_, ?_, ?_⟩
  · intro c hc
    have := h.tags c hc
    simp only [Ser.slots, List.mem_singleton, Slot.child.injEq] at this
    rw [this]
    exact hmem p (by simp)
  · intro w h1 h2 h3
    obtain ⟨w', ⟨h4, N, h5⟩, h6⟩ := h.writes w h1 h2 (by simp [Ser.slots])
    refine ⟨w', ⟨h4, N + 1, fun n hn => ?_⟩, h6⟩
    obtain ⟨k, rfl⟩ : ∃ k, n = k + 1 := ⟨n - 1, by omega⟩
    change serStep env (ser env k) fl (.modelUnion title false (pre ++ p :: post)) w (.model cls fields set) enc = _
    have hfind : (pre ++ p :: post).find? (fun q => q.cls = cls) = some p := by
      rw [List.find?_append]
      have : pre.find? (fun q => decide (q.cls = cls)) = none := by
        simpa using fun q hq => (hpre q hq).1
      rw [this]
      simp [hp]
    simp only [serStep, hfind]
    exact h5 k (by omega)
  · intro S rest A2 r hf hrest
    have hel : r.elements = S ++ c0.reread :: (K0.map reread ++ rest) := by rw [hf.elements, hkids]; simp
    obtain ⟨r', ⟨h4, N, h5⟩, h6⟩ := h.reads S rest A2 r (hf.narrow (proxy_child p)) (.inl ⟨.proxy, by simp [hkids]⟩)
    have habs : ∀ q ∈ pre, r.candidate q.name q.mode = none := by
      intro q hq
      refine candidate_front_other hel hf.next (by rw [reread_tag, hc0]; exact (hpre q hq).2.symm) ?_
      rcases hrest with ⟨hi, _⟩ | hrest
      · left
        cases hi with
        | modelUnion hi => exact hi q (by simp [hq])
      · right
        intro x hx
        rcases List.mem_append.1 hx with hx | hx
        · obtain ⟨y, hy, rfl⟩ := List.mem_map.1 hx
          rw [reread_tag, hK0 y hy]
          exact (hpre q hq).2.symm
        · intro hxt
          exact hrest x hx (by rw [hxt]; exact hmem q (by simp [hq]))
    refine ⟨{ r' with line := r.line }, ⟨h4, N + 2, fun n hn loc sm => ?_⟩, ?_⟩
    · obtain ⟨k, rfl⟩ : ∃ k, n = k + 2 := ⟨n - 2, by omega⟩
      obtain ⟨sm', h7⟩ := h5 (k + 1) (by omega) loc sm
      refine ⟨sm', ?_⟩
      change deserStep env eas (deser env eas (k + 1)) (k + 1) (.modelUnion title false (pre ++ p :: post)) loc ⟨r, sm⟩ = _
      simp only [deserStep, Bool.false_eq_true, if_false]
      have key : ∀ ps : List Proxy, (∀ q ∈ ps, q ∈ pre) →
          unionLoop (fun p st => deser env eas (k + 1) (.proxy p) loc st) title (ps ++ p :: post) [] ⟨r, sm⟩ =
            (.ok d, ⟨{ r' with line := r.line }, sm'⟩) := by
        intro ps
        induction ps with
        | nil =>
          intro _
          simp only [List.nil_append, unionLoop, createSnapshot, h7, Val.isNone_of_ne hd, Bool.false_eq_true, if_false]
          rfl
        | cons q ps ih =>
          intro hsub
          have hq := hsub q (by simp)
          simp only [List.cons_append, unionLoop, createSnapshot, rd_proxy_absent (hr q hq) (habs q hq), Val.isNone, if_true]
          exact ih fun x hx => hsub x (by simp [hx])
      exact key pre fun _ h => h
    · have := h6.widen (proxy_child p) hsl
      exact ⟨this.tag, this.tail, this.blank, this.text, this.attrib, this.some, this.kids⟩
  · rintro k x ⟨p, _, _, _, _, _, _, _, _, hp, _⟩; cases hp
  · intro k v enc h; cases h

theorem emits_tagged {env : Env} {eas : Bool} {fl : Flags} {discr attrName tag : String} {mode : Mode}
    {pre post : List (String × Proxy)} {p : Proxy} {cls : String} {fields : List (String × Val)} {set : List String}
    {enc : List (String × Val)} {d : Val} {M : Em} (htag : tag ≠ "") (hpre : ∀ q ∈ pre, q.1 ≠ tag)
    (hdis : Dict.get? enc discr = some (.str tag)) (hM : fl.skipEmpty = true → M.Solid)
    (h : Emits wh env eas fl (.proxy p) (some (.model cls fields set, .dict enc)) d M) (hc : ∀ c ∈ M.kids, c.getAttrib attrName = some tag) :
    Emits wh env eas fl (.tagged false discr attrName mode (pre ++ (tag, p) :: post)) (some (.model cls fields set, .dict enc)) d M := by
  have hsl : ∀ a ∈ (Ser.tagged false discr attrName mode (pre ++ (tag, p) :: post)).slots, ∃ t, a = .child t := by
    simp only [Ser.slots, List.mem_map]
    rintro a ⟨q, _, rfl⟩
    exact ⟨_, rfl⟩
  have hmem : ∀ q ∈ pre ++ (tag, p) :: post,
      Slot.child q.2.name ∈ (Ser.tagged false discr attrName mode (pre ++ (tag, p) :: post)).slots := by
    intro q hq
    simp only [Ser.slots, List.mem_map]
    exact ⟨q, hq, rfl⟩
  obtain ⟨c0, K0, hkids, hc0, hK0⟩ := h.proxy_kids (by simp) hM
  obtain ⟨hA, hT⟩ := h.no_attrs (proxy_child p)
  refine ⟨by simp [hA, Dict.keys], h.wf, ?_, by simp [hT], fun _ _ _ => by simp [hkids], ?_, ?_, ?_, ?_⟩
  · intro c hc
    have := h.tags c hc
    simp only [Ser.slots, List.mem_singleton, Slot.child.injEq] at this
    rw [this]
    exact hmem (tag, p) (by simp)
  · intro w h1 h2 h3
    obtain ⟨w', ⟨h4, N, h5⟩, h6⟩ := h.writes w h1 h2 (by simp [Ser.slots])
    refine ⟨w', ⟨h4, N + 1, fun n hn => ?_⟩, h6⟩
    obtain ⟨k, rfl⟩ : ∃ k, n = k + 1 := ⟨n - 1, by omega⟩
    change serStep env (ser env k) fl (.tagged false discr attrName mode (pre ++ (tag, p) :: post)) w (.model cls fields set) (.dict enc) = _
    have hfind : Dict.get? (pre ++ (tag, p) :: post) tag = some p := by
      rw [Dict.get?_append, (Dict.get?_eq_none_iff pre tag).2 ?_]
      · simp [Dict.get?_cons]
      · simp only [Dict.keys, List.mem_map, not_exists, not_and]
        exact hpre
    simp only [serStep, hdis, htag, if_false, hfind]
    exact h5 k (by omega)
  · intro S rest A2 r hf hrest
    have hel : r.elements = S ++ c0.reread :: (K0.map reread ++ rest) := by rw [hf.elements, hkids]; simp
    have hca : c0.reread.getAttrib attrName = some tag := by rw [reread_getAttrib]; exact hc c0 (by simp [hkids])
    obtain ⟨r', ⟨h4, N, h5⟩, h6⟩ := h.reads S rest A2 r (hf.narrow (proxy_child p)) (.inl ⟨.proxy, by simp [hkids]⟩)
    have hget : r.elements[S.length]? = some c0.reread := by rw [hel]; simp
    have hfront : ∀ q : String × Proxy, q.2.name = p.name → r.search q.2.name mode false = (some S.length, r) := by
      intro q hq
      rw [search_front hel hf.next (by rw [reread_tag, hc0, hq])]
      simp
    have hskip : ∀ q ∈ pre, q.2.name ≠ p.name → r.search q.2.name mode false = (none, r) := by
      intro q hq hne
      refine candidate_none (candidate_front_other hel hf.next (by rw [reread_tag, hc0]; exact hne.symm) ?_) false
      rcases hrest with ⟨hi, _⟩ | hrest
      · left
        cases hi with
        | tagged hi =>
          rcases hi with hi | hi
          · exact hi
          · exact absurd (hi q (by simp [hq]) (tag, p) (by simp)) hne
      · right
        intro x hx
        rcases List.mem_append.1 hx with hx | hx
        · obtain ⟨y, hy, rfl⟩ := List.mem_map.1 hx
          rw [reread_tag, hK0 y hy]
          exact hne.symm
        · intro hxt
          exact hrest x hx (by rw [hxt]; exact hmem q (by simp [hq]))
    refine ⟨r', ⟨h4, N + 1, fun n hn loc sm => ?_⟩, h6.widen (proxy_child p) hsl⟩
    obtain ⟨k, rfl⟩ : ∃ k, n = k + 1 := ⟨n - 1, by omega⟩
    obtain ⟨sm', h7⟩ := h5 k (by omega) loc (Dict.set sm loc c0.reread.line)
    refine ⟨sm', ?_⟩
    change deserStep env eas (deser env eas k) k (.tagged false discr attrName mode (pre ++ (tag, p) :: post)) loc ⟨r, sm⟩ = _
    simp only [deserStep, Bool.false_eq_true, if_false]
    have key : ∀ ps : List (String × Proxy), (∀ q ∈ ps, q ∈ pre) →
        taggedLoop (fun p st => deser env eas k (.proxy p) loc st) loc attrName mode (ps ++ (tag, p) :: post) ⟨r, sm⟩ =
          (.ok d, ⟨r', sm'⟩) := by
      intro ps
      induction ps with
      | nil =>
        intro _
        simp only [List.nil_append, taggedLoop, hfront (tag, p) rfl, hget, hca, if_true]
        exact h7
      | cons q ps ih =>
        intro hsub
        have hq := hsub q (by simp)
        obtain ⟨qt, q⟩ := q
        by_cases hn : q.name = p.name
        · have hne : ¬ some tag = some qt := fun h => hpre (qt, q) hq (by injection h with h; exact h.symm)
          simp only [List.cons_append, taggedLoop, hfront (qt, q) hn, hget, hca, hne, if_false]
          exact ih fun x hx => hsub x (by simp [hx])
        · simp only [List.cons_append, taggedLoop, hskip (qt, q) hq hn]
          exact ih fun x hx => hsub x (by simp [hx])
    exact key pre fun _ h => h
  · rintro k x ⟨p, _, _, _, _, _, _, _, _, hp, _⟩; cases hp
  · intro k v enc h; cases h

end PXml
