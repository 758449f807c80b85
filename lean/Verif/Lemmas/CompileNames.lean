import Verif.Lemmas.Compile
import Verif.Lemmas.Everywhere

/-! Namespace maps and names, for `Verif/Props/Definition.lean`. -/

namespace PXml

theorem selectNs_eq (l : List (Option String)) : selectNs l = l.findSome? id := by
  induction l with
  | nil => rfl
  | cons x l ih =>
    cases x with
    | none => exact ih
    | some v => rfl

theorem parentNsOf_eq (l : List (Option EntityInfo)) :
    Ctx.parentNsOf l = (l.map fun i => i.bind EntityInfo.ns).findSome? id := by
  induction l with
  | nil => rfl
  | cons i l ih =>
    simp only [Ctx.parentNsOf, List.map_cons]
    rw [ih]
    cases h : i.bind EntityInfo.ns with
    | none =>
      simp only [selectNs, List.findSome?_cons, id_eq]
      cases (l.map fun i => i.bind EntityInfo.ns).findSome? id <;> rfl
    | some v => rfl

theorem chainMap_get? (maps : List NsMap) (h : ∀ m ∈ maps, Dict.WF m) (p : String) :
    (chainMap maps).get? p = maps.findSome? fun m => Dict.get? m p := by
  have key : ∀ (l : List NsMap) (acc : NsMap), (∀ m ∈ l, Dict.WF m) →
      (l.foldl Dict.update acc).get? p = (l.reverse.findSome? fun m => Dict.get? m p).or (acc.get? p) := by
    intro l
    induction l with
    | nil => intro acc _; simp
    | cons m l ih =>
      intro acc h
      rw [List.foldl_cons, ih _ (fun x hx => h x (by simp [hx])), Dict.get?_update _ _ (h m (by simp))]
      simp only [List.reverse_cons, List.findSome?_append, List.findSome?_cons, List.findSome?_nil]
      cases (l.reverse.findSome? fun m => Dict.get? m p) <;> cases Dict.get? m p <;> simp
  unfold chainMap
  rw [key _ _ (fun m hm => h m (by simpa using hm))]
  simp [Dict.get?]

theorem mergeNsmaps_get? (maps : List (Option NsMap)) (h : ∀ m, some m ∈ maps → Dict.WF m) (p : String) :
    (mergeNsmaps maps).get? p = uriIn maps p := by
  unfold mergeNsmaps uriIn
  rw [chainMap_get?]
  · induction maps with
    | nil => rfl
    | cons m maps ih =>
      have ih := ih (fun m hm => h m (by simp [hm]))
      cases m with
      | none =>
        simp only [List.filter_cons, truthyMap, List.findSome?_cons, Option.getD_none, Dict.get?]
        exact ih
      | some m =>
        cases m with
        | nil =>
          simp only [List.filter_cons, truthyMap, List.findSome?_cons, Option.getD_some, Dict.get?]
          exact ih
        | cons x m =>
          simp only [List.filter_cons, truthyMap, List.findSome?_cons, Option.getD_some, if_true, List.map_cons]
          rw [ih]
  · intro m hm
    simp only [List.mem_map, List.mem_filter] at hm
    obtain ⟨o, ⟨h1, h2⟩, rfl⟩ := hm
    cases o with
    | none => cases h2
    | some m => exact h m h1

theorem wf_parentNsmapOf (l : List (Option EntityInfo)) (h : ∀ i ∈ l, EntityInfo.Proper i) :
    ∀ m, Ctx.parentNsmapOf l = some m → Dict.WF m := by
  intro m hm
  cases l with
  | nil => cases hm
  | cons i l =>
    simp only [Ctx.parentNsmapOf, Option.some.injEq] at hm
    subst hm
    apply Dict.wf_update
    cases h' : i.bind EntityInfo.nsmap with
    | none => exact Dict.wf_nil
    | some m => exact h i (by simp) m h'

theorem parentNsmapOf_get? (l : List (Option EntityInfo)) (h : ∀ i ∈ l, EntityInfo.Proper i) (p : String) :
    ((Ctx.parentNsmapOf l).getD []).get? p = uriIn (l.map fun i => i.bind EntityInfo.nsmap).reverse p := by
  induction l with
  | nil => rfl
  | cons i l ih =>
    have ih := ih (fun i hi => h i (by simp [hi]))
    have hw : Dict.WF ((Ctx.parentNsmapOf l).getD []) := by
      cases hp : Ctx.parentNsmapOf l with
      | none => exact Dict.wf_nil
      | some m => exact wf_parentNsmapOf l (fun i hi => h i (by simp [hi])) m hp
    simp only [Ctx.parentNsmapOf, Option.getD_some, List.map_cons, List.reverse_cons]
    rw [Dict.get?_update _ _ hw, ih]
    unfold uriIn
    rw [List.findSome?_append]
    simp only [List.findSome?_cons, List.findSome?_nil]
    congr 1
    cases ((i.bind EntityInfo.nsmap).getD [] : NsMap).get? p <;> rfl

theorem uriIn_append (a b : List (Option NsMap)) (p : String) : uriIn (a ++ b) p = (uriIn a p).or (uriIn b p) := by
  unfold uriIn
  rw [List.findSome?_append]

/-- Looking a prefix up in the merged map of an entity. -/
theorem merged_get? (own : List (Option NsMap)) (l : List (Option EntityInfo)) (h : ∀ i ∈ l, EntityInfo.Proper i)
    (ho : ∀ m, some m ∈ own → Dict.WF m) (p : String) :
    (mergeNsmaps (own ++ [Ctx.parentNsmapOf l])).get? p =
      uriIn (own ++ (l.map fun i => i.bind EntityInfo.nsmap).reverse) p := by
  rw [mergeNsmaps_get?]
  · rw [uriIn_append, uriIn_append]
    congr 1
    unfold uriIn
    rw [List.findSome?_cons, List.findSome?_nil]
    have := parentNsmapOf_get? l h p
    unfold uriIn at this
    rw [this]
    cases (List.findSome? (fun m : Option NsMap => (m.getD []).get? p) (l.map fun i => i.bind EntityInfo.nsmap).reverse) <;> rfl
  · intro m hm
    rcases List.mem_append.1 hm with hm | hm
    · exact ho m hm
    · simp only [List.mem_singleton] at hm
      exact wf_parentNsmapOf l h m hm.symm

theorem splitSlash_segments : ∀ (l : List Char), l = ['/'].intercalate ((splitSlash l).1 :: (splitSlash l).2) ∧
    ∀ p ∈ (splitSlash l).1 :: (splitSlash l).2, '/' ∉ p
  | [] => by simp [splitSlash, List.intercalate]
  | c :: cs => by
    obtain ⟨h1, h2⟩ := splitSlash_segments cs
    revert h1 h2
    simp only [splitSlash]
    generalize splitSlash cs = q
    obtain ⟨p, ps⟩ := q
    intro h1 h2
    simp only at h1 h2 ⊢
    split
    · rename_i hc
      refine ⟨?_, by simpa using h2⟩
      rw [h1, hc]
      simp [List.intercalate]
    · rename_i hc
      refine ⟨?_, ?_⟩
      · rw [h1]
        cases ps <;> simp [List.intercalate]
      · intro x hx
        rcases List.mem_cons.1 hx with rfl | hx
        · intro hm
          rcases List.mem_cons.1 hm with hm | hm
          · exact hc hm.symm
          · exact h2 p (by simp) hm
        · exact h2 x (List.mem_cons_of_mem _ hx)

theorem splitPath_segments (path : String) : Segments path (splitPath path) := by
  obtain ⟨h1, h2⟩ := splitSlash_segments path.toList
  refine ⟨by simp [splitPath], ?_, ?_⟩
  · intro p hp
    simp only [splitPath, List.mem_map] at hp
    obtain ⟨q, hq, rfl⟩ := hp
    rw [String.toList_ofList]
    exact h2 q hq
  · simp only [splitPath, List.map_map]
    have : (fun x => String.toList (String.ofList x)) = id := by funext x; exact String.toList_ofList
    change path.toList = ['/'].intercalate (List.map (fun x => String.toList (String.ofList x)) _)
    rw [this, List.map_id]
    exact h1

/-- The qualified name, given that it can be formed. -/
theorem fromAlias_element {tag : String} {ns : Option String} {m : NsMap} {q : QName}
    (h : QName.fromAlias tag ns (some m) false = .ok q) : q.uri = qualified (m.get? (ns.getD "")) tag := by
  unfold QName.fromAlias at h
  simp only [Bool.not_false, Bool.true_or, if_true, Option.getD_some] at h
  cases ns with
  | none =>
    simp only [Except.ok.injEq] at h
    subst h
    cases m with
    | nil => rfl
    | cons x m => rfl
  | some a =>
    cases m with
    | nil =>
      simp only [truthyMap, Bool.false_eq_true, if_false, Except.ok.injEq] at h
      subst h
      rfl
    | cons x m =>
      simp only [truthyMap, if_true] at h
      split at h
      · rename_i u hu
        cases h
        simp only [Option.getD_some, hu]
        rfl
      · cases h

theorem fromAlias_attr {tag : String} {ns : Option String} {m : NsMap} {q : QName}
    (h : QName.fromAlias tag ns (some m) true = .ok q) : q.uri = qualified (ns.bind m.get?) tag := by
  unfold QName.fromAlias at h
  cases ns with
  | none =>
    simp only [Bool.not_true, Option.isSome_none, Bool.or_self, Bool.false_eq_true, if_false, Except.ok.injEq] at h
    subst h
    rfl
  | some a =>
    simp only [Option.isSome_some, Bool.or_true, if_true, Option.getD_some] at h
    cases m with
    | nil =>
      simp only [truthyMap, Bool.false_eq_true, if_false, Except.ok.injEq] at h
      subst h
      rfl
    | cons x m =>
      simp only [truthyMap, if_true] at h
      split at h
      · rename_i u hu
        cases h
        simp only [Option.bind_some, hu]
        rfl
      · cases h

theorem fromAlias_declared {tag : String} {ns : Option String} {m : NsMap} {q : QName} {isAttr : Bool}
    (h : QName.fromAlias tag ns (some m) isAttr = .ok q) (p : String) (hp : ns = some p) :
    m.get? p ≠ none ∨ m = [] := by
  subst hp
  cases m with
  | nil => exact .inr rfl
  | cons x m =>
    left
    unfold QName.fromAlias at h
    simp only [Option.isSome_some, Bool.or_true, if_true, Option.getD_some, truthyMap] at h
    split at h
    · rename_i u hu; rw [hu]; simp
    · cases h

/-! ## Given names -/

theorem strOr_last {a b : Option String} (hb : b ≠ some "") :
    strOr a b = givenName [a, b] := by
  unfold strOr givenName
  cases a with
  | none => cases b <;> simp_all [Elem.truthy]
  | some a =>
    by_cases h : a = ""
    · subst h; cases b <;> simp_all [Elem.truthy]
    · simp [Elem.truthy, h]

theorem givenName_cons (a : Option String) (l : List (Option String)) : givenName (a :: l) = strOr a (givenName l) := by
  unfold strOr givenName
  rw [List.findSome?_cons]
  cases a with
  | none => simp [Elem.truthy]
  | some a =>
    by_cases h : a = ""
    · subst h; simp [Elem.truthy]
    · simp [Elem.truthy, h]

theorem givenName_singleton {a : Option String} (h : a ≠ some "") : givenName [a] = a := by
  unfold givenName
  simp [h]

/-! ## All settings of a field -/

theorem Place.Proper.inside {p : Place} (h : p.Proper) : p.inside.Proper := by
  refine ⟨?_, ?_⟩
  · intro i hi
    cases hp : p.info with
    | none => simp [Place.inside, hp] at hi
    | some e =>
      simp only [Place.inside, hp, Option.bind_some] at hi
      cases h.1 e hp with
      | mk _ h2 => exact h2 i hi
  · intro i hi
    rcases List.mem_cons.1 hi with rfl | hi
    · cases hp : p.info with
      | none => intro m hm; cases hm
      | some e => cases h.1 e hp with | mk h1 _ => exact h1
    · exact h.2 i hi

theorem Place.Proper.own {p : Place} (h : p.Proper) : ∀ m, p.nsmap = some m → Dict.WF m := by
  intro m hm
  cases hp : p.info with
  | none => simp [Place.nsmap, hp] at hm
  | some e =>
    cases h.1 e hp with
    | mk h1 _ =>
      unfold Place.nsmap at hm
      rw [hp] at hm
      exact h1 m hm

variable {classes : Classes} {ctx : Ctx}

theorem names_chain (own : List (Option String)) :
    selectNs (own ++ [ctx.parentNs]) = (own ++ ctx.place.prefixes).findSome? id := by
  rw [selectNs_eq, List.findSome?_append, List.findSome?_append]
  unfold Ctx.parentNs
  rw [parentNsOf_eq]
  change Option.or _ (List.findSome? id [List.findSome? id ctx.place.prefixes]) = _
  cases (List.findSome? id ctx.place.prefixes) <;> rfl

theorem prefix?_eq : selectNs [ctx.ns, ctx.parentNs] = ctx.place.prefix? := names_chain [ctx.ns]

theorem modelPrefix?_eq (cd : ClassDef) :
    selectNs [ctx.ns, cd.params.ns, ctx.parentNs] = ctx.place.modelPrefix? cd := names_chain [ctx.ns, cd.params.ns]

theorem attrPrefix?_eq :
    selectNs [ctx.ns, if ctx.nsAttrs then ctx.parentNs else none] = ctx.place.attrPrefix? := by
  change _ = (ctx.ns :: if ctx.nsAttrs then ctx.place.prefixes else []).findSome? id
  cases ctx.nsAttrs with
  | true => exact names_chain [ctx.ns]
  | false =>
    simp only [Bool.false_eq_true, if_false]
    rw [selectNs_eq]
    cases ctx.ns <;> rfl

theorem scope_eq (hp : ctx.place.Proper) (a : String) :
    (mergeNsmaps [ctx.nsmap, ctx.parentNsmap]).get? a = uriIn ctx.place.scope a := by
  have h2 := merged_get? [ctx.nsmap] ctx.parents hp.2 (by
    intro m hm
    simp only [List.mem_singleton] at hm
    exact hp.own m hm.symm)
  exact h2 a

theorem modelScope_eq (hp : ctx.place.Proper) {cd : ClassDef} (hwf : ∀ m, cd.params.nsmap = some m → Dict.WF m) (a : String) :
    (mergeNsmaps [ctx.nsmap, cd.params.nsmap, ctx.parentNsmap]).get? a = uriIn (ctx.place.modelScope cd) a := by
  have h2 := merged_get? [ctx.nsmap, cd.params.nsmap] ctx.parents hp.2 (by
    intro m hm
    simp only [List.mem_cons, List.not_mem_nil, or_false] at hm
    rcases hm with hm | hm
    · exact hp.own m hm.symm
    · exact hwf m hm.symm)
  exact h2 a

theorem binds_scope (hp : ctx.place.Proper) : Binds ctx.place.scope (some (mergeNsmaps [ctx.nsmap, ctx.parentNsmap])) :=
  ⟨_, rfl, scope_eq hp⟩

theorem given_eq (hf : ctx.fieldName ≠ some "") : ctx.place.given = strOr ctx.path (strOr ctx.fieldAlias ctx.fieldName) := by
  unfold Place.given
  rw [givenName_cons, givenName_cons, givenName_singleton (a := ctx.place.fieldName) hf]
  rfl

theorem elementName_named (hp : ctx.place.Proper) {tag : String} {q : QName}
    (h : QName.fromAlias tag (selectNs [ctx.ns, ctx.parentNs]) (some (mergeNsmaps [ctx.nsmap, ctx.parentNsmap])) false = .ok q) :
    q.uri = ctx.place.elementName tag := by
  rw [fromAlias_element h, prefix?_eq, scope_eq hp]
  rfl

theorem elementName_ok (hp : ctx.place.Proper) (hf : ctx.fieldName ≠ some "") {nm : String × NsMap}
    (h : elementName ctx = .ok nm) : ∃ tag, ctx.place.given = some tag ∧
      nm.1 = ctx.place.elementName tag ∧ Binds ctx.place.scope (some nm.2) := by
  unfold PXml.elementName at h
  simp only at h
  split at h
  · cases h
  · rename_i tag ht
    refine ⟨tag, by rw [given_eq hf, ht], ?_⟩
    cases hq : QName.fromAlias tag (selectNs [ctx.ns, ctx.parentNs]) (some (mergeNsmaps [ctx.nsmap, ctx.parentNsmap])) false with
    | error e => rw [hq] at h; cases h
    | ok q =>
      rw [hq] at h
      cases h
      exact ⟨elementName_named hp hq, binds_scope hp⟩

theorem attrsOf_fits (hp : ctx.place.Proper) : (attrsOf ctx).Fits ctx.place :=
  ⟨prefix?_eq, binds_scope hp, rfl, rfl⟩

theorem elemOf_fits (hp : ctx.place.Proper) (hf : ctx.fieldName ≠ some "") {s : Ser} (h : elemOf ctx = .ok s) :
    s.Fits classes ctx.place := by
  unfold elemOf at h
  cases hn : PXml.elementName ctx with
  | error e => rw [hn] at h; cases h
  | ok nm =>
    rw [hn] at h
    cases h
    obtain ⟨tag, h1, h2, h3⟩ := elementName_ok hp hf hn
    simp only [h2]
    exact .elem h1 h3

theorem mapElemOf_fits (hp : ctx.place.Proper) (hf : ctx.fieldName ≠ some "") {s : Ser} (h : mapElemOf ctx = .ok s) :
    s.Fits classes ctx.place := by
  unfold mapElemOf at h
  cases hn : PXml.elementName ctx with
  | error e => rw [hn] at h; cases h
  | ok nm =>
    rw [hn] at h
    cases h
    obtain ⟨tag, h1, h2, h3⟩ := elementName_ok hp hf hn
    simp only [h2]
    exact .mapElem h1 (attrsOf_fits hp)

theorem rawElemOf_fits (hp : ctx.place.Proper) (hf : ctx.fieldName ≠ some "") {s : Ser} (h : rawElemOf ctx = .ok s) :
    s.Fits classes ctx.place := by
  unfold rawElemOf at h
  cases hn : PXml.elementName ctx with
  | error e => rw [hn] at h; cases h
  | ok nm =>
    rw [hn] at h
    cases h
    obtain ⟨tag, h1, h2, h3⟩ := elementName_ok hp hf hn
    simp only [h2]
    exact .raw h1

theorem attrOf_fits (hp : ctx.place.Proper) (hf : ctx.fieldName ≠ some "") {s : Ser} (h : attrOf ctx = .ok s) :
    s.Fits classes ctx.place := by
  unfold attrOf at h
  dsimp only at h
  rw [attrPrefix?_eq] at h
  by_cases hd : ctx.place.attrPrefix? = some ""
  · rw [if_pos hd] at h
    cases h
  · rw [if_neg hd] at h
    split at h
    · cases h
    · rename_i tag ht
      cases hq : QName.fromAlias tag ctx.place.attrPrefix? (some (mergeNsmaps [ctx.nsmap, ctx.parentNsmap])) true with
      | error e => rw [hq] at h; cases h
      | ok q =>
        rw [hq] at h
        cases h
        have h1 : q.uri = ctx.place.attrName tag := by
          rw [fromAlias_attr hq]
          have h3 : Dict.get? (mergeNsmaps [ctx.nsmap, ctx.parentNsmap]) = uriIn ctx.place.scope := funext (scope_eq hp)
          rw [h3]
          rfl
        simp only [h1]
        apply Ser.Fits.attr
        rw [given_eq hf, ht]

theorem primOf_fits (hp : ctx.place.Proper) (hf : ctx.fieldName ≠ some "") {s : Ser} (h : primOf ctx = .ok s) :
    s.Fits classes ctx.place := by
  unfold primOf at h
  split at h
  · exact elemOf_fits hp hf h
  · exact attrOf_fits hp hf h
  · cases h; exact .text
  · cases h

theorem mappingOf_fits (hp : ctx.place.Proper) (hf : ctx.fieldName ≠ some "") {s : Ser} (h : mappingOf ctx = .ok s) :
    s.Fits classes ctx.place := by
  unfold mappingOf at h
  split at h
  · exact mapElemOf_fits hp hf h
  · cases h; exact .attrs (attrsOf_fits hp)
  · cases h
  · cases h

theorem rawOf_fits (hp : ctx.place.Proper) (hf : ctx.fieldName ≠ some "") {s : Ser} (h : rawOf ctx = .ok s) :
    s.Fits classes ctx.place := by
  unfold rawOf at h
  split at h
  · exact rawElemOf_fits hp hf h
  · exact rawElemOf_fits hp hf h
  · cases h
  · cases h

theorem strOr_some {a b : Option String} (hb : ∃ t, b = some t) : ∃ t, strOr a b = some t := by
  unfold strOr
  split
  · rename_i ha
    cases a with
    | none => cases ha
    | some a => exact ⟨a, rfl⟩
  · exact hb

theorem modelGiven_eq {cd : ClassDef} (hne : cd.name ≠ "") :
    ∃ tag, strOr ctx.path (strOr cd.params.tag (strOr ctx.fieldAlias (strOr ctx.fieldName (some cd.name)))) = some tag ∧
      givenName [ctx.place.path, cd.params.tag, ctx.place.fieldAlias, ctx.place.fieldName, some cd.name] = some tag := by
  obtain ⟨tag, h⟩ := strOr_some (a := ctx.path) (strOr_some (a := cd.params.tag) (strOr_some (a := ctx.fieldAlias)
    (strOr_some (a := ctx.fieldName) ⟨cd.name, rfl⟩)))
  refine ⟨tag, h, ?_⟩
  rw [givenName_cons, givenName_cons, givenName_cons, givenName_cons, givenName_singleton (by simpa using hne)]
  exact h

theorem proxyOf_fits (hc : classes.Proper) (hp : ctx.place.Proper) {cls : String} {x : Proxy}
    (h : proxyOf classes cls ctx = .ok x) : (Ser.proxy x).Fits classes ctx.place := by
  unfold proxyOf at h
  split at h
  · cases h
  · rename_i cd hcd
    simp only at h
    obtain ⟨hne, hwf⟩ := hc cls cd hcd
    obtain ⟨tag, htag, hgiven⟩ := modelGiven_eq (ctx := ctx) hne
    rw [htag, modelPrefix?_eq] at h
    simp only [Option.getD_some] at h
    cases hq : QName.fromAlias tag (ctx.place.modelPrefix? cd)
        (some (mergeNsmaps [ctx.nsmap, cd.params.nsmap, ctx.parentNsmap])) false with
    | error e => rw [hq] at h; cases h
    | ok q =>
      rw [hq] at h
      cases h
      have h1 : q.uri = ctx.place.modelName cd tag := by
        rw [fromAlias_element hq, modelScope_eq hp hwf]
        rfl
      simp only [h1]
      exact .proxy hcd hgiven ⟨_, rfl, modelScope_eq hp hwf⟩

theorem pathNames_named (hp : ctx.place.Proper) : ∀ {parts names : List String},
    pathNames (selectNs [ctx.ns, ctx.parentNs]) (mergeNsmaps [ctx.nsmap, ctx.parentNsmap]) parts = .ok names →
    names = parts.map ctx.place.elementName := by
  intro parts
  induction parts with
  | nil => intro names h; cases h; rfl
  | cons p ps ih =>
    intro names h
    simp only [pathNames] at h
    split at h
    · cases h
    · rename_i q hq
      split at h
      · cases h
      · rename_i qs hqs
        cases h
        rw [List.map_cons, ih hqs, elementName_named hp hq]

theorem Each.mem_right {α β : Type} {R : α → β → Prop} {as : List α} {bs : List β} (h : Each R as bs) :
    ∀ b ∈ bs, ∃ a ∈ as, R a b := by
  induction h with
  | nil => simp
  | cons h _ ih =>
    intro b hb
    rcases List.mem_cons.1 hb with rfl | hb
    · exact ⟨_, List.mem_cons_self, h⟩
    · obtain ⟨a, ha, hr⟩ := ih b hb
      exact ⟨a, List.mem_cons_of_mem _ ha, hr⟩

theorem parse_fits (hc : classes.Proper) (built : Built) : ∀ (n : Nat) (s : Schema) (ctx : Ctx) {x : Ser},
    ctx.place.Proper → ctx.fieldName ≠ some "" → parse classes built n s ctx = .ok x → x.Fits classes ctx.place := by
  intro n
  induction n with
  | zero => intro s ctx x _ _ h; cases h
  | succ n ih =>
    intro s ctx x hp hf h
    obtain ⟨t, d, -, hsel⟩ := parse_sel h
    have hp' : ({ ctx with defs := d } : Ctx).place.Proper := hp
    have hf' : ({ ctx with defs := d } : Ctx).fieldName ≠ some "" := hf
    change x.Fits classes ({ ctx with defs := d } : Ctx).place
    generalize ({ ctx with defs := d } : Ctx) = ctx at hsel hp' hf'
    have hsame : ∀ (ctx' : Ctx) (s : Schema) (x : Ser), ctx' = { ctx with defs := ctx'.defs } →
        parse classes built n s ctx' = .ok x → x.Fits classes ctx.place := by
      intro ctx' s x hc' hx
      have e : ctx'.place = ctx.place := by rw [hc']; rfl
      have := ih s ctx' (e ▸ hp') (by rw [hc']; exact hf') hx
      rw [e] at this
      exact this
    cases hsel with
    | wrap h1 h2 h3 h4 =>
      rw [pathNames_named hp' h4]
      exact .wrap h2 (splitPath_segments _) (binds_scope hp') (ih _ (ctx.child ctx.wrapped) hp'.inside hf' h3)
    | prim h => exact primOf_fits hp' hf' h
    | inst h => exact primOf_fits hp' hf' h
    | raw h => exact rawOf_fits hp' hf' h
    | model _ _ hx => exact proxyOf_fits hc hp' hx
    | dict _ h => exact mappingOf_fits hp' hf' h
    | typedDict _ h => exact mappingOf_fits hp' hf' h
    | homog _ h1 _ _ _ _ h2 => exact .homog (hsame _ _ _ (preprocess_strips _ _ _ h1).2 h2)
    | hetero _ h1 _ _ h2 =>
      refine .hetero fun s hs => ?_
      obtain ⟨a, -, ha⟩ := (parseAll_ok h2).mem_right s hs
      exact hsame _ _ _ (tupleItems_ctx h1) ha
    | primUnion _ h1 _ _ h2 _ =>
      obtain ⟨a, -, ha⟩ := (parseAll_ok h2).mem_right _ List.mem_cons_self
      exact .primUnion (hsame _ _ _ (unionFamilies_ctx h1) ha)
    | modelUnion _ h1 _ _ _ h2 =>
      refine .modelUnion fun s hs => ?_
      obtain ⟨a, -, ha⟩ := (parseProxies_ok h2).mem_right s hs
      exact hsame _ _ _ (unionFamilies_ctx h1) ha
    | tagged _ h1 h2 =>
      refine .tagged fun s hs => ?_
      rcases (taggedLoopOf_ok h2).2.1 s hs with h | ⟨a, -, ha, -⟩
      · simp at h
      · exact hsame _ _ _ (taggedChoices_ctx h1) ha

theorem Ser.Fits.computed {s : Ser} {p : Place} (h : s.Fits classes p) : s.computed = p.computed := by
  cases h <;> first | rfl | (rename_i h; exact h.2.2.2) | (rename_i h1 h; exact h.2.2.2)

end PXml
