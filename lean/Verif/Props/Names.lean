import Verif.Lemmas.Dict
import Verif.Names

/-!
# Qualified names (C24), merging of annotations (C25), inheritance of class parameters (C26)
-/

namespace PXml

/-! ## C24 -/

theorem splitLastBrace_none {l : List Char} (h : '}' ∉ l) : splitLastBrace l = none := by
  induction l with
  | nil => rfl
  | cons c l ih =>
    simp only [List.mem_cons, not_or] at h
    simp [splitLastBrace, ih h.2, Ne.symm h.1]

theorem splitLastBrace_append (a : List Char) {b : List Char} (h : '}' ∉ b) :
    splitLastBrace (a ++ '}' :: b) = some (a, b) := by
  induction a with
  | nil => simp [splitLastBrace, splitLastBrace_none h]
  | cons c a ih => simp [splitLastBrace, ih]

theorem splitLastBrace_some {l a b : List Char} (h : splitLastBrace l = some (a, b)) : l = a ++ '}' :: b ∧ '}' ∉ b := by
  induction l generalizing a b with
  | nil => simp [splitLastBrace] at h
  | cons c l ih =>
    simp only [splitLastBrace] at h
    cases hl : splitLastBrace l with
    | some ab =>
      obtain ⟨a', b'⟩ := ab
      rw [hl] at h
      simp only [Option.some.injEq, Prod.mk.injEq] at h
      obtain ⟨rfl, rfl⟩ := h
      obtain ⟨h1, h2⟩ := ih hl
      exact ⟨by simp [h1], h2⟩
    | none =>
      rw [hl] at h
      simp only at h
      split at h
      · rename_i hc
        simp only [Option.some.injEq, Prod.mk.injEq] at h
        obtain ⟨rfl, rfl⟩ := h
        refine ⟨by simp [hc], ?_⟩
        intro hb
        clear ih
        induction l with
        | nil => simp at hb
        | cons d l ih =>
          simp only [splitLastBrace] at hl
          cases hd : splitLastBrace l with
          | some x => rw [hd] at hl; simp at hl
          | none =>
            rw [hd] at hl
            simp only at hl
            split at hl
            · cases hl
            · rename_i hne
              simp only [List.mem_cons] at hb
              rcases hb with hb | hb
              · exact hne hb.symm
              · exact ih hd hb
      · cases h

theorem takeWhile_id {l : List Char} (h : '\n' ∉ l) : l.takeWhile (· ≠ '\n') = l := by
  induction l with
  | nil => rfl
  | cons c l ih =>
    simp only [List.mem_cons, not_or] at h
    simp only [List.takeWhile_cons]
    rw [if_pos (by simpa using Ne.symm h.1), ih h.2]

/-- C24: the text of a qualified name determines the name: parsing it gives the namespace and the local name back, for every
namespace (without line breaks) and every local name without braces and line breaks. -/
theorem C24_parse_uri (q : QName) (h1 : '{' ∉ q.tag.toList) (h2 : '}' ∉ q.tag.toList) (h3 : '\n' ∉ q.tag.toList)
    (h4 : ∀ ns, q.ns = some ns → ns ≠ "" ∧ '\n' ∉ ns.toList) : QName.fromUri q.uri = q := by
  obtain ⟨tag, ns⟩ := q
  cases ns with
  | none =>
    simp only [QName.uri, QName.fromUri]
    simp only at h1 h2 h3
    rw [takeWhile_id h3]
    cases hl : tag.toList with
    | nil => simp [← hl]
    | cons c l =>
      have hc : c ≠ '{' := by
        rintro rfl
        simp [hl] at h1
      split
      · rename_i heq
        simp only [List.cons.injEq] at heq
        exact absurd heq.1 hc
      · rw [← hl]; simp
  | some ns =>
    obtain ⟨h5, h6⟩ := h4 ns rfl
    simp only at h1 h2 h3
    simp only [QName.uri, if_neg h5, QName.fromUri, String.toList_append]
    have ht : ("{".toList ++ ns.toList ++ "}".toList ++ tag.toList : List Char) = '{' :: (ns.toList ++ '}' :: tag.toList) := by
      simp
    rw [ht, takeWhile_id (by simp [h3, h6])]
    simp [splitLastBrace_append _ h2]

/-- C24: hence different qualified names have different texts. -/
theorem C24_uri_injective (p q : QName)
    (hp : '{' ∉ p.tag.toList ∧ '}' ∉ p.tag.toList ∧ '\n' ∉ p.tag.toList ∧ ∀ ns, p.ns = some ns → ns ≠ "" ∧ '\n' ∉ ns.toList)
    (hq : '{' ∉ q.tag.toList ∧ '}' ∉ q.tag.toList ∧ '\n' ∉ q.tag.toList ∧ ∀ ns, q.ns = some ns → ns ≠ "" ∧ '\n' ∉ ns.toList)
    (h : p.uri = q.uri) : p = q := by
  rw [← C24_parse_uri p hp.1 hp.2.1 hp.2.2.1 hp.2.2.2, ← C24_parse_uri q hq.1 hq.2.1 hq.2.2.1 hq.2.2.2, h]

/-- C24: and every text without line breaks, other than those that start with `{}`, is the text of the name it is parsed to. -/
theorem C24_uri_parse (s : String) (h1 : '\n' ∉ s.toList) (h2 : ∀ r, s.toList ≠ '{' :: '}' :: r) :
    (QName.fromUri s).uri = s := by
  simp only [QName.fromUri]
  rw [takeWhile_id h1]
  split
  · rename_i rest hl
    split
    · rename_i ns tag hs
      obtain ⟨h3, h4⟩ := splitLastBrace_some hs
      have hne : String.ofList ns ≠ "" := by
        intro he
        have : ns = [] := by
          have := congrArg String.toList he
          simpa using this
        subst this
        exact h2 tag (by rw [hl, h3]; rfl)
      simp only [QName.uri, if_neg hne]
      apply String.toList_injective
      simp only [String.toList_append, String.toList_ofList]
      rw [hl, h3]
      simp
    · simp [QName.uri]
  · simp [QName.uri]

/-- Non-vacuity of C24: a name in a namespace whose uri contains braces. -/
example : QName.fromUri (QName.uri ⟨"tag", some "http://x/{y}"⟩) = ⟨"tag", some "http://x/{y}"⟩ :=
  C24_parse_uri _ (by decide) (by decide) (by decide) (by simp)

/-- The hypotheses are needed: a local name with a closing brace, or an empty namespace, is not recovered. -/
theorem C24_hypotheses_needed : QName.fromUri (QName.uri ⟨"a}b", some "u"⟩) = ⟨"b", some "u}a"⟩ ∧
    QName.fromUri (QName.uri ⟨"a", some ""⟩) = ⟨"a", none⟩ := by decide

/-! ## C25 -/

namespace Dict

variable {α β : Type} [DecidableEq α]

theorem set_set_self (a : Dict α β) (k : α) (v v' : β) : (a.set k v).set k v' = a.set k v' := by
  induction a with
  | nil => simp [set]
  | cons x a ih =>
    obtain ⟨k', w⟩ := x
    by_cases h : k' = k <;> simp [set, h, ih]

theorem set_comm_of_mem {a : Dict α β} {k : α} (hk : k ∈ a.keys) {k' : α} (hne : k' ≠ k) (v v' : β) :
    (a.set k' v').set k v = (a.set k v).set k' v' := by
  induction a with
  | nil => simp [keys] at hk
  | cons x a ih =>
    obtain ⟨k0, w⟩ := x
    by_cases h : k0 = k
    · subst h
      simp [set, hne.symm]
    · by_cases h2 : k0 = k'
      · subst h2
        simp [set, h]
      · have hk' : k ∈ keys a := by
          simp only [keys, List.map_cons, List.mem_cons] at hk
          rcases hk with hk | hk
          · exact absurd hk.symm h
          · exact hk
        simp [set, h, h2, ih hk']

theorem mem_keys_set (a : Dict α β) (k : α) (v : β) : k ∈ (a.set k v).keys := by
  rw [keys_set]
  split
  · assumption
  · simp

theorem update_set_mem (a d : Dict α β) (k : α) (v v' : β) (hd : k ∉ d.keys) :
    (update (a.set k v) d).set k v' = update (a.set k v') d := by
  induction d generalizing a with
  | nil => exact set_set_self a k v v'
  | cons x d ih =>
    obtain ⟨k0, w⟩ := x
    simp only [keys, List.map_cons, List.mem_cons, not_or] at hd
    rw [update_cons, update_cons]
    by_cases hk : k ∈ a.keys
    · rw [← set_comm_of_mem hk (Ne.symm hd.1), ih _ hd.2, set_comm_of_mem hk (Ne.symm hd.1)]
    · have hm := mem_keys_set a k v
      -- move the setting of `k0` before that of `k` is impossible, `k` is new: generalise over the dictionary
      have key : ∀ (b : Dict α β) (d : Dict α β), k ∉ d.keys → k ∈ b.keys → (update b d).set k v' = update (b.set k v') d := by
        intro b d
        induction d generalizing b with
        | nil => intro _ _; rfl
        | cons y d ih2 =>
          obtain ⟨k1, w1⟩ := y
          intro h1 h2
          simp only [keys, List.map_cons, List.mem_cons, not_or] at h1
          rw [update_cons, update_cons, ih2 _ h1.2 (by rw [keys_set]; split <;> simp [h2]), set_comm_of_mem h2 (Ne.symm h1.1)]
      have hm2 : k ∈ ((a.set k v).set k0 w).keys := by
        rw [keys_set]
        split <;> simp [hm]
      rw [key _ _ hd.2 hm2, set_comm_of_mem hm (Ne.symm hd.1), set_set_self]

theorem update_set (a d : Dict α β) (hd : d.WF) (k : α) (v : β) : update a (d.set k v) = (update a d).set k v := by
  induction d generalizing a with
  | nil => rfl
  | cons x d ih =>
    obtain ⟨k0, w⟩ := x
    simp only [WF, keys, List.map_cons, List.nodup_cons] at hd
    by_cases h : k0 = k
    · subst h
      simp only [set, if_true]
      rw [update_cons, update_cons, update_set_mem _ _ _ _ _ hd.1]
    · simp only [set, if_neg h]
      rw [update_cons, update_cons, ih _ hd.2]

theorem update_assoc (a b c : Dict α β) (hb : b.WF) : update (update a b) c = update a (update b c) := by
  induction c generalizing b with
  | nil => rfl
  | cons x c ih =>
    obtain ⟨k, v⟩ := x
    rw [update_cons, update_cons, ← update_set a b hb, ih _ (wf_set hb k v)]

end Dict

theorem mergeNsmaps_two (m : NsMap) (acc : Option NsMap) (hm : m.WF) (hacc : ∀ a, acc = some a → a.WF) :
    mergeNsmaps [some m, acc] = (acc.getD []).update m := by
  have hu : ∀ a : NsMap, a.WF → Dict.update [] a = a := fun a ha => Dict.ofItems_of_wf ha
  cases m with
  | nil =>
    cases acc with
    | none => rfl
    | some a =>
      cases a with
      | nil => rfl
      | cons x a => exact hu _ (hacc _ rfl)
  | cons y m =>
    cases acc with
    | none => rfl
    | some a =>
      cases a with
      | nil => rfl
      | cons x a =>
        show Dict.update (Dict.update [] (x :: a)) (y :: m) = _
        rw [hu _ (hacc _ rfl)]
        rfl

/-- The namespace map of the annotation is a dictionary. -/
def EntityInfo.WF (i : EntityInfo) : Prop := ∀ m, i.nsmap = some m → m.WF

theorem mergeStep_nsmap {acc e : EntityInfo} (ha : acc.WF) (he : e.WF) : (acc.mergeStep e).nsmap =
    match e.nsmap with | some m => some ((acc.nsmap.getD []).update m) | none => acc.nsmap := by
  show (match e.nsmap with | some m => some (mergeNsmaps [some m, acc.nsmap]) | none => acc.nsmap) = _
  cases h : e.nsmap with
  | none => rfl
  | some m => exact congrArg some (mergeNsmaps_two m acc.nsmap (he m h) ha)

theorem mergeStep_wf {acc e : EntityInfo} (ha : acc.WF) (he : e.WF) : (acc.mergeStep e).WF := by
  intro m hm
  rw [mergeStep_nsmap ha he] at hm
  cases h : e.nsmap with
  | none => rw [h] at hm; exact ha m hm
  | some m' =>
    rw [h] at hm
    simp only [Option.some.injEq] at hm
    subst hm
    apply Dict.wf_update
    cases hn : acc.nsmap with
    | none => exact Dict.wf_nil
    | some a => exact ha a hn

theorem EntityInfo.ext {a b : EntityInfo} (h1 : a.location = b.location) (h2 : a.path = b.path) (h3 : a.ns = b.ns)
    (h4 : a.nsmap = b.nsmap) (h5 : a.nillable = b.nillable) (h6 : a.wrapped = b.wrapped) : a = b := by
  obtain ⟨l, p, n, m, nl, w⟩ := a
  obtain ⟨l', p', n', m', nl', w'⟩ := b
  simp only [location, path, ns, nsmap, nillable, wrapped] at h1 h2 h3 h4 h5 h6
  subst h1 h2 h3 h4 h5 h6
  rfl

theorem mergeStep_assoc {a b c : EntityInfo} (ha : a.WF) (hb : b.WF) (hc : c.WF) :
    (a.mergeStep b).mergeStep c = a.mergeStep (b.mergeStep c) := by
  apply EntityInfo.ext
  · simp only [EntityInfo.mergeStep, EntityInfo.location]; rw [Option.or_assoc]
  · simp only [EntityInfo.mergeStep, EntityInfo.path]; rw [Option.or_assoc]
  · simp only [EntityInfo.mergeStep, EntityInfo.ns]; rw [Option.or_assoc]
  · rw [mergeStep_nsmap (mergeStep_wf ha hb) hc, mergeStep_nsmap ha (mergeStep_wf hb hc), mergeStep_nsmap ha hb,
      mergeStep_nsmap hb hc]
    cases hbm : b.nsmap with
    | none =>
      cases hcm : c.nsmap with
      | none => rfl
      | some cm =>
        simp only [Option.getD_none]
        rw [show Dict.update [] cm = cm from Dict.ofItems_of_wf (hc cm hcm)]
    | some bm =>
      cases c.nsmap with
      | none => rfl
      | some cm => simp [Dict.update_assoc _ _ _ (hb bm hbm)]
  · simp only [EntityInfo.mergeStep, EntityInfo.nillable]; rw [Option.or_assoc]
  · simp only [EntityInfo.mergeStep, EntityInfo.wrapped]; rw [Option.or_assoc]


theorem merge_wf {is : List EntityInfo} (h : ∀ i ∈ is, i.WF) : (EntityInfo.merge is).WF := by
  have key : ∀ (acc : EntityInfo), acc.WF → (∀ i ∈ is, i.WF) → (is.foldl EntityInfo.mergeStep acc).WF := by
    induction is with
    | nil => intro acc ha _; exact ha
    | cons i is ih =>
      intro acc ha h'
      exact ih (fun j hj => h j (by simp [hj])) _ (mergeStep_wf ha (h' i (by simp))) (fun j hj => h' j (by simp [hj]))
  exact key .unset (fun m hm => by cases hm) h

theorem unset_mergeStep {a : EntityInfo} (ha : a.WF) : EntityInfo.unset.mergeStep a = a := by
  apply EntityInfo.ext
  · simp [EntityInfo.mergeStep, EntityInfo.unset, EntityInfo.location]
  · simp [EntityInfo.mergeStep, EntityInfo.unset, EntityInfo.path]
  · simp [EntityInfo.mergeStep, EntityInfo.unset, EntityInfo.ns]
  · rw [mergeStep_nsmap (fun m hm => by cases hm) ha]
    cases h : a.nsmap with
    | none => rfl
    | some m => exact congrArg some (Dict.ofItems_of_wf (ha m h))
  · simp [EntityInfo.mergeStep, EntityInfo.unset, EntityInfo.nillable]
  · simp [EntityInfo.mergeStep, EntityInfo.unset, EntityInfo.wrapped]

theorem foldl_mergeStep {acc : EntityInfo} (ha : acc.WF) {is : List EntityInfo} (h : ∀ i ∈ is, i.WF) :
    is.foldl EntityInfo.mergeStep acc = acc.mergeStep (EntityInfo.merge is) := by
  induction is generalizing acc with
  | nil =>
    obtain ⟨l, p, n, m, nl, w⟩ := acc
    simp [EntityInfo.merge, EntityInfo.mergeStep, EntityInfo.unset, EntityInfo.location, EntityInfo.path, EntityInfo.ns,
      EntityInfo.nsmap, EntityInfo.nillable, EntityInfo.wrapped]
  | cons i is ih =>
    have hi := h i (by simp)
    have his : ∀ j ∈ is, j.WF := fun j hj => h j (by simp [hj])
    rw [List.foldl_cons, ih (mergeStep_wf ha hi) his]
    have : EntityInfo.merge (i :: is) = i.mergeStep (EntityInfo.merge is) := by
      show is.foldl EntityInfo.mergeStep (EntityInfo.unset.mergeStep i) = _
      rw [unset_mergeStep hi, ih hi his]
    rw [this, mergeStep_assoc ha hi (merge_wf his)]

/-- C25: grouping does not matter: merging a group of annotations first, and putting the result in the place of the
group, gives the same metadata. -/
theorem C25_grouping (as bs cs : List EntityInfo) (h : ∀ i ∈ as ++ bs ++ cs, i.WF) :
    EntityInfo.merge (as ++ [EntityInfo.merge bs] ++ cs) = EntityInfo.merge (as ++ bs ++ cs) := by
  have hb : ∀ i ∈ bs, i.WF := fun i hi => h i (by simp [hi])
  have ha : ∀ i ∈ as, i.WF := fun i hi => h i (by simp [hi])
  simp only [EntityInfo.merge, List.foldl_append]
  congr 1
  have := foldl_mergeStep (merge_wf ha) hb
  simp only [EntityInfo.merge] at this
  rw [this]
  rfl

/-- The last of the given annotations that sets a property. -/
def lastSet {α : Type} (f : EntityInfo → Option α) (is : List EntityInfo) : Option α := (is.filterMap f).getLast?

theorem foldl_last {α : Type} (f : EntityInfo → Option α) (hf : ∀ a e, f (a.mergeStep e) = (f e).or (f a)) (is : List EntityInfo)
    (acc : EntityInfo) : f (is.foldl EntityInfo.mergeStep acc) = (lastSet f is).or (f acc) := by
  induction is generalizing acc with
  | nil => simp [lastSet]
  | cons i is ih =>
    rw [List.foldl_cons, ih, hf]
    cases hi : f i with
    | none => simp [lastSet, hi]
    | some v =>
      simp only [lastSet, List.filterMap_cons, hi, List.getLast?_cons]
      cases (is.filterMap f).getLast? <;> simp

/-- C25: the last annotation that sets the location, the path, the namespace, the nillable flag or the wrapped entity wins;
a property that none of them sets stays unset. -/
theorem C25_last_wins (is : List EntityInfo) :
    (EntityInfo.merge is).location = (is.filterMap EntityInfo.location).getLast? ∧
    (EntityInfo.merge is).path = (is.filterMap EntityInfo.path).getLast? ∧
    (EntityInfo.merge is).ns = (is.filterMap EntityInfo.ns).getLast? ∧
    (EntityInfo.merge is).nillable = (is.filterMap EntityInfo.nillable).getLast? ∧
    (EntityInfo.merge is).wrapped = (is.filterMap EntityInfo.wrapped).getLast? := by
  refine ⟨?_, ?_, ?_, ?_, ?_⟩ <;> unfold EntityInfo.merge
  · rw [foldl_last EntityInfo.location (fun a e => rfl)]; simp [EntityInfo.unset, EntityInfo.location, lastSet]
  · rw [foldl_last EntityInfo.path (fun a e => rfl)]; simp [EntityInfo.unset, EntityInfo.path, lastSet]
  · rw [foldl_last EntityInfo.ns (fun a e => rfl)]; simp [EntityInfo.unset, EntityInfo.ns, lastSet]
  · rw [foldl_last EntityInfo.nillable (fun a e => rfl)]; simp [EntityInfo.unset, EntityInfo.nillable, lastSet]
  · rw [foldl_last EntityInfo.wrapped (fun a e => rfl)]; simp [EntityInfo.unset, EntityInfo.wrapped, lastSet]

/-- C25: a prefix of the merged namespace map has the uri that the last annotation declaring the prefix gives it; the merged
map is set exactly when some annotation sets one. -/
theorem C25_nsmap_union (is : List EntityInfo) (h : ∀ i ∈ is, i.WF) :
    ((EntityInfo.merge is).nsmap = none ↔ ∀ i ∈ is, i.nsmap = none) ∧
    ∀ p, ((EntityInfo.merge is).nsmap.getD []).get? p = (is.filterMap fun i => (i.nsmap.getD []).get? p).getLast? := by
  have key : ∀ (is : List EntityInfo) (acc : EntityInfo), acc.WF → (∀ i ∈ is, i.WF) →
      ((is.foldl EntityInfo.mergeStep acc).nsmap = none ↔ acc.nsmap = none ∧ ∀ i ∈ is, i.nsmap = none) ∧
      ∀ p, ((is.foldl EntityInfo.mergeStep acc).nsmap.getD []).get? p =
        ((is.filterMap fun i => (i.nsmap.getD []).get? p).getLast?).or ((acc.nsmap.getD []).get? p) := by
    intro is
    induction is with
    | nil => intro acc _ _; simp
    | cons i is ih =>
      intro acc ha h
      have hi := h i (by simp)
      obtain ⟨h1, h2⟩ := ih (acc.mergeStep i) (mergeStep_wf ha hi) (fun j hj => h j (by simp [hj]))
      rw [List.foldl_cons]
      constructor
      · rw [h1, mergeStep_nsmap ha hi]
        cases hn : i.nsmap with
        | none => simp [hn]
        | some m => simp [hn]
      · intro p
        rw [h2, mergeStep_nsmap ha hi]
        cases hn : i.nsmap with
        | none => simp [hn]
        | some m =>
          simp only [Option.getD_some, List.filterMap_cons, hn]
          rw [Dict.get?_update _ _ (hi m hn)]
          cases hg : Dict.get? m p with
          | none => simp
          | some u =>
            simp only [List.getLast?_cons]
            cases (is.filterMap fun i => (i.nsmap.getD []).get? p).getLast? <;> simp
  obtain ⟨h1, h2⟩ := key is .unset (fun m hm => by cases hm) h
  constructor
  · refine h1.trans ?_
    exact ⟨fun h => h.2, fun h => ⟨rfl, h⟩⟩
  · intro p
    rw [EntityInfo.merge, h2]
    simp [EntityInfo.unset, EntityInfo.nsmap]

/-- Non-vacuity of C25: `Annotated[..., element('a', nsmap={'x': 'u', 'y': 'w'})]` with default
`element(ns='x', nsmap={'x': 'v'})`. -/
example : ((EntityInfo.merge [.mk (some .element) (some "a") none (some [("x", "u"), ("y", "w")]) none none,
      .mk (some .element) none (some "x") (some [("x", "v")]) none none]).nsmap.getD []).get? "x" = some "v" ∧
    (EntityInfo.merge [.mk (some .element) (some "a") none (some [("x", "u"), ("y", "w")]) none none,
      .mk (some .element) none (some "x") (some [("x", "v")]) none none]).path = some "a" := by
  constructor
  · rw [(C25_nsmap_union _ (by
      intro i hi m hm
      simp only [List.mem_cons, List.not_mem_nil, or_false] at hi
      rcases hi with rfl | rfl <;> (simp only [EntityInfo.nsmap, Option.some.injEq] at hm; subst hm; decide))).2]
    rfl
  · rw [(C25_last_wins _).2.1]
    rfl

/-! ## C26 -/

/-- C26: tag, namespace, `ns_attrs`, `skip_empty` and `search_mode` of a class are those of the nearest class of the chain
that declares them, and those of the base class if none does. -/
theorem C26_nearest_wins (base : ClassParams) (args : List ClassArgs) :
    (base.chain args).tag = ((args.filterMap ClassArgs.tag).getLast?).or base.tag ∧
    (base.chain args).ns = ((args.filterMap ClassArgs.ns).getLast?).or base.ns ∧
    (base.chain args).nsAttrs = ((args.filterMap ClassArgs.nsAttrs).getLast?).getD base.nsAttrs ∧
    (base.chain args).skipEmpty = ((args.filterMap ClassArgs.skipEmpty).getLast?).or base.skipEmpty ∧
    (base.chain args).searchMode = ((args.filterMap ClassArgs.searchMode).getLast?).getD base.searchMode := by
  unfold ClassParams.chain
  induction args generalizing base with
  | nil => simp
  | cons a args ih =>
    rw [List.foldl_cons]
    obtain ⟨h1, h2, h3, h4, h5⟩ := ih (base.subclass a)
    have hor : ∀ {α : Type} (f : ClassArgs → Option α) (b : Option α),
        ((args.filterMap f).getLast?).or ((f a).or b) = (((a :: args).filterMap f).getLast?).or b := by
      intro α f b
      cases hf : f a with
      | none => simp [hf]
      | some v =>
        simp only [List.filterMap_cons, hf, List.getLast?_cons]
        cases (args.filterMap f).getLast? <;> simp
    have hget : ∀ {α : Type} (f : ClassArgs → Option α) (b : α),
        ((args.filterMap f).getLast?).getD ((f a).getD b) = (((a :: args).filterMap f).getLast?).getD b := by
      intro α f b
      cases hf : f a with
      | none => simp [hf]
      | some v => simp [hf, List.getLast?_cons]
    refine ⟨?_, ?_, ?_, ?_, ?_⟩
    · rw [h1]; exact hor _ _
    · rw [h2]; exact hor _ _
    · rw [h3]; exact hget _ _
    · rw [h4]; exact hor _ _
    · rw [h5]; exact hget _ _

/-- C26: namespace maps accumulate along the chain: a prefix has the uri given by the nearest class that declares it. -/
theorem C26_nsmap_accumulates (base : ClassParams) (args : List ClassArgs) (hb : ∀ m, base.nsmap = some m → m.WF)
    (ha : ∀ a ∈ args, ∀ m, a.nsmap = some m → m.WF) (p : String) :
    ((base.chain args).nsmap.getD []).get? p =
      ((args.filterMap fun a => (a.nsmap.getD []).get? p).getLast?).or ((base.nsmap.getD []).get? p) := by
  unfold ClassParams.chain
  induction args generalizing base with
  | nil => simp
  | cons a args ih =>
    have haw : Dict.WF (a.nsmap.getD []) := by
      cases h : a.nsmap with
      | none => exact Dict.wf_nil
      | some m => exact ha a (by simp) m h
    have hget : ((base.subclass a).nsmap.getD []).get? p = ((a.nsmap.getD []).get? p).or ((base.nsmap.getD []).get? p) := by
      simp only [ClassParams.subclass]
      split
      · simp only [Option.getD_some]
        rw [Dict.get?_update _ _ haw]
      · rename_i h
        cases hn : base.nsmap with
        | none => simp
        | some m =>
          cases m with
          | nil => simp
          | cons x m => rw [hn] at h; simp [truthyMap] at h
    have hwf : ∀ m, (base.subclass a).nsmap = some m → m.WF := by
      intro m hm
      simp only [ClassParams.subclass] at hm
      split at hm
      · simp only [Option.some.injEq] at hm
        subst hm
        apply Dict.wf_update
        cases hn : base.nsmap with
        | none => exact Dict.wf_nil
        | some m => exact hb m hn
      · exact ha a (by simp) m hm
    rw [List.foldl_cons, ih _ hwf (fun a' h' => ha a' (by simp [h'])), hget]
    cases hg : Dict.get? (a.nsmap.getD []) p with
    | none => simp [hg]
    | some u =>
      simp only [List.filterMap_cons, hg, List.getLast?_cons]
      cases (args.filterMap fun a => (a.nsmap.getD []).get? p).getLast? <;> simp

/-- Non-vacuity of C26: three class statements below `BaseXmlModel`. -/
example :
    let c := ClassParams.chain {} [{ tag := some "a", nsmap := some [("x", "u"), ("y", "w")] },
      { searchMode := some .ordered, nsmap := some [("x", "v")] }, { ns := some "x" }]
    c.tag = some "a" ∧ c.searchMode = .ordered ∧ (c.nsmap.getD []).get? "x" = some "v" ∧
      (c.nsmap.getD []).get? "y" = some "w" := by decide

end PXml
