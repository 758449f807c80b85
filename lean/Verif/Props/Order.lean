import Verif.Lemmas.SimUnordered
import Verif.Example

/-!
# Foreign elements and the order of children (C08, C09)
-/

namespace PXml

open Elem

/-! ## Helpers -/

theorem fromNativeList_eq (b : Backend) (l : List Node) :
    fromNativeList b l = (l.filter fun n => !n.isComment).map (fromNative b) := by
  induction l with
  | nil => rfl
  | cons n l ih => simp only [fromNativeList, ih, List.filter_cons]; cases n.isComment <;> rfl

theorem fromNative_tag (b : Backend) (n : Node) : (fromNative b n).tag = n.tag := by cases n <;> simp [fromNative, Node.tag]

/-- Keeps the nodes with tags in `K`. -/
theorem dropForeign_tag (K : List String) (n : Node) : (n.dropForeign K).tag = n.tag := by cases n <;> rfl

theorem dropForeign_isComment (K : List String) (n : Node) : (n.dropForeign K).isComment = n.isComment := by cases n <;> rfl

mutual
theorem prune_dropForeign (K : List String) (b : Backend) (n : Node) :
    (fromNative b (n.dropForeign K)).prune (fun t => decide (t ∈ K)) = (fromNative b n).prune (fun t => decide (t ∈ K)) := by
  cases n with
  | elem tag attrib nsmap text tail cs line => simp [Node.dropForeign, fromNative, prune, prune_dropForeignList K b cs]
  | comment => rfl
  | pi => rfl
theorem prune_dropForeignList (K : List String) (b : Backend) (l : List Node) :
    pruneList (fun t => decide (t ∈ K)) 0 (fromNativeList b (Node.dropForeignList K l)) =
      pruneList (fun t => decide (t ∈ K)) 0 (fromNativeList b l) := by
  cases l with
  | nil => rfl
  | cons n l =>
    have h1 := prune_dropForeign K b n
    have h2 := prune_dropForeignList K b l
    simp only [Node.dropForeignList, fromNativeList]
    by_cases hk : n.tag ∈ K
    · simp only [hk, if_true, fromNativeList, dropForeign_isComment]
      cases n.isComment with
      | true => simpa using h2
      | false => simp [pruneList, fromNative_tag, dropForeign_tag, hk, h1, h2]
    · simp only [hk, if_false]
      cases n.isComment with
      | true => simpa using h2
      | false => simp [pruneList, fromNative_tag, hk, h2]
end

theorem allowed_of {env : Env} {K : List String} {mode : Mode} (hK : env.Everywhere (Ser.LooksFor K mode))
    (hraw : env.Everywhere Ser.NotRaw) (hunion : env.Everywhere Ser.NotUnion) :
    env.Everywhere (Ser.Allowed (.tags fun t m => t ∈ K ∧ m = mode) False False) := by
  have key : ∀ s : Ser, s.Everywhere (Ser.LooksFor K mode) → s.Everywhere Ser.NotRaw → s.Everywhere Ser.NotUnion →
      s.Everywhere (Ser.Allowed (.tags fun t m => t ∈ K ∧ m = mode) False False) := by
    intro s h1
    induction h1 with
    | @mk s h _ ih =>
      intro h2 h3
      obtain ⟨h2, k2⟩ := h2
      obtain ⟨h3, k3⟩ := h3
      refine ⟨⟨h, ?_⟩, fun t ht => ih t ht (k2 t ht) (k3 t ht)⟩
      cases s <;> first | trivial | exact h2 | exact h3 | exact fun _ => trivial | exact fun _ _ _ => trivial
  intro c m hm
  have h1 := hK c m hm
  have h2 := hraw c m hm
  have h3 := hunion c m hm
  cases hb : m.body with
  | fields fs =>
    simp only [ModelSer.Everywhere, hb] at h1 h2 h3 ⊢
    exact fun f hf => key _ (h1 f hf) (h2 f hf) (h3 f hf)
  | root s =>
    simp only [ModelSer.Everywhere, hb] at h1 h2 h3 ⊢
    exact key _ h1 h2 h3

/-! ## C08, ordered mode -/

/-- C08 (ordered mode; partial: without raw fields and plain unions of models, see `C08_ordered_counterexample`): two
documents that agree after removing, at any depth, the elements whose tags no field looks for, are read alike: the same
values, or the same errors. -/
theorem C08_ordered_partial (env : Env) (hno : env.NoValidators) (hforbid : env.NoForbid) (K : List String)
    (hK : env.Everywhere (Ser.LooksFor K .ordered)) (hraw : env.Everywhere Ser.NotRaw)
    (hunion : env.Everywhere Ser.NotUnion) (eas : Bool) (n : Nat) (cls : String) (doc1 doc2 : Node)
    (h : doc1.dropForeign K = doc2.dropForeign K) :
    (fromXmlTree env eas n cls doc1).1 = (fromXmlTree env eas n cls doc2).1 := by
  have ht : doc1.tag = doc2.tag := by rw [← dropForeign_tag K doc1, h, dropForeign_tag]
  have hE : env.Everywhere (Ser.Allowed (.tags fun t m => (fun t => decide (t ∈ K)) t = true ∧ m = .ordered) False False) := by
    simpa using allowed_of hK hraw hunion
  refine (fromXmlTree_agree (pruneSim env eas (fun t => decide (t ∈ K)) hforbid hno) hE n cls doc1 doc2 ht
    ⟨?_, fromNative_good _ _, fromNative_good _ _⟩).1.eq
  rw [← prune_dropForeign K _ doc1, h, prune_dropForeign]

/-! ## C08, C09, unordered mode -/

theorem uniqueTagsList_iff (K : List String) (l : List Node) : Node.UniqueTagsList K l ↔ ∀ n ∈ l, n.UniqueTags K := by
  induction l with
  | nil => simp [Node.UniqueTagsList]
  | cons n l ih => simp [Node.UniqueTagsList, ih]

theorem count_tag (t : String) (l : List Node) : (l.map Node.tag).count t = (l.filter fun n => decide (n.tag = t)).length := by
  rw [List.count_eq_length_filter, List.filter_map, List.length_map]
  rfl

mutual
theorem fromNative_uniq (K : List String) (b : Backend) (n : Node) (h : n.UniqueTags K) : Uniq K (fromNative b n) := by
  cases n with
  | elem tag attrib nsmap text tail cs line =>
    simp only [Node.UniqueTags] at h
    refine ⟨?_, ?_⟩
    · intro t ht
      have h1 := h.1 t ht
      rw [count_tag] at h1
      refine Nat.le_trans ?_ h1
      simp only [fromNative, unread, List.drop_zero, fromNativeList_eq, List.filter_map, List.length_map]
      rw [show ((fun c : Elem => decide (c.tag = t)) ∘ fromNative b) = fun n : Node => decide (n.tag = t) by
        funext x; simp [fromNative_tag]]
      rw [List.filter_filter]
      rw [← List.filter_filter]
      exact List.Sublist.length_le (List.filter_sublist.filter _)
    · simp only [fromNative]
      exact fun c hc _ => fromNativeList_uniq K b cs h.2 c hc
  | comment => simp only [fromNative]; exact ⟨by simp [unread], by simp⟩
  | pi => simp only [fromNative]; exact ⟨by simp [unread], by simp⟩
theorem fromNativeList_uniq (K : List String) (b : Backend) (l : List Node) (h : Node.UniqueTagsList K l) :
    ∀ c ∈ fromNativeList b l, Uniq K c := by
  cases l with
  | nil => simp [fromNativeList]
  | cons n l =>
    simp only [Node.UniqueTagsList] at h
    have h1 := fromNative_uniq K b n h.1
    have h2 := fromNativeList_uniq K b l h.2
    simp only [fromNativeList]
    split
    · exact h2
    · intro c hc
      rcases List.mem_cons.1 hc with rfl | hc
      · exact h1
      · exact h2 c hc
end

theorem Node.Shuffled.tag {n m : Node} (h : n.Shuffled m) : n.tag = m.tag := by cases h <;> rfl
theorem Node.Shuffled.isComment {n m : Node} (h : n.Shuffled m) : n.isComment = m.isComment := by cases h <;> rfl

theorem map_eq_of_pointwise {α β : Type} {f : α → β} {l1 l2 : List α} (hl : l1.length = l2.length)
    (h : ∀ (i : Nat) (a b : α), l1[i]? = some a → l2[i]? = some b → f a = f b) : l1.map f = l2.map f := by
  apply List.ext_getElem?
  intro i
  simp only [List.getElem?_map]
  cases h1 : l1[i]? with
  | none =>
    have : l2[i]? = none := by
      rw [List.getElem?_eq_none_iff] at h1 ⊢; omega
    rw [this]
  | some a =>
    have hlt := (List.getElem?_eq_some_iff.1 h1).1
    have h2 : l2[i]? = some (l2[i]'(by omega)) := List.getElem?_eq_getElem _
    rw [h2]
    simp [h i a _ h1 h2]

/-- Shuffling keeps the uniqueness of tags. -/
theorem Node.Shuffled.unique {K : List String} {n m : Node} (h : n.Shuffled m) : n.UniqueTags K → m.UniqueTags K := by
  induction h with
  | refl => exact id
  | elem hl hc hp ih =>
    rename_i l1 l l2
    simp only [Node.UniqueTags, uniqueTagsList_iff]
    rintro ⟨h1, h2⟩
    have ht : l1.map Node.tag = l.map Node.tag :=
      map_eq_of_pointwise hl (fun i a b ha hb => (hc i a b ha hb).tag)
    refine ⟨?_, ?_⟩
    · intro t htK
      rw [← (hp.map Node.tag).count_eq, ← ht]
      exact h1 t htK
    · intro x hx
      have hx := hp.mem_iff.2 hx
      obtain ⟨i, hi⟩ := List.getElem?_of_mem hx
      have hlt := (List.getElem?_eq_some_iff.1 hi).1
      have h3 : l1[i]? = some (l1[i]'(by omega)) := List.getElem?_eq_getElem _
      exact ih i _ _ h3 hi (h2 _ (List.mem_of_getElem? h3))

/-- Canonical forms of the children, comments left out. -/
def canonKids (K : List String) (b : Backend) (l : List Node) : List Elem := (fromNativeList b l).map (canon K)

theorem canonKids_eq (K : List String) (b : Backend) (l : List Node) :
    canonKids K b l = l.filterMap fun n => if n.isComment then none else some ((fromNative b n).canon K) := by
  unfold canonKids
  induction l with
  | nil => rfl
  | cons n l ih =>
    simp only [fromNativeList, List.filterMap_cons]
    cases n.isComment with
    | true => simpa using ih
    | false => simp [ih]

/-- Shuffled documents with unique known tags have the same canonical form. -/
theorem canon_shuffled (K : List String) (b : Backend) {n m : Node} (h : n.Shuffled m) :
    n.UniqueTags K → (fromNative b n).canon K = (fromNative b m).canon K := by
  induction h with
  | refl => exact fun _ => rfl
  | elem hl hc hp ih =>
    rename_i tag attrib nsmap text tail line l1 l l2
    intro hu
    have hu' := fromNative_uniq K b _ hu
    simp only [Node.UniqueTags, uniqueTagsList_iff] at hu
    have e1 : canonKids K b l1 = canonKids K b l := by
      rw [canonKids_eq, canonKids_eq]
      have := map_eq_of_pointwise (f := fun n : Node => if n.isComment then none else some ((fromNative b n).canon K)) hl (by
        intro i x y hx hy
        rw [(hc i x y hx hy).isComment, ih i x y hx hy (hu.2 x (List.mem_of_getElem? hx))])
      have fm : ∀ l : List Node, (l.filterMap fun n => if n.isComment then none else some ((fromNative b n).canon K)) =
          (l.map fun n => if n.isComment then none else some ((fromNative b n).canon K)).filterMap id := by
        intro l; rw [List.filterMap_map]; rfl
      rw [fm, fm, this]
    have hk : ∀ l : List Node, ∀ t, (firstWith t (fromNativeList b l)).map (canon K) = firstWith t (canonKids K b l) := by
      intro l t; rw [← firstWith_canon]; rfl
    rw [canon_eq, canon_eq]
    simp only [fromNative, lastSeen, unread, if_true, List.drop_zero, hk]
    have e2 : K.map (fun t => (firstWith t (canonKids K b l1)).getD { tag := t ++ "!" }) =
        K.map (fun t => (firstWith t (canonKids K b l2)).getD { tag := t ++ "!" }) := by
      apply List.map_congr_left
      intro t ht
      congr 1
      have hp' : (canonKids K b l1).Perm (canonKids K b l2) := by
        rw [e1, canonKids_eq, canonKids_eq]; exact hp.filterMap _
      apply firstWith_perm hp'
      have := hu'.count K ht
      simp only [fromNative, unread, List.drop_zero] at this
      simp only [canonKids, List.filter_map, List.length_map]
      rw [show ((fun c : Elem => decide (c.tag = t)) ∘ canon K) = fun c : Elem => decide (c.tag = t) by
        funext x; simp [canon_tag]]
      exact this
    rw [e2]

mutual
theorem canon_dropForeign (K : List String) (b : Backend) (n : Node) :
    (fromNative b (n.dropForeign K)).canon K = (fromNative b n).canon K := by
  cases n with
  | elem tag attrib nsmap text tail cs line =>
    have hk : ∀ l : List Node, ∀ t, (firstWith t (fromNativeList b l)).map (canon K) = firstWith t (canonKids K b l) := by
      intro l t; rw [← firstWith_canon]; rfl
    rw [canon_eq, canon_eq]
    simp only [Node.dropForeign, fromNative, lastSeen, unread, if_true, List.drop_zero, hk]
    have : K.map (fun t => (firstWith t (canonKids K b (Node.dropForeignList K cs))).getD { tag := t ++ "!" }) =
        K.map (fun t => (firstWith t (canonKids K b cs)).getD { tag := t ++ "!" }) :=
      List.map_congr_left fun t ht => by rw [canonKids_dropForeign K b cs t ht]
    rw [this]
  | comment => rfl
  | pi => rfl
theorem canonKids_dropForeign (K : List String) (b : Backend) (l : List Node) (t : String) (ht : t ∈ K) :
    firstWith t (canonKids K b (Node.dropForeignList K l)) = firstWith t (canonKids K b l) := by
  cases l with
  | nil => rfl
  | cons n l =>
    have h1 := canon_dropForeign K b n
    have h2 := canonKids_dropForeign K b l t ht
    unfold canonKids at h2 ⊢
    simp only [Node.dropForeignList, fromNativeList]
    by_cases hk : n.tag ∈ K
    · simp only [hk, if_true, fromNativeList, dropForeign_isComment]
      cases n.isComment with
      | true => simpa using h2
      | false =>
        unfold firstWith at h2 ⊢
        simp only [Bool.false_eq_true, if_false, List.map_cons, h1, List.find?_cons, h2]
    · simp only [hk, if_false]
      cases n.isComment with
      | true => simpa using h2
      | false =>
        have hne : n.tag ≠ t := fun h => hk (h ▸ ht)
        unfold firstWith at h2 ⊢
        simp only [Bool.false_eq_true, if_false, List.map_cons, List.find?_cons, canon_tag, fromNative_tag, hne,
          decide_false]
        exact h2
end

mutual
theorem fromNative_uniq_known (K : List String) (b : Backend) (n : Node) (h : (n.dropForeign K).UniqueTags K) :
    Uniq K (fromNative b n) := by
  cases n with
  | elem tag attrib nsmap text tail cs line =>
    simp only [Node.dropForeign, Node.UniqueTags] at h
    have hf : ∀ l : List Node, ∀ t ∈ K, ((Node.dropForeignList K l).map Node.tag).count t = (l.map Node.tag).count t := by
      intro l t ht
      induction l with
      | nil => rfl
      | cons n l ih =>
        simp only [Node.dropForeignList, List.map_cons]
        split
        · simp only [List.map_cons, dropForeign_tag, List.count_cons, ih]
        · rename_i hk
          have : n.tag ≠ t := fun h => hk (h ▸ ht)
          simp [ih, this]
    refine ⟨?_, ?_⟩
    · intro t ht
      have h1 := h.1 t ht
      rw [hf _ t ht, count_tag] at h1
      refine Nat.le_trans ?_ h1
      simp only [fromNative, unread, List.drop_zero, fromNativeList_eq, List.filter_map, List.length_map]
      rw [show ((fun c : Elem => decide (c.tag = t)) ∘ fromNative b) = fun n : Node => decide (n.tag = t) by
        funext x; simp [fromNative_tag]]
      exact List.Sublist.length_le (List.filter_sublist.filter _)
    · simp only [fromNative]
      exact fromNativeList_uniq_known K b cs h.2
  | comment => simp only [fromNative]; exact ⟨by simp [unread], by simp⟩
  | pi => simp only [fromNative]; exact ⟨by simp [unread], by simp⟩
theorem fromNativeList_uniq_known (K : List String) (b : Backend) (l : List Node)
    (h : Node.UniqueTagsList K (Node.dropForeignList K l)) : ∀ c ∈ fromNativeList b l, c.tag ∈ K → Uniq K c := by
  cases l with
  | nil => simp [fromNativeList]
  | cons n l =>
    simp only [Node.dropForeignList] at h
    intro c hc htc
    simp only [fromNativeList] at hc
    by_cases hk : n.tag ∈ K
    · simp only [hk, if_true, Node.UniqueTagsList] at h
      have h1 := fromNative_uniq_known K b n h.1
      have h2 := fromNativeList_uniq_known K b l h.2
      split at hc
      · exact h2 c hc htc
      · rcases List.mem_cons.1 hc with rfl | hc
        · exact h1
        · exact h2 c hc htc
    · simp only [hk, if_false] at h
      have h2 := fromNativeList_uniq_known K b l h
      split at hc
      · exact h2 c hc htc
      · rcases List.mem_cons.1 hc with rfl | hc
        · rw [fromNative_tag] at htc; exact absurd htc hk
        · exact h2 c hc htc
end

/-- C08 and C09 together (unordered mode; partial: without raw fields and plain unions of models): two documents whose
known parts differ in the order of children only, with each known tag at most once among the children of an element, are
read alike.  The uniqueness is needed, see `C08_unordered_counterexample` and `C09_counterexample`. -/
theorem C08_C09_unordered_partial (env : Env) (hno : env.NoValidators) (hforbid : env.NoForbid) (K : List String)
    (hK : env.Everywhere (Ser.LooksFor K .unordered)) (hraw : env.Everywhere Ser.NotRaw)
    (hunion : env.Everywhere Ser.NotUnion) (eas : Bool) (n : Nat) (cls : String) (doc1 doc2 : Node)
    (h : (doc1.dropForeign K).Shuffled (doc2.dropForeign K)) (hu : (doc1.dropForeign K).UniqueTags K) :
    (fromXmlTree env eas n cls doc1).1 = (fromXmlTree env eas n cls doc2).1 := by
  have ht : doc1.tag = doc2.tag := by rw [← dropForeign_tag K doc1, h.tag, dropForeign_tag]
  refine (fromXmlTree_agree (canonSim env eas K hforbid hno) (allowed_of hK hraw hunion) n cls doc1 doc2 ht
    ⟨?_, ⟨fromNative_good _ _, fromNative_good _ _⟩, fromNative_uniq_known K _ _ hu,
      fromNative_uniq_known K _ _ (h.unique hu)⟩).1.eq
  rw [← canon_dropForeign K _ doc1, canon_shuffled K _ h hu, canon_dropForeign]

/-- C08 (unordered mode, partial as above): documents that agree after removing the elements no field looks for. -/
theorem C08_unordered_partial (env : Env) (hno : env.NoValidators) (hforbid : env.NoForbid) (K : List String)
    (hK : env.Everywhere (Ser.LooksFor K .unordered)) (hraw : env.Everywhere Ser.NotRaw)
    (hunion : env.Everywhere Ser.NotUnion) (eas : Bool) (n : Nat) (cls : String) (doc1 doc2 : Node)
    (h : doc1.dropForeign K = doc2.dropForeign K) (hu : (doc1.dropForeign K).UniqueTags K) :
    (fromXmlTree env eas n cls doc1).1 = (fromXmlTree env eas n cls doc2).1 :=
  C08_C09_unordered_partial env hno hforbid K hK hraw hunion eas n cls doc1 doc2 (h ▸ .refl _) hu

/-- C09 (partial as above): children may come in any order, at every depth. -/
theorem C09_order_irrelevant_partial (env : Env) (hno : env.NoValidators) (hforbid : env.NoForbid) (K : List String)
    (hK : env.Everywhere (Ser.LooksFor K .unordered)) (hraw : env.Everywhere Ser.NotRaw)
    (hunion : env.Everywhere Ser.NotUnion) (eas : Bool) (n : Nat) (cls : String) (doc1 doc2 : Node)
    (h : doc1.Shuffled doc2) (hu : doc1.UniqueTags K) :
    (fromXmlTree env eas n cls doc1).1 = (fromXmlTree env eas n cls doc2).1 := by
  refine (fromXmlTree_agree (canonSim env eas K hforbid hno) (allowed_of hK hraw hunion) n cls doc1 doc2 h.tag
    ⟨canon_shuffled K _ h hu, ⟨fromNative_good _ _, fromNative_good _ _⟩, fromNative_uniq K _ _ hu,
      fromNative_uniq K _ _ (h.unique hu)⟩).1.eq

/-! ## Non-vacuity and counterexamples -/

namespace Ex

/-- A class reading two lists and an element in one mode, and a sub-model. -/
def shop (mode : Mode) : ModelSer where
  name := "Shop"
  elementName := "shop"
  body := .fields [
    { name := "owner", ser := .elem "owner" none mode false false },
    { name := "items", ser := .homog "Shop" false (.elem "item" none mode false false) },
    { name := "addr", ser := .proxy { cls := "Addr", name := "addr", mode := mode } },
    { name := "note", ser := .wrap ["meta", "note"] none mode false (.text false false) }]

def addr (mode : Mode) : ModelSer where
  name := "Addr"
  elementName := "addr"
  body := .fields [
    { name := "street", ser := .elem "street" none mode false false },
    { name := "town", ser := .elem "town" none mode false false }]

def shopEnv (mode : Mode) : Env where
  backend := .lxml
  model c := if c = "Shop" then some (shop mode) else if c = "Addr" then some (addr mode) else none
  validate c d :=
    match d with
    | .dict fs =>
      check c (if c = "Shop" then [("owner", true), ("items", false), ("addr", true), ("note", false)]
        else [("street", true), ("town", true)]) fs
    | _ => .error ⟨c, []⟩
  toJsonable := json
  reprOf _ := "..."

def shopTags : List String := ["owner", "item", "addr", "street", "town", "meta", "note"]

theorem shop_cases {mode : Mode} {P : String → ModelSer → Prop} (h1 : P "Shop" (shop mode)) (h2 : P "Addr" (addr mode)) :
    ∀ cls m, (shopEnv mode).model cls = some m → P cls m := by
  intro cls m h
  simp only [shopEnv] at h
  split at h
  · injection h with h; subst h; rename_i hc; subst hc; exact h1
  · split at h
    · injection h with h; subst h; rename_i hc; subst hc; exact h2
    · cases h

theorem shop_everywhere {mode : Mode} {P : Ser → Prop}
    (h : ∀ s ∈ [Ser.elem "owner" none mode false false, .homog "Shop" false (.elem "item" none mode false false),
      .elem "item" none mode false false, .proxy { cls := "Addr", name := "addr", mode := mode },
      .wrap ["meta", "note"] none mode false (.text false false), .text false false,
      .elem "street" none mode false false, .elem "town" none mode false false], P s) :
    (shopEnv mode).Everywhere P := by
  simp only [List.forall_mem_cons] at h
  apply shop_cases <;>
    simp only [ModelSer.Everywhere, shop, addr, List.forall_mem_cons, Ser.everywhere_text,
      Ser.everywhere_elem, Ser.everywhere_homog, Ser.everywhere_wrap, Ser.everywhere_proxy] <;>
    simp [h]

/-- The hypotheses about the classes hold, in every mode. -/
theorem shop_ok (mode : Mode) : (shopEnv mode).NoValidators ∧ (shopEnv mode).NoForbid ∧
    (shopEnv mode).Everywhere (Ser.LooksFor shopTags mode) ∧ (shopEnv mode).Everywhere Ser.NotRaw ∧
    (shopEnv mode).Everywhere Ser.NotUnion := by
  refine ⟨?_, ?_, ?_, ?_, ?_⟩
  · intro cls m fs h
    revert h fs
    suffices h : ∀ cls m, (shopEnv mode).model cls = some m → ∀ fs, m.body = .fields fs → ∀ f ∈ fs, f.validator = none from
      fun fs h' hb => h cls m h' fs hb
    apply shop_cases <;> (intro fs hb; injection hb with hb; subst hb; simp)
  · apply shop_cases <;> rfl
  · apply shop_everywhere
    simp [Ser.LooksFor, Ser.searches, shopTags]
    rintro a b (⟨rfl, rfl⟩ | ⟨rfl, rfl⟩) <;> simp
  · apply shop_everywhere; simp [Ser.NotRaw]
  · apply shop_everywhere; simp [Ser.NotUnion]

/-- The document of the examples. -/
def shopDoc : Node :=
  el "shop" none [el "owner" (some "Ann"), el "item" (some "1"), el "item" (some "2"),
    el "addr" none [el "street" (some "Main St"), el "town" (some "X")], el "meta" none [el "note" (some "hi")]]

/-- The same with foreign elements at several depths. -/
def shopDocGrown : Node :=
  el "shop" none [el "foo" (some "?"), el "owner" (some "Ann") [el "owner2"], el "item" (some "1"), el "foo", el "item" (some "2"),
    el "addr" none [el "x" none [el "town"], el "street" (some "Main St"), el "town" (some "X")],
    el "meta" none [el "bar", el "note" (some "hi")]]

/-- The same with one item, and with that item, children permuted at two depths. -/
def shopDoc1 : Node :=
  el "shop" none [el "owner" (some "Ann"), el "item" (some "1"),
    el "addr" none [el "street" (some "Main St"), el "town" (some "X")], el "meta" none [el "note" (some "hi")]]

def shopDocShuffled : Node :=
  el "shop" none [el "meta" none [el "note" (some "hi")], el "owner" (some "Ann"),
    el "addr" none [el "town" (some "X"), el "street" (some "Main St")], el "item" (some "1")]

/-- What is read from `shopDoc1`. -/
def shopVal : Val :=
  .model "Shop" [("owner", .str "Ann"), ("items", .list [.str "1"]),
    ("addr", .model "Addr" [("street", .str "Main St"), ("town", .str "X")] ["street", "town"]), ("note", .str "hi")]
    ["owner", "items", "addr", "note"]

end Ex

example : Ex.shopDoc.dropForeign Ex.shopTags = Ex.shopDocGrown.dropForeign Ex.shopTags ∧
    ((fromXmlTree (Ex.shopEnv .ordered) false 9 "Shop" Ex.shopDocGrown).1 matches .ok _) := ⟨rfl, rfl⟩

example : Ex.shopDoc1.Shuffled Ex.shopDocShuffled ∧ Ex.shopDoc1.UniqueTags Ex.shopTags ∧
    (fromXmlTree (Ex.shopEnv .unordered) false 9 "Shop" Ex.shopDocShuffled).1 = .ok Ex.shopVal := by
  refine ⟨?_, ?_, rfl⟩
  · refine .elem (l := [Ex.el "owner" (some "Ann"), Ex.el "item" (some "1"),
      Ex.el "addr" none [Ex.el "town" (some "X"), Ex.el "street" (some "Main St")],
      Ex.el "meta" none [Ex.el "note" (some "hi")]]) rfl ?_ ?_
    · intro i c1 c2 h1 h2
      match i with
      | 0 => cases h1; cases h2; exact .refl _
      | 1 => cases h1; cases h2; exact .refl _
      | 2 =>
        cases h1; cases h2
        refine .elem (l := [Ex.el "street" (some "Main St"), Ex.el "town" (some "X")]) rfl ?_ (List.Perm.swap _ _ _)
        intro i c1 c2 h1 h2
        rw [h1] at h2
        cases h2
        exact .refl _
      | 3 => cases h1; cases h2; exact .refl _
      | n + 4 => cases h1
    · refine List.Perm.trans (List.perm_append_comm (l₁ := [_, _, _]) (l₂ := [_])) ?_
      exact (List.Perm.swap _ _ []).cons _ |>.cons _
  · refine ⟨by decide, ?_⟩
    simp [Node.UniqueTagsList, Node.UniqueTags, Ex.el, Ex.shopTags, Node.tag]

/-- C08 is false in unordered mode when a known tag is repeated: a foreign element before the items changes the order of
the list that is read. -/
theorem C08_unordered_counterexample :
    let addr := Ex.el "addr" none [Ex.el "street" (some "s"), Ex.el "town" (some "t")]
    let doc1 := Ex.el "shop" none [Ex.el "item" (some "1"), Ex.el "item" (some "2"), Ex.el "owner" (some "Ann"), addr]
    let doc2 := Ex.el "shop" none
      [Ex.el "foo", Ex.el "item" (some "1"), Ex.el "item" (some "2"), Ex.el "owner" (some "Ann"), addr]
    let val := fun items => Val.model "Shop" [("owner", .str "Ann"), ("items", .list items),
      ("addr", .model "Addr" [("street", .str "s"), ("town", .str "t")] ["street", "town"]), ("note", .none)]
      ["owner", "items", "addr"]
    doc1.dropForeign Ex.shopTags = doc2.dropForeign Ex.shopTags ∧
    (fromXmlTree (Ex.shopEnv .unordered) false 9 "Shop" doc1).1 = .ok (val [.str "2", .str "1"]) ∧
    (fromXmlTree (Ex.shopEnv .unordered) false 9 "Shop" doc2).1 = .ok (val [.str "1", .str "2"]) := ⟨rfl, rfl, rfl⟩

namespace Ex

/-- `class Pets: pets: List[Union[Dog, Cat]] = element('pet'); addr: Address = element('addr')`, one mode for all. -/
def pets (mode : Mode) : ModelSer where
  name := "Pets"
  elementName := "pets"
  body := .fields [
    { name := "pets", ser := .homog "Pets" false (.modelUnion "Pets" false
        [{ cls := "Dog", name := "pet", mode := mode }, { cls := "Cat", name := "pet", mode := mode }]) },
    { name := "addr", ser := .proxy { cls := "Address", name := "addr", mode := mode } }]

def petsEnv (mode : Mode) : Env := { env mode with model := fun c => if c = "Pets" then some (pets mode) else model mode c }

/-- The locations of the errors. -/
def errLocs : Out Val → List Loc
  | .verr e => e.errs.map (·.loc)
  | _ => []

end Ex

/-- C08 is false in ordered mode with a union of models: after a failed union element the reader steps over one child,
which may be the foreign one, and reads the failed element again: the same error is reported twice. -/
theorem C08_ordered_counterexample :
    let bad := Ex.el "pet" none [] [("kind", "dog")]
    let doc1 := Ex.el "pets" none [bad]
    let doc2 := Ex.el "pets" none [Ex.el "foo", bad]
    let err := fun i => [[LocPart.name "pets", .idx i, .name "Dog", .name "name"],
      [LocPart.name "pets", .idx i, .name "Cat", .name "lives"]]
    doc1.dropForeign ["pet", "addr"] = doc2.dropForeign ["pet", "addr"] ∧
    Ex.errLocs (fromXmlTree (Ex.petsEnv .ordered) false 9 "Pets" doc1).1 = err 0 ∧
    Ex.errLocs (fromXmlTree (Ex.petsEnv .ordered) false 9 "Pets" doc2).1 = err 0 ++ err 1 := ⟨rfl, rfl, rfl⟩

/-- C09 is false with a union of models: the order of two different children decides whether a failed union element is
reported once or twice (and the error of the other child not at all). -/
theorem C09_counterexample :
    let bad := Ex.el "pet" none [] [("kind", "dog")]
    let addr := Ex.el "addr"
    let err := fun i => [[LocPart.name "pets", .idx i, .name "Dog", .name "name"],
      [LocPart.name "pets", .idx i, .name "Cat", .name "lives"]]
    (Ex.el "pets" none [bad, addr]).Shuffled (Ex.el "pets" none [addr, bad]) ∧
    Ex.errLocs (fromXmlTree (Ex.petsEnv .unordered) false 9 "Pets" (Ex.el "pets" none [bad, addr])).1 =
      err 0 ++ [[.name "addr", .name "zip"]] ∧
    Ex.errLocs (fromXmlTree (Ex.petsEnv .unordered) false 9 "Pets" (Ex.el "pets" none [addr, bad])).1 =
      err 0 ++ err 1 := by
  refine ⟨.elem (l := [Ex.el "pet" none [] [("kind", "dog")], Ex.el "addr"]) rfl ?_ (List.Perm.swap _ _ _), rfl, rfl⟩
  intro i c1 c2 h1 h2
  rw [h1] at h2
  cases h2
  exact .refl _

end PXml
