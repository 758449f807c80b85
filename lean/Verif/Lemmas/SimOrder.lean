import Verif.Lemmas.Sim
import Verif.Lemmas.SimMeta
import Verif.Lemmas.NoCrash

/-! Simulation between trees that differ in foreign elements (ordered mode). -/

namespace PXml
namespace Elem

mutual
/-- What an ordered reader that only looks for the tags `K` can still tell about an element: the child passed last, and
the unread children with tags in `K`. -/
def prune (K : String → Bool) : Elem → Elem
  | ⟨tag, _, text, _, attrib, elements, next, line⟩ =>
    ⟨tag, none, text, none, attrib, pruneList K next elements, min next 1, line⟩
def pruneList (K : String → Bool) : Nat → List Elem → List Elem
  | _, [] => []
  | 0, c :: cs => if K c.tag then prune K c :: pruneList K 0 cs else pruneList K 0 cs
  | 1, c :: cs => prune K c :: pruneList K 0 cs
  | k + 2, _ :: cs => pruneList K (k + 1) cs
end

variable (K : String → Bool)

/-- The unread part. -/
def pruned (l : List Elem) : List Elem := (l.filter (K ·.tag)).map (prune K)

theorem pruned_append (l l' : List Elem) : pruned K (l ++ l') = pruned K l ++ pruned K l' := by
  simp [pruned]

theorem pruned_cons (c : Elem) (l : List Elem) :
    pruned K (c :: l) = (if K c.tag then [prune K c] else []) ++ pruned K l := by
  unfold pruned
  rw [List.filter_cons]
  split <;> rfl

theorem pruneList_zero (l : List Elem) : pruneList K 0 l = pruned K l := by
  induction l with
  | nil => rfl
  | cons c l ih =>
    simp only [pruneList, ih, pruned_cons]
    split <;> rfl

theorem pruneList_succ (n : Nat) (l : List Elem) :
    pruneList K (n + 1) l = (l[n]?).toList.map (prune K) ++ pruned K (l.drop (n + 1)) := by
  induction n generalizing l with
  | zero =>
    cases l with
    | nil => rfl
    | cons c l => simp [pruneList, pruneList_zero]
  | succ n ih =>
    cases l with
    | nil => rfl
    | cons c l => simp [pruneList, ih]

/-- The child passed last, if any. -/
def lastSeen (e : Elem) : Option Elem := if e.next = 0 then none else e.elements[e.next - 1]?

theorem prune_eq (e : Elem) : e.prune K =
    ⟨e.tag, none, e.text, none, e.attrib, e.lastSeen.toList.map (prune K) ++ pruned K e.unread, min e.next 1, e.line⟩ := by
  cases e with
  | mk tag nsmap text tail attrib elements next line =>
    cases next with
    | zero => simp [prune, lastSeen, unread, pruneList_zero]
    | succ n => simp [prune, lastSeen, unread, pruneList_succ]

theorem prune_tag (e : Elem) : (e.prune K).tag = e.tag := by rw [prune_eq]

/-- The relation. -/
def PruneRel (e1 e2 : Elem) : Prop := e1.prune K = e2.prune K ∧ e1.Good ∧ e2.Good

theorem lastSeen_isSome {e : Elem} (h : e.Good) : e.lastSeen.isSome = decide (e.next ≠ 0) := by
  obtain ⟨h1, _⟩ := h
  unfold lastSeen
  by_cases h0 : e.next = 0
  · simp [h0]
  · simp only [h0, if_false, List.getElem?_eq_getElem (show e.next - 1 < e.elements.length by omega)]
    simp [h0]

/-- The relation, taken apart. -/
theorem pruneRel_iff {e1 e2 : Elem} : PruneRel K e1 e2 ↔ (e1.Good ∧ e2.Good) ∧ e1.tag = e2.tag ∧ e1.text = e2.text ∧
    e1.attrib = e2.attrib ∧ e1.line = e2.line ∧ e1.lastSeen.map (prune K) = e2.lastSeen.map (prune K) ∧
    pruned K e1.unread = pruned K e2.unread := by
  constructor
  · rintro ⟨h, h1, h2⟩
    rw [prune_eq, prune_eq] at h
    simp only [mk.injEq, true_and] at h
    obtain ⟨ht, hx, ha, he, hm, hl⟩ := h
    refine ⟨⟨h1, h2⟩, ht, hx, ha, hl, ?_⟩
    have s1 := lastSeen_isSome h1
    have s2 := lastSeen_isSome h2
    cases l1 : e1.lastSeen with
    | none =>
      cases l2 : e2.lastSeen with
      | none => rw [l1, l2] at he; exact ⟨rfl, by simpa using he⟩
      | some c2 => rw [l1] at s1; rw [l2] at s2; simp at s1 s2; omega
    | some c1 =>
      cases l2 : e2.lastSeen with
      | none => rw [l1] at s1; rw [l2] at s2; simp at s1 s2; omega
      | some c2 =>
        rw [l1, l2] at he
        simp at he
        simp [he]
  · rintro ⟨⟨h1, h2⟩, ht, hx, ha, hl, hs, hu⟩
    refine ⟨?_, h1, h2⟩
    have s1 := lastSeen_isSome h1
    have s2 := lastSeen_isSome h2
    rw [prune_eq, prune_eq]
    have hm : min e1.next 1 = min e2.next 1 := by
      have := congrArg Option.isSome hs
      simp only [Option.isSome_map, s1, s2] at this
      by_cases h0 : e1.next = 0 <;> by_cases h0' : e2.next = 0 <;> simp_all <;> omega
    have hs' : e1.lastSeen.toList.map (prune K) = e2.lastSeen.toList.map (prune K) := by
      cases l1 : e1.lastSeen <;> cases l2 : e2.lastSeen <;> rw [l1, l2] at hs <;> simp_all
    rw [ht, hx, ha, hl, hm, hu, hs']

/-- The first element with a tag splits a list in a unique way. -/
theorem split_unique {t : String} {a b a' b' : List Elem} {c c' : Elem} (h : a ++ c :: b = a' ++ c' :: b')
    (hc : c.tag = t) (hc' : c'.tag = t) (ha : ∀ x ∈ a, x.tag ≠ t) (ha' : ∀ x ∈ a', x.tag ≠ t) : a = a' ∧ c = c' ∧ b = b' := by
  induction a generalizing a' with
  | nil =>
    cases a' with
    | nil => simpa using h
    | cons y a' =>
      simp only [List.nil_append, List.cons_append, List.cons.injEq] at h
      exact absurd hc (h.1 ▸ ha' y (by simp))
  | cons x a ih =>
    cases a' with
    | nil =>
      simp only [List.nil_append, List.cons_append, List.cons.injEq] at h
      exact absurd hc' (h.1 ▸ ha x (by simp))
    | cons y a' =>
      simp only [List.cons_append, List.cons.injEq] at h
      obtain ⟨h1, h2, h3⟩ := ih h.2 (fun x hx => ha x (by simp [hx])) (fun x hx => ha' x (by simp [hx]))
      exact ⟨by rw [h.1, h1], h2, h3⟩

theorem firstMatch_split {e : Elem} {t : String} {i : Nat} (h : e.firstMatch t = some i) :
    ∃ pre c post, e.unread = pre ++ c :: post ∧ i = e.next + pre.length ∧ c.tag = t ∧ (∀ x ∈ pre, x.tag ≠ t) := by
  unfold firstMatch at h
  have key : ∀ (l : List Elem) (k i : Nat), firstFrom t l k = some i →
      ∃ pre c post, l = pre ++ c :: post ∧ i = k + pre.length ∧ c.tag = t ∧ (∀ x ∈ pre, x.tag ≠ t) := by
    intro l
    induction l with
    | nil => intro k i h; cases h
    | cons x l ih =>
      intro k i h
      unfold firstFrom at h
      split at h
      · rename_i hx
        injection h with h
        exact ⟨[], x, l, rfl, by simp [h], hx, by simp⟩
      · rename_i hx
        obtain ⟨pre, c, post, h1, h2, h3, h4⟩ := ih _ _ h
        refine ⟨x :: pre, c, post, by rw [h1]; rfl, by simp; omega, h3, ?_⟩
        intro y hy
        rcases List.mem_cons.1 hy with rfl | hy
        · exact hx
        · exact h4 y hy
  exact key _ _ _ h

theorem mem_pruned {l : List Elem} {x : Elem} (h : x ∈ pruned K l) : ∃ y ∈ l, x = prune K y := by
  simp only [pruned, List.mem_map, List.mem_filter] at h
  obtain ⟨y, ⟨h1, _⟩, h2⟩ := h
  exact ⟨y, h1, h2.symm⟩

theorem pruned_pre {pre : List Elem} {t : String} (h : ∀ x ∈ pre, x.tag ≠ t) : ∀ x ∈ pruned K pre, x.tag ≠ t := by
  intro x hx
  obtain ⟨y, hy, rfl⟩ := mem_pruned K hx
  rw [prune_tag]
  exact h y hy

/-- Related elements have the first match at corresponding places. -/
theorem firstMatch_rel {l1 l2 : List Elem} (h : pruned K l1 = pruned K l2) {t : String} (ht : K t = true)
    {pre1 : List Elem} {c1 : Elem} {post1 : List Elem} (h1 : l1 = pre1 ++ c1 :: post1) (hc1 : c1.tag = t)
    (hp1 : ∀ x ∈ pre1, x.tag ≠ t) {pre2 : List Elem} {c2 : Elem} {post2 : List Elem} (h2 : l2 = pre2 ++ c2 :: post2)
    (hc2 : c2.tag = t) (hp2 : ∀ x ∈ pre2, x.tag ≠ t) :
    pruned K pre1 = pruned K pre2 ∧ prune K c1 = prune K c2 ∧ pruned K post1 = pruned K post2 := by
  rw [h1, h2, pruned_append, pruned_append, pruned_cons, pruned_cons] at h
  simp only [hc1, hc2, ht, if_true, List.singleton_append] at h
  exact split_unique h (by rw [prune_tag, hc1]) (by rw [prune_tag, hc2]) (pruned_pre K hp1) (pruned_pre K hp2)

theorem unread_mem {e c : Elem} (h : c ∈ e.unread) : c ∈ e.elements := List.mem_of_mem_drop h

theorem good_mem {e c : Elem} (h : e.Good) (hc : c ∈ e.elements) : c.Good := by
  obtain ⟨_, h⟩ := h
  exact h c hc

/-- Position of the match among all children. -/
theorem unread_split_getElem? {e : Elem} (hg : e.Good) {pre : List Elem} {c : Elem} {post : List Elem}
    (h : e.unread = pre ++ c :: post) : e.elements = e.seen ++ (pre ++ c :: post) ∧ e.seen.length = e.next := by
  obtain ⟨h1, _⟩ := hg
  refine ⟨by rw [← h]; exact (List.take_append_drop _ _).symm, ?_⟩
  simp only [seen, List.length_take]
  omega

/-- After passing the match. -/
theorem passed_lastSeen {e : Elem} (hg : e.Good) {pre : List Elem} {c : Elem} {post : List Elem}
    (h : e.unread = pre ++ c :: post) :
    ({ e with next := e.next + pre.length + 1 } : Elem).lastSeen = some c ∧
    ({ e with next := e.next + pre.length + 1 } : Elem).unread = post ∧ e.elements[e.next + pre.length]? = some c := by
  obtain ⟨h1, h2⟩ := unread_split_getElem? hg h
  have h3 : e.elements[e.next + pre.length]? = some c := by
    rw [h1, ← h2]; simp
  refine ⟨by simpa [lastSeen] using h3, ?_, h3⟩
  show e.elements.drop (e.next + pre.length + 1) = post
  rw [h1, ← h2, show e.seen.length + pre.length + 1 = (e.seen ++ pre ++ [c]).length by simp; omega,
    show e.seen ++ (pre ++ c :: post) = (e.seen ++ pre ++ [c]) ++ post by simp]
  exact List.drop_left

/-- Replacing the child passed last. -/
theorem setChild_last {e : Elem} {c : Elem} (hn : e.next ≠ 0) (hc : e.elements[e.next - 1]? = some c) (c' : Elem) :
    (e.setChild (e.next - 1) c').lastSeen = some c' ∧ (e.setChild (e.next - 1) c').unread = e.unread := by
  have hlt : e.next - 1 < e.elements.length := (List.getElem?_eq_some_iff.1 hc).1
  refine ⟨?_, ?_⟩
  · simp [lastSeen, setChild, hn, hlt]
  · simp only [unread, setChild]
    rw [List.drop_set]
    simp [show e.next - 1 < e.next by omega]

/-- Replacing an unread child. -/
theorem setChild_unread {e : Elem} {pre : List Elem} {c : Elem} {post : List Elem}
    (h : e.unread = pre ++ c :: post) (c' : Elem) :
    (e.setChild (e.next + pre.length) c').lastSeen = e.lastSeen ∧
    (e.setChild (e.next + pre.length) c').unread = pre ++ c' :: post := by
  refine ⟨?_, ?_⟩
  · simp only [lastSeen, setChild]
    by_cases h0 : e.next = 0
    · simp [h0]
    · simp only [h0, if_false]
      rw [List.getElem?_set_ne (by omega)]
  · simp only [unread, setChild] at h ⊢
    rw [List.drop_set]
    simp only [show ¬ e.next + pre.length < e.next by omega, if_false, Nat.add_sub_cancel_left, h]
    simp

variable {K}

theorem pruneRel_good_setChild {e c : Elem} (h : e.Good) (hc : c.Good) (i : Nat) : (e.setChild i c).Good := by
  obtain ⟨h1, h2⟩ := h
  refine ⟨by simpa [setChild] using h1, ?_⟩
  intro x hx
  rcases List.mem_or_eq_of_mem_set hx with hx | rfl
  · exact h2 x hx
  · exact hc

theorem pruneRel_hit_last {e1 e2 c1 c2 : Elem} (h : PruneRel K e1 e2) (h1 : e1.lastSeen = some c1)
    (h2 : e2.lastSeen = some c2) : Hit (PruneRel K) e1 (e1.next - 1) e2 (e2.next - 1) := by
  have key : ∀ {e c : Elem}, e.lastSeen = some c → e.next ≠ 0 ∧ e.elements[e.next - 1]? = some c := by
    intro e c h
    unfold lastSeen at h
    split at h
    · cases h
    · exact ⟨by assumption, h⟩
  obtain ⟨n1, k1⟩ := key h1
  obtain ⟨n2, k2⟩ := key h2
  obtain ⟨⟨g1, g2⟩, ht, hx, ha, hl, hs, hu⟩ := (pruneRel_iff K).1 h
  rw [h1, h2] at hs
  simp only [Option.map_some, Option.some.injEq] at hs
  refine ⟨c1, c2, k1, k2, ⟨hs, g1.child k1, g2.child k2⟩, ?_⟩
  rintro c1' c2' ⟨h3, h4, h5⟩ _ _
  rw [pruneRel_iff]
  obtain ⟨a1, a2⟩ := setChild_last n1 k1 c1'
  obtain ⟨b1, b2⟩ := setChild_last n2 k2 c2'
  refine ⟨⟨pruneRel_good_setChild g1 h4 _, pruneRel_good_setChild g2 h5 _⟩, ht, hx, ha, hl, ?_, ?_⟩
  · rw [a1, b1]; simp [h3]
  · rw [a2, b2]; exact hu

theorem firstMatch_exists {l1 l2 : List Elem} (h : pruned K l1 = pruned K l2) {t : String} (ht : K t = true)
    (hno : ∀ c ∈ l2, c.tag ≠ t) : ∀ c ∈ l1, c.tag ≠ t := by
  intro c hc hct
  have : prune K c ∈ pruned K l1 := by
    simp only [pruned, List.mem_map, List.mem_filter]
    exact ⟨c, ⟨hc, by rw [hct]; exact ht⟩, rfl⟩
  rw [h] at this
  obtain ⟨y, hy, he⟩ := mem_pruned K this
  have := congrArg Elem.tag he
  rw [prune_tag, prune_tag] at this
  exact hno y hy (this ▸ hct)

theorem good_next {e : Elem} (h : e.Good) {n : Nat} (hn : n ≤ e.elements.length) : ({ e with next := n } : Elem).Good := by
  obtain ⟨_, h2⟩ := h
  exact ⟨hn, h2⟩

theorem pruneRel_search {e1 e2 : Elem} (h : PruneRel K e1 e2) {t : String} (ht : K t = true) (step : Bool) :
    SearchRel (PruneRel K) (e1.search t .ordered step) (e2.search t .ordered step) := by
  obtain ⟨⟨g1, g2⟩, htag, hx, ha, hl, hs, hu⟩ := (pruneRel_iff K).1 h
  simp only [search, orderedSearch]
  cases m1 : e1.firstMatch t with
  | none =>
    have n2 : e2.firstMatch t = none :=
      firstMatch_none_iff.2 (firstMatch_exists hu.symm ht (firstMatch_none m1))
    rw [n2]
    exact h
  | some i1 =>
    cases m2 : e2.firstMatch t with
    | none =>
      have n1 : e1.firstMatch t = none :=
        firstMatch_none_iff.2 (firstMatch_exists hu ht (firstMatch_none m2))
      rw [n1] at m1; cases m1
    | some i2 =>
      obtain ⟨pre1, c1, post1, u1, rfl, t1, p1⟩ := firstMatch_split m1
      obtain ⟨pre2, c2, post2, u2, rfl, t2, p2⟩ := firstMatch_split m2
      obtain ⟨q1, q2, q3⟩ := firstMatch_rel K hu ht u1 t1 p1 u2 t2 p2
      obtain ⟨s1, r1, k1⟩ := passed_lastSeen g1 u1
      obtain ⟨s2, r2, k2⟩ := passed_lastSeen g2 u2
      cases step with
      | true =>
        simp only [if_true]
        have hE : PruneRel K { e1 with next := e1.next + pre1.length + 1 } { e2 with next := e2.next + pre2.length + 1 } := by
          rw [pruneRel_iff]
          refine ⟨⟨good_next g1 ?_, good_next g2 ?_⟩, htag, hx, ha, hl, ?_, ?_⟩
          · have := (List.getElem?_eq_some_iff.1 k1).1; omega
          · have := (List.getElem?_eq_some_iff.1 k2).1; omega
          · rw [s1, s2]; simp [q2]
          · rw [r1, r2]; exact q3
        exact ⟨hE, pruneRel_hit_last hE s1 s2⟩
      | false =>
        refine ⟨h, c1, c2, k1, k2, ⟨q2, g1.child k1, g2.child k2⟩, ?_⟩
        rintro c1' c2' ⟨h3, h4, h5⟩ ht1 ht2
        obtain ⟨a1, a2⟩ := setChild_unread u1 c1'
        obtain ⟨b1, b2⟩ := setChild_unread u2 c2'
        simp only [if_false, Bool.false_eq_true]
        rw [pruneRel_iff]
        refine ⟨⟨pruneRel_good_setChild g1 h4 _, pruneRel_good_setChild g2 h5 _⟩, htag, hx, ha, hl, ?_, ?_⟩
        · rw [a1, b1]; exact hs
        · rw [a2, b2, pruned_append, pruned_append, pruned_cons, pruned_cons]
          simp only [ht1, ht2, t1, t2, ht, if_true, q1, q3, h3]

theorem lookBehind_eq {e : Elem} (h : e.Good) (t : String) :
    e.lookBehind t = .ok (match e.lastSeen with | some c => decide (c.tag = t) | none => false) := by
  obtain ⟨h1, _⟩ := h
  unfold lookBehind lastSeen
  by_cases h0 : e.next = 0
  · simp [h0]
  · have : e.next - 1 < e.elements.length := by omega
    simp [h0, this]

theorem pruneRel_find {e1 e2 : Elem} (h : PruneRel K e1 e2) {t : String} (ht : K t = true) :
    (∃ x, e1.findElement t .ordered = .error x ∧ e2.findElement t .ordered = .error x) ∨
    (∃ r1 r2, e1.findElement t .ordered = .ok r1 ∧ e2.findElement t .ordered = .ok r2 ∧ SearchRel (PruneRel K) r1 r2) := by
  obtain ⟨⟨g1, g2⟩, htag, hx, ha, hl, hs, hu⟩ := (pruneRel_iff K).1 h
  right
  unfold findElement
  rw [lookBehind_eq g1, lookBehind_eq g2]
  have hsr := pruneRel_search h ht true
  cases l1 : e1.lastSeen with
  | none =>
    cases l2 : e2.lastSeen with
    | some c => rw [l1, l2] at hs; simp at hs
    | none => exact ⟨_, _, rfl, rfl, hsr⟩
  | some c1 =>
    cases l2 : e2.lastSeen with
    | none => rw [l1, l2] at hs; simp at hs
    | some c2 =>
      have htt : c1.tag = c2.tag := by
        rw [l1, l2] at hs
        simp only [Option.map_some, Option.some.injEq] at hs
        rw [← prune_tag K c1, hs, prune_tag]
      by_cases hc : c1.tag = t
      · have hc2 : c2.tag = t := htt ▸ hc
        simp only [hc, hc2, decide_true]
        exact ⟨_, _, rfl, rfl, h, pruneRel_hit_last h l1 l2⟩
      · have hc2 : ¬ c2.tag = t := htt ▸ hc
        simp only [hc, hc2, decide_false]
        exact ⟨_, _, rfl, rfl, hsr⟩

end Elem

open Elem

/-- In ordered mode, trees that differ in foreign elements only are read alike. -/
theorem pruneSim (env : Env) (eas : Bool) (K : String → Bool) (hforbid : env.NoForbid) (hno : env.NoValidators) :
    Sim env env eas (.tags fun t m => K t = true ∧ m = .ordered) False False False (PruneRel K) (fun _ => True) id where
  models := rfl
  line e1 e2 h := ((pruneRel_iff K).1 h).2.2.2.2.1
  lines sm1 sm2 h loc := lines_id h loc
  text e1 e2 _ h := by
    obtain ⟨⟨g1, g2⟩, ht, hx, ha, hl, hs, hu⟩ := (pruneRel_iff K).1 h
    exact ⟨by rw [hx], trivial, (pruneRel_iff K).2
      ⟨⟨good_rel.popText e1 g1, good_rel.popText e2 g2⟩, ht, rfl, ha, hl, hs, hu⟩⟩
  owns _ _ _ _ := trivial
  nil := trivial
  attrib e1 e2 k _ h := by
    obtain ⟨⟨g1, g2⟩, ht, hx, ha, hl, hs, hu⟩ := (pruneRel_iff K).1 h
    have G1 := good_rel.popAttrib e1 k g1
    have G2 := good_rel.popAttrib e2 k g2
    rw [pruneRel_iff]
    refine ⟨by rw [popAttrib_fst, popAttrib_fst, getAttrib, getAttrib, ha], fun _ _ => trivial, ⟨G1, G2⟩, ?_⟩
    unfold popAttrib
    rw [ha]
    split
    · exact ⟨ht, hx, rfl, hl, hs, hu⟩
    · exact ⟨ht, hx, ha, hl, hs, hu⟩
  attributes _ e1 e2 h := by
    obtain ⟨⟨g1, g2⟩, ht, hx, ha, hl, hs, hu⟩ := (pruneRel_iff K).1 h
    exact ⟨ha, fun _ _ _ => trivial, (pruneRel_iff K).2
      ⟨⟨good_rel.popAttributes e1 g1, good_rel.popAttributes e2 g2⟩, ht, hx, rfl, hl, hs, hu⟩⟩
  search e1 e2 t m step hT h := by
    obtain ⟨ht, rfl⟩ := hT
    exact pruneRel_search h ht step
  find e1 e2 t m hT h := by
    obtain ⟨ht, rfl⟩ := hT
    exact pruneRel_find h ht
  step hu := hu.elim
  snapshot e1 e2 s1 s2 h hs' := by
    obtain ⟨⟨g1, g2⟩, ht, hx, ha, hl, hs, hu⟩ := (pruneRel_iff K).1 hs'
    obtain ⟨_, _, _, _, hl', _⟩ := (pruneRel_iff K).1 h
    obtain ⟨a1, a2⟩ := g1
    obtain ⟨b1, b2⟩ := g2
    exact (pruneRel_iff K).2 ⟨⟨⟨a1, a2⟩, ⟨b1, b2⟩⟩, ht, hx, ha, hl', hs, hu⟩
  rawElem hr := hr.elim
  none := trivial
  list _ _ := trivial
  model _ _ _ := trivial
  validate cls m d _ _ := rfl
  extra hf := hf.elim
  forbids cls m hm hf := by rw [hforbid cls m hm] at hf; cases hf
  validators cls m fs hm hb f hf v hv := by rw [hno cls m fs hm hb f hf] at hv; cases hv
  keeps cls m fs hm hb f hf v hv := by rw [hno cls m fs hm hb f hf] at hv; cases hv

end PXml
