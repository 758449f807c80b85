import Verif.Lemmas.SimOrder

/-! Simulation between trees that differ in foreign elements and in the order of children (unordered mode, every known
tag at most once among the children of an element). -/

namespace PXml
namespace Elem

mutual
/-- What an unordered reader that only looks for the tags `K` can still tell about an element: the child passed last, and
for each tag in `K` the first unread child (or a placeholder with a different tag). -/
def canon (K : List String) : Elem → Elem
  | ⟨tag, _, text, _, attrib, elements, next, line⟩ =>
    ⟨tag, none, text, none, attrib,
      (if next = 0 then none else (canonList K elements)[next - 1]?).toList ++
        K.map (fun t => (((canonList K elements).drop next).find? (fun c => c.tag = t)).getD { tag := t ++ "!" }),
      min next 1, line⟩
def canonList (K : List String) : List Elem → List Elem
  | [] => []
  | c :: cs => canon K c :: canonList K cs
end

variable (K : List String)

theorem canonList_eq (l : List Elem) : canonList K l = l.map (canon K) := by
  induction l with
  | nil => rfl
  | cons c l ih => simp [canonList, ih]

/-- The first child with the tag in a list. -/
def firstWith (t : String) (l : List Elem) : Option Elem := l.find? (fun c => c.tag = t)

theorem canon_tag (e : Elem) : (e.canon K).tag = e.tag := by cases e; rw [canon]

theorem firstWith_canon (t : String) (l : List Elem) :
    (l.map (canon K)).find? (fun c => c.tag = t) = (firstWith t l).map (canon K) := by
  rw [List.find?_map]
  unfold firstWith
  congr 2
  funext c
  simp [canon_tag]

theorem canon_eq (e : Elem) : e.canon K =
    ⟨e.tag, none, e.text, none, e.attrib, (e.lastSeen.map (canon K)).toList ++
      K.map (fun t => ((firstWith t e.unread).map (canon K)).getD { tag := t ++ "!" }), min e.next 1, e.line⟩ := by
  cases e with
  | mk tag nsmap text tail attrib elements next line =>
    rw [canon]
    simp only [canonList_eq, lastSeen, unread, ← List.map_drop, firstWith_canon, List.getElem?_map]
    by_cases h : next = 0 <;> simp [h]

/-- Every tag in `K` occurs at most once among the unread children, here and below (in children with tags in `K`). -/
inductive Uniq : Elem → Prop
  | mk {e : Elem} : (∀ t ∈ K, (e.unread.filter fun c => decide (c.tag = t)).length ≤ 1) →
      (∀ c ∈ e.elements, c.tag ∈ K → Uniq c) → Uniq e

theorem Uniq.count {e : Elem} (h : Uniq K e) {t : String} (ht : t ∈ K) :
    (e.unread.filter fun c => decide (c.tag = t)).length ≤ 1 := by
  obtain ⟨h1, _⟩ := h
  exact h1 t ht

theorem Uniq.kids {e : Elem} (h : Uniq K e) {c : Elem} (hc : c ∈ e.elements) (ht : c.tag ∈ K) : Uniq K c := by
  obtain ⟨_, h2⟩ := h
  exact h2 c hc ht

theorem firstWith_eq (t : String) (l : List Elem) : firstWith t l = (l.filter fun c => decide (c.tag = t)).head? := by
  simp [firstWith, List.head?_filter]

theorem firstWith_perm {t : String} {l l' : List Elem} (h : l.Perm l')
    (h1 : (l.filter fun c => decide (c.tag = t)).length ≤ 1) : firstWith t l = firstWith t l' := by
  rw [firstWith_eq, firstWith_eq]
  have hp := h.filter (fun c => decide (c.tag = t))
  cases hl : l.filter (fun c => decide (c.tag = t)) with
  | nil => rw [hl] at hp; rw [hp.nil_eq]
  | cons x xs =>
    rw [hl] at hp h1
    cases xs with
    | nil => rw [List.singleton_perm.1 hp]
    | cons y ys => simp at h1

/-- The relation. -/
def CanonRel (e1 e2 : Elem) : Prop := e1.canon K = e2.canon K ∧ (e1.Good ∧ e2.Good) ∧ Uniq K e1 ∧ Uniq K e2

theorem bang_ne (t : String) : t ++ "!" ≠ t := by
  intro h
  have := congrArg String.length h
  simp at this

/-- The relation, taken apart. -/
theorem canonRel_iff {e1 e2 : Elem} : CanonRel K e1 e2 ↔ ((e1.Good ∧ e2.Good) ∧ Uniq K e1 ∧ Uniq K e2) ∧ e1.tag = e2.tag ∧
    e1.text = e2.text ∧ e1.attrib = e2.attrib ∧ e1.line = e2.line ∧
    e1.lastSeen.map (canon K) = e2.lastSeen.map (canon K) ∧
    ∀ t ∈ K, (firstWith t e1.unread).map (canon K) = (firstWith t e2.unread).map (canon K) := by
  constructor
  · rintro ⟨h, ⟨h1, h2⟩, hu⟩
    rw [canon_eq, canon_eq] at h
    simp only [mk.injEq, true_and] at h
    obtain ⟨ht, hx, ha, he, hm, hl⟩ := h
    refine ⟨⟨⟨h1, h2⟩, hu⟩, ht, hx, ha, hl, ?_⟩
    have s1 := lastSeen_isSome h1
    have s2 := lastSeen_isSome h2
    have key : e1.lastSeen.map (canon K) = e2.lastSeen.map (canon K) ∧
        K.map (fun t => ((firstWith t e1.unread).map (canon K)).getD { tag := t ++ "!" }) =
        K.map (fun t => ((firstWith t e2.unread).map (canon K)).getD { tag := t ++ "!" }) := by
      cases l1 : e1.lastSeen with
      | none =>
        cases l2 : e2.lastSeen with
        | none => rw [l1, l2] at he; exact ⟨rfl, by simpa using he⟩
        | some c2 => rw [l1] at s1; rw [l2] at s2; simp at s1 s2; omega
      | some c1 =>
        cases l2 : e2.lastSeen with
        | none => rw [l1] at s1; rw [l2] at s2; simp at s1 s2; omega
        | some c2 =>
          rw [l1, l2] at he
          simp only [Option.map_some, Option.toList_some, List.singleton_append, List.cons.injEq] at he
          exact ⟨by simp [he.1], he.2⟩
    refine ⟨key.1, fun t ht' => ?_⟩
    have := (List.map_inj_left.1 key.2) t ht'
    have tg : ∀ {l : List Elem} {c : Elem}, firstWith t l = some c → c.tag = t := by
      intro l c h
      have := List.find?_some h
      simpa using this
    cases f1 : firstWith t e1.unread with
    | none =>
      cases f2 : firstWith t e2.unread with
      | none => rfl
      | some c2 =>
        rw [f1, f2] at this
        have := congrArg Elem.tag this
        simp [canon_tag, tg f2] at this
    | some c1 =>
      cases f2 : firstWith t e2.unread with
      | none =>
        rw [f1, f2] at this
        have := congrArg Elem.tag this
        simp [canon_tag, tg f1] at this
        exact absurd this.symm (bang_ne t)
      | some c2 => rw [f1, f2] at this; simpa using this
  · rintro ⟨⟨⟨h1, h2⟩, hu⟩, ht, hx, ha, hl, hs, hk⟩
    refine ⟨?_, ⟨h1, h2⟩, hu⟩
    have s1 := lastSeen_isSome h1
    have s2 := lastSeen_isSome h2
    have hm : min e1.next 1 = min e2.next 1 := by
      have := congrArg Option.isSome hs
      simp only [Option.isSome_map, s1, s2] at this
      by_cases h0 : e1.next = 0 <;> by_cases h0' : e2.next = 0 <;> simp_all <;> omega
    rw [canon_eq, canon_eq, ht, hx, ha, hl, hm, hs]
    have : K.map (fun t => ((firstWith t e1.unread).map (canon K)).getD { tag := t ++ "!" }) =
        K.map (fun t => ((firstWith t e2.unread).map (canon K)).getD { tag := t ++ "!" }) :=
      List.map_congr_left fun t ht => by rw [hk t ht]
    rw [this]

/-- Swapping two positions of a list, spelled out. -/
theorem swap_append (a pre : List Elem) (c : Elem) (post : List Elem) :
    ∃ rest, swap (a ++ (pre ++ c :: post)) a.length (a.length + pre.length) = a ++ c :: rest ∧ rest.Perm (pre ++ post) := by
  cases pre with
  | nil => exact ⟨post, by simp [swap_self], List.Perm.refl _⟩
  | cons p pre =>
    refine ⟨pre ++ p :: post, ?_, List.perm_middle⟩
    have hi : a.length < (a ++ (p :: pre ++ c :: post)).length := by simp
    have hj : a.length + (p :: pre).length < (a ++ (p :: pre ++ c :: post)).length := by simp
    rw [swap_eq hi hj]
    have g1 : (a ++ (p :: pre ++ c :: post))[a.length + (p :: pre).length] = c := by
      simp [List.getElem_append_right]
    have g2 : (a ++ (p :: pre ++ c :: post))[a.length] = p := by
      rw [List.getElem_append_right (by simp)]
      simp
    rw [g1, g2, List.set_append_right _ _ (by simp), List.set_append_right _ _ (by simp)]
    simp

/-- A hit of the unordered search: the found child is next (and passed if `step`), the other unread children are kept up
to order. -/
theorem unordered_hit {e : Elem} (hg : e.Good) {t : String} {i : Nat} (h : e.firstMatch t = some i) (step : Bool) :
    ∃ pre c post rest, e.unread = pre ++ c :: post ∧ c.tag = t ∧ (∀ x ∈ pre, x.tag ≠ t) ∧ rest.Perm (pre ++ post) ∧
      e.search t .unordered step = (some e.next,
        { e with elements := e.seen ++ c :: rest, next := if step then e.next + 1 else e.next }) := by
  obtain ⟨pre, c, post, h1, h2, h3, h4⟩ := firstMatch_split h
  obtain ⟨h5, h6⟩ := unread_split_getElem? hg h1
  obtain ⟨rest, h7, h8⟩ := swap_append e.seen pre c post
  refine ⟨pre, c, post, rest, h1, h3, h4, h8, ?_⟩
  simp only [search, unorderedSearch, h]
  rw [h2, show e.next = e.seen.length from h6.symm, h5, h7]

variable {K}

theorem uniq_congr {e e' : Elem} (h : Uniq K e) (h1 : e'.elements = e.elements) (h2 : e'.next = e.next) : Uniq K e' := by
  obtain ⟨h3, h4⟩ := h
  refine ⟨?_, by rw [h1]; exact h4⟩
  simp only [unread, h1, h2]
  exact h3

theorem good_congr {e e' : Elem} (h : e.Good) (h1 : e'.elements = e.elements) (h2 : e'.next = e.next) : e'.Good := by
  obtain ⟨h3, h4⟩ := h
  exact ⟨by rw [h1, h2]; exact h3, by rw [h1]; exact h4⟩

theorem canonRel_hit_last {e1 e2 c1 c2 : Elem} (h : CanonRel K e1 e2) (h1 : e1.lastSeen = some c1)
    (h2 : e2.lastSeen = some c2) (ht1 : c1.tag ∈ K) (ht2 : c2.tag ∈ K) : Hit (CanonRel K) e1 (e1.next - 1) e2 (e2.next - 1) := by
  have key : ∀ {e c : Elem}, e.lastSeen = some c → e.next ≠ 0 ∧ e.elements[e.next - 1]? = some c := by
    intro e c h
    unfold lastSeen at h
    split at h
    · cases h
    · exact ⟨by assumption, h⟩
  obtain ⟨n1, k1⟩ := key h1
  obtain ⟨n2, k2⟩ := key h2
  obtain ⟨⟨⟨g1, g2⟩, w1, w2⟩, ht, hx, ha, hl, hs, hu⟩ := (canonRel_iff K).1 h
  rw [h1, h2] at hs
  simp only [Option.map_some, Option.some.injEq] at hs
  refine ⟨c1, c2, k1, k2, ⟨hs, ⟨g1.child k1, g2.child k2⟩, w1.kids K (List.mem_of_getElem? k1) ht1,
    w2.kids K (List.mem_of_getElem? k2) ht2⟩, ?_⟩
  rintro c1' c2' ⟨h3, ⟨h4, h5⟩, h6, h7⟩ _ _
  rw [canonRel_iff]
  obtain ⟨a1, a2⟩ := setChild_last n1 k1 c1'
  obtain ⟨b1, b2⟩ := setChild_last n2 k2 c2'
  have uq : ∀ {e c' : Elem}, Uniq K e → Uniq K c' → (e.setChild (e.next - 1) c').unread = e.unread →
      Uniq K (e.setChild (e.next - 1) c') := by
    intro e c' hu hc' heq
    refine ⟨by rw [heq]; exact fun t ht => hu.count K ht, ?_⟩
    intro x hx htx
    rcases List.mem_or_eq_of_mem_set hx with hx | rfl
    · exact hu.kids K hx htx
    · exact hc'
  refine ⟨⟨⟨pruneRel_good_setChild g1 h4 _, pruneRel_good_setChild g2 h5 _⟩, uq w1 h6 a2, uq w2 h7 b2⟩, ht, hx, ha, hl, ?_, ?_⟩
  · rw [a1, b1]; simp [h3]
  · rw [a2, b2]; exact hu

theorem firstWith_none_iff {t : String} {l : List Elem} : firstWith t l = none ↔ ∀ c ∈ l, c.tag ≠ t := by
  simp [firstWith]

/-- Splitting at the unique child with the tag. -/
theorem firstWith_split {t : String} {pre : List Elem} {c : Elem} {post : List Elem} (hc : c.tag = t)
    (hpre : ∀ x ∈ pre, x.tag ≠ t) : firstWith t (pre ++ c :: post) = some c := by
  have : firstWith t pre = none := firstWith_none_iff.2 hpre
  simp only [firstWith, List.find?_append] at this ⊢
  simp [this, hc]

/-- The state after a hit: what it still contains for each tag. -/
theorem hit_rest {e : Elem} (hu : Uniq K e) {t : String} (ht : t ∈ K) {pre : List Elem} {c : Elem} {post rest : List Elem}
    (h : e.unread = pre ++ c :: post) (hc : c.tag = t) (hp : rest.Perm (pre ++ post)) (t' : String) (ht' : t' ∈ K) :
    firstWith t' rest = (if t' = t then none else firstWith t' e.unread) ∧
      (rest.filter fun c => decide (c.tag = t')).length ≤ 1 := by
  have h1 := hu.count K ht'
  have h2 := hu.count K ht
  rw [h] at h1 h2
  have h3 : ((pre ++ post).filter fun c => decide (c.tag = t')).length ≤ 1 := by
    refine Nat.le_trans ?_ h1
    simp only [List.filter_append, List.length_append, List.filter_cons]
    split <;> simp <;> omega
  have h4 := (hp.filter (fun c => decide (c.tag = t'))).length_eq
  refine ⟨?_, by omega⟩
  rw [firstWith_perm hp (by omega)]
  split
  · rename_i heq
    subst heq
    rw [firstWith_none_iff]
    intro x hx hxt
    simp only [List.filter_append, List.length_append, List.filter_cons, hc, decide_true, if_true, List.length_cons] at h2
    have h5 : x ∈ (pre ++ post).filter fun c => decide (c.tag = t') := List.mem_filter.2 ⟨hx, by simp [hxt]⟩
    have h6 := List.length_pos_of_mem h5
    simp only [List.filter_append, List.length_append] at h6
    omega
  · rename_i hne
    rw [h]
    simp only [firstWith, List.find?_append, List.find?_cons]
    have : ¬ c.tag = t' := fun h => hne (by rw [← h, hc])
    simp [this]

theorem firstMatch_none_firstWith {e : Elem} {t : String} : e.firstMatch t = none ↔ firstWith t e.unread = none := by
  rw [firstMatch_none_iff, firstWith_none_iff]; rfl

theorem canonRel_search {e1 e2 : Elem} (h : CanonRel K e1 e2) {t : String} (ht : t ∈ K) (step : Bool) :
    SearchRel (CanonRel K) (e1.search t .unordered step) (e2.search t .unordered step) := by
  obtain ⟨⟨⟨g1, g2⟩, w1, w2⟩, htag, hx, ha, hl, hs, hu⟩ := (canonRel_iff K).1 h
  have hut := hu t ht
  cases m1 : e1.firstMatch t with
  | none =>
    have n1 := firstMatch_none_firstWith.1 m1
    have n2 : e2.firstMatch t = none := by
      rw [firstMatch_none_firstWith]
      rw [n1] at hut
      cases hf : firstWith t e2.unread with
      | none => rfl
      | some c => rw [hf] at hut; simp at hut
    simp only [search, unorderedSearch, m1, n2]
    exact h
  | some i1 =>
    cases m2 : e2.firstMatch t with
    | none =>
      have n2 := firstMatch_none_firstWith.1 m2
      have n1 : e1.firstMatch t = none := by
        rw [firstMatch_none_firstWith]
        rw [n2] at hut
        cases hf : firstWith t e1.unread with
        | none => rfl
        | some c => rw [hf] at hut; simp at hut
      rw [n1] at m1; cases m1
    | some i2 =>
      obtain ⟨pre1, c1, post1, rest1, u1, t1, p1, q1, s1⟩ := unordered_hit g1 m1 step
      obtain ⟨pre2, c2, post2, rest2, u2, t2, p2, q2, s2⟩ := unordered_hit g2 m2 step
      have hcc : c1.canon K = c2.canon K := by
        rw [u1, u2, firstWith_split t1 p1, firstWith_split t2 p2] at hut
        simpa using hut
      obtain ⟨d1, l1⟩ := unread_split_getElem? g1 u1
      obtain ⟨d2, l2⟩ := unread_split_getElem? g2 u2
      -- facts about one side
      have side : ∀ {e c : Elem} {pre post rest : List Elem}, e.Good → Uniq K e → e.unread = pre ++ c :: post → c.tag = t →
          rest.Perm (pre ++ post) → e.elements = e.seen ++ (pre ++ c :: post) → e.seen.length = e.next →
          ∀ c' : Elem, c'.tag = t → c'.Good → Uniq K c' →
          (∀ n : Nat, n = e.next ∨ n = e.next + 1 → ({ e with elements := e.seen ++ c' :: rest, next := n } : Elem).Good ∧
            Uniq K ({ e with elements := e.seen ++ c' :: rest, next := n } : Elem)) ∧
          ({ e with elements := e.seen ++ c' :: rest, next := e.next + 1 } : Elem).lastSeen = some c' ∧
          ({ e with elements := e.seen ++ c' :: rest, next := e.next + 1 } : Elem).unread = rest ∧
          ({ e with elements := e.seen ++ c' :: rest, next := e.next } : Elem).lastSeen = e.lastSeen ∧
          ({ e with elements := e.seen ++ c' :: rest, next := e.next } : Elem).unread = c' :: rest := by
        intro e c pre post rest g w u tc q d l c' htc' hc' wc'
        have r1 : (e.seen ++ c' :: rest).drop e.next = c' :: rest := by rw [← l]; simp
        have r2 : (e.seen ++ c' :: rest).drop (e.next + 1) = rest := by
          rw [← l, show e.seen.length + 1 = (e.seen ++ [c']).length by simp,
            show e.seen ++ c' :: rest = (e.seen ++ [c']) ++ rest by simp]
          exact List.drop_left
        have gk : ∀ x ∈ e.seen ++ c' :: rest, x.Good ∧ (x.tag ∈ K → Uniq K x) := by
          intro x hx
          have : x = c' ∨ x ∈ e.elements := by
            rw [d]
            simp only [List.mem_append, List.mem_cons] at hx ⊢
            rcases hx with hx | hx | hx
            · exact .inr (.inl hx)
            · exact .inl hx
            · have := (q.mem_iff).1 hx
              simp only [List.mem_append] at this
              rcases this with h | h
              · exact .inr (.inr (.inl h))
              · exact .inr (.inr (.inr (.inr h)))
          rcases this with rfl | hx
          · exact ⟨hc', fun _ => wc'⟩
          · exact ⟨good_mem g hx, w.kids K hx⟩
        refine ⟨?_, ?_, r2, ?_, r1⟩
        · intro n hn
          refine ⟨⟨?_, fun x hx => (gk x hx).1⟩, ⟨?_, fun x hx => (gk x hx).2⟩⟩
          · show n ≤ (e.seen ++ c' :: rest).length
            simp only [List.length_append, List.length_cons, l]
            omega
          · intro t' ht'
            show (((e.seen ++ c' :: rest).drop n).filter fun c => decide (c.tag = t')).length ≤ 1
            obtain ⟨_, hr⟩ := hit_rest w ht u tc q t' ht'
            rcases hn with rfl | rfl
            · rw [r1]
              by_cases htt : t' = t
              · have h0 : firstWith t' rest = none := by
                  have := (hit_rest w ht u tc q t' ht').1
                  rw [if_pos htt] at this
                  exact this
                have h1 : rest.filter (fun c => decide (c.tag = t')) = [] := by
                  rw [List.filter_eq_nil_iff]
                  intro x hx
                  simpa using firstWith_none_iff.1 h0 x hx
                simp [List.filter_cons, h1]
                split <;> simp
              · have : ¬ c'.tag = t' := fun hh => htt (by rw [← hh, htc'])
                simp only [List.filter_cons, this, decide_false, Bool.false_eq_true, if_false]
                exact hr
            · rw [r2]; exact hr
        · show (if e.next + 1 = 0 then none else (e.seen ++ c' :: rest)[e.next + 1 - 1]?) = some c'
          rw [if_neg (by omega), ← l]
          simp
        · show (if e.next = 0 then none else (e.seen ++ c' :: rest)[e.next - 1]?) = e.lastSeen
          unfold lastSeen
          by_cases h0 : e.next = 0
          · simp [h0]
          · rw [if_neg h0, if_neg h0, d, List.getElem?_append_left (by omega), List.getElem?_append_left (by omega)]
      have G1 : c1.Good ∧ Uniq K c1 := by
        have : c1 ∈ e1.elements := by rw [d1]; simp
        exact ⟨good_mem g1 this, w1.kids K this (t1 ▸ ht)⟩
      have G2 : c2.Good ∧ Uniq K c2 := by
        have : c2 ∈ e2.elements := by rw [d2]; simp
        exact ⟨good_mem g2 this, w2.kids K this (t2 ▸ ht)⟩
      have S1 := fun c' => side g1 w1 u1 t1 q1 d1 l1 c'
      have S2 := fun c' => side g2 w2 u2 t2 q2 d2 l2 c'
      rw [s1, s2]
      cases step with
      | true =>
        simp only [if_true]
        obtain ⟨A1, A2, A3, _, _⟩ := S1 c1 t1 G1.1 G1.2
        obtain ⟨B1, B2, B3, _, _⟩ := S2 c2 t2 G2.1 G2.2
        have hE : CanonRel K { e1 with elements := e1.seen ++ c1 :: rest1, next := e1.next + 1 }
            { e2 with elements := e2.seen ++ c2 :: rest2, next := e2.next + 1 } := by
          rw [canonRel_iff]
          refine ⟨⟨⟨(A1 _ (.inr rfl)).1, (B1 _ (.inr rfl)).1⟩, (A1 _ (.inr rfl)).2, (B1 _ (.inr rfl)).2⟩, htag, hx, ha, hl, ?_, ?_⟩
          · rw [A2, B2]; simp [hcc]
          · intro t' ht'
            rw [A3, B3, (hit_rest w1 ht u1 t1 q1 t' ht').1, (hit_rest w2 ht u2 t2 q2 t' ht').1]
            split
            · rfl
            · exact hu t' ht'
        exact ⟨hE, canonRel_hit_last hE A2 B2 (t1 ▸ ht) (t2 ▸ ht)⟩
      | false =>
        simp only [Bool.false_eq_true, if_false]
        have hE : ∀ c1' c2' : Elem, CanonRel K c1' c2' → c1'.tag = t → c2'.tag = t →
            CanonRel K { e1 with elements := e1.seen ++ c1' :: rest1, next := e1.next }
            { e2 with elements := e2.seen ++ c2' :: rest2, next := e2.next } := by
          rintro c1' c2' ⟨h3, ⟨h4, h5⟩, h6, h7⟩ ht1 ht2
          obtain ⟨A1, _, _, A4, A5⟩ := S1 c1' ht1 h4 h6
          obtain ⟨B1, _, _, B4, B5⟩ := S2 c2' ht2 h5 h7
          rw [canonRel_iff]
          refine ⟨⟨⟨(A1 _ (.inl rfl)).1, (B1 _ (.inl rfl)).1⟩, (A1 _ (.inl rfl)).2, (B1 _ (.inl rfl)).2⟩, htag, hx, ha, hl, ?_, ?_⟩
          · rw [A4, B4]; exact hs
          · intro t' ht'
            rw [A5, B5]
            by_cases htt : t' = t
            · subst htt
              simp [firstWith, ht1, ht2, h3]
            · have n1 : ¬ c1'.tag = t' := fun hh => htt (by rw [← hh, ht1])
              have n2 : ¬ c2'.tag = t' := fun hh => htt (by rw [← hh, ht2])
              have k1 := (hit_rest w1 ht u1 t1 q1 t' ht').1
              have k2 := (hit_rest w2 ht u2 t2 q2 t' ht').1
              rw [if_neg htt] at k1 k2
              have := hu t' ht'
              rw [← k1, ← k2] at this
              simpa [firstWith, n1, n2] using this
        have i1 : (e1.seen ++ c1 :: rest1)[e1.next]? = some c1 := by rw [← l1]; simp
        have i2 : (e2.seen ++ c2 :: rest2)[e2.next]? = some c2 := by rw [← l2]; simp
        refine ⟨hE c1 c2 ⟨hcc, ⟨G1.1, G2.1⟩, G1.2, G2.2⟩ t1 t2, c1, c2, i1, i2, ⟨hcc, ⟨G1.1, G2.1⟩, G1.2, G2.2⟩, ?_⟩
        intro c1' c2' hc' ht1 ht2
        have := hE c1' c2' hc' (ht1.trans t1) (ht2.trans t2)
        have z1 : (e1.seen ++ c1 :: rest1).set e1.next c1' = e1.seen ++ c1' :: rest1 := by
          rw [List.set_append_right _ _ (by omega)]; simp [l1]
        have z2 : (e2.seen ++ c2 :: rest2).set e2.next c2' = e2.seen ++ c2' :: rest2 := by
          rw [List.set_append_right _ _ (by omega)]; simp [l2]
        simp only [setChild, z1, z2]
        exact this

theorem canonRel_find {e1 e2 : Elem} (h : CanonRel K e1 e2) {t : String} (ht : t ∈ K) :
    (∃ x, e1.findElement t .unordered = .error x ∧ e2.findElement t .unordered = .error x) ∨
    (∃ r1 r2, e1.findElement t .unordered = .ok r1 ∧ e2.findElement t .unordered = .ok r2 ∧
      SearchRel (CanonRel K) r1 r2) := by
  obtain ⟨⟨⟨g1, g2⟩, w1, w2⟩, htag, hx, ha, hl, hs, hu⟩ := (canonRel_iff K).1 h
  right
  unfold findElement
  rw [lookBehind_eq g1, lookBehind_eq g2]
  have hsr := canonRel_search h ht true
  cases l1 : e1.lastSeen with
  | none =>
    cases l2 : e2.lastSeen with
    | some c => rw [l1, l2] at hs; simp at hs
    | none => exact ⟨_, _, rfl, rfl, hsr⟩
  | some c1 =>
    cases l2 : e2.lastSeen with
    | none => rw [l1, l2] at hs; simp at hs
    | some c2 =>
      have htt : c1.tag = c2.tag := by
        rw [l1, l2] at hs
        simp only [Option.map_some, Option.some.injEq] at hs
        rw [← canon_tag K c1, hs, canon_tag]
      by_cases hc : c1.tag = t
      · have hc2 : c2.tag = t := htt ▸ hc
        simp only [hc, hc2, decide_true]
        exact ⟨_, _, rfl, rfl, h, canonRel_hit_last h l1 l2 (hc ▸ ht) (hc2 ▸ ht)⟩
      · have hc2 : ¬ c2.tag = t := htt ▸ hc
        simp only [hc, hc2, decide_false]
        exact ⟨_, _, rfl, rfl, hsr⟩

end Elem

open Elem

/-- In unordered mode, trees that differ in foreign elements and the order of children are read alike, if every known tag
occurs at most once among the children of an element. -/
theorem canonSim (env : Env) (eas : Bool) (K : List String) (hforbid : env.NoForbid) (hno : env.NoValidators) :
    Sim env env eas (.tags fun t m => t ∈ K ∧ m = .unordered) False False False (CanonRel K) (fun _ => True) id where
  models := rfl
  line e1 e2 h := ((canonRel_iff K).1 h).2.2.2.2.1
  lines sm1 sm2 h loc := lines_id h loc
  text e1 e2 _ h := by
    obtain ⟨⟨⟨g1, g2⟩, w1, w2⟩, ht, hx, ha, hl, hs, hu⟩ := (canonRel_iff K).1 h
    exact ⟨by rw [hx], trivial, (canonRel_iff K).2
      ⟨⟨⟨good_congr g1 rfl rfl, good_congr g2 rfl rfl⟩, uniq_congr w1 rfl rfl, uniq_congr w2 rfl rfl⟩, ht, rfl, ha, hl, hs, hu⟩⟩
  owns _ _ _ _ := trivial
  nil := trivial
  attrib e1 e2 k _ h := by
    obtain ⟨⟨⟨g1, g2⟩, w1, w2⟩, ht, hx, ha, hl, hs, hu⟩ := (canonRel_iff K).1 h
    rw [canonRel_iff]
    refine ⟨by rw [popAttrib_fst, popAttrib_fst, getAttrib, getAttrib, ha], fun _ _ => trivial, ?_⟩
    unfold popAttrib
    rw [ha]
    split
    · exact ⟨⟨⟨good_congr g1 rfl rfl, good_congr g2 rfl rfl⟩, uniq_congr w1 rfl rfl, uniq_congr w2 rfl rfl⟩,
        ht, hx, rfl, hl, hs, hu⟩
    · exact ⟨⟨⟨g1, g2⟩, w1, w2⟩, ht, hx, ha, hl, hs, hu⟩
  attributes _ e1 e2 h := by
    obtain ⟨⟨⟨g1, g2⟩, w1, w2⟩, ht, hx, ha, hl, hs, hu⟩ := (canonRel_iff K).1 h
    exact ⟨ha, fun _ _ _ => trivial, (canonRel_iff K).2
      ⟨⟨⟨good_congr g1 rfl rfl, good_congr g2 rfl rfl⟩, uniq_congr w1 rfl rfl, uniq_congr w2 rfl rfl⟩, ht, hx, rfl, hl, hs, hu⟩⟩
  search e1 e2 t m step hT h := by
    obtain ⟨ht, rfl⟩ := hT
    exact canonRel_search h ht step
  find e1 e2 t m hT h := by
    obtain ⟨ht, rfl⟩ := hT
    exact canonRel_find h ht
  step hu := hu.elim
  snapshot e1 e2 s1 s2 h hs' := by
    obtain ⟨⟨⟨g1, g2⟩, w1, w2⟩, ht, hx, ha, hl, hs, hu⟩ := (canonRel_iff K).1 hs'
    obtain ⟨_, _, _, _, hl', _⟩ := (canonRel_iff K).1 h
    exact (canonRel_iff K).2 ⟨⟨⟨good_congr g1 rfl rfl, good_congr g2 rfl rfl⟩, uniq_congr w1 rfl rfl, uniq_congr w2 rfl rfl⟩,
      ht, hx, ha, hl', hs, hu⟩
  rawElem hr := hr.elim
  none := trivial
  list _ _ := trivial
  model _ _ _ := trivial
  validate cls m d _ _ := rfl
  extra hf := hf.elim
  forbids cls m hm hf := by rw [hforbid cls m hm] at hf; cases hf
  validators cls m fs hm hb f hf v hv := by rw [hno cls m fs hm hb f hf] at hv; cases hv
  keeps cls m fs hm hb f hf v hv := by rw [hno cls m fs hm hb f hf] at hv; cases hv

end PXml
