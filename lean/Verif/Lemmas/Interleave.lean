import Verif.Lemmas.Para

/-! Threads whose programs do not depend on the addresses of the objects they create do not interfere. -/

namespace PXml
namespace Conc

open Heap (Addr Obj NodeObj HVal Cell Store)

variable {α β : Type} {R : Nat} {ρ ρ' : World}

theorem NodeRel.mono {n n' : NodeObj} (h : NodeRel R ρ n n') (hs : ρ ⊆ ρ') : NodeRel R ρ' n n' := by
  cases h with
  | elem h1 h2 => exact .elem (h1.mono hs) (h2.imp fun _ _ h => h.mono hs)
  | comment => exact .comment
  | pi => exact .pi

theorem CellRel.mono {c c' : Cell} (h : CellRel R ρ c c') (hs : ρ ⊆ ρ') : CellRel R ρ' c c' := by
  cases h with
  | obj h => exact .obj (h.mono hs)
  | dict => exact .dict
  | list h => exact .list (h.imp fun _ _ h => h.mono hs)
  | node h => exact .node (h.mono hs)

/-- The objects of a thread that runs alone, in the store `s`, correspond to its objects in the store `h`. -/
structure Worlds (h0 : Store) (ρ : World) (s h : Store) : Prop where
  closed : ∀ (a : Addr) (c : Cell), h0[a]? = some c → c.Below h0.length
  alone : ∀ a < h0.length, s[a]? = h0[a]?
  shared : ∀ a < h0.length, h[a]? = h0[a]?
  lenS : h0.length ≤ s.length
  lenH : h0.length ≤ h.length
  cells : ∀ a b, Own ρ a b → h0.length ≤ a ∧ h0.length ≤ b ∧
    ∃ c c', s[a]? = some c ∧ h[b]? = some c' ∧ CellRel h0.length ρ c c'
  fwd : ∀ a b b', Own ρ a b → Own ρ a b' → b = b'
  bwd : ∀ a a' b, Own ρ a b → Own ρ a' b → a = a'

/-- Nothing the thread created has changed. -/
theorem Worlds.frame {h0 s h h' : Store} (w : Worlds h0 ρ s h) (hl : h0.length ≤ h'.length)
    (hs : ∀ a < h0.length, h'[a]? = h[a]?) (ho : ∀ a b, Own ρ a b → h'[b]? = h[b]?) : Worlds h0 ρ s h' where
  closed := w.closed
  alone := w.alone
  shared := fun a ha => (hs a ha).trans (w.shared a ha)
  lenS := w.lenS
  lenH := hl
  cells := fun a b hab => by
    obtain ⟨h1, h2, c, c', h3, h4, h5⟩ := w.cells a b hab
    exact ⟨h1, h2, c, c', h3, (ho a b hab).trans h4, h5⟩
  fwd := w.fwd
  bwd := w.bwd

/-- What a step of a thread does to the store: it changes objects the thread created, and creates one at most. -/
structure Effect (h0 : Store) (ρ ρ' : World) (h h' : Store) : Prop where
  sub : ρ ⊆ ρ'
  len : h.length ≤ h'.length
  shared : ∀ a < h0.length, h'[a]? = h[a]?
  others : ∀ b < h.length, (∀ a, ¬ Own ρ a b) → h'[b]? = h[b]?
  new : ∀ a b, Own ρ' a b → Own ρ a b ∨ h.length = b
  below : ∀ a b, Own ρ' a b → b < h'.length

theorem lt_of_get {h : Store} {a : Addr} {c : Cell} (hc : h[a]? = some c) : a < h.length :=
  (List.getElem?_eq_some_iff.mp hc).1

theorem Worlds.step {Q : World → α → β → Prop} {h0 s h : Store} {q : Prog α} {p : Prog β} (w : Worlds h0 ρ s h)
    (r : PRel h0.length Q ρ q p) :
    ∃ ρ', Worlds h0 ρ' (q.step s).2 (p.step h).2 ∧ PRel h0.length Q ρ' (q.step s).1 (p.step h).1 ∧
      Effect h0 ρ ρ' h (p.step h).2 := by
  have below : ∀ a b, Own ρ a b → b < h.length := fun a b hab => by
    obtain ⟨_, _, _, _, _, h4, _⟩ := w.cells a b hab
    exact lt_of_get h4
  have same : Effect h0 ρ ρ h h :=
    ⟨fun _ h => h, Nat.le_refl _, fun _ _ => rfl, fun _ _ _ => rfl, fun _ _ h => .inl h, below⟩
  cases r with
  | ret hq => exact ⟨ρ, w, .ret hq, same⟩
  | own ho hk =>
    obtain ⟨_, _, c, c', h3, h4, h5⟩ := w.cells _ _ ho
    refine ⟨ρ, w, ?_, same⟩
    simp only [Prog.step, h3, h4]
    exact hk _ _ h5
  | @shared _ a k k' ha hk =>
    refine ⟨ρ, w, ?_, same⟩
    obtain ⟨c, hc⟩ : ∃ c, h0[a]? = some c := ⟨h0[a], List.getElem?_eq_getElem ha⟩
    simp only [Prog.step, w.alone a ha, w.shared a ha, hc]
    exact hk c (w.closed a c hc)
  | @store _ a a' c c' k k' ho hc hk =>
    obtain ⟨ha, ha', d, d', h3, h4, _⟩ := w.cells _ _ ho
    have hla := lt_of_get h3
    have hla' := lt_of_get h4
    refine ⟨ρ, ?_, hk, ?_⟩
    · refine ⟨w.closed, ?_, ?_, ?_, ?_, ?_, w.fwd, w.bwd⟩
      · intro x hx
        simp only [Prog.step]
        rw [List.getElem?_set_ne (by omega)]
        exact w.alone x hx
      · intro x hx
        simp only [Prog.step]
        rw [List.getElem?_set_ne (by omega)]
        exact w.shared x hx
      · simpa [Prog.step] using w.lenS
      · simpa [Prog.step] using w.lenH
      · intro x y hxy
        obtain ⟨hx, hy, u, v, h6, h7, h8⟩ := w.cells x y hxy
        refine ⟨hx, hy, ?_⟩
        simp only [Prog.step]
        by_cases hxa : a = x
        · subst hxa
          have := w.fwd _ _ _ ho hxy
          subst this
          exact ⟨c, c', by simp [hla], by simp [hla'], hc⟩
        · have hya : a' ≠ y := fun hya => hxa (by subst hya; exact w.bwd _ _ _ ho hxy)
          exact ⟨u, v, by rw [List.getElem?_set_ne hxa, h6], by rw [List.getElem?_set_ne hya, h7], h8⟩
    · refine ⟨fun _ h => h, by simp [Prog.step], ?_, ?_, fun _ _ h => .inl h, ?_⟩
      · intro x hx
        simp only [Prog.step]
        rw [List.getElem?_set_ne (by omega)]
      · intro b _ hb
        simp only [Prog.step]
        rw [List.getElem?_set_ne]
        intro hab
        exact hb a (by rw [← hab]; exact ho)
      · simpa [Prog.step] using below
  | @alloc _ c c' k k' hc hk =>
    refine ⟨(s.length, h.length) :: ρ, ?_, hk _ _, ?_⟩
    · have hsub : ρ ⊆ (s.length, h.length) :: ρ := List.subset_cons_self ..
      have old : ∀ x y, Own ρ x y → x < s.length ∧ y < h.length := fun x y hxy => by
        obtain ⟨_, _, u, v, h6, h7, _⟩ := w.cells x y hxy
        exact ⟨lt_of_get h6, lt_of_get h7⟩
      refine ⟨w.closed, ?_, ?_, ?_, ?_, ?_, ?_, ?_⟩
      · intro x hx
        simp only [Prog.step]
        rw [List.getElem?_append_left (Nat.lt_of_lt_of_le hx w.lenS)]
        exact w.alone x hx
      · intro x hx
        simp only [Prog.step]
        rw [List.getElem?_append_left (Nat.lt_of_lt_of_le hx w.lenH)]
        exact w.shared x hx
      · have := w.lenS; simp [Prog.step]; omega
      · have := w.lenH; simp [Prog.step]; omega
      · intro x y hxy
        simp only [Prog.step]
        rcases List.mem_cons.mp hxy with hxy | hxy
        · cases hxy
          exact ⟨w.lenS, w.lenH, c, c', by simp, by simp, hc.mono hsub⟩
        · obtain ⟨hx, hy, u, v, h6, h7, h8⟩ := w.cells x y hxy
          exact ⟨hx, hy, u, v, by rw [List.getElem?_append_left (lt_of_get h6), h6],
            by rw [List.getElem?_append_left (lt_of_get h7), h7], h8.mono hsub⟩
      · intro x y y' h1 h2
        rcases List.mem_cons.mp h1 with h1 | h1 <;> rcases List.mem_cons.mp h2 with h2 | h2
        · cases h1; cases h2; rfl
        · cases h1; exact absurd (old _ _ h2).1 (Nat.lt_irrefl _)
        · cases h2; exact absurd (old _ _ h1).1 (Nat.lt_irrefl _)
        · exact w.fwd _ _ _ h1 h2
      · intro x x' y h1 h2
        rcases List.mem_cons.mp h1 with h1 | h1 <;> rcases List.mem_cons.mp h2 with h2 | h2
        · cases h1; cases h2; rfl
        · cases h1; exact absurd (old _ _ h2).2 (Nat.lt_irrefl _)
        · cases h2; exact absurd (old _ _ h1).2 (Nat.lt_irrefl _)
        · exact w.bwd _ _ _ h1 h2
    · refine ⟨List.subset_cons_self .., by simp [Prog.step], ?_, ?_, ?_, ?_⟩
      · intro x hx
        simp only [Prog.step]
        rw [List.getElem?_append_left (Nat.lt_of_lt_of_le hx w.lenH)]
      · intro b hb _
        simp only [Prog.step]
        rw [List.getElem?_append_left hb]
      · intro x y hxy
        rcases List.mem_cons.mp hxy with hxy | hxy
        · cases hxy; exact .inr rfl
        · exact .inl hxy
      · intro x y hxy
        simp only [Prog.step, List.length_append, List.length_cons, List.length_nil]
        rcases List.mem_cons.mp hxy with hxy | hxy
        · cases hxy; exact Nat.lt_succ_self _
        · exact Nat.lt_succ_of_lt (below _ _ hxy)

theorem run_step (q : Prog α) (s : Store) : (q.step s).1.run (q.step s).2 = q.run s := by cases q <;> rfl

theorem steps_step (q : Prog α) (s : Store) : (q.step s).1.steps (q.step s).2 = q.steps s - 1 := by cases q <;> simp [Prog.step, Prog.steps]

/-- Where the threads are, compared with runs of each of them alone. -/
structure Inv (Q : World → α → α → Prop) (h0 : Store) (ps : List (Prog α)) (done : List Nat) (c : Config α) : Prop where
  length : c.threads.length = ps.length
  lenH : h0.length ≤ c.h.length
  shared : ∀ a < h0.length, c.h[a]? = h0[a]?
  threads : ∃ W : Nat → World,
    (∀ (i : Nat) (q0 p : Prog α), ps[i]? = some q0 → c.threads[i]? = some p → ∃ q s, Worlds h0 (W i) s c.h ∧
      PRel h0.length Q (W i) q p ∧ q.run s = q0.run h0 ∧ q.steps s = q0.steps h0 - done.count i) ∧
    ∀ i j a a' b, i < ps.length → j < ps.length → i ≠ j → Own (W i) a b → ¬ Own (W j) a' b

theorem Inv.init {Q : World → α → α → Prop} {h0 : Store} (hc : ∀ (a : Addr) (c : Cell), h0[a]? = some c → c.Below h0.length)
    {ps : List (Prog α)} (hp : ∀ p ∈ ps, PRel h0.length Q [] p p) : Inv Q h0 ps [] ⟨ps, h0⟩ where
  length := rfl
  lenH := Nat.le_refl _
  shared := fun _ _ => rfl
  threads := by
    refine ⟨fun _ => [], ?_, fun _ _ _ _ _ _ _ _ h => by cases h⟩
    intro i q0 p h1 h2
    rw [h1] at h2
    cases h2
    refine ⟨q0, h0, ⟨hc, fun _ _ => rfl, fun _ _ => rfl, Nat.le_refl _, Nat.le_refl _, ?_, ?_, ?_⟩,
      hp q0 (List.mem_of_getElem? h1), rfl, by simp⟩
    · intro _ _ h; cases h
    · intro _ _ _ h; cases h
    · intro _ _ _ h; cases h

theorem Inv.step {Q : World → α → α → Prop} {h0 : Store} {ps : List (Prog α)} {done : List Nat} {c : Config α}
    (v : Inv Q h0 ps done c) (i : Nat) : Inv Q h0 ps (i :: done) (c.step i) := by
  obtain ⟨hlen, hlh, hsh, W, hT, hdis⟩ := v
  unfold Config.step
  cases hp : c.threads[i]? with
  | none =>
    refine ⟨hlen, hlh, hsh, W, ?_, hdis⟩
    intro j q0 p h1 h2
    have hij : i ≠ j := by rintro rfl; rw [hp] at h2; cases h2
    obtain ⟨q, s, hw, hr, e1, e2⟩ := hT j q0 p h1 h2
    exact ⟨q, s, hw, hr, e1, by rw [List.count_cons_of_ne hij, e2]⟩
  | some p =>
    have hi : i < ps.length := by rw [← hlen]; exact (List.getElem?_eq_some_iff.mp hp).1
    obtain ⟨q0, hq0⟩ : ∃ q0, ps[i]? = some q0 := ⟨ps[i], List.getElem?_eq_getElem hi⟩
    obtain ⟨q, s, hw, hr, e1, e2⟩ := hT i q0 p hq0 hp
    obtain ⟨ρ', hw', hr', eff⟩ := hw.step hr
    have hown : ∀ j a b, j < ps.length → Own (W j) a b → b < c.h.length := by
      intro j a b hj hab
      obtain ⟨p', hp'⟩ : ∃ p', c.threads[j]? = some p' := ⟨c.threads[j], List.getElem?_eq_getElem (hlen ▸ hj)⟩
      obtain ⟨_, _, hwj, _⟩ := hT j ps[j] p' (List.getElem?_eq_getElem hj) hp'
      obtain ⟨_, _, _, _, _, h4, _⟩ := hwj.cells a b hab
      exact lt_of_get h4
    have hfresh : ∀ j a a' b, j < ps.length → i ≠ j → Own ρ' a b → ¬ Own (W j) a' b := by
      intro j a a' b hj hij h1 h2
      rcases eff.new a b h1 with h1 | h1
      · exact hdis i j a a' b hi hj hij h1 h2
      · exact Nat.lt_irrefl b (Nat.lt_of_lt_of_eq (hown j a' b hj h2) h1)
    refine ⟨by simpa using hlen, Nat.le_trans hlh eff.len, fun a ha => (eff.shared a ha).trans (hsh a ha),
      fun j => if j = i then ρ' else W j, ?_, ?_⟩
    · intro j q1 p1 h1 h2
      by_cases hij : i = j
      · subst hij
        rw [hq0] at h1
        cases h1
        simp only [List.getElem?_set_self (List.getElem?_eq_some_iff.mp hp).1] at h2
        cases h2
        refine ⟨(q.step s).1, (q.step s).2, by simpa using hw', by simpa using hr', by rw [run_step, e1], ?_⟩
        rw [steps_step, e2, List.count_cons_self]
        omega
      · rw [List.getElem?_set_ne hij] at h2
        obtain ⟨q2, s2, hw2, hr2, e3, e4⟩ := hT j q1 p1 h1 h2
        have hj : j < ps.length := (List.getElem?_eq_some_iff.mp h1).1
        have hji : j ≠ i := fun h => hij h.symm
        refine ⟨q2, s2, ?_, by simpa [hji] using hr2, e3, by rw [List.count_cons_of_ne hij, e4]⟩
        simp only [hji, if_false]
        refine hw2.frame (Nat.le_trans hlh eff.len) eff.shared ?_
        intro a b hab
        exact eff.others b (hown j a b hj hab) fun a' ha' => hdis i j a' a b hi hj hij ha' hab
    · intro j k a a' b hj hk hjk h1 h2
      simp only at h1 h2
      by_cases hji : j = i
      · subst hji
        simp only [if_true] at h1
        rw [if_neg (fun h => hjk h.symm)] at h2
        exact hfresh k a a' b hk hjk h1 h2
      · rw [if_neg hji] at h1
        by_cases hki : k = i
        · subst hki
          simp only [if_true] at h2
          exact hfresh j a' a b hj (fun h => hjk h.symm) h2 h1
        · rw [if_neg hki] at h2
          exact hdis j k a a' b hj hk hjk h1 h2

theorem Inv.runs {Q : World → α → α → Prop} {h0 : Store} {ps : List (Prog α)} (schedule : List Nat) {done : List Nat} {c : Config α}
    (v : Inv Q h0 ps done c) : Inv Q h0 ps (schedule.reverse ++ done) (c.runs schedule) := by
  induction schedule generalizing done c with
  | nil => exact v
  | cons i is ih =>
    have := ih (v.step i)
    simpa [Config.runs] using this

theorem steps_zero {q : Prog α} {s : Store} (h : q.steps s = 0) : ∃ x, q = .ret x := by
  cases q with
  | ret x => exact ⟨x, rfl⟩
  | _ => simp [Prog.steps] at h

/-- The threads do not interfere. -/
theorem noninterference {Q : World → α → α → Prop} {h0 : Store}
    (hc : ∀ (a : Addr) (c : Cell), h0[a]? = some c → c.Below h0.length) {ps : List (Prog α)}
    (hp : ∀ p ∈ ps, PRel h0.length Q [] p p) (schedule : List Nat) :
    (∀ a < h0.length, ((Config.mk ps h0).runs schedule).h[a]? = h0[a]?) ∧
    (∃ W : Nat → World,
      (∀ (i : Nat) (q0 : Prog α) (y : α), ps[i]? = some q0 → ((Config.mk ps h0).runs schedule).threads[i]? = some (.ret y) →
        Worlds h0 (W i) (q0.run h0).2 ((Config.mk ps h0).runs schedule).h ∧ Q (W i) (q0.run h0).1 y) ∧
      ∀ i j a a' b, i < ps.length → j < ps.length → i ≠ j → Own (W i) a b → ¬ Own (W j) a' b) ∧
    ∀ (i : Nat) (q0 : Prog α), ps[i]? = some q0 →
      (q0.steps h0 ≤ schedule.count i ↔ ∃ y, ((Config.mk ps h0).runs schedule).threads[i]? = some (.ret y)) := by
  obtain ⟨hlen, hlh, hsh, W, hT, hd⟩ := (Inv.init hc hp).runs schedule
  refine ⟨hsh, ⟨W, ?_, hd⟩, ?_⟩
  · intro i q0 y hi hy
    obtain ⟨q, s, hw, hr, e1, _⟩ := hT i q0 _ hi hy
    cases hr with
    | ret hq =>
      rw [← e1]
      exact ⟨hw, hq⟩
  · intro i q0 hi
    have hlt : i < ps.length := (List.getElem?_eq_some_iff.mp hi).1
    obtain ⟨p, hp'⟩ : ∃ p, ((Config.mk ps h0).runs schedule).threads[i]? = some p :=
      ⟨_, List.getElem?_eq_getElem (hlen ▸ hlt)⟩
    obtain ⟨q, s, _, hr, _, e2⟩ := hT i q0 p hi hp'
    rw [List.append_nil, List.count_reverse] at e2
    constructor
    · intro hn
      have hz : q.steps s = 0 := by omega
      obtain ⟨x, rfl⟩ := steps_zero hz
      cases hr
      exact ⟨_, hp'⟩
    · rintro ⟨y, hy⟩
      rw [hp'] at hy
      cases hy
      cases hr
      simp only [Prog.steps] at e2
      omega

end Conc
end PXml
