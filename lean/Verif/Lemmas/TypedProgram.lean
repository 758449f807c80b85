import Verif.SpecTypedProgram
import Verif.Lemmas.CompileBecomes
import Verif.Lemmas.Typed

/-!
# Typed instances, in terms of declarations (lemmas for C74)
-/

namespace PXml

variable {classes : Classes} {keyed : String → String → String → Prop} {d : Dict String Schema} {p : Place} {s : Schema} {x : Ser}

theorem Schema.Scalar.form {t : Schema} (h : s.Scalar d) (ht : Strips d s d t) : (∃ ty, t = .prim ty) ∨ t = .isInst false := by
  rcases h with ⟨ty, h⟩ | h
  · exact .inl ⟨ty, (ht.det h).2⟩
  · exact .inr (ht.det h).2

theorem Schema.Mapping.form {t : Schema} (h : s.Mapping d) (ht : Strips d s d t) : (∃ k v, t = .dict k v) ∨ ∃ vs, t = .typedDict vs := by
  rcases h with ⟨k, v, h⟩ | ⟨vs, h⟩
  · exact .inl ⟨k, v, (ht.det h).2⟩
  · exact .inr ⟨vs, (ht.det h).2⟩

theorem Schema.Scalar.not_mapping (h : s.Scalar d) : ¬s.Mapping d := by
  rintro (⟨k, v, h'⟩ | ⟨vs, h'⟩) <;> rcases h.form h' with ⟨ty, e⟩ | e <;> cases e

theorem Schema.Leaf.form {t : Schema} (h : s.Leaf d) (ht : Strips d s d t) :
    (∃ ty, t = .prim ty) ∨ t = .isInst false ∨ ∃ c cs, t = .union (c :: cs) ∧ ∀ i ∈ c :: cs, i.Scalar d := by
  rcases h with h | ⟨c, cs, h, h'⟩
  · rcases h.form ht with h | h
    · exact .inl h
    · exact .inr (.inl h)
  · exact .inr (.inr ⟨c, cs, (ht.det h).2, h'⟩)

theorem Schema.Leaf.not_mapping (h : s.Leaf d) : ¬s.Mapping d := by
  rintro (⟨k, v, h'⟩ | ⟨vs, h'⟩) <;> rcases h.form h' with ⟨ty, e⟩ | e | ⟨c, cs, e, -⟩ <;> cases e

/-- The representation of a primitive value at a place. -/
def ScalarAt (p : Place) (x : Ser) : Prop :=
  (p.location = none ∧ x = .text p.computed p.nillable) ∨
  (p.location = some .attribute ∧ ∃ tag, p.given = some tag ∧ x = .attr (p.attrName tag) p.computed) ∨
  (p.location = some .element ∧ ∃ tag m, p.given = some tag ∧ x = .elem (p.elementName tag) m p.mode p.computed p.nillable)

theorem ScalarAt.leaf {p : Place} {x : Ser} (h : ScalarAt p x) : x.Leaf := by
  rcases h with ⟨-, rfl⟩ | ⟨-, _, -, rfl⟩ | ⟨-, _, _, -, rfl⟩ <;> trivial

theorem becomes_scalar (hs : s.Scalar d) (hl : p.location ≠ some .wrapped) (h : s.Becomes classes keyed d p x) : ScalarAt p x := by
  cases h with
  | wrapped h1 => exact absurd h1 hl
  | text h1 h2 => exact .inl ⟨h2, rfl⟩
  | attr h1 h2 h3 => exact .inr (.inl ⟨h2, _, h3, rfl⟩)
  | elem h1 h2 h3 => exact .inr (.inr ⟨h2, _, _, h3, rfl⟩)
  | attrs h1 => exact absurd h1 hs.not_mapping
  | mapElem h1 => exact absurd h1 hs.not_mapping
  | raw h1 => rcases hs.form h1 with ⟨ty, e⟩ | e <;> cases e
  | model h1 => rcases hs.form h1 with ⟨ty, e⟩ | e <;> cases e
  | list h1 h2 => rcases hs.form h1 with ⟨ty, rfl⟩ | rfl <;> rcases h2 with e | e <;> cases e
  | tuple h1 h2 => rcases hs.form h1 with ⟨ty, rfl⟩ | rfl <;> rcases h2 with e | e <;> cases e
  | primUnion h1 => rcases hs.form h1 with ⟨ty, e⟩ | e <;> cases e
  | modelUnion h1 => rcases hs.form h1 with ⟨ty, e⟩ | e <;> cases e
  | tagged h1 => rcases hs.form h1 with ⟨ty, e⟩ | e <;> cases e

theorem becomes_leaf (hs : s.Leaf d) (hl : p.location ≠ some .wrapped) (h : s.Becomes classes keyed d p x) :
    ∃ y, ScalarAt p y ∧ (x = y ∨ x = .primUnion p.computed y) := by
  rcases hs with hs | ⟨c, cs, hs, hcs⟩
  · exact ⟨x, becomes_scalar hs hl h, .inl rfl⟩
  · cases h with
    | wrapped h1 => exact absurd h1 hl
    | text h1 => rcases h1.form hs with ⟨ty, e⟩ | e <;> cases e
    | attr h1 => rcases h1.form hs with ⟨ty, e⟩ | e <;> cases e
    | elem h1 => rcases h1.form hs with ⟨ty, e⟩ | e <;> cases e
    | attrs h1 => rcases h1.form hs with ⟨k, v, e⟩ | ⟨vs, e⟩ <;> cases e
    | mapElem h1 => rcases h1.form hs with ⟨k, v, e⟩ | ⟨vs, e⟩ <;> cases e
    | raw h1 => cases (h1.det hs).2
    | model h1 => cases (h1.det hs).2
    | list h1 h2 =>
      obtain ⟨-, rfl⟩ := h1.det hs
      rcases h2 with e | e <;> cases e
    | tuple h1 h2 =>
      obtain ⟨-, rfl⟩ := h1.det hs
      rcases h2 with e | e <;> cases e
    | primUnion h1 h2 _ h3 => exact ⟨_, becomes_scalar (h2 _ (by simp)) hl h3, .inr rfl⟩
    | @modelUnion _ _ _ rows h1 h2 h3 h4 =>
      cases rows with
      | nil => exact absurd rfl h2
      | cons r rows =>
        obtain ⟨b, h5⟩ := h4 r (by simp)
        have e := (h1.det hs).2
        simp only [List.map_cons, Schema.union.injEq, List.cons.injEq] at e
        have := hcs c (by simp)
        rw [← e.1] at this
        rcases this.form h5 with ⟨ty, e⟩ | e <;> cases e
    | tagged h1 => cases (h1.det hs).2

theorem becomes_model {cls : String} {r : Bool} (hs : Strips d s d (.model cls r)) (hl : p.location ≠ some .wrapped)
    (h : s.Becomes classes keyed d p x) : ∃ q, x = .proxy q ∧ q.cls = cls ∧ q.computed = p.computed ∧ q.mode = p.mode ∧
      q.nillable = p.nillable := by
  cases h with
  | wrapped h1 => exact absurd h1 hl
  | text h1 => rcases h1.form hs with ⟨ty, e⟩ | e <;> cases e
  | attr h1 => rcases h1.form hs with ⟨ty, e⟩ | e <;> cases e
  | elem h1 => rcases h1.form hs with ⟨ty, e⟩ | e <;> cases e
  | attrs h1 => rcases h1.form hs with ⟨k, v, e⟩ | ⟨vs, e⟩ <;> cases e
  | mapElem h1 => rcases h1.form hs with ⟨k, v, e⟩ | ⟨vs, e⟩ <;> cases e
  | raw h1 => cases (h1.det hs).2
  | model h1 => cases (h1.det hs).2; exact ⟨_, rfl, rfl, rfl, rfl, rfl⟩
  | list h1 h2 =>
    obtain ⟨-, rfl⟩ := h1.det hs
    rcases h2 with e | e <;> cases e
  | tuple h1 h2 =>
    obtain ⟨-, rfl⟩ := h1.det hs
    rcases h2 with e | e <;> cases e
  | primUnion h1 => cases (h1.det hs).2
  | modelUnion h1 => cases (h1.det hs).2
  | tagged h1 => cases (h1.det hs).2

theorem becomes_raw (hs : Strips d s d (.isInst true)) (hl : p.location ≠ some .wrapped) (h : s.Becomes classes keyed d p x) :
    ∃ tag, p.given = some tag ∧ x = .raw (p.elementName tag) p.mode p.computed := by
  cases h with
  | wrapped h1 => exact absurd h1 hl
  | text h1 => rcases h1.form hs with ⟨ty, e⟩ | e <;> cases e
  | attr h1 => rcases h1.form hs with ⟨ty, e⟩ | e <;> cases e
  | elem h1 => rcases h1.form hs with ⟨ty, e⟩ | e <;> cases e
  | attrs h1 => rcases h1.form hs with ⟨k, v, e⟩ | ⟨vs, e⟩ <;> cases e
  | mapElem h1 => rcases h1.form hs with ⟨k, v, e⟩ | ⟨vs, e⟩ <;> cases e
  | raw h1 h2 h3 => exact ⟨_, h3, rfl⟩
  | model h1 => cases (h1.det hs).2
  | list h1 h2 =>
    obtain ⟨-, rfl⟩ := h1.det hs
    rcases h2 with e | e <;> cases e
  | tuple h1 h2 =>
    obtain ⟨-, rfl⟩ := h1.det hs
    rcases h2 with e | e <;> cases e
  | primUnion h1 => cases (h1.det hs).2
  | modelUnion h1 => cases (h1.det hs).2
  | tagged h1 => cases (h1.det hs).2

theorem becomes_mapping (hs : s.Mapping d) (hl : p.location ≠ some .wrapped) (h : s.Becomes classes keyed d p x) :
    (p.location = none ∧ ∃ a : AttrsSer, a.Fits p ∧ x = .attrs a) ∨
    (p.location = some .element ∧ ∃ (a : AttrsSer) (tag : String), a.Fits p ∧ p.given = some tag ∧ x = .mapElem a (p.elementName tag) p.mode) := by
  cases h with
  | wrapped h1 => exact absurd h1 hl
  | text h1 => exact absurd hs h1.not_mapping
  | attr h1 => exact absurd hs h1.not_mapping
  | elem h1 => exact absurd hs h1.not_mapping
  | attrs h1 h2 h3 => exact .inl ⟨h2, _, h3, rfl⟩
  | mapElem h1 h2 h3 h4 => exact .inr ⟨h2, _, _, h4, h3, rfl⟩
  | raw h1 => rcases hs.form h1 with ⟨k, v, e⟩ | ⟨vs, e⟩ <;> cases e
  | model h1 => rcases hs.form h1 with ⟨k, v, e⟩ | ⟨vs, e⟩ <;> cases e
  | list h1 h2 => rcases hs.form h1 with ⟨k, v, rfl⟩ | ⟨vs, rfl⟩ <;> rcases h2 with e | e <;> cases e
  | tuple h1 h2 => rcases hs.form h1 with ⟨k, v, rfl⟩ | ⟨vs, rfl⟩ <;> rcases h2 with e | e <;> cases e
  | primUnion h1 => rcases hs.form h1 with ⟨k, v, e⟩ | ⟨vs, e⟩ <;> cases e
  | modelUnion h1 => rcases hs.form h1 with ⟨k, v, e⟩ | ⟨vs, e⟩ <;> cases e
  | tagged h1 => rcases hs.form h1 with ⟨k, v, e⟩ | ⟨vs, e⟩ <;> cases e

theorem becomes_list {t item : Schema} (hs : Strips d s d t) (ht : t = .list item ∨ t = .tuple [item] (some 0)) (hl : p.location ≠ some .wrapped)
    (h : s.Becomes classes keyed d p x) : ∃ title y, x = .homog title p.computed y ∧ item.Becomes classes keyed d p y := by
  have key : ∀ {u}, Strips d s d u → u = .list item ∨ u = .tuple [item] (some 0) := fun hu => (hs.det hu).2 ▸ ht
  cases h with
  | wrapped h1 => exact absurd h1 hl
  | text h1 => rcases h1.form hs with ⟨ty, rfl⟩ | rfl <;> rcases ht with e | e <;> cases e
  | attr h1 => rcases h1.form hs with ⟨ty, rfl⟩ | rfl <;> rcases ht with e | e <;> cases e
  | elem h1 => rcases h1.form hs with ⟨ty, rfl⟩ | rfl <;> rcases ht with e | e <;> cases e
  | attrs h1 => rcases h1.form hs with ⟨k, v, rfl⟩ | ⟨vs, rfl⟩ <;> rcases ht with e | e <;> cases e
  | mapElem h1 => rcases h1.form hs with ⟨k, v, rfl⟩ | ⟨vs, rfl⟩ <;> rcases ht with e | e <;> cases e
  | raw h1 => rcases key h1 with e | e <;> cases e
  | model h1 => rcases key h1 with e | e <;> cases e
  | list h1 h2 h3 h4 =>
    refine ⟨_, _, rfl, ?_⟩
    rcases key h1 with rfl | rfl <;> rcases h2 with e | e <;> cases e <;> exact h4
  | tuple h1 h2 =>
    rcases key h1 with rfl | rfl
    · rcases h2 with e | e <;> cases e
    · rcases h2 with e | e
      · simp only [Schema.tuple.injEq] at e; cases e.2
      · cases e
  | primUnion h1 => rcases key h1 with e | e <;> cases e
  | modelUnion h1 => rcases key h1 with e | e <;> cases e
  | tagged h1 => rcases key h1 with e | e <;> cases e

theorem becomes_tuple {t : Schema} {items : List Schema} (hs : Strips d s d t) (ht : t = .tuple items none ∨ t = .call true items)
    (hl : p.location ≠ some .wrapped) (h : s.Becomes classes keyed d p x) :
    ∃ title, ∃ rows : List (Schema × Ser), x = .hetero title p.computed (rows.map Prod.snd) ∧ items = rows.map Prod.fst ∧
      ∀ r ∈ rows, r.1.Becomes classes keyed d p r.2 := by
  have key : ∀ {u}, Strips d s d u → u = .tuple items none ∨ u = .call true items := fun hu => (hs.det hu).2 ▸ ht
  cases h with
  | wrapped h1 => exact absurd h1 hl
  | text h1 => rcases h1.form hs with ⟨ty, rfl⟩ | rfl <;> rcases ht with e | e <;> cases e
  | attr h1 => rcases h1.form hs with ⟨ty, rfl⟩ | rfl <;> rcases ht with e | e <;> cases e
  | elem h1 => rcases h1.form hs with ⟨ty, rfl⟩ | rfl <;> rcases ht with e | e <;> cases e
  | attrs h1 => rcases h1.form hs with ⟨k, v, rfl⟩ | ⟨vs, rfl⟩ <;> rcases ht with e | e <;> cases e
  | mapElem h1 => rcases h1.form hs with ⟨k, v, rfl⟩ | ⟨vs, rfl⟩ <;> rcases ht with e | e <;> cases e
  | raw h1 => rcases key h1 with e | e <;> cases e
  | model h1 => rcases key h1 with e | e <;> cases e
  | list h1 h2 => rcases key h1 with rfl | rfl <;> rcases h2 with e | e <;> cases e
  | tuple h1 h2 h3 h4 =>
    refine ⟨_, _, rfl, ?_, h4⟩
    rcases key h1 with rfl | rfl <;> rcases h2 with e | e <;> cases e <;> rfl
  | primUnion h1 => rcases key h1 with e | e <;> cases e
  | modelUnion h1 => rcases key h1 with e | e <;> cases e
  | tagged h1 => rcases key h1 with e | e <;> cases e

theorem becomes_union {c : Schema} {cs : List Schema} {cls : String} {b : Bool} (hs : Strips d s d (.union cs)) (hc : c ∈ cs)
    (hm : Strips d c d (.model cls b)) (hl : p.location ≠ some .wrapped) (h : s.Becomes classes keyed d p x) :
    ∃ title, ∃ rows : List (Schema × Proxy), x = .modelUnion title p.computed (rows.map Prod.snd) ∧ cs = rows.map Prod.fst ∧
      (∀ r ∈ rows, ∃ b, Strips d r.1 d (.model r.2.cls b)) ∧ ∀ r ∈ rows, r.1.Becomes classes keyed d p (.proxy r.2) := by
  cases h with
  | wrapped h1 => exact absurd h1 hl
  | text h1 => rcases h1.form hs with ⟨ty, e⟩ | e <;> cases e
  | attr h1 => rcases h1.form hs with ⟨ty, e⟩ | e <;> cases e
  | elem h1 => rcases h1.form hs with ⟨ty, e⟩ | e <;> cases e
  | attrs h1 => rcases h1.form hs with ⟨k, v, e⟩ | ⟨vs, e⟩ <;> cases e
  | mapElem h1 => rcases h1.form hs with ⟨k, v, e⟩ | ⟨vs, e⟩ <;> cases e
  | raw h1 => cases (h1.det hs).2
  | model h1 => cases (h1.det hs).2
  | list h1 h2 =>
    obtain ⟨-, rfl⟩ := h1.det hs
    rcases h2 with e | e <;> cases e
  | tuple h1 h2 =>
    obtain ⟨-, rfl⟩ := h1.det hs
    rcases h2 with e | e <;> cases e
  | primUnion h1 h2 =>
    cases (h1.det hs).2
    rcases (h2 c hc).form hm with ⟨ty, e⟩ | e <;> cases e
  | modelUnion h1 h2 h3 h4 h5 =>
    cases (h1.det hs).2
    exact ⟨_, _, rfl, rfl, h4, h5⟩
  | tagged h1 => cases (h1.det hs).2

theorem becomes_tagged {o : Option String} {cs : List (Option String × Schema)} (hs : Strips d s d (.tagged o cs))
    (hl : p.location ≠ some .wrapped) (h : s.Becomes classes keyed d p x) :
    ∃ (discr attr : String) (alts : List (String × Proxy)) (choice : String → Schema), o = some discr ∧ x = .tagged p.computed discr attr p.mode alts ∧ (alts.map Prod.fst).Nodup ∧
      (∀ c ∈ cs, ∃ a ∈ alts, c.1 = some a.1) ∧ (∀ a ∈ alts, (some a.1, choice a.1) ∈ cs) ∧
      (∀ a ∈ alts, Strips d (choice a.1) d (.model a.2.cls false)) ∧ (∀ a ∈ alts, keyed a.2.cls discr attr) ∧
      (∀ a ∈ alts, (choice a.1).Becomes classes keyed d p (.proxy a.2)) := by
  cases h with
  | wrapped h1 => exact absurd h1 hl
  | text h1 => rcases h1.form hs with ⟨ty, e⟩ | e <;> cases e
  | attr h1 => rcases h1.form hs with ⟨ty, e⟩ | e <;> cases e
  | elem h1 => rcases h1.form hs with ⟨ty, e⟩ | e <;> cases e
  | attrs h1 => rcases h1.form hs with ⟨k, v, e⟩ | ⟨vs, e⟩ <;> cases e
  | mapElem h1 => rcases h1.form hs with ⟨k, v, e⟩ | ⟨vs, e⟩ <;> cases e
  | raw h1 => cases (h1.det hs).2
  | model h1 => cases (h1.det hs).2
  | list h1 h2 =>
    obtain ⟨-, rfl⟩ := h1.det hs
    rcases h2 with e | e <;> cases e
  | tuple h1 h2 =>
    obtain ⟨-, rfl⟩ := h1.det hs
    rcases h2 with e | e <;> cases e
  | primUnion h1 => cases (h1.det hs).2
  | modelUnion h1 => cases (h1.det hs).2
  | tagged h1 h2 h3 h4 h5 h6 h7 h8 h9 =>
    cases (h1.det hs).2
    exact ⟨_, _, _, _, rfl, rfl, h4, h5, h6, h7, h8, h9⟩

theorem becomes_wrapped (hl : p.location = some .wrapped) (h : s.Becomes classes keyed d p x) :
    ∃ path parts m y, p.path = some path ∧ Segments path parts ∧ x = .wrap (parts.map p.elementName) m p.mode p.computed y ∧
      s.Becomes classes keyed d p.inside y := by
  cases h with
  | wrapped h1 h2 h3 h4 h5 => exact ⟨_, _, _, _, h2, h3, rfl, h5⟩
  | text h1 h2 => rw [hl] at h2; cases h2
  | attr h1 h2 => rw [hl] at h2; cases h2
  | elem h1 h2 => rw [hl] at h2; cases h2
  | attrs h1 h2 => rw [hl] at h2; cases h2
  | mapElem h1 h2 => rw [hl] at h2; cases h2
  | raw h1 h2 => rcases h2 with h2 | h2 <;> rw [hl] at h2 <;> cases h2
  | model h1 h2 => rcases h2 with h2 | h2 <;> rw [hl] at h2 <;> cases h2
  | list h1 h2 h3 => rcases h3 with h2 | h2 <;> rw [hl] at h2 <;> cases h2
  | tuple h1 h2 h3 => rcases h3 with h2 | h2 <;> rw [hl] at h2 <;> cases h2
  | primUnion h1 h2 h3 => exact absurd hl h3
  | modelUnion h1 h2 h3 => rcases h3 with h2 | h2 <;> rw [hl] at h2 <;> cases h2
  | tagged h1 h2 h3 => rcases h3 with h2 | h2 <;> rw [hl] at h2 <;> cases h2

/-! ## The places that entities occupy -/

theorem mem_slotsList {slot : Slot} : ∀ {ss : List Ser}, slot ∈ Ser.slotsList ss → ∃ s ∈ ss, slot ∈ s.slots
  | [], h => by simp [Ser.slotsList] at h
  | s :: ss, h => by
    rw [Ser.slotsList, List.mem_append] at h
    rcases h with h | h
    · exact ⟨s, by simp, h⟩
    · obtain ⟨t, ht, h⟩ := mem_slotsList h
      exact ⟨t, by simp [ht], h⟩

theorem slots_occupied (h : s.Becomes classes keyed d p x) (hl : p.location ≠ some .wrapped) :
    ∀ slot ∈ x.slots, s.Occupies classes d p slot := by
  induction h with
  | wrapped h1 => exact absurd h1 hl
  | @text p s h1 h2 =>
    intro slot hm
    rw [Ser.slots] at hm
    split at hm
    · rename_i hn
      rcases List.mem_cons.1 hm with rfl | hm
      · exact .text h1 h2
      · rw [List.mem_singleton] at hm
        exact hm ▸ .nil h1 h2 hn
    · rw [List.mem_singleton] at hm
      exact hm ▸ .text h1 h2
  | attr h1 h2 h3 => intro slot hm; rw [Ser.slots, List.mem_singleton] at hm; exact hm ▸ .attr h1 h2 h3
  | elem h1 h2 h3 h4 => intro slot hm; rw [Ser.slots, List.mem_singleton] at hm; exact hm ▸ .elem h1 h2 h3
  | attrs h1 h2 h3 => intro slot hm; rw [Ser.slots, List.mem_singleton] at hm; exact hm ▸ .attrs h1 h2
  | mapElem h1 h2 h3 h4 => intro slot hm; rw [Ser.slots, List.mem_singleton] at hm; exact hm ▸ .mapElem h1 h2 h3
  | raw h1 h2 h3 => intro slot hm; rw [Ser.slots, List.mem_singleton] at hm; exact hm ▸ .raw h1 h3
  | model h1 h2 h3 h4 h5 => intro slot hm; rw [Ser.slots, List.mem_singleton] at hm; exact hm ▸ .model h1 h3 h4
  | list h1 h2 h3 _ ih => intro slot hm; rw [Ser.slots] at hm; exact .list h1 h2 (ih hl slot hm)
  | tuple h1 h2 h3 _ ih =>
    intro slot hm
    rw [Ser.slots] at hm
    obtain ⟨y, hy, hm⟩ := mem_slotsList hm
    obtain ⟨r, hr, rfl⟩ := List.mem_map.1 hy
    exact .tuple h1 h2 (List.mem_map_of_mem hr) (ih r hr hl slot hm)
  | primUnion h1 h2 h3 _ ih => intro slot hm; rw [Ser.slots] at hm; exact .union h1 (by simp) (ih hl slot hm)
  | modelUnion h1 h2 h3 h4 _ ih =>
    intro slot hm
    rw [Ser.slots, List.map_map] at hm
    obtain ⟨r, hr, rfl⟩ := List.mem_map.1 hm
    exact .union h1 (List.mem_map_of_mem hr) (ih r hr hl _ (by simp [Ser.slots]))
  | tagged h1 h2 h3 h4 h5 h6 h7 h8 _ ih =>
    intro slot hm
    rw [Ser.slots] at hm
    obtain ⟨a, ha, rfl⟩ := List.mem_map.1 hm
    exact .tagged h1 (h6 a ha) (ih a ha hl _ (by simp [Ser.slots]))

/-- The field lies inside the wrapper elements. -/
inductive Deep : List String → Ser → Ser → Prop
  | here {x : Ser} : Deep [] x x
  | under {t : String} {names : List String} {x y : Ser} : x.Under t → Deep names x.inWrapper y → Deep (t :: names) x y

theorem deep_wrap {names : List String} {m : Option NsMap} {mode : Mode} {c : Bool} {x y : Ser} (h : Deep names x y) :
    ∀ {l : List String}, l ≠ [] → Deep (l ++ names) (.wrap l m mode c x) y
  | [], hl => absurd rfl hl
  | [t], _ => .under rfl h
  | t :: t' :: l, _ => .under rfl (deep_wrap h (l := t' :: l) (by simp))

theorem cut_unique : ∀ {a a' : List Char} {r r' : List Char}, '/' ∉ a → '/' ∉ a' → a ++ '/' :: r = a' ++ '/' :: r' → a = a' ∧ r = r'
  | [], [], _, _, _, _, h => by simpa using h
  | [], c :: a', _, _, _, h2, h => by
    simp only [List.nil_append, List.cons_append, List.cons.injEq] at h
    exact absurd (by simp [← h.1]) h2
  | c :: a, [], _, _, h1, _, h => by
    simp only [List.nil_append, List.cons_append, List.cons.injEq] at h
    exact absurd (by simp [h.1]) h1
  | c :: a, c' :: a', r, r', h1, h2, h => by
    simp only [List.cons_append, List.cons.injEq] at h
    obtain ⟨rfl, h⟩ := h
    obtain ⟨rfl, rfl⟩ := cut_unique (fun hm => h1 (by simp [hm])) (fun hm => h2 (by simp [hm])) h
    exact ⟨rfl, rfl⟩

theorem intercalate_unique : ∀ {l l' : List (List Char)}, l ≠ [] → l' ≠ [] → (∀ a ∈ l, '/' ∉ a) → (∀ a ∈ l', '/' ∉ a) →
    ['/'].intercalate l = ['/'].intercalate l' → l = l'
  | [], _, h, _, _, _, _ => absurd rfl h
  | _, [], _, h, _, _, _ => absurd rfl h
  | [a], [a'], _, _, _, _, h => by simpa [List.intercalate] using h
  | [a], a' :: b' :: l', _, _, h1, h2, h => by
    have : '/' ∈ a := by
      have e : a = a' ++ '/' :: ['/'].intercalate (b' :: l') := by simpa [List.intercalate, List.intersperse] using h
      rw [e]; simp
    exact absurd this (h1 a (by simp))
  | a :: b :: l, [a'], _, _, h1, h2, h => by
    have : '/' ∈ a' := by
      have e : a ++ '/' :: ['/'].intercalate (b :: l) = a' := by simpa [List.intercalate, List.intersperse] using h
      rw [← e]; simp
    exact absurd this (h2 a' (by simp))
  | a :: b :: l, a' :: b' :: l', _, _, h1, h2, h => by
    have e : a ++ '/' :: ['/'].intercalate (b :: l) = a' ++ '/' :: ['/'].intercalate (b' :: l') := by
      simpa [List.intercalate, List.intersperse] using h
    obtain ⟨rfl, e'⟩ := cut_unique (h1 a (by simp)) (h2 a' (by simp)) e
    rw [intercalate_unique (by simp) (by simp) (fun x hx => h1 x (by simp [hx])) (fun x hx => h2 x (by simp [hx])) e']

theorem segments_unique {path : String} {l l' : List String} (h : Segments path l) (h' : Segments path l') : l = l' := by
  have e := intercalate_unique (l := l.map String.toList) (l' := l'.map String.toList) (by simpa using h.1) (by simpa using h'.1)
    (by simpa using h.2.1) (by simpa using h'.2.1) (h.2.2 ▸ h'.2.2)
  exact (List.map_inj_right fun a b h => String.toList_inj.1 h).1 e

theorem becomes_deep {names : List String} {q : Place} (hr : p.Reaches names q) :
    ∀ {x : Ser}, s.Becomes classes keyed d p x → q.location ≠ some .wrapped ∧ ∃ y, Deep names x y ∧ s.Becomes classes keyed d q y := by
  induction hr with
  | here h => intro x hx; exact ⟨h, x, .here, hx⟩
  | @wrapped p q path parts names h1 h2 h3 _ ih =>
    intro x hx
    obtain ⟨path', parts', m, y, h4, h5, rfl, h6⟩ := becomes_wrapped h1 hx
    obtain ⟨h7, z, h8, h9⟩ := ih h6
    rw [h2] at h4
    cases h4
    obtain rfl := segments_unique h3 h5
    exact ⟨h7, z, deep_wrap h8 (by simpa using h3.1), h9⟩

/-- The serializer is that of the entity. -/
def Entity.Is (classes : Classes) (keyed : String → String → String → Prop) (d : Dict String Schema) (e : Entity) (x : Ser) : Prop :=
  e.2.1.location ≠ some .wrapped ∧ ∃ y, Deep e.1 x y ∧ e.2.2.Becomes classes keyed d e.2.1 y

theorem Entity.Is.slots {e : Entity} (h : e.Is classes keyed d x) : ∀ slot ∈ x.slots, e.Occupies classes d slot := by
  obtain ⟨names, q, s⟩ := e
  obtain ⟨h1, y, h2, h3⟩ := h
  intro slot hm
  cases names with
  | nil => cases h2; exact slots_occupied h3 h1 slot hm
  | cons t names =>
    cases h2 with
    | under h4 _ =>
      show slot = .child t
      cases x with
      | wrap l _ _ _ _ =>
        cases l with
        | nil => exact h4.elim
        | cons t' l => cases h4; simpa [Ser.slots] using hm
      | _ => exact h4.elim

theorem becomes_notWrapped (hl : p.location ≠ some .wrapped) (h : s.Becomes classes keyed d p x) : x.NotWrapped := by
  cases h with
  | wrapped h1 => exact absurd h1 hl
  | _ => trivial

theorem each_append_left {α β : Type} {R : α → β → Prop} : ∀ {as as' : List α} {bs : List β}, Each R (as ++ as') bs →
    ∃ b b', bs = b ++ b' ∧ Each R as b ∧ Each R as' b'
  | [], _, bs, h => ⟨[], bs, rfl, .nil, h⟩
  | a :: as, _, _, .cons h1 h2 => by
    obtain ⟨b, b', rfl, h3, h4⟩ := each_append_left (as := as) h2
    exact ⟨_ :: b, b', rfl, .cons h1 h3, h4⟩

theorem each_under {t : String} : ∀ {es : List Entity} {xs : List Ser},
    Each (Entity.Is classes keyed d) (es.map fun e => (t :: e.1, e.2)) xs →
    (∀ x ∈ xs, x.Under t) ∧ Each (Entity.Is classes keyed d) es (xs.map Ser.inWrapper)
  | [], _, .nil => ⟨by simp, .nil⟩
  | e :: es, _, .cons (b := x) (bs := xs) h1 h2 => by
    obtain ⟨h3, h4⟩ := each_under h2
    obtain ⟨h5, y, h6, h7⟩ := h1
    cases h6 with
    | under h8 h9 =>
      refine ⟨fun z hz => ?_, .cons ⟨h5, y, h9, h7⟩ h4⟩
      rcases List.mem_cons.1 hz with rfl | hz
      · exact h8
      · exact h3 z hz

theorem neat_tidy {es : List Entity} (h : Neat classes d es) : ∀ {xs : List Ser}, Each (Entity.Is classes keyed d) es xs → Tidy xs := by
  induction h with
  | nil => intro xs h; cases h; exact .nil
  | field h1 _ ih =>
    intro xs h
    cases h with
    | cons h2 h3 =>
      refine .field ?_ ?_ (ih h3)
      · obtain ⟨h4, y, h5, h6⟩ := h2
        cases h5
        exact becomes_notWrapped h4 h6
      · intro a ha u hu b hb
        obtain ⟨e, he, h4⟩ := h3.mem_right u hu
        exact h1 a (h2.slots a ha) e he b (h4.slots b hb)
  | wrapped h1 _ h2 _ ih ih' =>
    intro xs h
    obtain ⟨b, b', rfl, h3, h4⟩ := each_append_left h
    obtain ⟨h5, h6⟩ := each_under h3
    refine .wrapped ?_ h5 (ih h6) ?_ (ih' h4)
    · rintro rfl
      cases h6
      exact h1 rfl
    · intro u hu hm
      obtain ⟨e, he, h7⟩ := h4.mem_right u hu
      exact h2 e he (h7.slots _ hm)

theorem neat_single {q : Place} {s : Schema} : ∀ (names : List String), Neat classes d [(names, q, s)]
  | [] => .field (by simp) .nil
  | t :: names => .wrapped (group := [(names, q, s)]) (rest := []) (by simp) (neat_single names) (by simp) .nil

/-! ## Items and silent fields -/

theorem becomes_item (h : s.ItemAt d p) (hl : p.location ≠ some .wrapped) : ∀ {x : Ser}, s.Becomes classes keyed d p x → x.Item := by
  induction h with
  | leaf h1 h2 =>
    intro x hx
    obtain ⟨y, hy, h3⟩ := becomes_leaf h1 hl hx
    have hi : y.Item := by
      rcases hy with ⟨e, -⟩ | ⟨e, -⟩ | ⟨-, tag, m, -, rfl⟩
      · rw [h2] at e; cases e
      · rw [h2] at e; cases e
      · exact .elem
    rcases h3 with rfl | rfl
    · exact hi
    · exact .primUnion hi
  | mapping h1 h2 =>
    intro x hx
    rcases becomes_mapping h1 hl hx with ⟨e, -⟩ | ⟨-, a, tag, -, -, rfl⟩
    · rw [h2] at e; cases e
    · exact .mapElem
  | raw h1 =>
    intro x hx
    obtain ⟨tag, -, rfl⟩ := becomes_raw h1 hl hx
    exact .raw
  | model h1 =>
    intro x hx
    obtain ⟨q, rfl, -⟩ := becomes_model h1 hl hx
    exact .proxy
  | union h1 h2 h3 h4 =>
    intro x hx
    obtain ⟨title, rows, rfl, -, h5, h6⟩ := becomes_union h1 h2 h3 hl hx
    refine .modelUnion fun q hq => ?_
    obtain ⟨r, hr, rfl⟩ := List.mem_map.1 hq
    obtain ⟨b, h7⟩ := h5 r hr
    obtain ⟨q, e, -, -, h8, -⟩ := becomes_model h7 hl (h6 r hr)
    cases e
    rw [h8, h4]
  | tagged h1 h2 =>
    intro x hx
    obtain ⟨discr, attr, alts, choice, -, rfl, -⟩ := becomes_tagged h1 hl hx
    exact .tagged (.inl h2)
  | tuple h1 h2 h3 h4 ih =>
    intro x hx
    obtain ⟨title, rows, rfl, rfl, h5⟩ := becomes_tuple h1 h2 hl hx
    refine .hetero (by simpa using h3) fun y hy => ?_
    obtain ⟨r, hr, rfl⟩ := List.mem_map.1 hy
    exact ih r.1 (List.mem_map_of_mem hr) (h5 r hr)

theorem Place.Compound.ne (h : p.Compound) : p.location ≠ some .wrapped := by
  rcases h with h | h <;> rw [h] <;> simp

theorem becomes_silent {eas : Bool} (h : s.Quiet eas d p) (hc : p.computed = false) :
    ∀ {x : Ser}, s.Becomes classes keyed d p x → x.Silent eas := by
  induction h with
  | text h1 h2 h3 =>
    intro x hx
    obtain ⟨y, hy, h4⟩ := becomes_leaf h1 (by rw [h2]; simp) hx
    have hi : y.Silent eas := by
      rcases hy with ⟨-, rfl⟩ | ⟨e, -⟩ | ⟨e, -⟩
      · exact .text h3
      · rw [h2] at e; cases e
      · rw [h2] at e; cases e
    rcases h4 with rfl | rfl
    · exact hi
    · exact .primUnion hy.leaf hi
  | attr h1 h2 =>
    intro x hx
    obtain ⟨y, hy, h4⟩ := becomes_leaf h1 (by rw [h2]; simp) hx
    have hi : y.Silent eas := by
      rcases hy with ⟨e, -⟩ | ⟨-, tag, -, rfl⟩ | ⟨e, -⟩
      · rw [h2] at e; cases e
      · exact .attr
      · rw [h2] at e; cases e
    rcases h4 with rfl | rfl
    · exact hi
    · exact .primUnion hy.leaf hi
  | item h1 h2 => intro x hx; exact .item (becomes_item h1 h2.ne hx)
  | union h1 h2 h3 h4 =>
    intro x hx
    obtain ⟨title, rows, rfl, -⟩ := becomes_union h1 h2 h3 h4.ne hx
    exact .modelUnion
  | tagged h1 h2 =>
    intro x hx
    obtain ⟨discr, attr, alts, choice, -, rfl, -⟩ := becomes_tagged h1 h2.ne hx
    exact .tagged
  | list h1 h2 h3 h4 =>
    intro x hx
    obtain ⟨title, y, rfl, h5⟩ := becomes_list h1 h2 h3.ne hx
    exact .homog (becomes_item h4 h3.ne h5)
  | wrapped h1 _ ih =>
    intro x hx
    obtain ⟨path, parts, m, y, h2, h3, rfl, h4⟩ := becomes_wrapped h1 hx
    rw [hc]
    cases parts with
    | nil => exact absurd rfl h3.1
    | cons t parts => exact .wrap (ih hc h4)

/-! ## Computed fields as if they were stored -/

theorem becomes_stored (h : s.Becomes classes keyed d p x) : s.Becomes classes keyed d p.stored x.stored := by
  induction h with
  | wrapped h1 h2 h3 h4 _ ih => exact .wrapped (p := Place.stored _) h1 h2 h3 h4 ih
  | text h1 h2 => exact .text (p := Place.stored _) h1 h2
  | attr h1 h2 h3 => exact .attr (p := Place.stored _) h1 h2 h3
  | elem h1 h2 h3 h4 => exact .elem (p := Place.stored _) h1 h2 h3 h4
  | attrs h1 h2 h3 => exact .attrs (p := Place.stored _) h1 h2 ⟨h3.1, h3.2.1, h3.2.2.1, rfl⟩
  | mapElem h1 h2 h3 h4 => exact .mapElem (p := Place.stored _) h1 h2 h3 ⟨h4.1, h4.2.1, h4.2.2.1, rfl⟩
  | raw h1 h2 h3 => exact .raw (p := Place.stored _) h1 h2 h3
  | model h1 h2 h3 h4 h5 => exact .model (p := Place.stored _) h1 h2 h3 h4 h5
  | list h1 h2 h3 _ ih => exact .list (p := Place.stored _) h1 h2 h3 ih
  | @tuple p s t title rows h1 h2 h3 _ ih =>
    have := Schema.Becomes.tuple (classes := classes) (keyed := keyed) (d := d) (p := p.stored) (s := s) (title := title)
      (rows := rows.map fun r => (r.1, r.2.stored)) h1 (by simpa [Function.comp_def] using h2) h3 (by
        intro r hr
        obtain ⟨u, hu, rfl⟩ := List.mem_map.1 hr
        exact ih u hu)
    simpa [Ser.stored, storedList_eq, Function.comp_def, Place.stored] using this
  | primUnion h1 h2 h3 _ ih => exact .primUnion (p := Place.stored _) h1 h2 h3 ih
  | @modelUnion p s title rows h1 h2 h3 h4 _ ih =>
    have := Schema.Becomes.modelUnion (classes := classes) (keyed := keyed) (d := d) (p := p.stored) (s := s) (title := title)
      (rows := rows.map fun r => (r.1, { r.2 with computed := false })) (by simpa [Function.comp_def] using h1) (by simpa using h2) h3 (by
        intro r hr
        obtain ⟨u, hu, rfl⟩ := List.mem_map.1 hr
        exact h4 u hu) (by
        intro r hr
        obtain ⟨u, hu, rfl⟩ := List.mem_map.1 hr
        exact ih u hu)
    simpa [Ser.stored, Function.comp_def, Place.stored] using this
  | @tagged p s discr attr cs alts choice h1 h2 h3 h4 h5 h6 h7 h8 _ ih =>
    have hm : ∀ a ∈ alts.map fun tp => ((tp.1, { tp.2 with computed := false }) : String × Proxy),
        ∃ u ∈ alts, a = (u.1, { u.2 with computed := false }) := by
      intro a ha
      obtain ⟨u, hu, rfl⟩ := List.mem_map.1 ha
      exact ⟨u, hu, rfl⟩
    refine .tagged (p := Place.stored _) (choice := choice) h1 h2 h3 ?_ ?_ ?_ ?_ ?_ ?_
    · simpa [Function.comp_def] using h4
    · intro c hc
      obtain ⟨a, ha, e⟩ := h5 c hc
      exact ⟨_, List.mem_map_of_mem ha, e⟩
    · intro a ha; obtain ⟨u, hu, rfl⟩ := hm a ha; exact h6 u hu
    · intro a ha; obtain ⟨u, hu, rfl⟩ := hm a ha; exact h7 u hu
    · intro a ha; obtain ⟨u, hu, rfl⟩ := hm a ha; exact h8 u hu
    · intro a ha; obtain ⟨u, hu, rfl⟩ := hm a ha; exact ih u hu

theorem becomes_computed (h : s.Becomes classes keyed d p x) : x.computed = p.computed := by
  cases h with
  | attrs _ _ h => exact h.2.2.2
  | mapElem _ _ _ h => exact h.2.2.2
  | _ => rfl

/-! ## Types of the classes -/

/-- The typed field is that of the declared field. -/
def Typed.Is (classes : Classes) (keyed : String → String → String → Prop) (B : Behind) (cls : String) (cd : ClassDef)
    (d : Dict String Schema) (f : FieldDef) (t : Typed) : Prop :=
  t.hidden = f.noXml ∧ t.field.name = f.name ∧ f.key = t.key ∧ t.ty = f.schema ∧ t.default = B.default cls f.name ∧
  (f.noXml = false → t.field.Fits classes cd f ∧ f.schema.Becomes classes keyed d (f.place cd) t.field.ser)

/-- The computed field is that of the declaration. -/
def Derived.Is (classes : Classes) (keyed : String → String → String → Prop) (B : Behind) (cls : String) (cd : ClassDef)
    (d : Dict String Schema) (c : ComputedDef) (t : Derived) : Prop :=
  t.field.FitsComputed classes cd c ∧ c.schema.Becomes classes keyed d (c.place cd) t.field.ser ∧ t.ty = c.schema ∧
  t.get = B.get cls c.name

/-- The types of a class: those of its declaration. -/
def DeclaredTypes (env : Env) (classes : Classes) (keyed : String → String → String → Prop) (B : Behind) (cls : String)
    (o : Option Types) : Prop :=
  (o = none ∧ ¬∃ cd r d, classes cls = some cd ∧ Strips [] cd.schema d (.model cls r) ∧ cd.Neat classes d) ∨
  ∃ cd r d m, classes cls = some cd ∧ Strips [] cd.schema d (.model cls r) ∧ cd.Neat classes d ∧ env.model cls = some m ∧
    (m.skipEmpty = cd.params.skipEmpty ∧ m.extraForbid = cd.extraForbid) ∧
    ((∃ fs cs ts us, cd.body = .fields fs cs ∧ o = some (.fields d ts us) ∧
        m.body = .fields ((ts.filter fun t => !t.hidden).map Typed.field ++ us.map Derived.field) ∧
        Each (Typed.Is classes keyed B cls cd d) fs ts ∧ Each (Derived.Is classes keyed B cls cd d) cs us) ∨
     (∃ s infos x, cd.body = .root s infos ∧ o = some (.root d x s (B.default cls "root")) ∧ m.body = .root x ∧
        s.Becomes classes keyed d (cd.rootPlace infos) x))

theorem each_typed {B : Behind} {cls : String} {cd : ClassDef} : ∀ {fs : List FieldDef} {a : List Field},
    Each (fun f x => x.Fits classes cd f ∧ f.schema.Becomes classes keyed d (f.place cd) x.ser) (fs.filter fun f => !f.noXml) a →
    ∃ ts : List Typed, a = (ts.filter fun t => !t.hidden).map Typed.field ∧ Each (Typed.Is classes keyed B cls cd d) fs ts
  | [], _, h => by cases h; exact ⟨[], rfl, .nil⟩
  | f :: fs, a, h => by
    cases hn : f.noXml with
    | true =>
      rw [List.filter_cons_of_neg (by simp [hn])] at h
      obtain ⟨ts, rfl, h3⟩ := each_typed (B := B) (cls := cls) h
      refine ⟨⟨{ name := f.name, ser := .text false false, alias := if f.validationAlias = some "" then none else f.validationAlias },
        f.schema, B.default cls f.name, true⟩ :: ts, ?_, .cons ⟨hn.symm, rfl, rfl, rfl, rfl, by simp [hn]⟩ h3⟩
      simp
    | false =>
      rw [List.filter_cons_of_pos (by simp [hn])] at h
      cases h with
      | @cons _ x _ _ h1 h2 =>
        obtain ⟨ts, rfl, h3⟩ := each_typed (B := B) (cls := cls) h2
        refine ⟨⟨x, f.schema, B.default cls f.name, false⟩ :: ts, by simp, .cons ⟨hn.symm, h1.1.name, ?_, rfl, rfl, fun _ => h1⟩ h3⟩
        rw [Typed.key, h1.1.alias, h1.1.name]; rfl

theorem each_derived {B : Behind} {cls : String} {cd : ClassDef} : ∀ {cs : List ComputedDef} {a : List Field},
    Each (fun c x => x.FitsComputed classes cd c ∧ c.schema.Becomes classes keyed d (c.place cd) x.ser) cs a →
    ∃ us : List Derived, a = us.map Derived.field ∧ Each (Derived.Is classes keyed B cls cd d) cs us
  | [], _, .nil => ⟨[], rfl, .nil⟩
  | c :: cs, _, .cons (b := x) h1 h2 => by
    obtain ⟨us, rfl, h3⟩ := each_derived (B := B) (cls := cls) h2
    exact ⟨⟨x, c.schema, B.get cls c.name⟩ :: us, rfl, .cons ⟨h1.1, h1.2, rfl, rfl⟩ h3⟩

theorem declaredTypes_exists {env : Env} {B : Behind} {cls : String}
    (h : ∀ cd, classes cls = some cd → ∃ m r d, env.model cls = some m ∧ Strips [] cd.schema d (.model cls r) ∧ m.Fits classes cd ∧
      m.Becomes classes keyed d cd) : ∃ o, DeclaredTypes env classes keyed B cls o := by
  by_cases hn : ∃ cd r d, classes cls = some cd ∧ Strips [] cd.schema d (.model cls r) ∧ cd.Neat classes d
  · obtain ⟨cd, r, d, h1, h2, h3⟩ := hn
    obtain ⟨m, r', d', h4, h5, h6, h7⟩ := h cd h1
    obtain ⟨rfl, e⟩ := h2.det h5
    cases e
    have hsk := And.intro h6.skipEmpty h6.extraForbid
    unfold ModelSer.Becomes at h7
    cases hb : cd.body with
    | fields fs cs =>
      rw [hb] at h7
      obtain ⟨a, b, h9, h10, h11⟩ := h7
      obtain ⟨ts, rfl, h12⟩ := each_typed (B := B) (cls := cls) h10
      obtain ⟨us, rfl, h13⟩ := each_derived (B := B) (cls := cls) h11
      exact ⟨some (.fields d ts us), .inr ⟨cd, r, d, m, h1, h2, h3, h4, hsk, .inl ⟨fs, cs, ts, us, hb, rfl, h9, h12, h13⟩⟩⟩
    | root s infos =>
      rw [hb] at h7
      obtain ⟨x, h8, h9⟩ := h7
      exact ⟨some (.root d x s (B.default cls "root")), .inr ⟨cd, r, d, m, h1, h2, h3, h4, hsk, .inr ⟨s, infos, x, hb, rfl, h8, h9⟩⟩⟩
  · exact ⟨none, .inl ⟨rfl, hn⟩⟩

variable {env : Env} {P : Prims} {B : Behind} {types : String → Option Types}

/-- What is known about the types of a class with fields. -/
theorem DeclaredTypes.fields_inv {cls : String} {ts : List Typed} {us : List Derived} {o : Option Types} (h : DeclaredTypes env classes keyed B cls o)
    (he : o = some (.fields d ts us)) : ∃ cd r m fs cs, classes cls = some cd ∧ Strips [] cd.schema d (.model cls r) ∧ cd.Neat classes d ∧
      env.model cls = some m ∧ (m.skipEmpty = cd.params.skipEmpty ∧ m.extraForbid = cd.extraForbid) ∧ cd.body = .fields fs cs ∧
      m.body = .fields ((ts.filter fun t => !t.hidden).map Typed.field ++ us.map Derived.field) ∧
      Each (Typed.Is classes keyed B cls cd d) fs ts ∧ Each (Derived.Is classes keyed B cls cd d) cs us := by
  rcases h with ⟨rfl, -⟩ | ⟨cd, r, d', m, h1, h2, h3, h4, h5, ⟨fs, cs, ts', us', h6, rfl, h7, h8, h9⟩ | ⟨s, infos, x, h6, rfl, h7, h8⟩⟩
  · cases he
  · cases he; exact ⟨cd, r, m, fs, cs, h1, h2, h3, h4, h5, h6, h7, h8, h9⟩
  · cases he

theorem DeclaredTypes.root_inv {cls : String} {df : Option Val} {o : Option Types} (h : DeclaredTypes env classes keyed B cls o)
    (he : o = some (.root d x s df)) : ∃ cd r m infos, classes cls = some cd ∧ Strips [] cd.schema d (.model cls r) ∧ cd.Neat classes d ∧
      env.model cls = some m ∧ (m.skipEmpty = cd.params.skipEmpty ∧ m.extraForbid = cd.extraForbid) ∧ cd.body = .root s infos ∧
      m.body = .root x ∧ df = B.default cls "root" ∧ s.Becomes classes keyed d (cd.rootPlace infos) x := by
  rcases h with ⟨rfl, -⟩ | ⟨cd, r, d', m, h1, h2, h3, h4, h5, ⟨fs, cs, ts', us', h6, rfl, h7, h8⟩ | ⟨s', infos, x', h6, rfl, h7, h8⟩⟩
  · cases he
  · cases he
  · cases he; exact ⟨cd, r, m, infos, h1, h2, h3, h4, h5, h6, h7, rfl, h8⟩

theorem DeclaredTypes.fields_of {cls : String} {cd : ClassDef} {r : Bool} {fs : List FieldDef} {cs : List ComputedDef} {o : Option Types}
    (h : DeclaredTypes env classes keyed B cls o) (h1 : classes cls = some cd) (h2 : Strips [] cd.schema d (.model cls r))
    (h3 : cd.Neat classes d) (h4 : cd.body = .fields fs cs) :
    ∃ ts us m, o = some (.fields d ts us) ∧ Each (Typed.Is classes keyed B cls cd d) fs ts ∧ Each (Derived.Is classes keyed B cls cd d) cs us ∧
      env.model cls = some m ∧ m.skipEmpty = cd.params.skipEmpty ∧ m.extraForbid = cd.extraForbid := by
  rcases h with ⟨rfl, hn⟩ | ⟨cd', r', d', m, h1', h2', h3', h4', h5, h6⟩
  · exact absurd ⟨cd, r, d, h1, h2, h3⟩ hn
  · rw [h1] at h1'
    cases h1'
    obtain ⟨rfl, -⟩ := h2.det h2'
    rcases h6 with ⟨fs', cs', ts, us, h7, rfl, -, h8, h9⟩ | ⟨s, infos, x, h7, -⟩
    · rw [h4] at h7
      cases h7
      exact ⟨ts, us, m, rfl, h8, h9, h4', h5⟩
    · rw [h4] at h7; cases h7

theorem DeclaredTypes.root_of {cls : String} {cd : ClassDef} {r : Bool} {infos : List EntityInfo} {o : Option Types}
    (h : DeclaredTypes env classes keyed B cls o) (h1 : classes cls = some cd) (h2 : Strips [] cd.schema d (.model cls r))
    (h3 : cd.Neat classes d) (h4 : cd.body = .root s infos) :
    ∃ x m, o = some (.root d x s (B.default cls "root")) ∧ s.Becomes classes keyed d (cd.rootPlace infos) x ∧ env.model cls = some m ∧
      m.skipEmpty = cd.params.skipEmpty ∧ m.extraForbid = cd.extraForbid := by
  rcases h with ⟨rfl, hn⟩ | ⟨cd', r', d', m, h1', h2', h3', h4', h5, h6⟩
  · exact absurd ⟨cd, r, d, h1, h2, h3⟩ hn
  · rw [h1] at h1'
    cases h1'
    obtain ⟨rfl, -⟩ := h2.det h2'
    rcases h6 with ⟨fs', cs', ts, us, h7, -⟩ | ⟨s', infos', x, h7, rfl, -, h8⟩
    · rw [h4] at h7; cases h7
    · rw [h4] at h7
      cases h7
      exact ⟨x, m, rfl, h8, h4', h5⟩

theorem each_map_eq {α β γ : Type} {R : α → β → Prop} {f : α → γ} {g : β → γ} {as : List α} {bs : List β} (h : Each R as bs)
    (hfg : ∀ a b, R a b → f a = g b) : as.map f = bs.map g := by
  induction h with
  | nil => rfl
  | cons h1 _ ih => rw [List.map_cons, List.map_cons, hfg _ _ h1, ih]

theorem each_comp {α β γ : Type} {R : α → β → Prop} {S : α → γ → Prop} {T : β → γ → Prop} (hT : ∀ a b c, R a b → S a c → T b c) :
    ∀ {as : List α} {bs : List β} {cs : List γ}, Each R as bs → Each S as cs → Each T bs cs
  | [], _, _, .nil, .nil => .nil
  | _ :: _, _, _, .cons h1 h2, .cons h3 h4 => .cons (hT _ _ _ h1 h3) (each_comp hT h2 h4)

theorem each_map_right {α β γ : Type} {R : α → γ → Prop} {f : β → γ} : ∀ {as : List α} {bs : List β}, Each (fun a b => R a (f b)) as bs →
    Each R as (bs.map f)
  | [], _, .nil => .nil
  | _ :: _, _, .cons h1 h2 => .cons h1 (each_map_right h2)

theorem each_filter {α β : Type} {R : α → β → Prop} {f : α → Bool} {g : β → Bool} (hfg : ∀ a b, R a b → f a = g b) :
    ∀ {as : List α} {bs : List β}, Each R as bs → Each R (as.filter f) (bs.filter g)
  | [], _, .nil => .nil
  | a :: as, _, .cons (b := b) h1 h2 => by
    have e := hfg a b h1
    cases hf : f a with
    | true => rw [List.filter_cons_of_pos hf, List.filter_cons_of_pos (e ▸ hf)]; exact .cons h1 (each_filter hfg h2)
    | false => rw [List.filter_cons_of_neg (by simp [hf]), List.filter_cons_of_neg (by simp [← e, hf])]; exact each_filter hfg h2

theorem each_filter_mem {α β : Type} {R S : α → β → Prop} {f : α → Bool} (hRS : ∀ a b, f a = true → R a b → S a b) {as : List α}
    (has : ∀ a ∈ as, f a = true) : ∀ {bs : List β}, Each R as bs → Each S as bs := by
  induction as with
  | nil => intro bs h; cases h; exact .nil
  | cons a as ih =>
    intro bs h
    cases h with
    | cons h1 h2 => exact .cons (hRS a _ (has a (by simp)) h1) (ih (fun x hx => has x (by simp [hx])) h2)

theorem declared_hasTypes (ht : ∀ cls, DeclaredTypes env classes keyed B cls (types cls))
    (hB : ∀ cls name fs fs', Val.bareItems fs = Val.bareItems fs' → (B.get cls name fs).bare = (B.get cls name fs').bare) :
    env.HasTypes types := by
  constructor
  · intro cls d ts us h
    obtain ⟨cd, r, m, fs, cs, h1, h2, h3, h4, h5, h6, h7, h8, h8'⟩ := (ht cls).fields_inv h
    have h9 := h3
    unfold ClassDef.Neat at h9
    rw [h6] at h9
    simp only at h9
    obtain ⟨h10, h10', h11, h12, es, es', h13, h13', h14, h14', h15, h16⟩ := h9
    have hvis := each_filter (f := fun f : FieldDef => !f.noXml) (g := fun t : Typed => !t.hidden) (fun f t e => by rw [e.1]) h8
    have hent : Each (Entity.Is classes keyed d) es ((ts.filter fun t => !t.hidden).map fun t => t.field.ser) := by
      have hvis' := each_filter_mem (f := fun f : FieldDef => !f.noXml)
        (S := fun f t => f.schema.Becomes classes keyed d (f.place cd) t.field.ser) (fun f t e h => (h.2.2.2.2.2 (by simpa using e)).2)
        (fun f hf => (List.mem_filter.1 hf).2) hvis
      refine each_map_right (each_comp ?_ h13 hvis')
      intro f e t he hf
      obtain ⟨hl, y, h16, h17⟩ := becomes_deep he.1 hf
      exact ⟨hl, y, h16, by rw [he.2]; exact h17⟩
    have hent' : Each (Entity.Is classes keyed d) es' (us.map fun c => c.field.ser.stored) := by
      refine each_map_right (each_comp ?_ h13' h8')
      intro c e t he hc
      obtain ⟨hl, y, h16, h17⟩ := becomes_deep he.1 (becomes_stored hc.2.1)
      exact ⟨hl, y, h16, by rw [he.2]; exact h17⟩
    have hin : ∀ t ∈ ts, t.hidden = false → ∃ e ∈ es, e.Is classes keyed d t.field.ser := by
      intro t htm hh
      obtain ⟨e, he, h17⟩ := hent.mem_right _ (List.mem_map_of_mem (f := fun t : Typed => t.field.ser) (List.mem_filter.2 ⟨htm, by simpa using hh⟩))
      exact ⟨e, he, h17⟩
    have hin' : ∀ c ∈ us, ∃ e ∈ es', e.Is classes keyed d c.field.ser.stored := by
      intro c hc
      obtain ⟨e, he, h17⟩ := hent'.mem_right _ (List.mem_map_of_mem (f := fun c : Derived => c.field.ser.stored) hc)
      exact ⟨e, he, h17⟩
    refine ⟨m, h4, h7, neat_tidy h14 hent, ?_, ?_, ?_, neat_tidy h14' hent', ?_, ?_⟩
    · intro t htm hh
      obtain ⟨f, hf, hf'⟩ := h8.mem_right t htm
      have hn : f.noXml = false := hf'.1.symm.trans hh
      have hfit := (hf'.2.2.2.2.2 hn).1
      refine ⟨hfit.validator.trans (h10 f hf hn).1, hfit.serializer.trans (h10 f hf hn).2, fun hm => ?_⟩
      obtain ⟨e, he, h17⟩ := hin t htm hh
      exact h15 e (List.mem_append_left _ he) (h17.slots _ hm)
    · rw [each_map_eq (g := fun t : Typed => t.field.name) h8 (fun f t h => h.2.1.symm),
        each_map_eq (g := fun c : Derived => c.field.name) h8' (fun f t h => h.1.name.symm)] at h11
      exact h11
    · rw [each_map_eq (g := Typed.key) h8 (fun f t h => h.2.2.1)] at h12
      exact h12
    · intro c hc
      obtain ⟨cd', hcd, hf⟩ := h8'.mem_right c hc
      refine ⟨becomes_computed hf.2.1, hf.1.validator.trans (h10' cd' hcd).1, hf.1.serializer.trans (h10' cd' hcd).2, fun hm => ?_, ?_⟩
      · obtain ⟨e, he, h17⟩ := hin' c hc
        exact h15 e (List.mem_append_right _ he) (h17.slots _ (by rw [slots_stored]; exact hm))
      · rw [hf.2.2.2]; exact hB _ _
    · intro t htm hh a ha c hc b hb
      obtain ⟨e, he, h17⟩ := hin t htm hh
      obtain ⟨u, hu, h18⟩ := hin' c hc
      exact h16 e he a (h17.slots _ ha) u hu b (h18.slots _ (by rw [slots_stored]; exact hb))
  · intro cls d s ty df h
    obtain ⟨cd, r, m, infos, h1, h2, h3, h4, h5, h6, h7, -, h8⟩ := (ht cls).root_inv h
    have h9 := h3
    unfold ClassDef.Neat at h9
    rw [h6] at h9
    obtain ⟨names, q, h10, h11⟩ := h9
    obtain ⟨hl, y, h12, h13⟩ := becomes_deep h10 h8
    have hi : Entity.Is classes keyed d (names, q, ty) s := ⟨hl, y, h12, h13⟩
    exact ⟨m, h4, h7, neat_tidy (neat_single names) (.cons hi .nil), fun hm => h11 (hi.slots _ hm)⟩

theorem declared_follows (ht : ∀ cls, DeclaredTypes env classes keyed B cls (types cls))
    (hF : env.FollowsDeclared P classes B) : env.Follows P types := by
  refine ⟨?_, ?_, ?_, ?_, hF.json_list, hF.json_dict, hF.json_str, hF.json_none, hF.prim⟩
  · intro cls d ts us h data value hv
    obtain ⟨cd, r, m, fs, cs, h1, h2, -, -, -, h6, -, h8, h8'⟩ := (ht cls).fields_inv h
    have hfs : ∀ f ∈ fs, (∃ y, data.get? f.key = some y ∧ Makes P d f.schema y (value f.name)) ∨
        (data.get? f.key = none ∧ B.default cls f.name = some (value f.name)) := by
      intro f hf
      obtain ⟨t, htm, h10⟩ := h8.exists_left f hf
      have := hv t htm
      rw [h10.2.2.2.1, h10.2.2.2.2.1, ← h10.2.2.1, h10.2.1] at this
      exact this
    obtain ⟨set, h9⟩ := hF.fields cls cd r d fs cs h1 h2 h6 data value hfs
    refine ⟨set, ?_⟩
    rw [h9, each_map_eq (g := fun t : Typed => (t.field.name, value t.field.name)) h8 (fun f t h => by rw [h.2.1]),
      each_map_eq (g := fun c : Derived => (c.field.name, c.get (ts.map fun t => (t.field.name, value t.field.name)))) h8'
        (fun c u h => by rw [h.1.name, h.2.2.2])]
  · intro cls d s ty df h
    obtain ⟨cd, r, m, infos, h1, h2, -, -, -, h6, -, rfl, -⟩ := (ht cls).root_inv h
    exact hF.root cls cd r d ty infos h1 h2 h6
  · intro cls d ts us h
    obtain ⟨cd, r, m, fs, cs, h1, -, -, -, -, h6, -, -⟩ := (ht cls).fields_inv h
    exact hF.json_fields cls cd fs cs h1 h6
  · intro cls d s ty df h
    obtain ⟨cd, r, m, infos, h1, -, -, -, -, h6, -, -, -⟩ := (ht cls).root_inv h
    exact hF.json_root cls cd ty infos h1 h6

theorem each_zip {α β γ : Type} {R : α → β → Prop} : ∀ {rs : List (α × γ)} {us : List β}, Each R (rs.map Prod.fst) us →
    ∃ l : List (β × α × γ), rs = l.map Prod.snd ∧ us = l.map Prod.fst ∧ ∀ z ∈ l, R z.2.1 z.1
  | [], _, h => by cases h; exact ⟨[], rfl, rfl, by simp⟩
  | a :: rs, _, .cons (b := u) e1 e2 => by
    obtain ⟨l, rfl, rfl, e3⟩ := each_zip e2
    refine ⟨(u, a) :: l, rfl, rfl, fun z hz => ?_⟩
    rcases List.mem_cons.1 hz with rfl | hz
    · exact e1
    · exact e3 z hz

/-! ## Values that come back -/

/-- What is proved by induction about a value that comes back. -/
def Kept.Good (env : Env) (P : Prims) (classes : Classes) (types : String → Option Types) (eas : Bool) (fl : Flags)
    (wh so : Bool) : Kept → Prop
  | .field d p s v void => p.computed = false → ∀ x, s.Becomes classes classes.Keyed d p x → Sound env P types eas fl wh so (.field d x s v void)
  | .inst cls v => Sound env P types eas fl wh so (.inst cls v)

theorem sound_leaf {eas : Bool} {fl : Flags} {wh so : Bool} {v : Val} {void : Bool} (hs : s.Leaf d) (hl : p.location ≠ some .wrapped) (hc : p.computed = false)
    (hx : s.Becomes classes keyed d p x)
    (h : ∀ y, ScalarAt p y → Sound env P types eas fl wh so (.field d y s v void)) : Sound env P types eas fl wh so (.field d x s v void) := by
  obtain ⟨y, hy, h1⟩ := becomes_leaf hs hl hx
  rcases h1 with rfl | rfl
  · exact h _ hy
  · rw [hc]; exact .primUnion hy.leaf (h y hy)

theorem readable_plain {a : AttrsSer} {items : List (String × Val)} (hf : a.Fits p) (hn : p.nsAttrs = false) (hw : Dict.WF items)
    (hk : Elem.nilAttr ∉ Dict.keys items) : a.Readable items := by
  have h1 : a.namespaced = false := hf.2.2.1.trans hn
  have h2 : a.space = none := by simp [AttrsSer.space, h1]
  refine ⟨hw, fun k hm e => hk ?_, by simp [h1], by simp [h2]⟩
  rw [h2] at e
  have : QName.uri ⟨k, none⟩ = k := by simp [QName.uri]
  rw [this] at e
  rw [← e]
  exact hm

/-- An instance of a class without computed fields, all of whose fields are part of the XML. -/
theorem Worth.plain {eas : Bool} {fl : Flags} {wh so : Bool} {cls : String} {cd : ClassDef} {r : Bool}
    {rows : List (FieldDef × Val × Option Bool × Bool)} {set : List String}
    (h1 : classes cls = some cd) (h2 : Strips [] cd.schema d (.model cls r)) (h3 : cd.Neat classes d) (h4 : cd.body = .fields (rows.map Prod.fst) [])
    (h5 : wh = false → cd.extraForbid = false) (h6 : ∀ x ∈ rows, x.1.noXml = false)
    (h7 : ∀ x ∈ rows, x.2.2.1 = none ↔ x.1.exclude = true ∨ (fl.excludeUnset = true ∧ x.1.name ∉ set))
    (h8 : ∀ x ∈ rows, x.2.2.1 = none → x.1.schema.Quiet eas d (x.1.place cd))
    (h9 : ∀ x ∈ rows, x.2.2.1 ≠ some false → ∃ y, B.default cls x.1.name = some y ∧ y.bare = x.2.1.bare)
    (h10 : so = true → ∃ x ∈ rows, x.2.2.1 ≠ none ∧ x.2.2.2 = true)
    (h11 : ∀ x ∈ rows, ∀ b, x.2.2.1 = some b →
      Worth env P classes B eas (cd.flagsIn fl) wh x.2.2.2 (.field d (x.1.place cd) x.1.schema x.2.1 b)) :
    Worth env P classes B eas fl wh so (.inst cls (.model cls (rows.map fun x => (x.1.name, x.2.1)) set)) := by
  have := Worth.fields (env := env) (P := P) (B := B) (eas := eas) (fl := fl) (wh := wh) (so := so) (rows := rows) (more := []) (set := set)
    h1 h2 h3 h4 h5 (by simp) rfl (fun x hx => by simpa [h6 x hx] using h7 x hx) (fun x hx e => .inr (h8 x hx e)) h9 (fun e => .inl (h10 e)) h11
    (by simp) (by simp) (by simp)
  simpa using this

theorem worth_good {eas : Bool} {fl : Flags} {wh so : Bool} (ht : ∀ cls, DeclaredTypes env classes classes.Keyed B cls (types cls)) {k : Kept}
    (h : Worth env P classes B eas fl wh so k) : k.Good env P classes types eas fl wh so := by
  induction h with
  | @text fl wh so d p s v h1 h2 h3 h4 h5 =>
    intro hc x hx
    refine sound_leaf h1 (by rw [h2]; simp) hc hx fun y hy => ?_
    rcases hy with ⟨-, rfl⟩ | ⟨e, -⟩ | ⟨e, -⟩
    · rw [hc]; exact .text h3 h4 h5
    · rw [h2] at e; cases e
    · rw [h2] at e; cases e
  | @textEmpty fl wh d p s v h1 h2 h3 h4 h5 =>
    intro hc x hx
    refine sound_leaf h1 (by rw [h2]; simp) hc hx fun y hy => ?_
    rcases hy with ⟨-, rfl⟩ | ⟨e, -⟩ | ⟨e, -⟩
    · rw [hc]; exact .textEmpty h3 h4 h5
    · rw [h2] at e; cases e
    · rw [h2] at e; cases e
  | @textNone fl wh so d p s h1 h2 h3 h4 =>
    intro hc x hx
    refine sound_leaf h1 (by rw [h2]; simp) hc hx fun y hy => ?_
    rcases hy with ⟨-, rfl⟩ | ⟨e, -⟩ | ⟨e, -⟩
    · rw [hc]; exact .textNone h3 h4
    · rw [h2] at e; cases e
    · rw [h2] at e; cases e
  | @attr fl wh so d p s v h1 h2 h3 =>
    intro hc x hx
    refine sound_leaf h1 (by rw [h2]; simp) hc hx fun y hy => ?_
    rcases hy with ⟨e, -⟩ | ⟨-, tag, -, rfl⟩ | ⟨e, -⟩
    · rw [h2] at e; cases e
    · rw [hc]; exact .attr h3
    · rw [h2] at e; cases e
  | @attrNone fl wh d p s h1 h2 h3 =>
    intro hc x hx
    refine sound_leaf h1 (by rw [h2]; simp) hc hx fun y hy => ?_
    rcases hy with ⟨e, -⟩ | ⟨-, tag, -, rfl⟩ | ⟨e, -⟩
    · rw [h2] at e; cases e
    · rw [hc]; exact .attrNone h3
    · rw [h2] at e; cases e
  | @elem fl wh so d p s v h1 h2 h3 h4 =>
    intro hc x hx
    refine sound_leaf h1 (by rw [h2]; simp) hc hx fun y hy => ?_
    rcases hy with ⟨e, -⟩ | ⟨e, -⟩ | ⟨-, tag, m, -, rfl⟩
    · rw [h2] at e; cases e
    · rw [h2] at e; cases e
    · rw [hc]; exact .elem h3 h4
  | @elemEmpty fl wh so d p s v h1 h2 h3 h4 h5 h6 =>
    intro hc x hx
    refine sound_leaf h1 (by rw [h2]; simp) hc hx fun y hy => ?_
    rcases hy with ⟨e, -⟩ | ⟨e, -⟩ | ⟨-, tag, m, -, rfl⟩
    · rw [h2] at e; cases e
    · rw [h2] at e; cases e
    · rw [hc]; exact .elemEmpty h3 h4 h5 h6
  | @elemNone fl wh so d p s h1 h2 h3 h4 =>
    intro hc x hx
    refine sound_leaf h1 (by rw [h2]; simp) hc hx fun y hy => ?_
    rcases hy with ⟨e, -⟩ | ⟨e, -⟩ | ⟨-, tag, m, -, rfl⟩
    · rw [h2] at e; cases e
    · rw [h2] at e; cases e
    · rw [hc]; exact .elemNone h3 h4
  | @dict fl wh so d p s k vt items h1 h2 h3 h4 h5 h6 h7 h8 =>
    intro hc x hx
    rcases becomes_mapping (.inl ⟨k, vt, h1⟩) (Place.Compound.ne h2) hx with ⟨e, a, ha, rfl⟩ | ⟨e, a, tag, ha, -, rfl⟩
    · exact .attrs (ha.2.2.2.trans hc) h1 (readable_plain ha h3 h4 h5) h6 (h7 e)
    · exact .mapElem (ha.2.2.2.trans hc) h1 (readable_plain ha h3 h4 h5) h6 (h8 e)
  | @dictEmpty fl wh d p s k vt h1 h2 h3 h4 =>
    intro hc x hx
    rcases becomes_mapping (.inl ⟨k, vt, h1⟩) (by rw [h2]; simp) hx with ⟨e, -⟩ | ⟨-, a, tag, ha, -, rfl⟩
    · rw [h2] at e; cases e
    · have hn : a.namespaced = false := ha.2.2.1.trans h3
      exact .mapElemEmpty (ha.2.2.2.trans hc) (by simp [AttrsSer.space, hn]) h4
  | raw h1 h2 h3 h4 h5 h6 h7' =>
    intro hc x hx
    obtain ⟨tag', h7, rfl⟩ := becomes_raw h1 h2.ne hx
    rw [h3] at h7
    cases h7
    rw [hc]
    exact .raw h1 h4 h5 h6 h7'
  | rawNone h1 h2 =>
    intro hc x hx
    obtain ⟨tag, -, rfl⟩ := becomes_raw h1 h2.ne hx
    rw [hc]
    exact .rawNone
  | model h1 h2 _ ih =>
    intro hc x hx
    obtain ⟨q, rfl, rfl, h3, -⟩ := becomes_model h1 h2.ne hx
    exact .model (h3.trans hc) h1 ih
  | modelNone h1 h2 hso =>
    intro hc x hx
    obtain ⟨q, rfl, rfl, h3, -, h4⟩ := becomes_model h1 h2.ne hx
    exact .modelNone (h3.trans hc) (fun e => by rw [h4]; exact hso e)
  | @union fl wh so d p s c pre post cls r v h1 h2 h3 h4 h5 _ ih =>
    intro hc x hx
    have hcm : c ∈ pre ++ c :: post := by simp
    obtain ⟨title, rows, rfl, h6, h7, h8⟩ := becomes_union h1 hcm h3 h2.ne hx
    obtain ⟨r1, r2, rfl, h9, h10⟩ := List.map_eq_append_iff.1 h6.symm
    obtain ⟨w, r2, rfl, h11, h12⟩ := List.map_eq_cons_iff.1 h10
    obtain ⟨c', q⟩ := w
    cases h11
    have hw : (c', q) ∈ r1 ++ (c', q) :: r2 := by simp
    obtain ⟨q', e, h13, h14, -⟩ := becomes_model h3 h2.ne (h8 _ hw)
    cases e
    subst h13
    rw [hc, List.map_append, List.map_cons]
    refine .union h1 hcm h3 (h14.trans hc) (fun u hu => ?_) ih
    obtain ⟨w, hw', rfl⟩ := List.mem_map.1 hu
    have hwm : w ∈ r1 ++ (c', q) :: r2 := by simp [hw']
    have hpre : w.1 ∈ pre := by rw [← h9]; exact List.mem_map_of_mem hw'
    obtain ⟨b, h15⟩ := h7 w hwm
    refine ⟨h4 _ hpre _ _ h15, fun e => ?_⟩
    have o1 := slots_occupied (h8 w hwm) h2.ne (.child w.2.name) (by simp [Ser.slots])
    have o2 := slots_occupied (h8 _ hw) h2.ne (.child q.name) (by simp [Ser.slots])
    exact h5 _ hpre _ o1 (e ▸ o2)
  | unionNone h1 h2 h3 h4 =>
    intro hc x hx
    obtain ⟨title, rows, rfl, -⟩ := becomes_union h1 h3 h4 h2.ne hx
    rw [hc]
    exact .unionNone
  | @tagged fl wh so d d' p s c discr tag cls r cs cd fs cs2 f fields set h1 h2 h3 h4 h5 h6 h7 h8 h9 h10 h11 hh h12 h13 h14 h15 _ ih =>
    intro hc x hx
    obtain ⟨discr', attr, alts, choice, e, rfl, h16, h17, h18, h19, h20, h21⟩ := becomes_tagged h1 h2.ne hx
    cases e
    obtain ⟨a, ha, e⟩ := h17 _ h3
    obtain ⟨tag', q⟩ := a
    cases e
    have h22 := h4 _ (h18 _ ha)
    have h23 := h19 _ ha
    rw [h22] at h23
    simp only at h23
    cases (h5.det h23).2
    have h24 := h21 _ ha
    rw [h22] at h24
    obtain ⟨q', e, -, h25, -⟩ := becomes_model h5 h2.ne h24
    cases e
    obtain ⟨ts, us, -, h26, h27, -⟩ := (ht q.cls).fields_of h7 h8 h9 h10
    obtain ⟨t, htm, h28⟩ := h27.exists_left f h11
    have hk := h20 _ ha
    obtain ⟨cd', r', d2, fs', cs', k1, k2, k3, k4⟩ := hk
    simp only at k1 k2
    rw [h7] at k1
    cases k1
    obtain ⟨rfl, -⟩ := h8.det k2
    rw [h10] at k3
    cases k3
    have hneat := h9
    unfold ClassDef.Neat at hneat
    rw [h10] at hneat
    simp only at hneat
    have hfind : (fs.filter fun f => !f.noXml).find? (fun f => f.name = discr) = some f := by
      have := find?_key FieldDef.name (l := fs.filter fun f => !f.noXml)
        (List.Nodup.sublist (List.Sublist.map _ List.filter_sublist) (List.nodup_append.1 hneat.2.2.1).1)
        (List.mem_filter.2 ⟨h11, by simpa using hh⟩)
      rw [h12] at this
      exact this
    rw [hfind] at k4
    obtain ⟨k5, k6, g, k7, rfl⟩ := k4
    have hser : t.field.ser = .attr ((f.place cd).attrName g) false := by
      rcases becomes_scalar (classes := classes) (keyed := classes.Keyed) k6 (by rw [k5]; simp) (h28.2.2.2.2.2 hh).2 with ⟨e, -⟩ | ⟨-, g', k8, k9⟩ | ⟨e, -⟩
      · rw [k5] at e; cases e
      · rw [k7] at k8
        cases k8
        exact k9
      · rw [k5] at e; cases e
    obtain ⟨al, ar, rfl⟩ := List.append_of_mem ha
    rw [hc]
    refine .tagged h1 h3 h5 (h25.trans hc) h6 (fun u hu e => ?_) h26 htm (h28.1.trans hh) hser (h28.2.1.trans h12) ((h28.2.2.2.2.2 hh).1.exclude.trans h13) h14 h15 ih
    rw [List.map_append, List.map_cons, List.nodup_append] at h16
    exact h16.2.2 u.1 (List.mem_map_of_mem hu) _ List.mem_cons_self e
  | @list fl wh so d p s t item v vs h1 h2 h3 h4 _ ih =>
    intro hc x hx
    obtain ⟨title, y, rfl, h5⟩ := becomes_list h1 h2 h3.ne hx
    rw [hc]
    exact .list h1 h2 (becomes_item h4 h3.ne h5) fun w hw => ih w hw hc y h5
  | listEmpty h1 h2 h3 h4 h5 =>
    intro hc x hx
    obtain ⟨title, y, rfl, h6⟩ := becomes_list h1 h2 h3.ne hx
    rw [hc]
    exact .listEmpty h5 (becomes_item h4 h3.ne h6)
  | @tuple fl wh so d p s t rows h1 h2 h3 h4 h5 _ ih =>
    intro hc x hx
    obtain ⟨title, rows', rfl, h6, h7⟩ := becomes_tuple h1 h2 h3.ne hx
    have key : ∀ {rs : List (Schema × Val)} {rs' : List (Schema × Ser)}, rs.map Prod.fst = rs'.map Prod.fst →
        ∃ l : List (Ser × Schema × Val), rs' = l.map (fun z => (z.2.1, z.1)) ∧ rs = l.map Prod.snd := by
      intro rs
      induction rs with
      | nil =>
        intro rs' e
        cases rs' with
        | nil => exact ⟨[], rfl, rfl⟩
        | cons _ _ => cases e
      | cons a rs ihr =>
        intro rs' e
        cases rs' with
        | nil => cases e
        | cons b rs' =>
          simp only [List.map_cons, List.cons.injEq] at e
          obtain ⟨l, rfl, rfl⟩ := ihr e.2
          exact ⟨(b.2, a) :: l, by simp [e.1], rfl⟩
    obtain ⟨l, rfl, rfl⟩ := key h6
    simp only [List.map_map, Function.comp_def] at h2 h6 ⊢
    rw [hc]
    refine .tuple (rows := l) h1 h2 (by rintro rfl; exact h4 rfl) (fun z hz => ?_) fun z hz => ?_
    · exact becomes_item (h5 z.2 (List.mem_map_of_mem hz)) h3.ne (h7 (z.2.1, z.1) (List.mem_map_of_mem (f := fun z : Ser × Schema × Val => (z.2.1, z.1)) hz))
    · exact ih z.2 (List.mem_map_of_mem hz) hc z.1 (h7 (z.2.1, z.1) (List.mem_map_of_mem (f := fun z : Ser × Schema × Val => (z.2.1, z.1)) hz))
  | tupleNone h1 h2 h3 h4 h5 =>
    intro hc x hx
    obtain ⟨title, rows', rfl, rfl, h7⟩ := becomes_tuple h1 h2 h3.ne hx
    rw [hc]
    refine .tupleNone (by simpa using h4) fun y hy => ?_
    obtain ⟨r, hr, rfl⟩ := List.mem_map.1 hy
    exact becomes_item (h5 r.1 (List.mem_map_of_mem hr)) h3.ne (h7 r hr)
  | wrapped h1 h2 hlen _ ih =>
    intro hc x hx
    obtain ⟨path, parts, m, y, h3, h4, rfl, h5⟩ := becomes_wrapped h1 hx
    rw [hc]
    cases parts with
    | nil => exact absurd rfl h4.1
    | cons t parts => exact .wrap h2 hlen (ih hc y h5)
  | wrappedNone h1 hv h2 =>
    intro hc x hx
    obtain ⟨path, parts, m, y, h3, h4, rfl, h5⟩ := becomes_wrapped h1 hx
    rw [hc]
    cases parts with
    | nil => exact absurd rfl h4.1
    | cons t parts => exact .wrapNone hv (becomes_silent h2 hc h5)
  | @fields fl wh so cls cd r d rows more set stored h1 h2 h3 h4 hfb hwh hst h5 h6 h7 hso _ hcw hcq _ ih ihc =>
    obtain ⟨ts, us, m, h8, h9, h9', hm, hsk, hxf⟩ := (ht cls).fields_of h1 h2 h3 h4
    obtain ⟨l, rfl, rfl, h10⟩ := each_zip h9
    obtain ⟨k, rfl, rfl, h11⟩ := each_zip h9'
    have hsnd : ∀ z ∈ l, z.2 ∈ l.map Prod.snd := fun z hz => List.mem_map_of_mem hz
    have hsnd' : ∀ z ∈ k, z.2 ∈ k.map Prod.snd := fun z hz => List.mem_map_of_mem hz
    have hl : stored =
        (l.map fun z => ((z.1, z.2.2) : Typed × Val × Option Bool × Bool)).map (fun r => (r.1.field.name, r.2.1)) := by
      rw [hst, List.map_map, List.map_map]
      refine List.map_congr_left fun z hz => ?_
      simp only [Function.comp_apply, (h10 z hz).2.1]
    have hk : (k.map Prod.snd).map (fun c => (c.1.name, B.get cls c.1.name stored)) =
        (k.map fun z => ((z.1, z.2.2) : Derived × Option Bool × Bool)).map (fun c => (c.1.field.name, c.1.get stored)) := by
      rw [List.map_map, List.map_map]
      refine List.map_congr_left fun z hz => ?_
      simp only [Function.comp_apply, (h11 z hz).1.name, (h11 z hz).2.2.2]
    show Sound env P types eas fl wh so (.inst cls _)
    rw [hk]
    have hfl : m.flagsIn fl = cd.flagsIn fl := by simp [ModelSer.flagsIn, ClassDef.flagsIn, hsk]
    refine .fields (d := d) (by rw [h8, List.map_map, List.map_map]; rfl) hm (by rw [hxf]; exact hfb) (fun e => hwh (by simpa using e)) hl
      ?_ ?_ ?_ ?_ ?_ ?_ ?_ ?_
    · intro r hr
      obtain ⟨z, hz, rfl⟩ := List.mem_map.1 hr
      have := h5 z.2 (hsnd z hz)
      have hz' := h10 z hz
      show z.2.2.2.1 = none ↔ z.1.hidden = true ∨ z.1.field.exclude = true ∨ _
      rw [hz'.1, hz'.2.1, this]
      cases hn : z.2.1.noXml with
      | true => simp
      | false => rw [(hz'.2.2.2.2.2 hn).1.exclude]
    · intro r hr e
      obtain ⟨z, hz, rfl⟩ := List.mem_map.1 hr
      have hz' := h10 z hz
      cases hn : z.2.1.noXml with
      | true => exact .inl (hz'.1.trans hn)
      | false =>
        rcases h6 z.2 (hsnd z hz) e with hq | hq
        · rw [hn] at hq; cases hq
        · exact .inr (becomes_silent hq rfl (hz'.2.2.2.2.2 hn).2)
    · intro r hr e
      obtain ⟨z, hz, rfl⟩ := List.mem_map.1 hr
      have := h7 z.2 (hsnd z hz) e
      rw [← (h10 z hz).2.2.2.2.1] at this
      exact this
    · intro e
      rcases hso e with ⟨x, hx, e1, e2⟩ | ⟨x, hx, e1, e2⟩
      · obtain ⟨z, hz, rfl⟩ := List.mem_map.1 hx
        exact .inl ⟨_, List.mem_map_of_mem hz, e1, e2⟩
      · obtain ⟨z, hz, rfl⟩ := List.mem_map.1 hx
        exact .inr ⟨_, List.mem_map_of_mem hz, e1, e2⟩
    · intro r hr b e
      obtain ⟨z, hz, rfl⟩ := List.mem_map.1 hr
      have hz' := h10 z hz
      have hn : z.2.1.noXml = false := by
        cases hn : z.2.1.noXml with
        | false => rfl
        | true =>
          have := (h5 z.2 (hsnd z hz)).2 (.inl hn)
          rw [show z.2.2.2.1 = some b from e] at this
          cases this
      have := ih z.2 (hsnd z hz) b e rfl _ (hz'.2.2.2.2.2 hn).2
      rw [← hz'.2.2.2.1] at this
      rw [hfl]
      exact this
    · intro c hc
      obtain ⟨z, hz, rfl⟩ := List.mem_map.1 hc
      have := hcw z.2 (hsnd' z hz)
      show z.2.2.1 = none ↔ z.1.field.exclude = true ∨ (_ ∧ z.1.field.name ∉ set)
      rw [(h11 z hz).1.exclude, (h11 z hz).1.name, this]
      simp
    · intro c hc e
      obtain ⟨z, hz, rfl⟩ := List.mem_map.1 hc
      exact becomes_silent (hcq z.2 (hsnd' z hz) e) rfl (becomes_stored (h11 z hz).2.1)
    · intro c hc b e
      obtain ⟨z, hz, rfl⟩ := List.mem_map.1 hc
      have := ihc z.2 (hsnd' z hz) b e rfl _ (becomes_stored (h11 z hz).2.1)
      rw [← (h11 z hz).2.2.1, ← (h11 z hz).2.2.2] at this
      rw [hfl]
      exact this
  | root h1 h2 h3 h4 hfb h5 h6 _ ih =>
    obtain ⟨x, m, h7, h8, hm, hsk, hxf⟩ := (ht _).root_of h1 h2 h3 h4
    refine .root h7 hm (by rw [hxf]; exact hfb) h5 h6 ?_
    simp only [ModelSer.flagsIn, hsk]
    exact ih rfl x h8
  | @whole fl so x _ ih =>
    cases x with
    | field d p s v void => intro hc x hx; exact .whole (ih hc x hx)
    | inst cls v => exact Sound.whole ih

end PXml
