import Verif.Lemmas.CompileKeyed

/-! # Programs that define classes -/

namespace PXml

section
variable {classes : Classes} {d : Dict String Schema} {keyed keyed' : String → String → String → Prop}

/-! ## The classes a type chooses among -/

theorem Schema.Chooses.of_strips {s t : Schema} {c : String} (hst : Strips d s d t) (h : t.Chooses d c) : s.Chooses d c := by
  have ht : Strips d t d t := .done hst.isType
  cases h with
  | tagged h1 h2 h3 => obtain ⟨-, rfl⟩ := ht.det h1; exact .tagged hst h2 h3
  | list h1 h2 => obtain ⟨-, rfl⟩ := ht.det h1; exact .list hst h2
  | tuple h1 h2 h3 => obtain ⟨-, rfl⟩ := ht.det h1; exact .tuple hst h2 h3
  | namedTuple h1 h2 h3 => obtain ⟨-, rfl⟩ := ht.det h1; exact .namedTuple hst h2 h3

theorem Schema.Chooses.item {s t item : Schema} {c : String} (hst : Strips d s d t)
    (ht : t = .list item ∨ t = .tuple [item] (some 0)) (h : item.Chooses d c) : s.Chooses d c := by
  rcases ht with rfl | rfl
  · exact .list hst h
  · exact .tuple hst (List.mem_singleton.2 rfl) h

theorem Schema.Chooses.items {s t item : Schema} {items : List Schema} {c : String} (hst : Strips d s d t)
    (ht : t = .tuple items none ∨ t = .call true items) (hi : item ∈ items) (h : item.Chooses d c) : s.Chooses d c := by
  rcases ht with rfl | rfl
  · exact .tuple hst hi h
  · exact .namedTuple hst hi h

/-- Only the discriminators of the classes a type chooses among matter. -/
theorem Schema.Supported.mono {p : Place} {s : Schema} (h : s.Supported classes keyed d p) :
    (∀ c, s.Chooses d c → ∀ a b, keyed c a b → keyed' c a b) → s.Supported classes keyed' d p := by
  induction h with
  | wrapped h1 h2 h3 h4 _ ih => exact fun hk => .wrapped h1 h2 h3 h4 (ih fun c hc => hk c (hc.of_strips h1))
  | prim h1 h2 => exact fun _ => .prim h1 h2
  | inst h1 h2 => exact fun _ => .inst h1 h2
  | raw h1 h2 h3 => exact fun _ => .raw h1 h2 h3
  | model h1 h2 h3 h4 => exact fun _ => .model h1 h2 h3 h4
  | dict h1 h2 h3 h4 => exact fun _ => .dict h1 h2 h3 h4
  | typedDict h1 h2 h3 => exact fun _ => .typedDict h1 h2 h3
  | collection h1 h2 h3 h4 h5 h6 _ ih => exact fun hk => .collection h1 h2 h3 h4 h5 h6 (ih fun c hc => hk c (hc.item h1 h2))
  | elements h1 h2 h3 h4 h5 _ ih => exact fun hk => .elements h1 h2 h3 h4 h5 (ih fun c hc => hk c (hc.item h1 h2))
  | tuple h1 h2 h3 h4 _ ih => exact fun hk => .tuple h1 h2 h3 h4 fun i hi => ih i hi fun c hc => hk c (hc.items h1 h2 hi)
  | primUnion h1 h2 h3 h4 => exact fun _ => .primUnion h1 h2 h3 h4
  | modelUnion h1 h2 h3 h4 => exact fun _ => .modelUnion h1 h2 h3 h4
  | @tagged p s discr cs attr h1 h2 h3 h4 =>
    intro hk
    refine .tagged (attr := attr) h1 h2 h3 fun c hc => ?_
    obtain ⟨tag, cls, cd, h5, h6, h7, h8, h9⟩ := h4 c hc
    exact ⟨tag, cls, cd, h5, h6, h7, h8, hk cls (.tagged h1 hc h6) _ _ h9⟩

theorem ClassDef.Supported.mono {cd : ClassDef} (h : cd.Supported classes keyed d)
    (hk : ∀ c, cd.Chooses d c → ∀ a b, keyed c a b → keyed' c a b) : cd.Supported classes keyed' d := by
  obtain ⟨h1, h2⟩ := h
  refine ⟨h1, ?_⟩
  unfold ClassDef.Chooses at hk
  cases hb : cd.body with
  | fields fs cs =>
    rw [hb] at h2 hk
    exact ⟨fun f hf hno => (h2.1 f hf hno).mono fun c hc => hk c (.inl ⟨f, hf, hno, hc⟩),
      fun c hc => (h2.2 c hc).mono fun c' hc' => hk c' (.inr ⟨c, hc, hc'⟩)⟩
  | root s infos =>
    rw [hb] at h2 hk
    exact Schema.Supported.mono h2 hk

/-- Nothing else is asked for. -/
theorem Schema.Supported.chosen {p : Place} {s : Schema} (h : s.Supported classes keyed d p) :
    ∀ c, s.Chooses d c → ∃ a b, keyed c a b := by
  induction h with
  | wrapped h1 _ _ _ _ ih =>
    intro c hc
    refine ih c ?_
    cases hc with
    | tagged h2 h3 h4 => obtain ⟨-, rfl⟩ := h1.det h2; exact .tagged (.done rfl) h3 h4
    | list h2 h3 => obtain ⟨-, rfl⟩ := h1.det h2; exact .list (.done rfl) h3
    | tuple h2 h3 h4 => obtain ⟨-, rfl⟩ := h1.det h2; exact .tuple (.done rfl) h3 h4
    | namedTuple h2 h3 h4 => obtain ⟨-, rfl⟩ := h1.det h2; exact .namedTuple (.done rfl) h3 h4
  | prim h1 | inst h1 | raw h1 | model h1 | dict h1 | typedDict h1 | primUnion h1 | modelUnion h1 =>
    intro c hc
    cases hc with
    | tagged h2 | list h2 | tuple h2 | namedTuple h2 => obtain ⟨-, e⟩ := h2.det h1; cases e
  | collection h1 h2 _ _ _ _ _ ih | elements h1 h2 _ _ _ _ ih =>
    intro c hc
    cases hc with
    | tagged h3 | namedTuple h3 => obtain ⟨-, e⟩ := h3.det h1; subst e; rcases h2 with h2 | h2 <;> cases h2
    | list h3 h4 => obtain ⟨-, e⟩ := h3.det h1; subst e; rcases h2 with h2 | h2 <;> cases h2; exact ih c h4
    | tuple h3 h4 h5 =>
      obtain ⟨-, e⟩ := h3.det h1
      subst e
      rcases h2 with h2 | h2 <;> cases h2
      rw [List.mem_singleton.1 h4] at h5
      exact ih c h5
  | tuple h1 h2 _ _ _ ih =>
    intro c hc
    cases hc with
    | tagged h3 | list h3 => obtain ⟨-, e⟩ := h3.det h1; subst e; rcases h2 with h2 | h2 <;> cases h2
    | tuple h3 h4 h5 | namedTuple h3 h4 h5 =>
      obtain ⟨-, e⟩ := h3.det h1
      subst e
      rcases h2 with h2 | h2 <;> cases h2
      exact ih _ h4 c h5
  | tagged h1 _ _ h2 =>
    intro c hc
    cases hc with
    | tagged h3 h4 h5 =>
      obtain ⟨-, e⟩ := h3.det h1
      cases e
      obtain ⟨_, cls, _, _, h6, _, _, h7⟩ := h2 _ h4
      obtain ⟨-, e⟩ := h5.det h6
      cases e
      exact ⟨_, _, h7⟩
    | list h3 | tuple h3 | namedTuple h3 => obtain ⟨-, e⟩ := h3.det h1; cases e

theorem ClassDef.Supported.chosen {cd : ClassDef} (h : cd.Supported classes keyed d) (c : String) (hc : cd.Chooses d c) :
    ∃ a b, keyed c a b := by
  obtain ⟨-, h⟩ := h
  unfold ClassDef.Chooses at hc
  cases hb : cd.body with
  | fields fs cs =>
    rw [hb] at h hc
    rcases hc with ⟨f, hf, hno, hc⟩ | ⟨x, hx, hc⟩
    · exact (h.1 f hf hno).chosen c hc
    · exact (h.2 x hx).chosen c hc
  | root s infos =>
    rw [hb] at h hc
    exact Schema.Supported.chosen h c hc

theorem exists_cover {α β : Type} {P : α → β → Prop} : ∀ {as : List α}, (∀ a ∈ as, ∃ L : List β, ∀ b, P a b → b ∈ L) →
    ∃ L : List β, ∀ a ∈ as, ∀ b, P a b → b ∈ L
  | [], _ => ⟨[], fun a ha => by simp at ha⟩
  | a :: as, h => by
    obtain ⟨L, hL⟩ := exists_cover (as := as) fun x hx => h x (by simp [hx])
    obtain ⟨L', hL'⟩ := h a (by simp)
    refine ⟨L' ++ L, fun x hx b hb => ?_⟩
    rcases List.mem_cons.1 hx with rfl | hx
    · exact List.mem_append_left _ (hL' b hb)
    · exact List.mem_append_right _ (hL x hx b hb)

/-- A type chooses among finitely many classes. -/
theorem Schema.Supported.cover {p : Place} {s : Schema} (h : s.Supported classes keyed d p) :
    ∃ L : List String, ∀ c, s.Chooses d c → c ∈ L := by
  induction h with
  | wrapped h1 _ _ _ _ ih =>
    obtain ⟨L, hL⟩ := ih
    refine ⟨L, fun c hc => hL c ?_⟩
    cases hc with
    | tagged h2 h3 h4 => obtain ⟨-, rfl⟩ := h1.det h2; exact .tagged (.done rfl) h3 h4
    | list h2 h3 => obtain ⟨-, rfl⟩ := h1.det h2; exact .list (.done rfl) h3
    | tuple h2 h3 h4 => obtain ⟨-, rfl⟩ := h1.det h2; exact .tuple (.done rfl) h3 h4
    | namedTuple h2 h3 h4 => obtain ⟨-, rfl⟩ := h1.det h2; exact .namedTuple (.done rfl) h3 h4
  | prim h1 | inst h1 | raw h1 | model h1 | dict h1 | typedDict h1 | primUnion h1 | modelUnion h1 =>
    refine ⟨[], fun c hc => ?_⟩
    cases hc with
    | tagged h2 | list h2 | tuple h2 | namedTuple h2 => obtain ⟨-, e⟩ := h2.det h1; cases e
  | collection h1 h2 _ _ _ _ _ ih | elements h1 h2 _ _ _ _ ih =>
    obtain ⟨L, hL⟩ := ih
    refine ⟨L, fun c hc => hL c ?_⟩
    cases hc with
    | tagged h3 | namedTuple h3 => obtain ⟨-, e⟩ := h3.det h1; subst e; rcases h2 with h2 | h2 <;> cases h2
    | list h3 h4 => obtain ⟨-, e⟩ := h3.det h1; subst e; rcases h2 with h2 | h2 <;> cases h2; exact h4
    | tuple h3 h4 h5 =>
      obtain ⟨-, e⟩ := h3.det h1
      subst e
      rcases h2 with h2 | h2 <;> cases h2
      rw [List.mem_singleton.1 h4] at h5
      exact h5
  | tuple h1 h2 _ _ _ ih =>
    obtain ⟨L, hL⟩ := exists_cover ih
    refine ⟨L, fun c hc => ?_⟩
    cases hc with
    | tagged h3 | list h3 => obtain ⟨-, e⟩ := h3.det h1; subst e; rcases h2 with h2 | h2 <;> cases h2
    | tuple h3 h4 h5 | namedTuple h3 h4 h5 =>
      obtain ⟨-, e⟩ := h3.det h1
      subst e
      rcases h2 with h2 | h2 <;> cases h2
      exact hL _ h4 c h5
  | @tagged p s discr cs attr h1 _ _ h2 =>
    obtain ⟨L, hL⟩ := exists_cover (as := cs) (P := fun c cls => ∃ r, Strips d c.2 d (.model cls r)) fun c hc => by
      obtain ⟨_, cls, _, _, h6, _⟩ := h2 c hc
      exact ⟨[cls], fun cls' ⟨r, h⟩ => by obtain ⟨-, e⟩ := h.det h6; cases e; simp⟩
    refine ⟨L, fun c hc => ?_⟩
    cases hc with
    | tagged h3 h4 h5 =>
      obtain ⟨-, e⟩ := h3.det h1
      cases e
      exact hL _ h4 c ⟨_, h5⟩
    | list h3 | tuple h3 | namedTuple h3 => obtain ⟨-, e⟩ := h3.det h1; cases e

theorem ClassDef.Supported.cover {cd : ClassDef} (h : cd.Supported classes keyed d) :
    ∃ L : List String, ∀ c, cd.Chooses d c → c ∈ L := by
  obtain ⟨-, h⟩ := h
  unfold ClassDef.Chooses
  cases hb : cd.body with
  | fields fs cs =>
    rw [hb] at h
    obtain ⟨L, hL⟩ := exists_cover (as := fs) (P := fun f c => f.noXml = false ∧ f.schema.Chooses d c) fun f hf => by
      cases hno : f.noXml with
      | true => exact ⟨[], fun b hb => by cases hb.1⟩
      | false =>
        obtain ⟨L, hL⟩ := (h.1 f hf hno).cover
        exact ⟨L, fun b hb => hL b hb.2⟩
    obtain ⟨L', hL'⟩ := exists_cover (as := cs) (P := fun f c => f.schema.Chooses d c) fun f hf => (h.2 f hf).cover
    refine ⟨L ++ L', fun c hc => ?_⟩
    rcases hc with ⟨f, hf, hno, hc⟩ | ⟨x, hx, hc⟩
    · exact List.mem_append_left _ (hL f hf c ⟨hno, hc⟩)
    · exact List.mem_append_right _ (hL' x hx c hc)
  | root s infos =>
    rw [hb] at h
    exact Schema.Supported.cover h

/-! ## Where serializers come from -/

/-- The serializers come from building the classes. -/
def Built.From (classes : Classes) (b : Built) : Prop :=
  ∀ c m, b c = some m → ∃ cd b' n, classes c = some cd ∧ cd.complete = true ∧ buildClass classes b' n cd = .ok (some m)

theorem complete_of_built {b : Built} {n : Nat} {cd : ClassDef} {k : Bool} {m : ModelSer}
    (h : buildClass classes b n { cd with complete := cd.complete && k } = .ok (some m)) :
    cd.complete = true ∧ k = true ∧ buildClass classes b n cd = .ok (some m) := by
  have hk : (cd.complete && k) = true := by
    cases hk : (cd.complete && k) with
    | true => rfl
    | false => rw [buildClass_incomplete hk] at h; cases h
  obtain ⟨h1, h2⟩ := Bool.and_eq_true_iff.1 hk
  refine ⟨h1, h2, ?_⟩
  have : { cd with complete := cd.complete && k } = cd := by rw [hk]; cases cd; cases h1; rfl
  rw [this] at h
  exact h

/-- What an event does. -/
theorem run_cases {n : Nat} {b b' : Built} {e : Event} (h : e.run classes n b = .ok b') (c : String) (m : ModelSer)
    (hm : b' c = some m) : b c = some m ∨ e.cls = c ∧ ∃ cd, classes c = some cd ∧ cd.complete = true ∧ e.complete = true ∧
      buildClass classes b n cd = .ok (some m) := by
  by_cases he : e.cls = c
  · have key : ∀ k, e.complete = k → setSerializer classes n b c k = .ok b' → b c = some m ∨ e.cls = c ∧ ∃ cd, classes c = some cd ∧
        cd.complete = true ∧ e.complete = true ∧ buildClass classes b n cd = .ok (some m) := by
      intro k hk hset
      rcases setSerializer_eq hset with ⟨_, rfl⟩ | ⟨cd, m', hcd, hb, rfl⟩
      · exact .inl hm
      · simp only [if_pos] at hm
        subst hm
        obtain ⟨h1, h2, h3⟩ := complete_of_built hb
        exact .inr ⟨he, cd, hcd, h1, hk.trans h2, h3⟩
    cases e with
    | statement c' k => cases he; exact key k rfl h
    | rebuild c' k =>
      cases he
      simp only [Event.run, Event.cls] at h hm key ⊢
      split at h
      · exact key k rfl h
      · rw [← Except.ok.inj h] at hm; exact .inl hm
  · rw [run_other he h] at hm; exact .inl hm

theorem history_from {n : Nat} : ∀ (es : List Event) {b : Built}, b.From classes → (history classes n es b).From classes
  | [], _, h => h
  | e :: es, b, h => by
    unfold history
    cases hr : e.run classes n b with
    | error _ => exact history_from es h
    | ok b' =>
      refine history_from es fun c m hm => ?_
      rcases run_cases hr c m hm with hb | ⟨-, cd, h1, h2, -, h4⟩
      · exact h c m hb
      · exact ⟨cd, b, n, h1, h2, h4⟩

theorem empty_from : Built.empty.From classes := fun _ _ h => by cases h

theorem Built.From.keyed_iff (hst : classes.Standard) {b : Built} (h : b.From classes) {c discr attr : String} :
    b.Keyed c discr attr ↔ (∃ m, b c = some m) ∧ classes.Keyed c discr attr := by
  constructor
  · rintro ⟨m, fs, f, comp, h1, h2, h3, h4⟩
    obtain ⟨cd, b', n, h5, -, h6⟩ := h c m h1
    exact ⟨⟨m, h1⟩, (PXml.keyed_iff hst h5 h6 discr attr).2 ⟨fs, f, comp, h2, h3, h4⟩⟩
  · rintro ⟨⟨m, h1⟩, h2⟩
    obtain ⟨cd, b', n, h5, -, h6⟩ := h c m h1
    obtain ⟨fs, f, comp, h3⟩ := (PXml.keyed_iff hst h5 h6 discr attr).1 h2
    exact ⟨m, fs, f, comp, h1, h3⟩

/-- States that programs with different fuel reach agree. -/
theorem history_agree (n n' : Nat) (es es' : List Event) :
    (history classes n es .empty).Agree (history classes n' es' .empty) := by
  suffices key : ∀ (es : List Event) (b : Built), (∀ es', b.Agree (history classes n' es' .empty)) →
      ∀ es', (history classes n es b).Agree (history classes n' es' .empty) from
    key es .empty (fun _ c m m' h _ => by cases h) es'
  clear es es'
  intro es
  induction es with
  | nil => intro b hb; exact hb
  | cons e es ih =>
    intro b hb es'
    cases hr : e.run classes n b with
    | error _ =>
      have hh : history classes n (e :: es) b = history classes n es b := by simp only [history, hr]
      rw [hh]
      exact ih b hb es'
    | ok b' =>
      have hh : history classes n (e :: es) b = history classes n es b' := by simp only [history, hr]
      rw [hh]
      refine ih b' ?_ es'
      intro es' c m m' hc hc'
      rcases run_cases hr c m hc with h | ⟨-, cd, h1, h2, -, h4⟩
      · exact hb es' c m m' h hc'
      · rcases history_origin c m' es' .empty hc' with h0 | ⟨es'', cd', hcd', hb'⟩
        · cases h0
        · rw [h1] at hcd'
          cases hcd'
          have : { cd with complete := true } = cd := by cases cd; cases h2; rfl
          rw [this] at hb'
          exact Option.some.inj (buildClass_agree classes (hb es'') (max n n') _
            (buildClass_fuel classes b (Nat.le_max_left _ _) cd _ h4) (buildClass_fuel classes _ (Nat.le_max_right _ _) cd _ hb'))

end

end PXml
