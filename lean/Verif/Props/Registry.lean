import Verif.Registry
import Verif.Lemmas.Dict
import Verif.Tactic
import Std.Data.String.ToInt

/-!
# The global registry of namespace prefixes: C54
-/

namespace PXml

/-! ## Specification -/

/-- Every uri has at most one prefix, every prefix at most one uri. -/
def Registry.OneToOne (r : Registry) : Prop :=
  ∀ u p u' p', (u, p) ∈ r → (u', p') ∈ r → (u = u' ↔ p = p')

/-- The map does not touch the prefix `xml`, which XML reserves for one namespace. -/
def NsMap.KeepsXml (m : NsMap) : Prop := ∀ p u, (p, u) ∈ m → (p = "xml" ↔ u = "http://www.w3.org/XML/1998/namespace")

/-- What a reader of the document makes of the prefix: `xml` means the XML namespace, any other prefix the one namespace it is
declared for. -/
def Means (decls : Dict String String) (pre uri : String) : Prop :=
  (pre = "xml" ∧ uri = "http://www.w3.org/XML/1998/namespace") ∨ (pre ≠ "xml" ∧ pre ≠ "" ∧ (uri, pre) ∈ decls ∧ ∀ uri', (uri', pre) ∈ decls → uri' = uri)

/-! ## Invariants of the table -/

theorem mem_register {r r' : Registry} {pre uri : String} (h : r.register pre uri = .ok r') (u p : String) :
    (u, p) ∈ r' ↔ (u = uri ∧ p = pre) ∨ ((u, p) ∈ r ∧ u ≠ uri ∧ p ≠ pre) := by
  unfold Registry.register at h
  split at h
  · cases h
  · injection h with h
    subst h
    have hk : uri ∉ Dict.keys (r.filter fun kv => !(decide (kv.1 = uri) || decide (kv.2 = pre))) := by
      simp [Dict.keys]
    rw [Dict.set_of_not_mem hk]
    simp only [List.mem_append, List.mem_filter, List.mem_singleton, Prod.mk.injEq, Bool.not_eq_true', Bool.or_eq_false_iff,
      decide_eq_false_iff_not]
    constructor
    · rintro (⟨h1, h2⟩ | h)
      · exact Or.inr ⟨h1, h2⟩
      · exact Or.inl h
    · rintro (h | ⟨h1, h2⟩)
      · exact Or.inr h
      · exact Or.inl ⟨h1, h2⟩

/-- What every table reached by registrations satisfies. -/
structure Registry.Sound (r : Registry) : Prop where
  one : r.OneToOne
  keys : Dict.WF r
  names : ∀ u p, (u, p) ∈ r → p ≠ "" ∧ reservedPrefix p = false

theorem sound_register {r r' : Registry} {pre uri : String} (hr : r.Sound) (hp : pre ≠ "") (h : r.register pre uri = .ok r') :
    r'.Sound := by
  have hm := mem_register h
  refine ⟨?_, ?_, ?_⟩
  · intro u p u' p' h1 h2
    rw [hm] at h1 h2
    rcases h1 with ⟨rfl, rfl⟩ | ⟨h1, h3, h4⟩ <;> rcases h2 with ⟨rfl, rfl⟩ | ⟨h2, h5, h6⟩
    · simp
    · exact ⟨fun e => absurd e.symm h5, fun e => absurd e.symm h6⟩
    · exact ⟨fun e => absurd e h3, fun e => absurd e h4⟩
    · exact hr.one u p u' p' h1 h2
  · unfold Registry.register at h
    split at h
    · cases h
    · injection h with h
      subst h
      exact Dict.wf_set (hr.keys.sublist (List.filter_sublist.map _)) _ _
  · intro u p h1
    rw [hm] at h1
    rcases h1 with ⟨rfl, rfl⟩ | ⟨h1, _, _⟩
    · refine ⟨hp, ?_⟩
      unfold Registry.register at h
      split at h
      · cases h
      · rename_i hn; simpa using hn
    · exact hr.names u p h1

theorem sound_registerAll : ∀ (l : List (String × String)) (r : Registry), (∀ pu ∈ l, pu.1 ≠ "" ∧ reservedPrefix pu.1 = false) →
    r.Sound → ∃ r', Registry.registerAll l r = .ok r' ∧ r'.Sound
  | [], r, _, hr => ⟨r, rfl, hr⟩
  | (p, u) :: l, r, hl, hr => by
    obtain ⟨h1, h2⟩ := hl (p, u) (by simp)
    have hreg : ∃ r1, r.register p u = .ok r1 :=
      ⟨_, by unfold Registry.register; simp only [show reservedPrefix p = false from h2, Bool.false_eq_true, if_false]; rfl⟩
    obtain ⟨r1, hreg⟩ := hreg
    obtain ⟨r', h3, h4⟩ := sound_registerAll l _ (fun pu hpu => hl pu (List.mem_cons_of_mem _ hpu)) (sound_register hr h1 hreg)
    exact ⟨r', by unfold Registry.registerAll; rw [hreg]; exact h3, h4⟩

theorem mem_registered {m : NsMap} {pu : String × String} :
    pu ∈ registered m ↔ pu ∈ m ∧ pu.1 ≠ "" ∧ reservedPrefix pu.1 = false := by
  simp [registered]

theorem sound_after : ∀ (hs : List NsMap) (r : Registry), r.Sound → ∃ r', Registry.after hs r = .ok r' ∧ r'.Sound
  | [], r, hr => ⟨r, rfl, hr⟩
  | m :: hs, r, hr => by
    obtain ⟨r1, h1, h2⟩ := sound_registerAll (registered m) r (fun pu h => (mem_registered.1 h).2) hr
    obtain ⟨r2, h3, h4⟩ := sound_after hs r1 h2
    exact ⟨r2, by unfold Registry.after Registry.registerNsmap; rw [h1]; exact h3, h4⟩

theorem sound_initial : Registry.initial.Sound := by
  refine ⟨?_, by decide, ?_⟩
  · have : ∀ x ∈ Registry.initial, ∀ y ∈ Registry.initial, (x.1 = y.1 ↔ x.2 = y.2) := by decide
    exact fun u p u' p' h1 h2 => this (u, p) h1 (u', p') h2
  · have : ∀ x ∈ Registry.initial, x.2 ≠ "" ∧ reservedPrefix x.2 = false := by decide
    exact fun u p h => this (u, p) h

/-- **C54** (table). Whatever classes and fields with namespace maps have been declared before, in whatever order: declaring them
never fails because of a prefix, and the global table of prefixes assigns at most one prefix to a namespace and one namespace to a
prefix, never the empty prefix, and never one of the form `ns0`, `ns1`, ... which the XML library invents itself. -/
theorem C54_table (hs : List NsMap) :
    ∃ r, Registry.after hs .initial = .ok r ∧ r.OneToOne ∧ ∀ u p, (u, p) ∈ r → p ≠ "" ∧ reservedPrefix p = false := by
  obtain ⟨r, h1, h2⟩ := sound_after hs _ sound_initial
  exact ⟨r, h1, h2.one, h2.names⟩

/-! ## The last declaration counts -/

theorem after_append : ∀ (hs : List NsMap) (m : NsMap) (r r1 : Registry), Registry.after hs r = .ok r1 →
    Registry.after (hs ++ [m]) r = r1.registerNsmap m
  | [], m, r, r1, h => by
    cases h
    simp only [List.nil_append, Registry.after]
    cases r.registerNsmap m <;> rfl
  | m' :: hs, m, r, r1, h => by
    simp only [List.cons_append, Registry.after] at h ⊢
    cases hr : r.registerNsmap m' with
    | error e => rw [hr] at h; cases h
    | ok r' => rw [hr] at h; exact after_append hs m r' r1 h

theorem registerAll_keeps : ∀ (l : List (String × String)) (r r' : Registry) (u p : String), Registry.registerAll l r = .ok r' →
    (u, p) ∈ r → (∀ pu ∈ l, pu.1 ≠ p ∧ pu.2 ≠ u) → (u, p) ∈ r'
  | [], r, r', u, p, h, hm, _ => by cases h; exact hm
  | (p1, u1) :: l, r, r', u, p, h, hm, hl => by
    unfold Registry.registerAll at h
    cases hr : r.register p1 u1 with
    | error e => rw [hr] at h; cases h
    | ok r1 =>
      rw [hr] at h
      obtain ⟨h1, h2⟩ := hl (p1, u1) (by simp)
      exact registerAll_keeps l r1 r' u p h ((mem_register hr u p).2 (Or.inr ⟨hm, Ne.symm h2, Ne.symm h1⟩))
        fun pu hpu => hl pu (List.mem_cons_of_mem _ hpu)

/-- **C54** (last declaration). The prefixes of the most recently declared map are the ones in the table: if the map binds a prefix
to a namespace (and no other prefix to the same one), then that is the registered prefix of the namespace. -/
theorem C54_last (hs : List NsMap) (m : NsMap) (hm : Dict.WF m) (p u : String) (h : (p, u) ∈ m) (hp : p ≠ "")
    (hr : reservedPrefix p = false) (hu : ∀ p', (p', u) ∈ m → p' = p) :
    ∃ r, Registry.after (hs ++ [m]) .initial = .ok r ∧ Dict.get? r u = some p := by
  obtain ⟨r0, h1, h2⟩ := sound_after hs _ sound_initial
  obtain ⟨r, h3, h4⟩ := sound_registerAll (registered m) r0 (fun pu h => (mem_registered.1 h).2) h2
  have ha : Registry.after (hs ++ [m]) .initial = .ok r := by rw [after_append _ _ _ _ h1]; exact h3
  refine ⟨r, ha, Dict.get?_of_mem h4.keys ?_⟩
  -- split the list of registrations at the one in question
  have hin : (p, u) ∈ registered m := mem_registered.2 ⟨h, hp, hr⟩
  have hnd : (registered m).map Prod.fst |>.Nodup := hm.sublist (List.filter_sublist.map _)
  obtain ⟨l1, l2, hl⟩ := List.append_of_mem hin
  have hrest : ∀ pu ∈ l2, pu.1 ≠ p ∧ pu.2 ≠ u := by
    intro pu hpu
    have hne : pu.1 ≠ p := by
      rw [hl] at hnd
      simp only [List.map_append, List.map_cons] at hnd
      have := (List.nodup_append.1 hnd).2.1
      rw [List.nodup_cons] at this
      exact fun e => this.1 (e ▸ List.mem_map.2 ⟨pu, hpu, rfl⟩)
    refine ⟨hne, fun e => hne (hu pu.1 ?_)⟩
    have : pu ∈ registered m := by rw [hl]; simp [hpu]
    rw [← e]
    exact (mem_registered.1 this).1
  clear hnd ha h1 h2
  rw [hl] at h3
  have key : ∀ (l1 : List (String × String)) (r0 : Registry), Registry.registerAll (l1 ++ (p, u) :: l2) r0 = .ok r → (u, p) ∈ r := by
    intro l1
    induction l1 with
    | nil =>
      intro r0 h
      simp only [List.nil_append, Registry.registerAll] at h
      cases hq : r0.register p u with
      | error e => rw [hq] at h; cases h
      | ok r1 =>
        rw [hq] at h
        exact registerAll_keeps l2 r1 r u p h ((mem_register hq u p).2 (Or.inl ⟨rfl, rfl⟩)) hrest
    | cons x l1 ih =>
      intro r0 h
      obtain ⟨p1, u1⟩ := x
      simp only [List.cons_append, Registry.registerAll] at h
      cases hq : r0.register p1 u1 with
      | error e => rw [hq] at h; cases h
      | ok r1 => rw [hq] at h; exact ih r1 h
  exact key l1 r0 h3

/-! ## The names of a written document -/

theorem reserved_invented (k : Nat) : reservedPrefix ("ns" ++ toString k) = true := by
  have h : ("ns" ++ toString k).toList = 'n' :: 's' :: Nat.toDigits 10 k := by
    rw [String.toList_append, Nat.toString_eq_repr, Nat.toList_repr]; rfl
  have hd : ∀ c ∈ Nat.toDigits 10 k, c.isDigit = true := fun c hc => Nat.isDigit_of_mem_toDigits (by decide) (by decide) hc
  have hl : (Nat.toDigits 10 k).getLast? ≠ some '\n' := fun e => by
    have := hd _ (List.mem_of_getLast? e)
    revert this; decide
  unfold reservedPrefix
  rw [h]
  simp only [hl, if_false, Bool.and_eq_true, Bool.not_eq_true', List.isEmpty_eq_false_iff, List.all_eq_true]
  exact ⟨Nat.toDigits_ne_nil, hd⟩

theorem invented_inj {j k : Nat} (h : "ns" ++ toString j = "ns" ++ toString k) : j = k := by
  have h1 := congrArg String.toList h
  rw [String.toList_append, String.toList_append] at h1
  have h2 : (toString j : String) = toString k := String.toList_inj.1 (List.append_cancel_left h1)
  rw [Nat.toString_eq_repr, Nat.toString_eq_repr] at h2
  have h3 : (Int.ofNat j).repr = (Int.ofNat k).repr := h2
  have h4 := Int.toInt?_repr (Int.ofNat j)
  rw [h3, Int.toInt?_repr] at h4
  injection h4 with h4
  injection h4 with h4
  exact h4.symm

/-- The declarations collected so far: one to one, and each is from the table or invented at its time. -/
structure DeclsOk (r : Registry) (d : Dict String String) : Prop where
  keys : Dict.WF d
  inj : ∀ u u' p, (u, p) ∈ d → (u', p) ∈ d → u = u'
  from' : ∀ u p, (u, p) ∈ d → p ≠ "xml" ∧ p ≠ "" ∧ ((u, p) ∈ r ∨ ∃ k, k < d.length ∧ p = "ns" ++ toString k)

theorem invented_ne_xml (k : Nat) : "ns" ++ toString k ≠ "xml" := fun e => by
  have := reserved_invented k
  rw [e] at this
  revert this; decide

theorem invented_ne_empty (k : Nat) : "ns" ++ toString k ≠ "" := fun e => by
  have := reserved_invented k
  rw [e] at this
  revert this; decide

theorem declsOk_add {r : Registry} (hr : r.Sound) {d : Dict String String} (hd : DeclsOk r d) {u p : String} (hn : Dict.get? d u = none)
    (hp : (u, p) ∈ r ∧ p ≠ "xml" ∨ (p = "ns" ++ toString d.length)) : DeclsOk r (Dict.set d u p) := by
  have hk : u ∉ Dict.keys d := (Dict.get?_eq_none_iff d u).1 hn
  have hnew : ∀ u', (u', p) ∈ d → False := by
    intro u' h
    rcases (hd.from' u' p h).2.2 with h1 | ⟨k, h1, h2⟩
    · rcases hp with ⟨hp, _⟩ | hp
      · have : u' = u := (hr.one u' p u p h1 hp).2 rfl
        subst this
        exact hk (List.mem_map.2 ⟨_, h, rfl⟩)
      · have := (hr.names u' p h1).2
        rw [hp, reserved_invented] at this
        cases this
    · rcases hp with ⟨hp, _⟩ | hp
      · have := (hr.names u p hp).2
        rw [h2, reserved_invented] at this
        cases this
      · have := invented_inj (h2.symm.trans hp)
        omega
  have hs := Dict.set_of_not_mem hk p
  refine ⟨Dict.wf_set hd.keys u p, ?_, ?_⟩
  · intro u1 u2 q h1 h2
    rw [hs] at h1 h2
    simp only [List.mem_append, List.mem_singleton, Prod.mk.injEq] at h1 h2
    rcases h1 with h1 | ⟨h1, e1⟩ <;> rcases h2 with h2 | ⟨h2, e2⟩
    · exact hd.inj _ _ _ h1 h2
    · exact (hnew _ (e2 ▸ h1)).elim
    · exact (hnew _ (e1 ▸ h2)).elim
    · rw [h1, h2]
  · intro u1 q h1
    rw [hs] at h1 ⊢
    simp only [List.mem_append, List.mem_singleton, Prod.mk.injEq, List.length_append, List.length_cons, List.length_nil] at h1 ⊢
    rcases h1 with h1 | ⟨rfl, rfl⟩
    · obtain ⟨h2, h3, h4⟩ := hd.from' _ _ h1
      exact ⟨h2, h3, h4.imp id fun ⟨k, h5, h6⟩ => ⟨k, by omega, h6⟩⟩
    · rcases hp with ⟨hp, hx⟩ | hp
      · exact ⟨hx, (hr.names _ _ hp).1, Or.inl hp⟩
      · exact ⟨hp ▸ invented_ne_xml _, hp ▸ invented_ne_empty _, Or.inr ⟨d.length, by omega, hp⟩⟩

theorem qualify_ok {r : Registry} (hr : r.Sound) (hx : ∀ u, (u, "xml") ∈ r → u = xmlUri) {d : Dict String String} (hd : DeclsOk r d)
    (u : String) :
    DeclsOk r (r.qualify u d).2 ∧ (∀ kv ∈ d, kv ∈ (r.qualify u d).2) ∧
      (((r.qualify u d).1 = "xml" ∧ u = xmlUri) ∨ (u, (r.qualify u d).1) ∈ (r.qualify u d).2) := by
  unfold Registry.qualify
  cases hg : Dict.get? d u with
  | some p => exact ⟨hd, fun _ h => h, Or.inr (Dict.mem_of_get? hg)⟩
  | none =>
    have hk : u ∉ Dict.keys d := (Dict.get?_eq_none_iff d u).1 hg
    simp only
    cases hq : Dict.get? r u with
    | none =>
      simp only [Option.getD_none]
      rw [if_pos (invented_ne_xml _)]
      refine ⟨declsOk_add hr hd hg (Or.inr rfl), ?_, ?_⟩
      · intro kv h; rw [Dict.set_of_not_mem hk]; simp [h]
      · right; rw [Dict.set_of_not_mem hk]; simp
    | some p =>
      simp only [Option.getD_some]
      by_cases hp : p = "xml"
      · subst hp
        simp only [ne_eq, not_true_eq_false, if_false]
        exact ⟨hd, fun _ h => h, Or.inl ⟨trivial, hx u (Dict.mem_of_get? hq)⟩⟩
      · rw [if_pos hp]
        refine ⟨declsOk_add hr hd hg (Or.inl ⟨Dict.mem_of_get? hq, hp⟩), ?_, ?_⟩
        · intro kv h; rw [Dict.set_of_not_mem hk]; simp [h]
        · right; rw [Dict.set_of_not_mem hk]; simp

theorem qualifyAll_ok {r : Registry} (hr : r.Sound) (hx : ∀ u, (u, "xml") ∈ r → u = xmlUri) : ∀ (uris : List String)
    (d : Dict String String), DeclsOk r d →
    DeclsOk r (r.qualifyAll uris d).2 ∧ (∀ kv ∈ d, kv ∈ (r.qualifyAll uris d).2) ∧
      (r.qualifyAll uris d).1.length = uris.length ∧
      ∀ up ∈ uris.zip (r.qualifyAll uris d).1, (up.2 = "xml" ∧ up.1 = xmlUri) ∨ up ∈ (r.qualifyAll uris d).2
  | [], d, hd => ⟨hd, fun _ h => h, rfl, by simp [Registry.qualifyAll]⟩
  | u :: uris, d, hd => by
    obtain ⟨h1, h2, h3⟩ := qualify_ok hr hx hd u
    obtain ⟨h4, h5, h6, h7⟩ := qualifyAll_ok hr hx uris _ h1
    simp only [Registry.qualifyAll]
    refine ⟨h4, fun kv h => h5 kv (h2 kv h), by simp [h6], ?_⟩
    intro up hup
    simp only [List.zip_cons_cons, List.mem_cons] at hup
    rcases hup with rfl | hup
    · exact h3.imp id fun h => h5 _ h
    · exact h7 up hup

theorem registerAll_xml : ∀ (l : List (String × String)) (r r' : Registry), Registry.registerAll l r = .ok r' →
    (∀ u, (u, "xml") ∈ r → u = xmlUri) → (∀ u, ("xml", u) ∈ l → u = xmlUri) → ∀ u, (u, "xml") ∈ r' → u = xmlUri
  | [], r, r', h, hr, _ => by cases h; exact hr
  | (p1, u1) :: l, r, r', h, hr, hl => by
    unfold Registry.registerAll at h
    cases hq : r.register p1 u1 with
    | error e => rw [hq] at h; cases h
    | ok r1 =>
      rw [hq] at h
      refine registerAll_xml l r1 r' h (fun u hu => ?_) fun u hu => hl u (List.mem_cons_of_mem _ hu)
      rcases (mem_register hq u "xml").1 hu with ⟨rfl, h2⟩ | ⟨h1, _, _⟩
      · exact hl u (by rw [h2]; simp)
      · exact hr u h1

theorem after_xml : ∀ (hs : List NsMap) (r r' : Registry), Registry.after hs r = .ok r' → (∀ m ∈ hs, NsMap.KeepsXml m) →
    (∀ u, (u, "xml") ∈ r → u = xmlUri) → ∀ u, (u, "xml") ∈ r' → u = xmlUri
  | [], r, r', h, _, hr => by cases h; exact hr
  | m :: hs, r, r', h, hm, hr => by
    unfold Registry.after at h
    cases hq : r.registerNsmap m with
    | error e => rw [hq] at h; cases h
    | ok r1 =>
      rw [hq] at h
      refine after_xml hs r1 r' h (fun m' h' => hm m' (List.mem_cons_of_mem _ h')) ?_
      exact registerAll_xml _ r r1 hq hr fun u hu => (hm m (by simp) "xml" u (mem_registered.1 hu).1).1 rfl

/-- **C54** (names). Whatever classes have been declared before, in whatever order: a reader of a document written with the standard
library's backend resolves the prefix of every qualified name to the namespace of that name.  In particular two namespaces never share
a prefix, although prefixes are taken from one global table and two classes may use the same prefix for different namespaces. -/
theorem C54_names (hs : List NsMap) (hx : ∀ m ∈ hs, NsMap.KeepsXml m) (r : Registry) (hr : Registry.after hs .initial = .ok r)
    (uris : List String) :
    let out := r.qualifyAll uris []
    out.1.length = uris.length ∧ ∀ up ∈ uris.zip out.1, Means out.2 up.2 up.1 := by
  intro out
  obtain ⟨r', h1, h2⟩ := sound_after hs _ sound_initial
  rw [hr] at h1
  cases h1
  have hxml := after_xml hs _ r hr hx (by
    have : ∀ kv ∈ Registry.initial, kv.2 = "xml" → kv.1 = xmlUri := by decide
    exact fun u h => this (u, "xml") h rfl)
  obtain ⟨h3, h4, h5, h6⟩ := qualifyAll_ok h2 hxml uris [] ⟨Dict.wf_nil, by simp, by simp⟩
  refine ⟨h5, fun up hup => ?_⟩
  rcases h6 up hup with h | h
  · exact Or.inl h
  · obtain ⟨h7, h8, _⟩ := h3.from' up.1 up.2 h
    exact Or.inr ⟨h7, h8, h, fun u' hu' => h3.inj u' up.1 up.2 hu' h⟩

/-! ## Prefixes nobody has declared -/

theorem registerAll_kept {u p : String} : ∀ (l : List (String × String)) (r r' : Registry), Registry.registerAll l r = .ok r' →
    (∀ pu ∈ l, pu.1 ≠ p ∧ pu.2 ≠ u) → (u, p) ∈ r → (u, p) ∈ r'
  | [], r, r', h, _, hr => by cases h; exact hr
  | (p1, u1) :: l, r, r', h, hl, hr => by
    unfold Registry.registerAll at h
    cases hq : r.register p1 u1 with
    | error e => rw [hq] at h; cases h
    | ok r1 =>
      rw [hq] at h
      have h1 := hl (p1, u1) (by simp)
      refine registerAll_kept l r1 r' h (fun pu hpu => hl pu (List.mem_cons_of_mem _ hpu)) ?_
      exact (mem_register hq u p).2 (.inr ⟨hr, fun e => h1.2 e.symm, fun e => h1.1 e.symm⟩)

theorem after_kept {u p : String} : ∀ (hs : List NsMap) (r r' : Registry), Registry.after hs r = .ok r' →
    (∀ m ∈ hs, ∀ pu ∈ m, pu.1 ≠ p ∧ pu.2 ≠ u) → (u, p) ∈ r → (u, p) ∈ r'
  | [], r, r', h, _, hr => by cases h; exact hr
  | m :: hs, r, r', h, hm, hr => by
    unfold Registry.after at h
    cases hq : r.registerNsmap m with
    | error e => rw [hq] at h; cases h
    | ok r1 =>
      rw [hq] at h
      refine after_kept hs r1 r' h (fun m' h' => hm m' (List.mem_cons_of_mem _ h')) ?_
      exact registerAll_kept _ r r1 hq (fun pu hpu => hm m (by simp) pu (mem_registered.1 hpu).1) hr

theorem qualifyAll_kept {r : Registry} (hr : r.Sound) {u p : String} (hu : (u, p) ∈ r) : ∀ (uris : List String) (d : Dict String String),
    (∀ q, Dict.get? d u = some q → q = p) → ∀ up ∈ uris.zip (r.qualifyAll uris d).1, up.1 = u → up.2 = p
  | [], _, _, up, h, _ => by cases h
  | v :: uris, d, hd, up, h, he => by
    have hg : Dict.get? r u = some p := Dict.get?_of_mem hr.keys hu
    have hq : (v = u → (r.qualify v d).1 = p) ∧ ∀ q, Dict.get? (r.qualify v d).2 u = some q → q = p := by
      unfold Registry.qualify
      cases hv : Dict.get? d v with
      | some q => exact ⟨fun e => hd q (e ▸ hv), hd⟩
      | none =>
        refine ⟨fun e => by rw [e, hg]; rfl, fun q => ?_⟩
        by_cases e : v = u
        · subst e
          rw [hg]
          simp only [Option.getD_some]
          split
          · rw [Dict.get?_set_self]; rintro ⟨⟩; rfl
          · exact hd q
        · dsimp only
          split
          · rw [Dict.get?_set_ne _ _ e]; exact hd q
          · exact hd q
    simp only [Registry.qualifyAll, List.zip_cons_cons, List.mem_cons] at h
    rcases h with rfl | h
    · exact hq.1 he
    · exact qualifyAll_kept hr hu uris _ hq.2 up h he

/-- **C54** (xsi). As long as no class or field declares the prefix `xsi` or another prefix for its namespace, the attribute `xsi:nil` and
all other names of that namespace are written under the prefix `xsi`, wherever they are met in the document. -/
theorem C54_xsi (hs : List NsMap) (r : Registry) (hr : Registry.after hs .initial = .ok r)
    (hx : ∀ m ∈ hs, ∀ pu ∈ m, pu.1 ≠ "xsi" ∧ pu.2 ≠ "http://www.w3.org/2001/XMLSchema-instance") (uris : List String) :
    ∀ up ∈ uris.zip (r.qualifyAll uris []).1, up.1 = "http://www.w3.org/2001/XMLSchema-instance" → up.2 = "xsi" := by
  obtain ⟨r', h1, h2⟩ := sound_after hs _ sound_initial
  rw [hr] at h1
  cases h1
  exact qualifyAll_kept h2 (after_kept hs _ r hr hx (by decide)) uris [] (fun q h => by cases h)

/-! ### Concrete cases -/

namespace Ex

/-- Two classes that use the prefix `a` for different namespaces, a default namespace and a reserved prefix. -/
def regHistory : List NsMap := [[("a", "urn:1"), ("", "urn:2"), ("ns7", "urn:3")], [("a", "urn:4"), ("b", "urn:1")]]

def regTable : Registry := Registry.initial ++ [("urn:4", "a"), ("urn:1", "b")]

/-- The second class takes the prefix `a` away from the first. -/
example : Registry.after regHistory .initial = .ok regTable := by kernel_rfl

example : ∀ m ∈ regHistory, NsMap.KeepsXml m := by
  have : ∀ m ∈ regHistory, ∀ pu ∈ m, (pu.1 = "xml" ↔ pu.2 = xmlUri) := by decide
  exact fun m hm p u h => this m hm (p, u) h

example : ∀ m ∈ regHistory, ∀ pu ∈ m, pu.1 ≠ "xsi" ∧ pu.2 ≠ "http://www.w3.org/2001/XMLSchema-instance" := by decide

example : regTable.qualifyAll ["urn:1", "http://www.w3.org/2001/XMLSchema-instance"] [] =
    (["b", "xsi"], [("urn:1", "b"), ("http://www.w3.org/2001/XMLSchema-instance", "xsi")]) := by kernel_rfl

/-- A document of the first class then has its names under `b` and invented prefixes. -/
example : regTable.qualifyAll ["urn:1", "urn:3", xmlUri, "urn:2", "urn:1"] [] =
    (["b", "ns1", "xml", "ns2", "b"], [("urn:1", "b"), ("urn:3", "ns1"), ("urn:2", "ns2")]) := by kernel_rfl

example : Dict.WF ([("a", "urn:4"), ("b", "urn:1")] : NsMap) ∧ ("a", "urn:4") ∈ ([("a", "urn:4"), ("b", "urn:1")] : NsMap) ∧
    reservedPrefix "a" = false ∧ ∀ p', (p', "urn:4") ∈ ([("a", "urn:4"), ("b", "urn:1")] : NsMap) → p' = "a" := by
  refine ⟨by decide, by decide, by decide, fun p' h => ?_⟩
  simpa using h

/-- Why the two exceptions of `register_nsmap` are needed: a registered empty prefix would make the names of the namespace look
unqualified (for attributes: without a namespace), and a reserved prefix is rejected. -/
example : ¬ ∃ d, Means d "" "urn:2" := by
  rintro ⟨d, h | h⟩
  · exact absurd h.1 (by decide)
  · exact h.2.1 rfl
example : Registry.register .initial "ns7" "urn:3" = .error "Prefix format reserved for internal use" := by kernel_rfl

end Ex

end PXml
