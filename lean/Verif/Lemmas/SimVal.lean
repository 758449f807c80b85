import Verif.Lemmas.Sim

/-!
# Simulation, values only

With unions of models the errors of related documents may differ: after a failed union the reader steps over one child, whatever it is.  The
values do not, and whether there is one does not either: an error is final, except in the members of a union, and these work on copies.
-/

namespace PXml

open Elem

/-- An exception other than a validation error, or no result. -/
def Out.Bad {α : Type} : Out α → Prop
  | .crash _ => True
  | .diverge => True
  | _ => False

/-- The same value with the property `P` and related states, or two errors; unless something is wrong. -/
def ValRel (P : Val → Prop) (E : Elem → Elem → Prop) (q1 q2 : Out Val × St) : Prop :=
  q1.1.Bad ∨ q2.1.Bad ∨ (∃ v, q1.1 = .ok v ∧ q2.1 = .ok v ∧ P v ∧ E q1.2.el q2.2.el) ∨ (∃ e f, q1.1 = .verr e ∧ q2.1 = .verr f)

/-- The same for loops: without errors so far the same results, or errors in both. -/
def FoundRel {α : Type} (Q : α → Prop) (E : Elem → Elem → Prop) (q1 q2 : Out (α × Dict ErrKey VErr) × St) : Prop :=
  q1.1.Bad ∨ q2.1.Bad ∨ (∃ a, q1.1 = .ok (a, []) ∧ q2.1 = .ok (a, []) ∧ Q a ∧ E q1.2.el q2.2.el) ∨
    (∃ a b d d', d ≠ [] ∧ d' ≠ [] ∧ q1.1 = .ok (a, d) ∧ q2.1 = .ok (b, d'))

section
variable {P : Val → Prop} {E : Elem → Elem → Prop}

theorem ValRel.val {v : Val} {s1 s2 : St} (hP : P v) (h : E s1.el s2.el) : ValRel P E (.ok v, s1) (.ok v, s2) :=
  .inr (.inr (.inl ⟨v, rfl, rfl, hP, h⟩))

theorem ValRel.errs {e f : VErr} {s1 s2 : St} : ValRel P E (.verr e, s1) (.verr f, s2) := .inr (.inr (.inr ⟨e, f, rfl, rfl⟩))

theorem ValRel.bad {o o' : Out Val} {s1 s2 : St} (h : o.Bad ∨ o'.Bad) : ValRel P E (o, s1) (o', s2) := by
  rcases h with h | h
  · exact .inl h
  · exact .inr (.inl h)

theorem ValRel.ofOutRel {norm : Int → Int} {o o' : Out Val} {s1 s2 : St} (h : OutRel P norm o o') (hE : E s1.el s2.el) :
    ValRel P E (o, s1) (o', s2) := by
  cases o <;> cases o' <;> simp only [OutRel] at h
  · obtain ⟨rfl, hP⟩ := h; exact .val hP hE
  · exact .errs
  · exact .bad (.inl trivial)
  · exact .bad (.inl trivial)

/-- Two reader functions give the same values on related states. -/
def SameVal (P : Val → Prop) (E : Elem → Elem → Prop) (f g : St → Out Val × St) : Prop :=
  ∀ s1 s2, E s1.el s2.el → ValRel P E (f s1) (g s2)

theorem onChild_val {f g : St → Out Val × St} (h : SameVal P E f g) (hf : KeepsTag f) (hg : KeepsTag g)
    {s1 s2 : St} {i1 i2 : Nat} (hh : Hit E s1.el i1 s2.el i2) : ValRel P E (onChild s1 i1 f) (onChild s2 i2 g) := by
  obtain ⟨c1, c2, h1, h2, h3, h4⟩ := hh
  have h5 := h ⟨c1, s1.sm⟩ ⟨c2, s2.sm⟩ h3
  have hf := hf ⟨c1, s1.sm⟩
  have hg := hg ⟨c2, s2.sm⟩
  unfold onChild
  simp only [h1, h2]
  rcases h5 with h5 | h5 | ⟨v, h5, h6, h7, h8⟩ | ⟨e, e', h5, h6⟩
  · exact .inl h5
  · exact .inr (.inl h5)
  · exact .inr (.inr (.inl ⟨v, h5, h6, h7, h4 _ _ h8 hf hg⟩))
  · exact .inr (.inr (.inr ⟨e, e', h5, h6⟩))

/-! Loops that have met an error. -/

theorem homogLoop_failed {f : Loc → St → Out Val × St} (loc : Loc) (n idx : Nat) (acc : List Val) (errs : Dict ErrKey VErr) (he : errs ≠ [])
    (st : St) : (homogLoop f loc n idx acc errs st).1.Bad ∨ ∃ a d, d ≠ [] ∧ (homogLoop f loc n idx acc errs st).1 = .ok (a, d) := by
  induction n generalizing idx acc errs st with
  | zero => exact .inl trivial
  | succ n ih =>
    unfold homogLoop
    cases hf : f (loc ++ [.idx idx]) st with
    | mk o st' =>
      cases o with
      | ok v =>
        simp only
        split
        · exact .inr ⟨_, _, he, rfl⟩
        · exact ih _ _ _ he _
      | verr e => exact ih _ _ _ (by simp) _
      | crash e => exact .inl trivial
      | diverge => exact .inl trivial

theorem heteroLoop_failed {f : Ser → Loc → St → Out Val × St} (loc : Loc) (ss : List Ser) (idx : Nat) (acc : List Val) (errs : Dict ErrKey VErr)
    (he : errs ≠ []) (st : St) :
    (heteroLoop f loc ss idx acc errs st).1.Bad ∨ ∃ a d, d ≠ [] ∧ (heteroLoop f loc ss idx acc errs st).1 = .ok (a, d) := by
  induction ss generalizing idx acc errs st with
  | nil => exact .inr ⟨_, _, he, rfl⟩
  | cons s ss ih =>
    unfold heteroLoop
    cases hf : f s (loc ++ [.idx idx]) st with
    | mk o st' =>
      cases o with
      | ok v => exact ih _ _ _ he _
      | verr e => exact ih _ _ _ (by simp) _
      | crash e => exact .inl trivial
      | diverge => exact .inl trivial

theorem errs_set_ne {d : Dict ErrKey VErr} {k : ErrKey} {e : VErr} : d.set k e ≠ [] := by
  cases d with
  | nil => simp [Dict.set]
  | cons x d => simp only [Dict.set]; split <;> simp

theorem deserFields_failed {f : Ser → Loc → St → Out Val × St} (fs : List Field) (res : Dict String Val) (errs : Dict ErrKey VErr)
    (he : errs ≠ []) (st : St) :
    (deserFields f fs res errs st).1.Bad ∨ ∃ a d, d ≠ [] ∧ (deserFields f fs res errs st).1 = .ok (a, d) := by
  induction fs generalizing res errs st with
  | nil => exact .inr ⟨_, _, he, rfl⟩
  | cons fd fs ih =>
    unfold deserFields
    simp only
    split
    · exact ih _ _ he _
    · exact ih _ _ errs_set_ne _
    · exact .inl trivial
    · exact .inl trivial

theorem FoundRel.failed {α : Type} {Q : α → Prop} {q1 q2 : Out (α × Dict ErrKey VErr) × St}
    (h1 : q1.1.Bad ∨ ∃ a d, d ≠ [] ∧ q1.1 = .ok (a, d)) (h2 : q2.1.Bad ∨ ∃ a d, d ≠ [] ∧ q2.1 = .ok (a, d)) : FoundRel Q E q1 q2 := by
  rcases h1 with h1 | ⟨a, d, hd, h1⟩
  · exact .inl h1
  · rcases h2 with h2 | ⟨b, d', hd', h2⟩
    · exact .inr (.inl h2)
    · exact .inr (.inr (.inr ⟨a, b, d, d', hd, hd', h1, h2⟩))

theorem homogLoop_val {f g : Loc → St → Out Val × St} (h : ∀ l, SameVal P E (f l) (g l)) (loc : Loc) (n idx : Nat)
    (acc : List Val) (hacc : ∀ v ∈ acc, P v) {s1 s2 : St} (hs : E s1.el s2.el) :
    FoundRel (fun vs => ∀ v ∈ vs, P v) E (homogLoop f loc n idx acc [] s1) (homogLoop g loc n idx acc [] s2) := by
  induction n generalizing idx acc s1 s2 with
  | zero => exact .inl trivial
  | succ n ih =>
    have h1 := h (loc ++ [.idx idx]) s1 s2 hs
    unfold homogLoop
    cases hf : f (loc ++ [.idx idx]) s1 with
    | mk o1 s1' =>
      cases hg : g (loc ++ [.idx idx]) s2 with
      | mk o2 s2' =>
        rw [hf, hg] at h1
        rcases h1 with h1 | h1 | ⟨v, h1, h2, hP, h4⟩ | ⟨e, e', h1, h2⟩
        · cases o1 <;> simp only [Out.Bad] at h1 <;> exact .inl trivial
        · cases o2 <;> simp only [Out.Bad] at h1 <;> exact .inr (.inl trivial)
        · simp only at h1 h2
          subst h1; subst h2
          simp only
          split
          · exact .inr (.inr (.inl ⟨_, rfl, rfl, hacc, h4⟩))
          · refine ih _ _ ?_ h4
            intro w hw
            rcases List.mem_append.1 hw with hw | hw
            · exact hacc w hw
            · simp at hw; subst hw; exact hP
        · simp only at h1 h2
          subst h1; subst h2
          exact .failed (homogLoop_failed _ _ _ _ _ (by simp) _) (homogLoop_failed _ _ _ _ _ (by simp) _)

theorem heteroLoop_val {f g : Ser → Loc → St → Out Val × St} (ss : List Ser) (h : ∀ s ∈ ss, ∀ l, SameVal P E (f s l) (g s l)) (loc : Loc)
    (idx : Nat) (acc : List Val) (hacc : ∀ v ∈ acc, P v) {s1 s2 : St} (hs : E s1.el s2.el) :
    FoundRel (fun vs => ∀ v ∈ vs, P v) E (heteroLoop f loc ss idx acc [] s1) (heteroLoop g loc ss idx acc [] s2) := by
  induction ss generalizing idx acc s1 s2 with
  | nil => exact .inr (.inr (.inl ⟨_, rfl, rfl, hacc, hs⟩))
  | cons s ss ih =>
    have ih := fun idx => ih (fun t ht => h t (by simp [ht])) idx
    have h1 := h s (by simp) (loc ++ [.idx idx]) s1 s2 hs
    unfold heteroLoop
    cases hf : f s (loc ++ [.idx idx]) s1 with
    | mk o1 s1' =>
      cases hg : g s (loc ++ [.idx idx]) s2 with
      | mk o2 s2' =>
        rw [hf, hg] at h1
        rcases h1 with h1 | h1 | ⟨v, h1, h2, hP, h4⟩ | ⟨e, e', h1, h2⟩
        · cases o1 <;> simp only [Out.Bad] at h1 <;> exact .inl trivial
        · cases o2 <;> simp only [Out.Bad] at h1 <;> exact .inr (.inl trivial)
        · simp only at h1 h2
          subst h1; subst h2
          refine ih _ _ ?_ h4
          intro w hw
          rcases List.mem_append.1 hw with hw | hw
          · exact hacc w hw
          · simp at hw; subst hw; exact hP
        · simp only at h1 h2
          subst h1; subst h2
          exact .failed (heteroLoop_failed _ _ _ _ _ (by simp) _) (heteroLoop_failed _ _ _ _ _ (by simp) _)

variable {env1 env2 : Env} {eas : Bool} {T : Looks} {raw union forbid : Prop} {norm : Int → Int}
variable (S : Sim env1 env2 eas T raw union forbid E P norm)
include S

theorem deserText_val (hT : ∀ t, T.text t) (c n : Bool) : SameVal P E (deserText eas c n) (deserText eas c n) := by
  intro s1 s2 h
  unfold deserText
  split
  · exact .val S.none h
  · have key : ∀ (e1 e2 : Elem), E e1 e2 → ValRel P E (.ok (textVal eas e1.popText.1), ({ s1 with el := e1.popText.2 } : St))
        (.ok (textVal eas e2.popText.1), ({ s2 with el := e2.popText.2 } : St)) := by
      intro e1 e2 he
      obtain ⟨h1, h2, h3⟩ := S.text e1 e2 (hT _) he
      exact .inr (.inr (.inl ⟨_, rfl, by simp only [popText, h1], h2, h3⟩))
    cases n with
    | false => exact key _ _ h
    | true =>
      simp only [if_true]
      obtain ⟨h1, h2⟩ := S.isNil h
      cases hn1 : s1.el.isNil with
      | mk b1 el1 =>
        cases hn2 : s2.el.isNil with
        | mk b2 el2 =>
          rw [hn1, hn2] at h1 h2
          simp only at h1 h2
          subst h1
          cases b1 with
          | true => exact .val S.none h2
          | false => exact key _ _ h2

theorem deserAttrs_val (hA : T.attrs) (a : AttrsSer) : SameVal P E (deserAttrs a) (deserAttrs a) := by
  intro s1 s2 h
  unfold deserAttrs
  split
  · exact .val S.none h
  · obtain ⟨h1, h2, h3⟩ := S.attributes hA _ _ h
    simp only [popAttributes] at h3 ⊢
    rw [← h1]
    cases ha : s1.el.attrib with
    | none => exact .val S.none h3
    | some d => exact .val (h2 d a.namespaced ha) h3

theorem descend_val {f g : St → Out Val × St} (h : SameVal P E f g) (hf : KeepsTag f) (hg : KeepsTag g)
    (mode : Mode) (path : List String) (hp : ∀ t ∈ path, T t mode) : SameVal P E (descend mode f path) (descend mode g path) := by
  induction path with
  | nil => exact h
  | cons t ts ih =>
    have ih := ih fun x hx => hp x (by simp [hx])
    intro s1 s2 hs
    have k1 : ∀ {f}, KeepsTag f → KeepsTag (descend mode f ts) := by
      intro f hf st
      exact (descend_rel (R := fun e e' => e'.tag = e.tag)
        ⟨fun _ => rfl, fun h1 h2 => h2.trans h1, fun e => rfl, fun e k => (sameChildren_rel.popAttrib e k).1,
          fun e => rfl, fun e t m s => (sameChildren_rel.search e t m s).1, fun _ _ _ _ _ _ => rfl, fun _ _ => rfl,
          fun _ _ h => h, fun _ _ _ _ => rfl⟩ hf mode ts st)
    unfold descend
    rcases S.find _ _ t mode (hp t (by simp)) hs with ⟨x, h1, h2⟩ | ⟨r1, r2, h1, h2, h3⟩
    · rw [h1, h2]; exact .bad (.inl trivial)
    · rw [h1, h2]
      obtain ⟨o1, e1⟩ := r1
      obtain ⟨o2, e2⟩ := r2
      cases o1 <;> cases o2 <;> simp only [SearchRel] at h3
      · exact .val S.none h3
      · exact onChild_val (s1 := ⟨e1, s1.sm⟩) (s2 := ⟨e2, s2.sm⟩) ih (k1 hf) (k1 hg) h3.2

theorem unionLoop_val {f g : Proxy → St → Out Val × St} (title : Title) (ps : List Proxy)
    (h : ∀ p ∈ ps, SameVal P E (f p) (g p)) {errs1 errs2 : Dict ErrKey VErr} (he : errs1 = [] ↔ errs2 = []) :
    SameVal P E (unionLoop f title ps errs1) (unionLoop g title ps errs2) := by
  induction ps generalizing errs1 errs2 with
  | nil =>
    intro s1 s2 hs
    unfold unionLoop
    cases errs1 with
    | nil =>
      have := he.1 rfl
      subst this
      exact .val S.none hs
    | cons x errs1 =>
      cases errs2 with
      | nil => exact absurd (he.2 rfl) (by simp)
      | cons y errs2 => exact .errs
  | cons p ps ih =>
    have ih := fun {e1 e2} he => ih (errs1 := e1) (errs2 := e2) (fun t ht => h t (by simp [ht])) he
    intro s1 s2 hs
    have h1 := h p (by simp) ⟨s1.el.createSnapshot, s1.sm⟩ ⟨s2.el.createSnapshot, s2.sm⟩ hs
    unfold unionLoop
    cases hf : f p ⟨s1.el.createSnapshot, s1.sm⟩ with
    | mk o1 s1' =>
      cases hg : g p ⟨s2.el.createSnapshot, s2.sm⟩ with
      | mk o2 s2' =>
        rw [hf, hg] at h1
        rcases h1 with h1 | h1 | ⟨v, h1, h2, hP, h4⟩ | ⟨e, e', h1, h2⟩
        · cases o1 <;> simp only [Out.Bad] at h1 <;> exact .inl trivial
        · cases o2 <;> simp only [Out.Bad] at h1 <;> exact .inr (.inl trivial)
        · simp only at h1 h2
          subst h1; subst h2
          simp only
          split
          · exact ih he _ _ hs
          · exact .val hP (S.snapshot _ _ _ _ hs h4)
        · simp only at h1 h2
          subst h1; subst h2
          exact ih ⟨fun h => absurd h errs_set_ne, fun h => absurd h errs_set_ne⟩ _ _ hs

theorem taggedLoop_val {f g : Proxy → St → Out Val × St} (loc : Loc) (a : String) (ha : T.attr a) (mode : Mode)
    (ps : List (String × Proxy)) (h : ∀ p ∈ ps, SameVal P E (f p.2) (g p.2)) (hT : ∀ p ∈ ps, T p.2.name mode) :
    SameVal P E (taggedLoop f loc a mode ps) (taggedLoop g loc a mode ps) := by
  induction ps with
  | nil => intro s1 s2 hs; exact .val S.none hs
  | cons p ps ih =>
    have ih := ih (fun t ht => h t (by simp [ht])) (fun t ht => hT t (by simp [ht]))
    intro s1 s2 hs
    obtain ⟨tag, p⟩ := p
    have h3 := S.search _ _ p.name mode false (hT (tag, p) (by simp)) hs
    unfold taggedLoop
    cases h1 : s1.el.search p.name mode false with
    | mk o1 e1 =>
      cases h2 : s2.el.search p.name mode false with
      | mk o2 e2 =>
        rw [h1, h2] at h3
        cases o1 <;> cases o2 <;> simp only [SearchRel] at h3
        · exact ih { s1 with el := e1 } { s2 with el := e2 } h3
        · obtain ⟨hE, c1, c2, hc1, hc2, hE', _⟩ := h3
          have ha : c1.getAttrib a = c2.getAttrib a := by
            rw [← popAttrib_fst, ← popAttrib_fst]; exact (S.attrib c1 c2 a ha hE').1
          simp only [hc1, hc2, ha]
          split
          · exact h (tag, p) (by simp) _ _ hE
          · exact ih { s1 with el := e1 } { s2 with el := e2 } hE

omit S in
theorem mem_set_iff {d : Dict String Val} {k : String} {v : Val} {kv : String × Val} (h : kv ∈ d.set k v) : kv ∈ d ∨ kv = (k, v) := by
  induction d with
  | nil => simp [Dict.set] at h; exact .inr h
  | cons x d ih =>
    obtain ⟨k', v'⟩ := x
    simp only [Dict.set] at h
    split at h
    · rcases List.mem_cons.1 h with h | h
      · exact .inr h
      · exact .inl (by simp [h])
    · rcases List.mem_cons.1 h with h | h
      · exact .inl (by simp [h])
      · rcases ih h with h | h
        · exact .inl (by simp [h])
        · exact .inr h

omit S in
theorem deserFields_val {f g : Ser → Loc → St → Out Val × St} (all fs : List Field) (hsub : ∀ x ∈ fs, x ∈ all)
    (h : ∀ fd ∈ fs, ∀ l, SameVal P E (f fd.ser l) (g fd.ser l))
    (hv : ∀ fd ∈ fs, ∀ v, fd.validator = some v → ∀ e1 e2, E e1 e2 → OutRel P norm (v e1).1 (v e2).1 ∧ E (v e1).2 (v e2).2)
    (res : Dict String Val) (hres : ∀ kv ∈ res, P kv.2 ∧ ∃ f ∈ all, kv.1 = f.alias.getD f.name)
    {s1 s2 : St} (hs : E s1.el s2.el) :
    FoundRel (fun d : Dict String Val => ∀ kv ∈ d, P kv.2 ∧ ∃ f ∈ all, kv.1 = f.alias.getD f.name) E
      (deserFields f fs res [] s1) (deserFields g fs res [] s2) := by
  induction fs generalizing res s1 s2 with
  | nil => exact .inr (.inr (.inl ⟨_, rfl, rfl, hres, hs⟩))
  | cons fd fs ih =>
    have ih := fun r hr {s1' s2} hs => ih (fun t ht => hsub t (by simp [ht])) (fun t ht => h t (by simp [ht]))
      (fun t ht => hv t (by simp [ht])) r hr (s1 := s1') (s2 := s2) hs
    have key : ∀ q1 q2 : Out Val × St, ValRel P E q1 q2 →
        FoundRel (fun d : Dict String Val => ∀ kv ∈ d, P kv.2 ∧ ∃ f ∈ all, kv.1 = f.alias.getD f.name) E
        (match q1 with
          | (.ok v, st') => deserFields f fs (if v.isNone then res else res.set (fd.alias.getD fd.name) v) [] st'
          | (.verr e, st') => deserFields f fs res (Dict.set [] (some (.name fd.name)) e) st'
          | (.crash e, st') => (.crash e, st')
          | (.diverge, st') => (.diverge, st') : Out (Dict String Val × Dict ErrKey VErr) × St)
        (match q2 with
          | (.ok v, st') => deserFields g fs (if v.isNone then res else res.set (fd.alias.getD fd.name) v) [] st'
          | (.verr e, st') => deserFields g fs res (Dict.set [] (some (.name fd.name)) e) st'
          | (.crash e, st') => (.crash e, st')
          | (.diverge, st') => (.diverge, st') : Out (Dict String Val × Dict ErrKey VErr) × St) := by
      intro q1 q2 h1
      obtain ⟨o1, s1'⟩ := q1
      obtain ⟨o2, s2'⟩ := q2
      rcases h1 with h1 | h1 | ⟨v, h1, h2, hP, h4⟩ | ⟨e, e', h1, h2⟩
      · cases o1 <;> simp only [Out.Bad] at h1 <;> exact .inl trivial
      · cases o2 <;> simp only [Out.Bad] at h1 <;> exact .inr (.inl trivial)
      · simp only at h1 h2
        subst h1; subst h2
        refine ih _ ?_ h4
        intro kv hkv
        split at hkv
        · exact hres kv hkv
        · rcases mem_set_iff hkv with hm | rfl
          · exact hres kv hm
          · exact ⟨hP, fd, hsub fd (by simp), rfl⟩
      · simp only at h1 h2
        subst h1; subst h2
        exact .failed (deserFields_failed _ _ _ errs_set_ne _) (deserFields_failed _ _ _ errs_set_ne _)
    unfold deserFields
    simp only
    cases hval : fd.validator with
    | some v =>
      obtain ⟨h1, h2⟩ := hv fd (by simp) v hval _ _ hs
      exact key _ _ (.ofOutRel h1 h2)
    | none => exact key _ _ (h fd (by simp) [.name fd.name] _ _ hs)

theorem validateModel_val {cls : String} {m : ModelSer} (hm : env1.model cls = some m) {d : Val} (hd : m.DataOf P d)
    {s1 s2 : St} (hs : E s1.el s2.el) :
    ValRel P E (validateModel env1 cls m d s1, s1) (validateModel env2 cls m d s2, s2) := by
  have key : ValRel P E ((match env1.validate cls d with
        | .ok (fs, set) => .ok (.model cls fs set)
        | .error e => .verr (setSourceline m.hideInput s1.sm e)), s1) ((match env2.validate cls d with
        | .ok (fs, set) => .ok (.model cls fs set)
        | .error e => .verr (setSourceline m.hideInput s2.sm e)), s2) := by
    rw [← S.validate cls m d hm hd]
    cases env1.validate cls d with
    | ok r => exact .val (S.model _ _ _) hs
    | error e => exact .errs
  unfold validateModel
  cases hf : m.extraForbid with
  | false => exact key
  | true =>
    have hx := S.extra (S.forbids cls m hm hf) m.title _ _ hs
    simp only [if_true]
    cases h1 : checkExtra m.title s1.el with
    | none =>
      cases h2 : checkExtra m.title s2.el with
      | none => exact key
      | some e2 => rw [h1, h2] at hx; simp at hx
    | some e1 =>
      cases h2 : checkExtra m.title s2.el with
      | none => rw [h1, h2] at hx; simp at hx
      | some e2 => exact .errs

theorem deserModel_val {f g : Ser → Loc → St → Out Val × St} (A : Ser → Prop)
    (h : ∀ s, s.Everywhere A → ∀ l, SameVal P E (f s l) (g s l)) (cls : String) (m : ModelSer)
    (hm : env1.model cls = some m) (hA : m.Everywhere A) (loc : Loc) :
    SameVal P E (deserModel env1 f cls m loc) (deserModel env2 g cls m loc) := by
  intro s1 s2 hs
  unfold deserModel
  unfold ModelSer.Everywhere at hA
  split
  · rename_i fs hb
    rw [hb] at hA
    have h1 := deserFields_val fs fs (fun _ h => h) (fun fd hfd => h _ (hA fd hfd)) (S.validators cls m fs hm hb) [] (by simp) hs
    cases hf : deserFields f fs [] [] s1 with
    | mk o1 s1' =>
      cases hg : deserFields g fs [] [] s2 with
      | mk o2 s2' =>
        rw [hf, hg] at h1
        rcases h1 with h1 | h1 | ⟨v, h1, h2, hP, h4⟩ | ⟨a, b, d, d', hd, hd', h1, h2⟩
        · cases o1 <;> simp only [Out.Bad] at h1 <;> exact .inl trivial
        · cases o2 <;> simp only [Out.Bad] at h1 <;> exact .inr (.inl trivial)
        · simp only at h1 h2
          subst h1; subst h2
          simp only [List.isEmpty_nil, if_true]
          refine validateModel_val S hm ?_ h4
          simp only [ModelSer.DataOf, hb]
          exact ⟨_, rfl, hP⟩
        · simp only at h1 h2
          subst h1; subst h2
          simp only [List.isEmpty_iff, hd, hd', if_false]
          exact .errs
  · rename_i s hb
    rw [hb] at hA
    have h1 := h s hA loc s1 s2 hs
    cases hf : f s loc s1 with
    | mk o1 s1' =>
      cases hg : g s loc s2 with
      | mk o2 s2' =>
        rw [hf, hg] at h1
        rcases h1 with h1 | h1 | ⟨v, h1, h2, hP, h4⟩ | ⟨e, e', h1, h2⟩
        · cases o1 <;> simp only [Out.Bad] at h1 <;> exact .inl trivial
        · cases o2 <;> simp only [Out.Bad] at h1 <;> exact .inr (.inl trivial)
        · simp only at h1 h2
          subst h1; subst h2
          refine validateModel_val S hm ?_ h4
          simp only [ModelSer.DataOf, hb]
          split
          · exact .inl rfl
          · exact .inr hP
        · simp only at h1 h2
          subst h1; subst h2
          exact .errs

/-- Reading related elements gives the same values. -/
theorem deser_val (hText : ∀ t, T.text t) (hE : env1.Everywhere (Ser.Allowed T raw True)) (n : Nat) (s : Ser)
    (hs : s.Everywhere (Ser.Allowed T raw True)) (loc : Loc) :
    SameVal P E (deser env1 eas n s loc) (deser env2 eas n s loc) := by
  have hv1 : env1.ValidatorsRespect SameChildren := S.keeps
  have hv2 : env2.ValidatorsRespect SameChildren := by
    intro cls m fs hm; rw [← S.models] at hm; exact S.keeps cls m fs hm
  induction n generalizing s loc with
  | zero => intro s1 s2 h; exact .inl trivial
  | succ n ih =>
    have hk1 : ∀ s l st, SameChildren st.el (deser env1 eas n s l st).2.el :=
      fun s l st => deser_rel sameChildren_rel env1 hv1 eas n s l st
    have hk2 : ∀ s l st, SameChildren st.el (deser env2 eas n s l st).2.el :=
      fun s l st => deser_rel sameChildren_rel env2 hv2 eas n s l st
    intro s1 s2 h
    change ValRel P E (deserStep env1 eas (deser env1 eas n) n s loc s1) (deserStep env2 eas (deser env2 eas n) n s loc s2)
    generalize deser env1 eas n = F at ih hk1 ⊢
    generalize deser env2 eas n = G at ih hk2 ⊢
    obtain ⟨⟨hT, hkind⟩, hsub⟩ := Ser.everywhere_iff.1 hs
    have hsm : ∀ {f g : St → Out Val × St}, SameVal P E f g →
        SameVal P E (fun c => f ⟨c.el, c.sm.set loc c.el.line⟩) (fun c => g ⟨c.el, c.sm.set loc c.el.line⟩) := by
      intro f g hfg s1 s2 h
      exact hfg ⟨s1.el, s1.sm.set loc s1.el.line⟩ ⟨s2.el, s2.sm.set loc s2.el.line⟩ h
    -- a search followed by work on the child
    have hchild : ∀ (t : String) (m : Mode), T t m → ∀ {f g : St → Out Val × St}, SameVal P E f g → KeepsTag f →
        KeepsTag g → ValRel P E
        (match s1.el.popElement t m with
          | (none, el) => (.ok .none, { s1 with el := el })
          | (some i, el) => onChild { s1 with el := el } i f : Out Val × St)
        (match s2.el.popElement t m with
          | (none, el) => (.ok .none, { s2 with el := el })
          | (some i, el) => onChild { s2 with el := el } i g : Out Val × St) := by
      intro t m ht f g hfg hf hg
      have h3 := S.search _ _ t m true ht h
      simp only [popElement]
      cases h1 : s1.el.search t m true with
      | mk o1 e1 =>
        cases h2 : s2.el.search t m true with
        | mk o2 e2 =>
          rw [h1, h2] at h3
          cases o1 <;> cases o2 <;> simp only [SearchRel] at h3
          · exact .val S.none h3
          · exact onChild_val (s1 := ⟨e1, s1.sm⟩) (s2 := ⟨e2, s2.sm⟩) hfg hf hg h3.2
    unfold deserStep
    cases s with
    | text c nl => exact deserText_val S hText c nl s1 s2 h
    | attr nm c =>
      simp only
      split
      · exact .val S.none h
      · obtain ⟨h1, h2, h3⟩ := S.attrib _ _ nm hkind h
        cases hp1 : s1.el.popAttrib nm with
        | mk o1 e1 =>
          cases hp2 : s2.el.popAttrib nm with
          | mk o2 e2 =>
            rw [hp1] at h1 h2 h3
            rw [hp2] at h1 h3
            simp only at h1 h2 h3
            subst h1
            cases o1 with
            | none => exact .val S.none h3
            | some v => exact .val (h2 v rfl) h3
    | elem nm ns m c nl =>
      simp only
      split
      · exact .val S.none h
      · exact hchild nm m (hT (nm, m) (by simp [Ser.searches])) (hsm (deserText_val S hText _ nl))
          (fun st => (deserText_rel sameChildren_rel eas _ nl ⟨st.el, _⟩).1)
          (fun st => (deserText_rel sameChildren_rel eas _ nl ⟨st.el, _⟩).1)
    | attrs a => exact deserAttrs_val S hkind a s1 s2 h
    | mapElem a nm m =>
      simp only
      split
      · exact .val S.none h
      · exact hchild nm m (hT (nm, m) (by simp [Ser.searches])) (hsm (deserAttrs_val S hkind a))
          (fun st => (deserAttrs_rel sameChildren_rel a ⟨st.el, _⟩).1)
          (fun st => (deserAttrs_rel sameChildren_rel a ⟨st.el, _⟩).1)
    | raw nm m c =>
      simp only
      split
      · exact .val S.none h
      · have h3 := S.search _ _ nm m true (hT (nm, m) (by simp [Ser.searches])) h
        simp only [popElementRemove, popElement]
        cases h1 : s1.el.search nm m true with
        | mk o1 e1 =>
          cases h2 : s2.el.search nm m true with
          | mk o2 e2 =>
            rw [h1, h2] at h3
            cases o1 <;> cases o2 <;> simp only [SearchRel] at h3
            · exact .val S.none h3
            · obtain ⟨hE', c1, c2, hc1, hc2, hE'', hset⟩ := h3
              obtain ⟨h4, h5, h6⟩ := S.rawElem hkind e1 e2 _ _ c1 c2 hE' ⟨c1, c2, hc1, hc2, hE'', hset⟩ hc1 hc2
              simp only [hc1, hc2]
              exact .inr (.inr (.inl ⟨_, rfl, by rw [h4], h5, h6⟩))
    | proxy p =>
      simp only
      rw [← S.models]
      cases hm : env1.model p.cls with
      | none => exact .inl trivial
      | some m =>
        simp only
        split
        · exact .val S.none h
        · refine hchild p.name p.mode (hT (p.name, p.mode) (by simp [Ser.searches]))
            (f := fun c => match c.el.isNil with
              | (true, el) => (.ok .none, ⟨el, c.sm.set loc c.el.line⟩)
              | (false, el) => deserModel env1 F p.cls m loc ⟨el, c.sm.set loc c.el.line⟩)
            (g := fun c => match c.el.isNil with
              | (true, el) => (.ok .none, ⟨el, c.sm.set loc c.el.line⟩)
              | (false, el) => deserModel env2 G p.cls m loc ⟨el, c.sm.set loc c.el.line⟩) ?_ ?_ ?_
          · intro t1 t2 ht
            obtain ⟨h1, h2⟩ := S.isNil ht
            cases hn1 : t1.el.isNil with
            | mk b1 el1 =>
              cases hn2 : t2.el.isNil with
              | mk b2 el2 =>
                rw [hn1, hn2] at h1 h2
                simp only at h1 h2
                subst h1
                simp only [hn1, hn2]
                cases b1 with
                | true => exact .val S.none h2
                | false => exact deserModel_val S _ (fun s hs l => ih s hs l) p.cls m hm (hE _ _ hm) loc _ _ h2
          · intro st
            have hn := (sameChildren_rel.isNil st.el).1
            cases hn1 : st.el.isNil with
            | mk b1 el1 =>
              rw [hn1] at hn
              simp only [hn1]
              cases b1 with
              | true => exact hn
              | false => exact (deserModel_rel sameChildren_rel env1 hk1 p.cls m (fun fs hb => hv1 p.cls m fs hm hb) loc
                  ⟨el1, _⟩).1.trans hn
          · intro st
            have hn := (sameChildren_rel.isNil st.el).1
            cases hn1 : st.el.isNil with
            | mk b1 el1 =>
              rw [hn1] at hn
              simp only [hn1]
              cases b1 with
              | true => exact hn
              | false => exact (deserModel_rel sameChildren_rel env2 hk2 p.cls m (fun fs hb => hv1 p.cls m fs hm hb) loc
                  ⟨el1, _⟩).1.trans hn
    | primUnion c inner =>
      simp only
      split
      · exact .val S.none h
      · exact ih inner (hsub inner (by simp [Ser.subs])) loc s1 s2 h
    | modelUnion t c alts =>
      simp only
      split
      · exact .val S.none h
      · exact unionLoop_val S t alts
          (fun p hp s1 s2 => ih (.proxy p) (hsub _ (by simp only [Ser.subs, List.mem_map]; exact ⟨p, hp, rfl⟩)) loc s1 s2)
          (errs1 := []) (errs2 := []) Iff.rfl s1 s2 h
    | tagged c d a m alts =>
      simp only
      split
      · exact .val S.none h
      · exact taggedLoop_val S loc a hkind m alts
          (fun p hp s1 s2 => ih (.proxy p.2) (hsub _ (by simp only [Ser.subs, List.mem_map]; exact ⟨p, hp, rfl⟩)) loc s1 s2)
          (fun p hp => hT (p.2.name, m) (by simp only [Ser.searches, List.mem_map]; exact ⟨p, hp, rfl⟩)) s1 s2 h
    | wrap path ns m c inner =>
      simp only
      split
      · exact .val S.none h
      · exact descend_val S (hsm (ih inner (hsub inner (by simp [Ser.subs])) loc))
          (fun st => (hk1 inner loc ⟨st.el, _⟩).1) (fun st => (hk2 inner loc ⟨st.el, _⟩).1) m path
          (fun t ht => hT (t, m) (by simp only [Ser.searches, List.mem_map]; exact ⟨t, ht, rfl⟩)) s1 s2 h
    | homog t c inner =>
      simp only
      split
      · exact .val S.none h
      · have h1 := homogLoop_val (fun l => ih inner (hsub inner (by simp [Ser.subs])) l) loc n 0 [] (by simp) h
        cases hf : homogLoop (fun loc st => F inner loc st) loc n 0 [] [] s1 with
        | mk o1 s1' =>
          cases hg : homogLoop (fun loc st => G inner loc st) loc n 0 [] [] s2 with
          | mk o2 s2' =>
            rw [hf, hg] at h1
            rcases h1 with h1 | h1 | ⟨v, h1, h2, hP, h4⟩ | ⟨a, b, d, d', hd, hd', h1, h2⟩
            · cases o1 <;> simp only [Out.Bad] at h1 <;> exact .inl trivial
            · cases o2 <;> simp only [Out.Bad] at h1 <;> exact .inr (.inl trivial)
            · simp only at h1 h2
              subst h1; subst h2
              simp only [homogFinish, List.isEmpty_nil, if_true]
              split
              · exact .val S.none h4
              · exact .val (S.list _ hP) h4
            · simp only at h1 h2
              subst h1; subst h2
              simp only [homogFinish, List.isEmpty_iff, hd, hd', if_false]
              exact .errs
    | hetero t c inners =>
      simp only
      split
      · exact .val S.none h
      · have h1 := heteroLoop_val inners
          (fun s hs' l s1 s2 => ih s (hsub s (by simpa [Ser.subs] using hs')) l s1 s2) loc 0 [] (by simp) h
        cases hf : heteroLoop F loc inners 0 [] [] s1 with
        | mk o1 s1' =>
          cases hg : heteroLoop G loc inners 0 [] [] s2 with
          | mk o2 s2' =>
            rw [hf, hg] at h1
            rcases h1 with h1 | h1 | ⟨v, h1, h2, hP, h4⟩ | ⟨a, b, d, d', hd, hd', h1, h2⟩
            · cases o1 <;> simp only [Out.Bad] at h1 <;> exact .inl trivial
            · cases o2 <;> simp only [Out.Bad] at h1 <;> exact .inr (.inl trivial)
            · simp only at h1 h2
              subst h1; subst h2
              simp only [heteroFinish, List.isEmpty_nil, if_true]
              split
              · exact .val S.none h4
              · exact .val (S.list _ hP) h4
            · simp only at h1 h2
              subst h1; subst h2
              simp only [heteroFinish, List.isEmpty_iff, hd, hd', if_false]
              exact .errs

/-- Reading related documents gives the same value, or an error for both. -/
theorem fromXmlTree_val (hText : ∀ t, T.text t) (hE : env1.Everywhere (Ser.Allowed T raw True)) (n : Nat) (cls : String) (r1 r2 : Node)
    (ht : r1.tag = r2.tag) (h : E (fromNative env1.backend r1) (fromNative env2.backend r2)) :
    (fromXmlTree env1 eas n cls r1).1.Bad ∨ (fromXmlTree env2 eas n cls r2).1.Bad ∨
      (∃ v, (fromXmlTree env1 eas n cls r1).1 = .ok v ∧ (fromXmlTree env2 eas n cls r2).1 = .ok v) ∨
      ∃ e f, (fromXmlTree env1 eas n cls r1).1 = .verr e ∧ (fromXmlTree env2 eas n cls r2).1 = .verr f := by
  unfold fromXmlTree
  simp only
  rw [← S.models]
  cases hm : env1.model cls with
  | none => exact .inl trivial
  | some m =>
    simp only
    rw [← ht]
    split
    · rcases deserModel_val S _ (fun s hs l => deser_val S hText hE n s hs l) cls m hm (hE _ _ hm) [] ⟨_, []⟩ ⟨_, []⟩ h with
        h1 | h1 | ⟨v, h1, h2, _⟩ | h1
      · exact .inl h1
      · exact .inr (.inl h1)
      · exact .inr (.inr (.inl ⟨v, h1, h2⟩))
      · exact .inr (.inr (.inr h1))
    · exact .inl trivial
end

end PXml
