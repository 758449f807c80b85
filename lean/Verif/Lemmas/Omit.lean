import Verif.SpecOmit
import Verif.Lemmas.Emit
import Verif.Lemmas.Dict
import Verif.Props.Writing

/-!
# Lemmas: flags only leave things out (C83)
-/

namespace PXml

open Elem

mutual
/-- `Node.Part` for the elements of the writer. -/
inductive Elem.Part : Elem → Elem → Prop
  | mk {a b : Elem} : a.tag = b.tag → a.nsmap = b.nsmap → a.tail = b.tail → (a.attrib.getD []).Sublist (b.attrib.getD []) →
      a.text = none ∨ a.text = b.text → Elem.Parts a.elements b.elements → Elem.Part a b
inductive Elem.Parts : List Elem → List Elem → Prop
  | nil : Elem.Parts [] []
  | drop {cs cs' : List Elem} (c' : Elem) : Elem.Parts cs cs' → Elem.Parts cs (c' :: cs')
  | keep {c c' : Elem} {cs cs' : List Elem} : Elem.Part c c' → Elem.Parts cs cs' → Elem.Parts (c :: cs) (c' :: cs')
end

theorem part_iff {a b : Elem} : Part a b ↔ a.tag = b.tag ∧ a.nsmap = b.nsmap ∧ a.tail = b.tail ∧
    (a.attrib.getD []).Sublist (b.attrib.getD []) ∧ (a.text = none ∨ a.text = b.text) ∧ Parts a.elements b.elements :=
  ⟨fun | .mk h1 h2 h3 h4 h5 h6 => ⟨h1, h2, h3, h4, h5, h6⟩, fun ⟨h1, h2, h3, h4, h5, h6⟩ => .mk h1 h2 h3 h4 h5 h6⟩

theorem parts_refl {l : List Elem} (h : ∀ c ∈ l, Part c c) : Parts l l := by
  induction l with
  | nil => exact .nil
  | cons c l ih => exact .keep (h c (by simp)) (ih fun c hc => h c (by simp [hc]))

theorem part_refl (e : Elem) : Part e e := by
  induction e using Elem.induct with
  | h e ih => exact .mk rfl rfl rfl (List.Sublist.refl _) (.inr rfl) (parts_refl ih)

theorem parts_drops {cs cs' : List Elem} (h : Parts cs cs') (ds : List Elem) : Parts cs (cs' ++ ds) := by
  induction cs' generalizing cs with
  | nil =>
    cases h
    induction ds with
    | nil => exact .nil
    | cons d ds ih => exact .drop d ih
  | cons c' cs' ih =>
    cases h with
    | drop _ h => exact .drop _ (ih h)
    | keep h1 h2 => exact .keep h1 (ih h2)

theorem parts_append {cs cs' ds ds' : List Elem} (h : Parts cs cs') (hd : Parts ds ds') : Parts (cs ++ ds) (cs' ++ ds') := by
  induction cs' generalizing cs with
  | nil => cases h; exact hd
  | cons c' cs' ih =>
    cases h with
    | drop _ h => exact .drop _ (ih h)
    | keep h1 h2 => exact .keep h1 (ih h2)

theorem parts_nil {cs : List Elem} (h : Parts cs []) : cs = [] := by cases h; rfl

theorem parts_mem {cs cs' : List Elem} (h : Parts cs cs') : ∀ c ∈ cs, ∃ c' ∈ cs', Part c c' := by
  induction cs' generalizing cs with
  | nil => rw [parts_nil h]; simp
  | cons c' cs' ih =>
    intro c hc
    cases h with
    | drop _ h =>
      obtain ⟨d, h1, h2⟩ := ih h c hc
      exact ⟨d, by simp [h1], h2⟩
    | keep h1 h2 =>
      rcases List.mem_cons.1 hc with rfl | hc
      · exact ⟨c', by simp, h1⟩
      · obtain ⟨d, h3, h4⟩ := ih h2 c hc
        exact ⟨d, by simp [h3], h4⟩

theorem part_tag {a b : Elem} (h : Part a b) : a.tag = b.tag := (part_iff.1 h).1

theorem truthyMap_sublist {a b : Option (Dict String String)} (h : (a.getD []).Sublist (b.getD [])) (hb : truthyMap b = false) :
    truthyMap a = false := by
  cases a with
  | none => rfl
  | some a =>
    cases b with
    | none => simp only [Option.getD_some, Option.getD_none, List.sublist_nil] at h; subst h; rfl
    | some b =>
      cases b with
      | nil => simp only [Option.getD_some, List.sublist_nil] at h; subst h; rfl
      | cons x b => simp [truthyMap] at hb

/-- What is left of an empty element is empty. -/
theorem part_empty {a b : Elem} (h : Part a b) (hb : b.isEmpty = true) : a.isEmpty = true := by
  obtain ⟨-, -, h3, h4, h5, h6⟩ := part_iff.1 h
  simp only [isEmpty, Bool.and_eq_true, Bool.not_eq_true', List.isEmpty_iff] at hb ⊢
  obtain ⟨⟨⟨b1, b2⟩, b3⟩, b4⟩ := hb
  refine ⟨⟨⟨?_, by rw [h3]; exact b2⟩, truthyMap_sublist h4 b3⟩, ?_⟩
  · rcases h5 with h5 | h5 <;> rw [h5]
    · rfl
    · exact b1
  · rw [b4] at h6; exact parts_nil h6

/-- The places of the list are free. -/
structure Elem.Room (b : Elem) (Z : List Slot) : Prop where
  text : .text ∈ Z → b.text = none
  attr : ∀ k, .attr k ∈ Z → k ∉ Dict.keys (b.attrib.getD [])
  attrs : .attrs ∈ Z → b.attrib.getD [] = []
  child : ∀ t, .child t ∈ Z → ∀ c ∈ b.elements, c.tag ≠ t

theorem Elem.Room.mono {b : Elem} {Z Z' : List Slot} (h : b.Room Z) (hZ : ∀ x ∈ Z', x ∈ Z) : b.Room Z' :=
  ⟨fun hx => h.text (hZ _ hx), fun k hx => h.attr k (hZ _ hx), fun hx => h.attrs (hZ _ hx), fun t hx => h.child t (hZ _ hx)⟩

theorem room_nil (b : Elem) : b.Room [] := ⟨by simp, by simp, by simp, by simp⟩

/-- The element is empty, the writer is at the beginning. -/
def Elem.Blank (e : Elem) : Prop := e.text = none ∧ e.attrib.getD [] = [] ∧ e.elements = [] ∧ e.next = 0

theorem Elem.Blank.room {e : Elem} (h : e.Blank) (Z : List Slot) : e.Room Z :=
  ⟨fun _ => h.1, fun k _ => by rw [h.2.1]; simp [Dict.keys], fun _ => h.2.1, fun t _ c hc => by rw [h.2.2.1] at hc; cases hc⟩

theorem Elem.Blank.atEnd {e : Elem} (h : e.Blank) : e.AtEnd := by unfold AtEnd; rw [h.2.2.2, h.2.2.1]; rfl

theorem makeElement_blank (b : Backend) (t : String) (ns : Option NsMap) : (makeElement b t ns).Blank := ⟨rfl, rfl, rfl, rfl⟩

/-- What writing to free places does: it adds, in the places `Z` only, and if `W` is set children with any name. -/
structure Elem.Grown (W : Bool) (Z : List Slot) (b b' : Elem) : Prop where
  tag : b'.tag = b.tag
  nsmap : b'.nsmap = b.nsmap
  tail : b'.tail = b.tail
  text : b'.text = b.text ∨ (b.text = none ∧ .text ∈ Z)
  attrib : b'.attrib.getD [] = b.attrib.getD [] ∨ (b.attrib.getD [] = [] ∧ .attrs ∈ Z) ∨
    ∃ more : Dict String String, b'.attrib.getD [] = b.attrib.getD [] ++ more ∧ ∀ k ∈ Dict.keys more, .attr k ∈ Z
  elements : ∃ more, b'.elements = b.elements ++ more ∧ ∀ c ∈ more, .child c.tag ∈ Z ∨ W = true
  atEnd : b.AtEnd → b'.AtEnd

theorem Elem.Grown.refl {W : Bool} (Z : List Slot) (b : Elem) : b.Grown W Z b :=
  ⟨rfl, rfl, rfl, .inl rfl, .inl rfl, ⟨[], by simp, by simp⟩, id⟩

theorem Elem.Grown.part {W : Bool} {Z : List Slot} {a b b' : Elem} (h : b.Grown W Z b') (hp : Part a b) : Part a b' := by
  obtain ⟨h1, h2, h3, h4, h5, h6⟩ := part_iff.1 hp
  refine .mk (h1.trans h.tag.symm) (h2.trans h.nsmap.symm) (h3.trans h.tail.symm) ?_ ?_ ?_
  · rcases h.attrib with h | ⟨h, -⟩ | ⟨more, h, -⟩
    · rw [h]; exact h4
    · rw [h, List.sublist_nil] at h4; rw [h4]; exact List.nil_sublist _
    · rw [h]; exact h4.trans (List.sublist_append_left _ _)
  · rcases h.text with h | ⟨h, -⟩
    · rw [h]; exact h5
    · rw [h] at h5; exact .inl (by simpa using h5)
  · obtain ⟨more, h, -⟩ := h.elements
    rw [h]; exact parts_drops h6 more

theorem keys_append (a b : Dict String String) : Dict.keys (a ++ b) = Dict.keys a ++ Dict.keys b := by simp [Dict.keys]

/-- Places that do not compete with those written to stay free. -/
theorem Elem.Grown.room {W : Bool} {Z Y : List Slot} {b b' : Elem} (h : b.Grown W Z b') (hr : b.Room Y) (hd : ∀ x ∈ Z, ∀ y ∈ Y, ¬x.Competes y)
    (hw : W = true → ∀ t, .child t ∉ Y) : b'.Room Y := by
  refine ⟨fun hy => ?_, fun k hy => ?_, fun hy => ?_, fun t hy c hc => ?_⟩
  · rcases h.text with h | ⟨-, h⟩
    · rw [h]; exact hr.text hy
    · exact absurd trivial (hd _ h _ hy)
  · rcases h.attrib with h | ⟨-, h⟩ | ⟨more, h, hm⟩
    · rw [h]; exact hr.attr k hy
    · exact absurd trivial (hd _ h _ hy)
    · rw [h, keys_append, List.mem_append]
      rintro (h' | h')
      · exact hr.attr k hy h'
      · exact hd _ (hm k h') _ hy rfl
  · rcases h.attrib with h | ⟨-, h⟩ | ⟨more, h, hm⟩
    · rw [h]; exact hr.attrs hy
    · exact absurd trivial (hd _ h _ hy)
    · rw [h, hr.attrs hy]
      cases more with
      | nil => rfl
      | cons x more => exact absurd trivial (hd _ (hm x.1 (by simp [Dict.keys])) _ hy)
  · obtain ⟨more, h, hm⟩ := h.elements
    rw [h, List.mem_append] at hc
    rcases hc with hc | hc
    · exact hr.child t hy c hc
    · intro e
      rcases hm c hc with h' | h'
      · exact hd _ h' _ hy e
      · exact hw h' t hy

theorem Elem.Grown.mono {W W' : Bool} {Z Z' : List Slot} {a b : Elem} (h : a.Grown W Z b) (hW : W = true → W' = true) (hZ : ∀ x ∈ Z, x ∈ Z') :
    a.Grown W' Z' b := by
  refine ⟨h.tag, h.nsmap, h.tail, ?_, ?_, ?_, h.atEnd⟩
  · exact h.text.imp id fun h => ⟨h.1, hZ _ h.2⟩
  · exact h.attrib.imp id (Or.imp (fun h => ⟨h.1, hZ _ h.2⟩) fun ⟨m, h1, h2⟩ => ⟨m, h1, fun k hk => hZ _ (h2 k hk)⟩)
  · obtain ⟨m, h1, h2⟩ := h.elements
    exact ⟨m, h1, fun c hc => (h2 c hc).imp (hZ _) hW⟩

theorem grown_append {W : Bool} {Z : List Slot} {b c : Elem} (h : .child c.tag ∈ Z ∨ W = true) : b.Grown W Z (b.append c) := by
  refine ⟨rfl, rfl, rfl, .inl rfl, .inl rfl, ⟨[c], rfl, fun x hx => by rw [List.mem_singleton.1 hx]; exact h⟩, fun hb => ?_⟩
  unfold AtEnd at hb ⊢
  simp [Elem.append, hb]

theorem grown_unlessEmpty {W : Bool} {Z : List Slot} {fl : Flags} {b c : Elem} (h : .child c.tag ∈ Z ∨ W = true) : b.Grown W Z (appendUnlessEmpty fl b c) := by
  unfold appendUnlessEmpty
  split
  · exact .refl _ _
  · exact grown_append h

/-- Children only: steps add up. -/
theorem Elem.Grown.trans {W : Bool} {Z : List Slot} {a b c : Elem} (h1 : a.Grown W Z b) (h2 : b.Grown W Z c) (ht : .text ∉ Z) (ha : .attrs ∉ Z) :
    a.Grown W Z c := by
  refine ⟨h2.tag.trans h1.tag, h2.nsmap.trans h1.nsmap, h2.tail.trans h1.tail, ?_, ?_, ?_, fun h => h2.atEnd (h1.atEnd h)⟩
  · rcases h1.text with h | ⟨-, h⟩
    · rcases h2.text with h' | ⟨-, h'⟩
      · exact .inl (h'.trans h)
      · exact absurd h' ht
    · exact absurd h ht
  · rcases h1.attrib with h | ⟨-, h⟩ | ⟨m, h, hm⟩
    · rw [← h]; exact h2.attrib
    · exact absurd h ha
    · rcases h2.attrib with h' | ⟨-, h'⟩ | ⟨m', h', hm'⟩
      · exact .inr (.inr ⟨m, h'.trans h, hm⟩)
      · exact absurd h' ha
      · refine .inr (.inr ⟨m ++ m', by rw [h', h, List.append_assoc], fun k hk => ?_⟩)
        rw [keys_append, List.mem_append] at hk
        exact hk.elim (hm k) (hm' k)
  · obtain ⟨m, e1, m1⟩ := h1.elements
    obtain ⟨m', e2, m2⟩ := h2.elements
    refine ⟨m ++ m', by rw [e2, e1, List.append_assoc], fun c hc => ?_⟩
    exact (List.mem_append.1 hc).elim (m1 c) (m2 c)

mutual
theorem slots_exclusive (s : Ser) : ∀ x ∈ s.slots, (∃ t, x = .child t) ∨ x ∈ s.exclusive := by
  cases s with
  | primUnion c inner => simpa only [Ser.slots, Ser.exclusive] using slots_exclusive inner
  | homog t c inner => simpa only [Ser.slots, Ser.exclusive] using slots_exclusive inner
  | hetero t c inners => simpa only [Ser.slots, Ser.exclusive] using slots_exclusiveList inners
  | wrap path ns m c inner =>
    cases path with
    | nil => simpa only [Ser.slots, Ser.exclusive] using slots_exclusive inner
    | cons t ts => simp [Ser.slots]
  | modelUnion t c alts => simp [Ser.slots]
  | tagged c d a m alts =>
    intro x hx
    simp only [Ser.slots, List.mem_map] at hx
    obtain ⟨tp, -, rfl⟩ := hx
    exact .inl ⟨_, rfl⟩
  | text c nl => intro x hx; exact .inr hx
  | attr nm c => intro x hx; exact .inr hx
  | attrs a => intro x hx; exact .inr hx
  | _ => simp [Ser.slots]
theorem slots_exclusiveList (ss : List Ser) : ∀ x ∈ Ser.slotsList ss, (∃ t, x = .child t) ∨ x ∈ Ser.exclusiveList ss := by
  cases ss with
  | nil => simp [Ser.slotsList]
  | cons s ss =>
    intro x hx
    simp only [Ser.slotsList, List.mem_append] at hx
    simp only [Ser.exclusiveList, List.mem_append]
    rcases hx with hx | hx
    · exact (slots_exclusive s x hx).imp id .inl
    · exact (slots_exclusiveList ss x hx).imp id .inr
end

theorem slots_children {s : Ser} (h : s.exclusive = []) {x : Slot} (hx : x ∈ s.slots) : ∃ t, x = .child t := by
  rcases slots_exclusive s x hx with h' | h'
  · exact h'
  · rw [h] at h'; cases h'

theorem apartList_mem {ss : List Ser} (h : Ser.ApartList ss) : ∀ s ∈ ss, s.Apart := by
  induction ss with
  | nil => simp
  | cons s ss ih => intro x hx; rcases List.mem_cons.1 hx with rfl | hx; exact h.1; exact ih h.2 x hx

theorem exclusiveList_mem {ss : List Ser} (h : Ser.exclusiveList ss = []) : ∀ s ∈ ss, s.exclusive = [] := by
  induction ss with
  | nil => simp
  | cons s ss ih =>
    simp only [Ser.exclusiveList, List.append_eq_nil_iff] at h
    intro x hx; rcases List.mem_cons.1 hx with rfl | hx; exact h.1; exact ih h.2 x hx

theorem wildList_mem {ss : List Ser} {s : Ser} (h : s ∈ ss) (hw : s.wild = true) : Ser.wildList ss = true := by
  induction ss with
  | nil => cases h
  | cons s' ss ih =>
    simp only [Ser.wildList, Bool.or_eq_true]
    rcases List.mem_cons.1 h with rfl | h
    · exact .inl hw
    · exact .inr (ih h)

theorem lastNamed_none {e : Elem} {t : String} (h : ∀ c ∈ e.elements, c.tag ≠ t) : e.lastNamed t = none := by
  unfold lastNamed
  cases hl : e.elements.getLast? with
  | none => rfl
  | some c => simp [Option.filter, h c (List.mem_of_getLast? hl)]

theorem ascend_free {b : Backend} {mode : Mode} {ns : Option NsMap} {f : Elem → Out Elem} {t : String} {ts : List String} {e : Elem}
    (he : e.AtEnd) (h : ∀ c ∈ e.elements, c.tag ≠ t) :
    ascend b mode ns f (t :: ts) e = (ascend b mode ns f ts (makeElement b t ns)).bind fun c => .ok (e.append c) := by
  conv => lhs; unfold ascend
  rw [C41_finds_last_only e he, lastNamed_none h]
  rfl

section
variable {env : Env} (hns : env.NoSerializers)
include hns

theorem ascend_tag {n : Nat} {fl : Flags} {inner : Ser} {v enc : Val} {mode : Mode} {ns : Option NsMap} {ts : List String} {e e' : Elem}
    (h : ascend env.backend mode ns (fun c => ser env n fl inner c v enc) ts e = .ok e') : e'.tag = e.tag :=
  (ascend_writes (P := anywhere) ts (fun _ _ h => (ser_writes hns.write n fl inner h).all) h).tag

theorem serModel_all {n : Nat} {fl : Flags} {m : ModelSer} {cls : String} (hm : env.model cls = some m) {v enc : Val} {e e' : Elem}
    (h : serModel (ser env n) m fl e v enc = .ok e') : Writes anywhere e e' :=
  serModel_writes (fun _ _ f _ _ _ _ _ _ _ h => (ser_writes hns.write n _ f.ser h).all)
    (fun fs hb f hf g hg => absurd hg (by rw [hns cls m fs hm hb f hf]; simp))
    (fun s _ _ _ _ _ _ h => (ser_writes hns.write n _ s h).all) h

omit hns in
theorem serItems_grown {W : Bool} {Z : List Slot} {F : Elem → Val → Val → Out Elem} (hF : ∀ e v enc e', F e v enc = .ok e' → e.AtEnd → e.Grown W Z e')
    (ht : .text ∉ Z) (ha : .attrs ∉ Z) (fl : Flags) (vs encs : List Val) {e e' : Elem} (h : serItems F fl vs encs e = .ok e') (he : e.AtEnd) :
    e.Grown W Z e' := by
  induction vs generalizing encs e with
  | nil => simp only [serItems] at h; cases h; exact .refl _ _
  | cons v vs ih =>
    cases encs with
    | nil => simp only [serItems] at h; cases h; exact .refl _ _
    | cons enc encs =>
      unfold serItems at h
      split at h
      · exact ih _ h he
      · obtain ⟨e1, h1, h2⟩ := bind_ok h
        have := hF _ _ _ _ h1 he
        exact this.trans (ih _ h2 (this.atEnd he)) ht ha

omit hns in
theorem serTuple_grown {W : Bool} {Z : List Slot} {F : Ser → Elem → Val → Val → Out Elem} (ss : List Ser)
    (hF : ∀ s ∈ ss, ∀ e v enc e', F s e v enc = .ok e' → e.AtEnd → e.Grown W Z e')
    (ht : .text ∉ Z) (ha : .attrs ∉ Z) (vs encs : List Val) {e e' : Elem} (h : serTuple F ss vs encs e = .ok e') (he : e.AtEnd) :
    e.Grown W Z e' := by
  induction ss generalizing vs encs e with
  | nil => simp only [serTuple] at h; cases h; exact .refl _ _
  | cons s ss ih =>
    cases vs with
    | nil => simp only [serTuple] at h; cases h; exact .refl _ _
    | cons v vs =>
      cases encs with
      | nil => simp only [serTuple] at h; cases h; exact .refl _ _
      | cons enc encs =>
        unfold serTuple at h
        obtain ⟨e1, h1, h2⟩ := bind_ok h
        have := hF s (by simp) _ _ _ _ h1 he
        exact this.trans (ih (fun s hs => hF s (by simp [hs])) _ _ h2 (this.atEnd he)) ht ha

omit hns in
theorem serText_grown (env : Env) (c nl : Bool) (fl : Flags) (e : Elem) (v enc : Val) (hr : e.Room (Ser.text c nl).exclusive) :
    e.Grown (Ser.text c nl).wild (Ser.text c nl).slots (serText env nl fl e v enc) := by
  unfold serText
  have hx : (Ser.text c nl).slots = (Ser.text c nl).exclusive := rfl
  have hz : Slot.text ∈ (Ser.text c nl).slots := slots_text c nl
  split
  · exact .refl _ _
  · split
    · rename_i hnl
      simp only [Bool.and_eq_true] at hnl
      have hk : Slot.attr nilAttr ∈ (Ser.text c nl).slots := by rw [hnl.1]; simp [Ser.slots]
      refine ⟨rfl, rfl, rfl, .inr ⟨hr.text (hx ▸ hz), hz⟩, .inr (.inr ⟨[(nilAttr, "true")], ?_, by simpa [Dict.keys] using hk⟩),
        ⟨[], by simp [setText, makeNil, setAttribute], by simp⟩, id⟩
      simp only [setText, makeNil, setAttribute, Option.getD_some]
      exact Dict.set_of_not_mem (hr.attr _ (hx ▸ hk)) _
    · exact ⟨rfl, rfl, rfl, .inr ⟨hr.text (hx ▸ hz), hz⟩, .inl rfl, ⟨[], by simp [setText], by simp⟩, id⟩

omit hns in
theorem serAttrs_grown {W : Bool} {Z : List Slot} {a : AttrsSer} {e e' : Elem} {v enc : Val} (h : serAttrs env a e v enc = .ok e')
    (hr : e.attrib.getD [] = []) (hz : .attrs ∈ Z) : e.Grown W Z e' := by
  unfold serAttrs at h
  split at h
  · cases h; exact .refl _ _
  · cases enc with
    | dict d =>
      cases h
      exact ⟨rfl, rfl, rfl, .inl rfl, .inr (.inl ⟨hr, hz⟩), ⟨[], by simp [setAttributes], by simp⟩, id⟩
    | _ => cases h

theorem ser_grown (n : Nat) (fl : Flags) (s : Ser) (e e' : Elem) (v enc : Val) (hs : s.Apart) (hr : e.Room s.exclusive) (he : e.AtEnd)
    (h : ser env n fl s e v enc = .ok e') : e.Grown s.wild s.slots e' := by
  induction n generalizing fl s e e' v enc with
  | zero => cases h
  | succ n ih =>
    change serStep env (ser env n) fl s e v enc = .ok e' at h
    unfold serStep at h
    cases s with
    | text c nl => cases h; exact serText_grown env c nl fl e v enc hr
    | attr nm c =>
      simp only at h
      split at h <;> cases h
      · exact .refl _ _
      · refine ⟨rfl, rfl, rfl, .inl rfl, .inr (.inr ⟨[(nm, encodePrimitive env enc)], ?_, by simp [Dict.keys, Ser.slots]⟩),
          ⟨[], by simp [setAttribute], by simp⟩, id⟩
        simp only [setAttribute, Option.getD_some]
        exact Dict.set_of_not_mem (hr.attr _ (by simp [Ser.exclusive])) _
    | elem nm ns m c nl =>
      simp only at h
      split at h <;> cases h
      · exact .refl _ _
      · refine grown_unlessEmpty (.inl ?_)
        rw [(serText_writes (P := anywhere) env nl fl _ v enc trivial (fun _ => trivial)).tag]
        simp [makeElement, Ser.slots]
    | attrs a => exact serAttrs_grown h (hr.attrs (by simp [Ser.exclusive])) (by simp [Ser.slots])
    | mapElem a nm m =>
      simp only at h
      have ht : ∀ sub, serAttrs env a (makeElement env.backend nm a.nsmap) v enc = .ok sub → Slot.child sub.tag ∈ (Ser.mapElem a nm m).slots := by
        intro sub hsub
        rw [(serAttrs_writes (P := anywhere) hsub trivial).tag]
        simp [makeElement, Ser.slots]
      split at h
      · split at h
        · cases h
        · cases h; exact .refl _ _
        · obtain ⟨sub, h1, h2⟩ := bind_ok h
          cases h2
          exact grown_unlessEmpty (.inl (ht _ h1))
      · obtain ⟨sub, h1, h2⟩ := bind_ok h
        cases h2
        exact grown_append (.inl (ht _ h1))
    | raw nm m c =>
      simp only at h
      cases v <;> cases h
      · exact .refl _ _
      · exact grown_unlessEmpty (.inr rfl)
    | proxy p =>
      simp only at h
      cases hm : env.model p.cls with
      | none => rw [hm] at h; cases h
      | some m =>
        simp only [hm] at h
        split at h
        · cases h; exact .refl _ _
        · split at h
          · cases h; exact grown_append (.inl <| by simp [makeElement, makeNil, setAttribute, Ser.slots])
          · split at h
            · cases h; exact .refl _ _
            · obtain ⟨sub, h1, h2⟩ := bind_ok h
              cases h2
              refine grown_unlessEmpty (.inl ?_)
              rw [(serModel_all hns hm h1).tag]
              simp [makeElement, Ser.slots]
    | primUnion c inner =>
      simp only [Ser.exclusive] at hr
      simp only [Ser.slots, Ser.wild]
      exact ih fl inner e e' v enc hs hr he h
    | modelUnion t c alts =>
      simp only at h
      split at h
      · split at h
        · rename_i p hp
          have := ih fl (.proxy p) e e' _ enc trivial (room_nil _) he h
          refine this.mono (fun h => by cases h) ?_
          simp only [Ser.slots, List.mem_singleton, List.mem_map]
          rintro x rfl
          exact ⟨p, List.mem_of_find?_eq_some hp, rfl⟩
        · cases h; exact .refl _ _
      · cases h; exact .refl _ _
    | tagged c d a m alts =>
      simp only at h
      split at h
      · split at h
        · split at h
          · cases h; exact .refl _ _
          · split at h
            · rename_i p hp
              have := ih fl (.proxy p) e e' _ _ trivial (room_nil _) he h
              refine this.mono (fun h => by cases h) ?_
              simp only [Ser.slots, List.mem_singleton, List.mem_map]
              rintro x rfl
              exact ⟨_, Dict.mem_of_get? hp, rfl⟩
            · cases h
        · cases h; exact .refl _ _
        · cases h; exact .refl _ _
        · cases h
      · cases h
    | wrap path ns m c inner =>
      simp only at h
      split at h
      · cases h; exact .refl _ _
      · split at h
        · cases h; exact .refl _ _
        · cases path with
          | nil =>
            simp only [Ser.exclusive] at hr
            simp only [Ser.slots, Ser.wild]
            exact ih fl inner e e' v enc hs hr he h
          | cons t ts =>
            rw [ascend_free he (hr.child t (by simp [Ser.exclusive]))] at h
            obtain ⟨sub, h1, h2⟩ := bind_ok h
            cases h2
            refine grown_append (.inl ?_)
            rw [ascend_tag hns h1]
            simp [makeElement, Ser.slots]
    | homog t c inner =>
      simp only at h
      split at h
      · cases h; exact .refl _ _
      · split at h
        · simp only [Ser.slots, Ser.wild]
          refine serItems_grown (fun e v enc e' h he => ih fl inner e e' v enc hs.1 (hs.2 ▸ room_nil e) he h) ?_ ?_ fl _ _ h he
          · intro hx; obtain ⟨t, h⟩ := slots_children hs.2 hx; cases h
          · intro hx; obtain ⟨t, h⟩ := slots_children hs.2 hx; cases h
        · cases h
    | hetero t c inners =>
      simp only at h
      have hch : ∀ x ∈ Ser.slotsList inners, ∃ t, x = .child t := by
        intro x hx
        rcases slots_exclusiveList inners x hx with h | h
        · exact h
        · rw [hs.2] at h; cases h
      split at h
      · cases h; exact .refl _ _
      · split at h
        · split at h
          · cases h; exact .refl _ _
          · split at h
            · cases h
            · simp only [Ser.slots, Ser.wild]
              refine serTuple_grown inners (fun s hin e v enc e' h he => ?_) ?_ ?_ _ _ h he
              · refine (ih fl s e e' v enc (apartList_mem hs.1 s hin) (exclusiveList_mem hs.2 s hin ▸ room_nil e) he h).mono (fun h => wildList_mem hin h) ?_
                intro x hx; exact slotsList_mem.2 ⟨s, hin, hx⟩
              · intro hx; obtain ⟨t, h⟩ := hch _ hx; cases h
              · intro hx; obtain ⟨t, h⟩ := hch _ hx; cases h
        · cases h

omit hns in
theorem part_append {a b c d : Elem} (h : Part a b) (hc : Part c d) : Part (a.append c) (b.append d) := by
  obtain ⟨h1, h2, h3, h4, h5, h6⟩ := part_iff.1 h
  exact .mk h1 h2 h3 h4 h5 (parts_append h6 (.keep hc .nil))

omit hns in
theorem part_drop {a b d : Elem} (h : Part a b) : Part a (b.append d) := by
  obtain ⟨h1, h2, h3, h4, h5, h6⟩ := part_iff.1 h
  exact .mk h1 h2 h3 h4 h5 (parts_drops h6 [d])

omit hns in
theorem part_unlessEmpty {fl fl' : Flags} (hfl : fl.Le fl') {a b c d : Elem} (h : Part a b) (hc : Part c d) :
    Part (appendUnlessEmpty fl' a c) (appendUnlessEmpty fl b d) := by
  unfold appendUnlessEmpty
  by_cases hb : (fl.skipEmpty && d.isEmpty) = true
  · simp only [Bool.and_eq_true] at hb
    have h1 : (fl.skipEmpty && d.isEmpty) = true := by simp only [Bool.and_eq_true]; exact hb
    have h2 : (fl'.skipEmpty && c.isEmpty) = true := by simp only [Bool.and_eq_true]; exact ⟨hfl.skipEmpty hb.1, part_empty hc hb.2⟩
    rw [if_pos h1, if_pos h2]
    exact h
  · rw [if_neg hb]
    split
    · exact part_drop h
    · exact part_append h hc

omit hns in
theorem part_drop_unlessEmpty {fl : Flags} {a b d : Elem} (h : Part a b) : Part a (appendUnlessEmpty fl b d) := by
  unfold appendUnlessEmpty
  split
  · exact h
  · exact part_drop h

omit hns in
theorem part_setText {a b : Elem} (h : Part a b) (t : String) : Part (a.setText t) (b.setText t) := by
  obtain ⟨h1, h2, h3, h4, h5, h6⟩ := part_iff.1 h
  exact .mk h1 h2 h3 h4 (.inr rfl) h6

omit hns in
theorem keys_sublist {a b : Dict String String} (h : a.Sublist b) {k : String} (hk : k ∉ Dict.keys b) : k ∉ Dict.keys a := by
  intro h'
  simp only [Dict.keys, List.mem_map] at h' hk
  obtain ⟨x, hx, rfl⟩ := h'
  exact hk ⟨x, h.subset hx, rfl⟩

omit hns in
theorem part_setAttribute {a b : Elem} (h : Part a b) {k : String} (v : String) (hk : k ∉ Dict.keys (b.attrib.getD [])) :
    Part (a.setAttribute k v) (b.setAttribute k v) := by
  obtain ⟨h1, h2, h3, h4, h5, h6⟩ := part_iff.1 h
  refine .mk h1 h2 h3 ?_ h5 h6
  simp only [setAttribute, Option.getD_some]
  rw [Dict.set_of_not_mem hk, Dict.set_of_not_mem (keys_sublist h4 hk)]
  exact h4.append (List.Sublist.refl _)

omit hns in
theorem serText_part (env : Env) (c nl : Bool) {fl fl' : Flags} (hfl : fl.Le fl') {a b : Elem} (v enc : Val) (h : Part a b)
    (hr : b.Room (Ser.text c nl).exclusive) : Part (serText env nl fl' a v enc) (serText env nl fl b v enc) := by
  have hg := serText_grown env c nl fl b v enc hr
  by_cases hv : (v.isNone && (fl'.skipEmpty || fl'.excludeNone)) = true
  · rw [show serText env nl fl' a v enc = a by unfold serText; rw [if_pos hv]]
    exact hg.part h
  · have hv' : ¬(v.isNone && (fl.skipEmpty || fl.excludeNone)) = true := by
      intro h'
      apply hv
      simp only [Bool.and_eq_true, Bool.or_eq_true] at h' ⊢
      exact ⟨h'.1, h'.2.imp hfl.skipEmpty hfl.excludeNone⟩
    unfold serText
    rw [if_neg hv, if_neg hv']
    split
    · rename_i hnl
      simp only [Bool.and_eq_true] at hnl
      exact part_setText (part_setAttribute h _ (hr.attr _ (by rw [hnl.1]; simp [Ser.exclusive]))) _
    · exact part_setText h _

omit hns in
theorem serAttrs_part {a : AttrsSer} {e f e' f' : Elem} {v enc : Val} (h : Part e f) (h1 : serAttrs env a e v enc = .ok e')
    (h2 : serAttrs env a f v enc = .ok f') : Part e' f' := by
  unfold serAttrs at h1 h2
  split at h1
  · rename_i hv
    rw [if_pos hv] at h2
    cases h1; cases h2; exact h
  · rename_i hv
    rw [if_neg hv] at h2
    cases enc with
    | dict d =>
      cases h1; cases h2
      obtain ⟨h1, h2, h3, h4, h5, h6⟩ := part_iff.1 h
      exact .mk h1 h2 h3 (List.Sublist.refl _) h5 h6
    | _ => cases h1

omit hns in
theorem serItems_part {W : Bool} {Z : List Slot} {F F' : Elem → Val → Val → Out Elem} {fl fl' : Flags} (hfl : fl.Le fl')
    (hF : ∀ a b v enc a' b', Part a b → a.AtEnd → b.AtEnd → F' a v enc = .ok a' → F b v enc = .ok b' → Part a' b')
    (hA : ∀ e v enc e', F' e v enc = .ok e' → e.AtEnd → e'.AtEnd)
    (hG : ∀ e v enc e', F e v enc = .ok e' → e.AtEnd → e.Grown W Z e')
    (vs encs : List Val) {a b a' b' : Elem} (h : Part a b) (ha : a.AtEnd) (hb : b.AtEnd) (h1 : serItems F' fl' vs encs a = .ok a')
    (h2 : serItems F fl vs encs b = .ok b') : Part a' b' := by
  induction vs generalizing encs a b with
  | nil => simp only [serItems] at h1 h2; cases h1; cases h2; exact h
  | cons v vs ih =>
    cases encs with
    | nil => simp only [serItems] at h1 h2; cases h1; cases h2; exact h
    | cons enc encs =>
      unfold serItems at h1 h2
      split at h2
      · rename_i hv
        simp only [Bool.and_eq_true] at hv
        rw [if_pos (by simp [hv, hfl.skipEmpty hv.1])] at h1
        exact ih _ h ha hb h1 h2
      · obtain ⟨b1, h3, h4⟩ := bind_ok h2
        have hg := hG _ _ _ _ h3 hb
        split at h1
        · exact ih _ (hg.part h) ha (hg.atEnd hb) h1 h4
        · obtain ⟨a1, h5, h6⟩ := bind_ok h1
          exact ih _ (hF _ _ _ _ _ _ h ha hb h5 h3) (hA _ _ _ _ h5 ha) (hg.atEnd hb) h6 h4

omit hns in
theorem serTuple_part {F F' : Ser → Elem → Val → Val → Out Elem} (ss : List Ser)
    (hF : ∀ s ∈ ss, ∀ a b v enc a' b', Part a b → a.AtEnd → b.AtEnd → F' s a v enc = .ok a' → F s b v enc = .ok b' →
      Part a' b' ∧ a'.AtEnd ∧ b'.AtEnd)
    (vs encs : List Val) {a b a' b' : Elem} (h : Part a b) (ha : a.AtEnd) (hb : b.AtEnd) (h1 : serTuple F' ss vs encs a = .ok a')
    (h2 : serTuple F ss vs encs b = .ok b') : Part a' b' := by
  induction ss generalizing vs encs a b with
  | nil => simp only [serTuple] at h1 h2; cases h1; cases h2; exact h
  | cons s ss ih =>
    cases vs with
    | nil => simp only [serTuple] at h1 h2; cases h1; cases h2; exact h
    | cons v vs =>
      cases encs with
      | nil => simp only [serTuple] at h1 h2; cases h1; cases h2; exact h
      | cons enc encs =>
        unfold serTuple at h1 h2
        obtain ⟨a1, h3, h4⟩ := bind_ok h1
        obtain ⟨b1, h5, h6⟩ := bind_ok h2
        obtain ⟨h7, h8, h9⟩ := hF s (by simp) _ _ _ _ _ _ h ha hb h3 h5
        exact ih (fun s hs => hF s (by simp [hs])) _ _ h7 h8 h9 h4 h6

/-- What is shown by induction on the fuel. -/
def PartStep (env : Env) (n : Nat) : Prop :=
  ∀ (fl fl' : Flags) (s : Ser) (a b a' b' : Elem) (v enc : Val), fl.Le fl' → s.Apart → Part a b → a.AtEnd → b.AtEnd → b.Room s.exclusive →
    ser env n fl' s a v enc = .ok a' → ser env n fl s b v enc = .ok b' → Part a' b'

theorem serFields_part {n : Nat} (ih : PartStep env n) {fl fl' : Flags} (hfl : fl.Le fl') (self : Val) (d : Dict String Val)
    (set : List String) (enc : Val) (fs : List Field) (hser : ∀ f ∈ fs, f.serializer = none) (hap : ∀ f ∈ fs, f.ser.Apart)
    (hpw : fs.Pairwise fun f g => (∀ x ∈ f.ser.slots, ∀ y ∈ g.ser.exclusive, ¬x.Competes y) ∧ (f.ser.wild = true → ∀ t, .child t ∉ g.ser.exclusive)) {a b a' b' : Elem} (h : Part a b)
    (ha : a.AtEnd) (hb : b.AtEnd) (hr : ∀ f ∈ fs, b.Room f.ser.exclusive)
    (h1 : serFields (ser env n fl') fl' self d set enc fs a = .ok a') (h2 : serFields (ser env n fl) fl self d set enc fs b = .ok b') :
    Part a' b' := by
  induction fs generalizing a b with
  | nil => simp only [serFields] at h1 h2; cases h1; cases h2; exact h
  | cons f fs ihf =>
    rw [List.pairwise_cons] at hpw
    have ihf := fun {a b : Elem} => ihf (a := a) (b := b) (fun x hx => hser x (by simp [hx])) (fun x hx => hap x (by simp [hx])) hpw.2
    have hr' : ∀ g ∈ fs, b.Room g.ser.exclusive := fun g hg => hr g (by simp [hg])
    have hsf := hser f (by simp)
    unfold serFields at h1 h2
    simp only [hsf] at h1 h2
    split at h2
    · rename_i hx
      rw [if_pos hx] at h1
      exact ihf h ha hb hr' h1 h2
    · rename_i hx
      rw [if_neg hx] at h1
      split at h2
      · rename_i hu
        simp only [Bool.and_eq_true] at hu
        rw [if_pos (by simp only [Bool.and_eq_true]; exact ⟨hfl.excludeUnset hu.1, hu.2⟩)] at h1
        exact ihf h ha hb hr' h1 h2
      · obtain ⟨b1, h3, h4⟩ := bind_ok h2
        obtain ⟨v, hv, h3⟩ := bind_ok h3
        obtain ⟨x, hx', h3⟩ := bind_ok h3
        have hg := ser_grown hns n fl f.ser b b1 v x (hap f (by simp)) (hr f (by simp)) hb h3
        have hr1 : ∀ g ∈ fs, b1.Room g.ser.exclusive := fun g hgm => hg.room (hr' g hgm) (hpw.1 g hgm).1 (hpw.1 g hgm).2
        split at h1
        · exact ihf (hg.part h) ha (hg.atEnd hb) hr1 h1 h4
        · obtain ⟨a1, h5, h6⟩ := bind_ok h1
          rw [hv] at h5
          obtain ⟨v', hv', h5⟩ := bind_ok h5
          cases hv'
          rw [hx'] at h5
          obtain ⟨x', hx'', h5⟩ := bind_ok h5
          cases hx''
          exact ihf (ih fl fl' f.ser a b a1 b1 v x hfl (hap f (by simp)) h ha hb (hr f (by simp)) h5 h3)
            ((ser_writes hns.write n fl' f.ser h5).atEnd ha) (hg.atEnd hb) hr1 h6 h4

theorem serModel_part {n : Nat} (ih : PartStep env n) (hU : env.Unshared) {cls : String} {m : ModelSer} (hm : env.model cls = some m)
    {fl fl' : Flags} (hfl : fl.Le fl') {a b a' b' : Elem} {v enc : Val} (h : Part a b) (ha : a.AtEnd) (hb : b.Blank)
    (h1 : serModel (ser env n) m fl' a v enc = .ok a') (h2 : serModel (ser env n) m fl b v enc = .ok b') : Part a' b' := by
  have hu := hU cls m hm
  have hfl2 : Flags.Le { fl with skipEmpty := m.skipEmpty.getD fl.skipEmpty } { fl' with skipEmpty := m.skipEmpty.getD fl'.skipEmpty } := by
    refine ⟨fun h => ?_, hfl.excludeNone, hfl.excludeUnset⟩
    cases hs : m.skipEmpty with
    | none => simp only [hs, Option.getD_none] at h ⊢; exact hfl.skipEmpty h
    | some x => simpa only [hs, Option.getD_some] using h
  unfold serModel at h1 h2
  cases v with
  | none => cases h1; cases h2; exact h
  | model c d set =>
    simp only at h1 h2
    cases hbody : m.body with
    | fields fs =>
      simp only [hbody] at h1 h2 hu
      exact serFields_part hns ih hfl2 _ d set enc fs (hns cls m fs hm hbody) hu.1 hu.2 h ha hb.atEnd (fun f _ => hb.room _) h1 h2
    | root s =>
      simp only [hbody] at h1 h2 hu
      split at h2
      · rename_i hx
        simp only [Bool.and_eq_true] at hx
        rw [if_pos (by simp only [Bool.and_eq_true]; exact ⟨hfl.excludeUnset hx.1, hx.2⟩)] at h1
        cases h1; cases h2; exact h
      · obtain ⟨rv, hrv, h3⟩ := bind_ok h2
        split at h1
        · cases h1
          exact (ser_grown hns n _ s b b' rv enc hu (hb.room _) hb.atEnd h3).part h
        · rw [hrv] at h1
          exact ih _ _ s a b a' b' rv enc hfl2 hu h ha hb.atEnd (hb.room _) h1 h3
  | _ => cases h1

theorem ascend_part {n : Nat} (ih : PartStep env n) {fl fl' : Flags} (hfl : fl.Le fl') {inner : Ser} (hi : inner.Apart) {mode : Mode}
    {ns : Option NsMap} {v enc : Val} (ts : List String) (t : String) {a' b' : Elem}
    (h1 : ascend env.backend mode ns (fun c => ser env n fl' inner c v enc) ts (makeElement env.backend t ns) = .ok a')
    (h2 : ascend env.backend mode ns (fun c => ser env n fl inner c v enc) ts (makeElement env.backend t ns) = .ok b') : Part a' b' := by
  have hb := makeElement_blank env.backend t ns
  induction ts generalizing t a' b' with
  | nil => exact ih _ _ inner _ _ a' b' v enc hfl hi (part_refl _) hb.atEnd hb.atEnd (hb.room _) h1 h2
  | cons u ts iht =>
    have hf : ∀ c ∈ (makeElement env.backend t ns).elements, c.tag ≠ u := by intro c hc; rw [hb.2.2.1] at hc; cases hc
    rw [ascend_free hb.atEnd hf] at h1 h2
    obtain ⟨a1, h3, h4⟩ := bind_ok h1
    obtain ⟨b1, h5, h6⟩ := bind_ok h2
    cases h4; cases h6
    exact part_append (part_refl _) (iht u h3 h5 (makeElement_blank _ _ _))

theorem ser_part (hU : env.Unshared) (n : Nat) : PartStep env n := by
  induction n with
  | zero => intro fl fl' s a b a' b' v enc _ _ _ _ _ _ h; cases h
  | succ n ih =>
    intro fl fl' s a b a' b' v enc hfl hs h ha hb hr h1 h2
    have hgrow := ser_grown hns (n + 1) fl s b b' v enc hs hr hb h2
    change serStep env (ser env n) fl' s a v enc = .ok a' at h1
    change serStep env (ser env n) fl s b v enc = .ok b' at h2
    unfold serStep at h1 h2
    have hnone : (v.isNone && (fl.skipEmpty || fl.excludeNone)) = true → (v.isNone && (fl'.skipEmpty || fl'.excludeNone)) = true := by
      intro h'
      simp only [Bool.and_eq_true, Bool.or_eq_true] at h' ⊢
      exact ⟨h'.1, h'.2.imp hfl.skipEmpty hfl.excludeNone⟩
    cases s with
    | text c nl => cases h1; cases h2; exact serText_part env c nl hfl v enc h hr
    | attr nm c =>
      simp only at h1 h2
      split at h1
      · cases h1; exact hgrow.part h
      · rename_i hn
        rw [if_neg (fun hx => hn (hnone hx))] at h2
        cases h1; cases h2
        exact part_setAttribute h _ (hr.attr _ (by simp [Ser.exclusive]))
    | elem nm ns m c nl =>
      simp only at h1 h2
      split at h1
      · cases h1; exact hgrow.part h
      · rename_i hn
        rw [if_neg (fun hx => hn (hnone hx))] at h2
        cases h1; cases h2
        exact part_unlessEmpty hfl h (serText_part env c nl hfl v enc (part_refl _) ((makeElement_blank _ _ _).room _))
    | attrs at_ => exact serAttrs_part h h1 h2
    | mapElem at_ nm m =>
      simp only at h1 h2
      split at h1
      · rename_i hse
        split at h1
        · cases h1
        · cases h1; exact hgrow.part h
        · rename_i k hk
          obtain ⟨s1, h3, h4⟩ := bind_ok h1
          cases h4
          split at h2
          · split at h2
            · cases h2
            · rename_i _ h0
              simp_all
            · obtain ⟨s2, h5, h6⟩ := bind_ok h2
              cases h6
              exact part_unlessEmpty hfl h (serAttrs_part (part_refl _) h3 h5)
          · obtain ⟨s2, h5, h6⟩ := bind_ok h2
            cases h6
            unfold appendUnlessEmpty
            split
            · exact part_drop h
            · exact part_append h (serAttrs_part (part_refl _) h3 h5)
      · rename_i hse
        rw [if_neg (fun hx => hse (hfl.skipEmpty hx))] at h2
        obtain ⟨s1, h3, h4⟩ := bind_ok h1
        obtain ⟨s2, h5, h6⟩ := bind_ok h2
        cases h4; cases h6
        exact part_append h (serAttrs_part (part_refl _) h3 h5)
    | raw nm m c =>
      simp only at h1 h2
      cases v <;> cases h1 <;> cases h2
      · exact h
      · exact part_unlessEmpty hfl h (part_refl _)
    | proxy p =>
      simp only at h1 h2
      cases hm : env.model p.cls with
      | none => rw [hm] at h1; cases h1
      | some m =>
        simp only [hm] at h1 h2
        split at h1
        · cases h1; exact hgrow.part h
        · rename_i hx
          rw [if_neg (fun h' => hx (by simp only [Bool.and_eq_true] at h' ⊢; exact ⟨hfl.excludeNone h'.1, h'.2⟩))] at h2
          split at h1
          · rename_i hnl
            rw [if_pos hnl] at h2
            cases h1; cases h2
            exact part_append h (part_refl _)
          · rename_i hnl
            rw [if_neg hnl] at h2
            split at h1
            · rename_i hv
              rw [if_pos hv] at h2
              cases h1; cases h2; exact h
            · rename_i hv
              rw [if_neg hv] at h2
              obtain ⟨s1, h3, h4⟩ := bind_ok h1
              obtain ⟨s2, h5, h6⟩ := bind_ok h2
              cases h4; cases h6
              exact part_unlessEmpty hfl h (serModel_part hns ih hU hm hfl (part_refl _) (makeElement_blank _ _ _).atEnd
                (makeElement_blank _ _ _) h3 h5)
    | primUnion c inner =>
      simp only [Ser.exclusive] at hr
      exact ih fl fl' inner a b a' b' v enc hfl hs h ha hb hr h1 h2
    | modelUnion t c alts =>
      simp only at h1 h2
      cases v with
      | model cls d set =>
        simp only at h1 h2
        cases hf : alts.find? (fun p => p.cls = cls) with
        | none => simp only [hf] at h1 h2; cases h1; cases h2; exact h
        | some p =>
          simp only [hf] at h1 h2
          exact ih fl fl' (.proxy p) a b a' b' _ enc hfl trivial h ha hb (room_nil _) h1 h2
      | _ => cases h1; cases h2; exact h
    | tagged c d at_ m alts =>
      simp only at h1 h2
      cases enc with
      | dict dd =>
        simp only at h1 h2
        cases hd : Dict.get? dd d with
        | none => simp only [hd] at h1 h2; cases h1; cases h2; exact h
        | some x =>
          simp only [hd] at h1 h2
          cases x with
          | str tag =>
            simp only at h1 h2
            split at h1
            · rename_i ht
              rw [if_pos ht] at h2
              cases h1; cases h2; exact h
            · rename_i ht
              rw [if_neg ht] at h2
              cases hp : Dict.get? alts tag with
              | none => simp only [hp] at h1; cases h1
              | some p =>
                simp only [hp] at h1 h2
                exact ih fl fl' (.proxy p) a b a' b' v _ hfl trivial h ha hb (room_nil _) h1 h2
          | none => cases h1; cases h2; exact h
          | _ => cases h1
      | _ => cases h1
    | wrap path ns m c inner =>
      simp only at h1 h2
      split at h1
      · cases h1; exact hgrow.part h
      · rename_i hv
        rw [if_neg hv] at h2
        split at h1
        · cases h1; exact hgrow.part h
        · rename_i hl
          rw [if_neg (fun h' => hl (by simp only [Bool.and_eq_true] at h' ⊢; exact ⟨hfl.skipEmpty h'.1, h'.2⟩))] at h2
          cases path with
          | nil =>
            simp only [Ser.exclusive] at hr
            exact ih fl fl' inner a b a' b' v enc hfl hs h ha hb hr h1 h2
          | cons t ts =>
            have hfb := hr.child t (by simp [Ser.exclusive])
            have hfa : ∀ c ∈ a.elements, c.tag ≠ t := by
              intro c hc
              obtain ⟨c', h3, h4⟩ := parts_mem (part_iff.1 h).2.2.2.2.2 c hc
              rw [part_tag h4]
              exact hfb c' h3
            rw [ascend_free ha hfa] at h1
            rw [ascend_free hb hfb] at h2
            obtain ⟨s1, h3, h4⟩ := bind_ok h1
            obtain ⟨s2, h5, h6⟩ := bind_ok h2
            cases h4; cases h6
            exact part_append h (ascend_part hns ih hfl (inner := inner) hs ts t h3 h5)
    | homog t c inner =>
      simp only at h1 h2
      split at h1
      · cases h1; exact hgrow.part h
      · rename_i hv
        rw [if_neg hv] at h2
        cases v with
        | list vs =>
          cases enc with
          | list encs =>
            refine serItems_part (W := inner.wild) (Z := inner.slots) hfl
              (fun a b v enc a' b' h ha hb h1 h2 => ih fl fl' inner a b a' b' v enc hfl hs.1 h ha hb (hs.2 ▸ room_nil b) h1 h2)
              (fun e v enc e' h he => (ser_writes hns.write n fl' inner h).atEnd he)
              (fun e v enc e' h he => ser_grown hns n fl inner e e' v enc hs.1 (hs.2 ▸ room_nil e) he h) vs encs h ha hb h1 h2
          | _ => cases h1
        | _ => cases h1
    | hetero t c inners =>
      simp only at h1 h2
      split at h1
      · cases h1; exact hgrow.part h
      · rename_i hv
        rw [if_neg hv] at h2
        cases v with
        | list vs =>
          cases enc with
          | list encs =>
            simp only at h1 h2
            split at h1
            · cases h1; exact hgrow.part h
            · rename_i hse
              rw [if_neg (fun h' => hse (by simp only [Bool.and_eq_true] at h' ⊢; exact ⟨hfl.skipEmpty h'.1, h'.2⟩))] at h2
              split at h1
              · cases h1
              · rename_i hlen
                rw [if_neg hlen] at h2
                refine serTuple_part inners (fun s hin a b v enc a' b' h ha hb h1 h2 => ?_) vs encs h ha hb h1 h2
                exact ⟨ih fl fl' s a b a' b' v enc hfl (apartList_mem hs.1 s hin) h ha hb (exclusiveList_mem hs.2 s hin ▸ room_nil b) h1 h2,
                  (ser_writes hns.write n fl' s h1).atEnd ha, (ser_writes hns.write n fl s h2).atEnd hb⟩
          | _ => cases h1
        | _ => cases h1

end

theorem toNative_eq (b : Backend) (e : Elem) :
    toNative b e = .elem e.tag (e.attrib.getD []) (nativeNsmap b e.nsmap) e.text e.tail (toNativeList b e.elements) none := by
  cases e; rfl

mutual
theorem part_native (b : Backend) : ∀ {x y : Elem}, Part x y → Node.Part (toNative b x) (toNative b y)
  | _, _, .mk h1 h2 h3 h4 h5 h6 => by
    rw [toNative_eq, toNative_eq, h1, h2, h3]
    exact .elem h4 h5 (parts_native b h6)
theorem parts_native (b : Backend) : ∀ {xs ys : List Elem}, Parts xs ys → Node.Parts (toNativeList b xs) (toNativeList b ys)
  | _, _, .nil => .nil
  | _, _, .drop _ h => .drop _ (parts_native b h)
  | _, _, .keep h1 h2 => .keep (part_native b h1) (parts_native b h2)
end

end PXml
