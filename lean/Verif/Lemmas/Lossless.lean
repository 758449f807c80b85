import Verif.SpecLossless
import Verif.Lemmas.Typed

namespace PXml

theorem Val.Part.trans {u v w : Val} (h1 : u.Part v) (h2 : v.Part w) : u.Part w := by
  induction h2 with
  | refl => exact h1
  | item h _ ih => exact .item h ih
  | entry h _ ih => exact .entry h ih
  | field h _ ih => exact .field h ih

theorem Ser.Everywhere.at {Q : Ser → Prop} {s : Ser} (h : s.Everywhere Q) : Q s := by cases h; assumption

theorem Ser.Everywhere.under {Q : Ser → Prop} {s t : Ser} (h : s.Everywhere Q) (ht : t ∈ s.subs) : t.Everywhere Q := by
  cases h with
  | mk _ h => exact h t ht

/-- The value is inside of `v`, and so are the discriminators of its field set. -/
def Held.Fine (unset : Bool) (v : Val) : Held → Prop
  | .field _ s _ x _ => unset = true → x.Part v ∧ s.Everywhere (Ser.DiscriminatorSet v)
  | .inst _ x => unset = true → x.Part v

variable {env : Env} {P : Prims} {types : String → Option Types}

theorem Sound.free {x : Held} {fl : Flags} {wh so : Bool} (h : Sound env P types eas fl wh so x) : Sound env P types eas fl wh false x := by
  cases so with
  | false => exact h
  | true => exact h.weaken false

theorem sound_less (hcls : ∀ cls m, env.model cls = some m → m.skipEmpty ≠ some true) (fl : Flags) (hfl : fl.skipEmpty = false) (v : Val)
    (hu : fl.excludeUnset = true → v.UnsetDefault types ∧ DiscriminatorsSet types v) {fl0 : Flags} {wh so : Bool} {x : Held}
    (h : Sound env P types false fl0 wh so x) (h0 : fl0 = {}) (hx : x.Fine fl.excludeUnset v) : Sound env P types false fl wh false x := by
  have hsk : fl.skipEmpty = ({} : Flags).skipEmpty := hfl
  have hin : ∀ cls m, env.model cls = some m → m.flagsIn {} = ({} : Flags) ∧ m.flagsIn fl = fl := by
    intro cls m hm
    have hs : m.skipEmpty.getD false = false := by
      have := hcls cls m hm
      cases h : m.skipEmpty with
      | none => rfl
      | some b => cases b with
        | false => rfl
        | true => exact absurd h this
    obtain ⟨a, b, c⟩ := fl
    cases hfl
    constructor
    · show ({ skipEmpty := m.skipEmpty.getD false } : Flags) = _
      rw [hs]
    · show ({ skipEmpty := m.skipEmpty.getD false, excludeNone := b, excludeUnset := c } : Flags) = _
      rw [hs]
  induction h with
  | text h1 h2 h3 => exact .text h1 h2 (by simp)
  | textEmpty h1 h2 h3 => exact .textEmpty h1 h2 h3
  | textNone h1 h2 => exact .textNone (.inl rfl) (by simp)
  | attr h1 => exact .attr h1
  | attrNone h1 => subst h0; rcases h1 with h1 | h1 <;> cases h1
  | elem h1 h2 => exact .elem h1 (.inr (h2.resolve_left (by simp)))
  | elemEmpty h1 h2 h3 h4 => exact .elemEmpty h1 (.inl rfl) h3 (by simp)
  | elemNone h1 h2 => exact .elemNone (.inl rfl) (by simp)
  | primUnion h1 _ ih => exact .primUnion h1 (ih h0 fun e => ⟨(hx e).1, (hx e).2.under (by simp [Ser.subs])⟩)
  | attrs h1 h2 h3 h4 h5 => exact .attrs h1 h2 h3 h4 (by simp)
  | mapElem h1 h2 h3 h4 h5 => exact .mapElem h1 h2 h3 h4 (by simp [hfl])
  | mapElemEmpty h1 h2 h3 => subst h0; cases h3
  | raw h1 h2 h3 h4 h5 => exact .raw h1 h2 h3 h4 (by simp [hfl])
  | rawNone => exact .rawNone
  | model h1 h2 h3 ih =>
    refine .model h1 h2 ?_
    rw [hfl]; exact ih h0 fun e => (hx e).1
  | modelNone h1 h2 => exact .modelNone h1 (by simp)
  | union h1 h2 h3 h4 h5 h6 ih =>
    refine .union h1 h2 h3 h4 h5 ?_
    rw [hfl]; exact ih h0 fun e => (hx e).1
  | unionNone => exact .unionNone
  | tagged h1 h2 h3 h4 h5 h6 h7 h8 h9 h10 h11 h12 h13 h14 h15 ih =>
    refine .tagged h1 h2 h3 h4 h5 h6 h7 h8 h9 h10 h11 h12 ?_ h14 ?_
    · intro e
      exact Ser.Everywhere.at (hx e).2 (_, _) (List.mem_append_right _ (List.mem_cons_self ..)) _ _ (hx e).1
    · rw [hfl]; exact ih h0 fun e => (hx e).1
  | list h1 h2 h3 h4 ih =>
    refine .list h1 h2 h3 fun y hy => ?_
    rw [hfl]
    exact ih y hy h0 fun e => ⟨.trans (.item hy .refl) (hx e).1, (hx e).2.under (by simp [Ser.subs])⟩
  | listEmpty h1 h2 => exact .listEmpty h1 h2
  | tuple h1 h2 h3 h4 h5 ih =>
    refine .tuple h1 h2 h3 h4 fun r hr => ?_
    rw [hfl]
    exact ih r hr h0 fun e => ⟨.trans (.item (List.mem_map_of_mem hr) .refl) (hx e).1,
      (hx e).2.under (by simpa [Ser.subs] using ⟨_, _, hr⟩)⟩
  | tupleNone h1 h2 => exact .tupleNone h1 h2
  | wrap h1 h2 h3 ih =>
    exact .wrap (so' := false) h1 (by simp [hfl]) (ih h0 fun e => ⟨(hx e).1, (hx e).2.under (by simp [Ser.subs])⟩)
  | wrapNone h1 h2 =>
    subst h0
    rcases h1 with h1 | ⟨h1, -⟩
    · exact .wrapNone (.inl h1) h2
    · cases h1
  | @fields fl' wh so cls m d rows more set stored h1 h2 h3 h4 h5 h6 h7 h8 h9 h10 h11 h12 h13 ih ih' =>
    subst h0
    obtain ⟨hi1, hi2⟩ := hin cls m h2
    have key : fl.excludeUnset = true → (∀ t ∈ rows.map Prod.fst, t.field.name ∉ set → (t.hidden = true ∨ t.field.ser.Silent false) ∧
        ∃ x, t.default = some x ∧ ∀ y, (t.field.name, y) ∈ stored ++ more.map (fun c => (c.1.field.name, c.1.get stored)) → x.bare = y.bare) ∧
        ∀ c ∈ more.map Prod.fst, c.field.name ∉ set → c.field.ser.stored.Silent false := by
      intro e
      have := (hu e).1 cls _ set (hx e)
      rw [h1] at this
      exact this
    have kq : fl.excludeUnset = true → (∀ t ∈ rows.map Prod.fst, t.field.ser.Everywhere (Ser.DiscriminatorSet v)) ∧
        ∀ c ∈ more.map Prod.fst, c.field.ser.stored.Everywhere (Ser.DiscriminatorSet v) := by
      intro e
      have := (hu e).2 cls
      rw [h1] at this
      exact this
    have hmem : ∀ r ∈ rows, (r.1.field.name, r.2.1) ∈ stored := by
      intro r hr; rw [h5]; exact List.mem_map_of_mem (f := fun r : Typed × Val × Option Bool × Bool => (r.1.field.name, r.2.1)) hr
    let g : Typed × Val × Option Bool × Bool → Typed × Val × Option Bool × Bool := fun r =>
      (r.1, r.2.1, if fl.excludeUnset = true ∧ r.1.field.name ∉ set then none else r.2.2.1, false)
    let g' : Derived × Option Bool × Bool → Derived × Option Bool × Bool := fun c =>
      (c.1, if fl.excludeUnset = true ∧ c.1.field.name ∉ set then none else c.2.1, false)
    have e1 : (rows.map g).map Prod.fst = rows.map Prod.fst := by rw [List.map_map]; rfl
    have e2 : (more.map g').map Prod.fst = more.map Prod.fst := by rw [List.map_map]; rfl
    have e3 : (more.map g').map (fun c => (c.1.field.name, c.1.get stored)) = more.map (fun c => (c.1.field.name, c.1.get stored)) := by
      rw [List.map_map]; rfl
    rw [← e3]
    refine Sound.fields (m := m) (d := d) (rows := rows.map g) (more := more.map g') (set := set) (stored := stored) (by rw [e1, e2]; exact h1)
      h2 h3 (by simpa using h4) (by rw [List.map_map]; exact h5) ?_ ?_ ?_ (by simp) ?_ ?_ ?_ ?_
    · intro r' hr'
      obtain ⟨r, hr, rfl⟩ := List.mem_map.1 hr'
      show (if fl.excludeUnset = true ∧ r.1.field.name ∉ set then none else r.2.2.1) = none ↔ _
      have h6 := h6 r hr
      split
      · rename_i hc; exact ⟨fun _ => .inr (.inr hc), fun _ => rfl⟩
      · rename_i hc
        rw [h6]
        constructor
        · rintro (h | h | ⟨h, -⟩)
          · exact .inl h
          · exact .inr (.inl h)
          · cases h
        · rintro (h | h | h)
          · exact .inl h
          · exact .inr (.inl h)
          · exact absurd h hc
    · intro r' hr' hn
      obtain ⟨r, hr, rfl⟩ := List.mem_map.1 hr'
      by_cases hc : fl.excludeUnset = true ∧ r.1.field.name ∉ set
      · exact ((key hc.1).1 r.1 (List.mem_map_of_mem hr) hc.2).1
      · have hn' : (if fl.excludeUnset = true ∧ r.1.field.name ∉ set then none else r.2.2.1) = none := hn
        rw [if_neg hc] at hn'
        exact h7 r hr hn'
    · intro r' hr' hn
      obtain ⟨r, hr, rfl⟩ := List.mem_map.1 hr'
      by_cases hc : fl.excludeUnset = true ∧ r.1.field.name ∉ set
      · obtain ⟨-, y, hy, hy'⟩ := (key hc.1).1 r.1 (List.mem_map_of_mem hr) hc.2
        exact ⟨y, hy, hy' _ (List.mem_append_left _ (hmem r hr))⟩
      · have hn' : (if fl.excludeUnset = true ∧ r.1.field.name ∉ set then none else r.2.2.1) ≠ some false := hn
        rw [if_neg hc] at hn'
        exact h8 r hr hn'
    · intro r' hr' b hb
      obtain ⟨r, hr, rfl⟩ := List.mem_map.1 hr'
      have hb' : (if fl.excludeUnset = true ∧ r.1.field.name ∉ set then none else r.2.2.1) = some b := hb
      split at hb'
      · cases hb'
      · rw [hi2]
        exact ih r hr b hb' hi1 fun e => ⟨.trans (.field (List.mem_append_left _ (hmem r hr)) .refl) (hx e),
          (kq e).1 r.1 (List.mem_map_of_mem hr)⟩
    · intro c' hc'
      obtain ⟨c, hc, rfl⟩ := List.mem_map.1 hc'
      show (if fl.excludeUnset = true ∧ c.1.field.name ∉ set then none else c.2.1) = none ↔ _
      have h11 := h11 c hc
      split
      · rename_i hc; exact ⟨fun _ => .inr hc, fun _ => rfl⟩
      · rename_i hc
        rw [h11]
        constructor
        · rintro (h | ⟨h, -⟩)
          · exact .inl h
          · cases h
        · rintro (h | h)
          · exact .inl h
          · exact absurd h hc
    · intro c' hc' hn
      obtain ⟨c, hc, rfl⟩ := List.mem_map.1 hc'
      by_cases hcc : fl.excludeUnset = true ∧ c.1.field.name ∉ set
      · exact (key hcc.1).2 c.1 (List.mem_map_of_mem hc) hcc.2
      · have hn' : (if fl.excludeUnset = true ∧ c.1.field.name ∉ set then none else c.2.1) = none := hn
        rw [if_neg hcc] at hn'
        exact h12 c hc hn'
    · intro c' hc' b hb
      obtain ⟨c, hc, rfl⟩ := List.mem_map.1 hc'
      have hb' : (if fl.excludeUnset = true ∧ c.1.field.name ∉ set then none else c.2.1) = some b := hb
      split at hb'
      · cases hb'
      · rw [hi2]
        have hcm : (c.1.field.name, c.1.get stored) ∈ more.map (fun c => (c.1.field.name, c.1.get stored)) :=
          List.mem_map_of_mem (f := fun c : Derived × Option Bool × Bool => (c.1.field.name, c.1.get stored)) hc
        exact ih' c hc b hb' hi1 fun e => ⟨.trans (.field (List.mem_append_right _ hcm) .refl) (hx e),
          (kq e).2 c.1 (List.mem_map_of_mem hc)⟩
  | @root fl' wh so cls m d s ty df w void set h1 h2 h3 h4 h5 _ ih =>
    subst h0
    obtain ⟨hi1, hi2⟩ := hin cls m h2
    refine .root h1 h2 h3 ?_ h5 ?_
    · intro e
      have := (hu e).1 cls _ set (hx e)
      rw [h1] at this
      exact this
    · rw [hi2]
      refine ih hi1 fun e => ⟨.trans (.field (k := "root") (by simp) .refl) (hx e), ?_⟩
      have := (hu e).2 cls
      rw [h1] at this
      exact this
  | whole _ ih => exact .whole (ih h0 hx)

end PXml
