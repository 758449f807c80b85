import Verif.Props.Accepted

/-!
# Which namespace declaration counts, and which prefixes are refused

Exact versions of C46 and C47, without the conditions under which the literal statements hold.
-/

namespace PXml

variable {classes : Classes} {built : Built}

theorem findSome?_farthest {α β : Type} (f : α → Option β) (u : β) : ∀ (l : List α), l.reverse.findSome? f = some u ↔
    ∃ near a far, l = near ++ a :: far ∧ f a = some u ∧ ∀ b ∈ far, f b = none
  | [] => by simp
  | x :: l => by
    rw [List.reverse_cons, List.findSome?_append]
    cases h : l.reverse.findSome? f with
    | some w =>
      constructor
      · intro hw
        obtain rfl : w = u := by simpa using hw
        obtain ⟨near, a, far, rfl, ha, hf⟩ := (findSome?_farthest f w l).1 h
        exact ⟨x :: near, a, far, rfl, ha, hf⟩
      · rintro ⟨near, a, far, hl, ha, hf⟩
        cases near with
        | nil =>
          injection hl with h1 h2
          subst h1 h2
          have : l.reverse.findSome? f = none := by
            rw [List.findSome?_eq_none_iff]; intro b hb; exact hf b (List.mem_reverse.1 hb)
          rw [this] at h; cases h
        | cons y near =>
          injection hl with h1 h2
          have := (findSome?_farthest f u l).2 ⟨near, a, far, h2, ha, hf⟩
          rw [this] at h
          injection h with h; subst h
          rfl
    | none =>
      have hn : ∀ b ∈ l, f b = none := by
        intro b hb
        exact (List.findSome?_eq_none_iff.1 h) b (List.mem_reverse.2 hb)
      constructor
      · intro hw
        have hx : f x = some u := by
          cases hfx : f x with
          | none => simp [hfx] at hw
          | some w => simpa [hfx] using hw
        exact ⟨[], x, l, rfl, hx, hn⟩
      · rintro ⟨near, a, far, hl, ha, hf⟩
        cases near with
        | nil =>
          injection hl with h1 h2
          subst h1
          simp [ha]
        | cons y near =>
          injection hl with h1 h2
          have := hn a (by rw [h2]; simp)
          rw [this] at ha; cases ha

/-- The declaration of the prefix that counts at a place: that of the entity itself, or, if it has none, that of the farthest
annotation around it that has one. -/
inductive Place.Counts (p : Place) (pre : String) : Option String → Prop
  | own {u} : (p.nsmap.getD []).get? pre = some u → Counts p pre (some u)
  | around {near i far u} : (p.nsmap.getD []).get? pre = none → p.around = near ++ i :: far →
      ((i.bind EntityInfo.nsmap).getD []).get? pre = some u →
      (∀ j ∈ far, ((j.bind EntityInfo.nsmap).getD []).get? pre = none) → Counts p pre (some u)
  | none : (p.nsmap.getD []).get? pre = none → (∀ j ∈ p.around, ((j.bind EntityInfo.nsmap).getD []).get? pre = none) →
      Counts p pre none

theorem Place.counts_iff (p : Place) (pre : String) (u : Option String) : p.Counts pre u ↔ uriIn p.scope pre = u := by
  unfold uriIn Place.scope Place.maps
  rw [List.findSome?_cons]
  cases h : (p.nsmap.getD []).get? pre with
  | some w =>
    constructor
    · intro hc
      cases hc with
      | own h1 => rw [h1] at h; injection h with h; subst h; rfl
      | around h1 => rw [h1] at h; cases h
      | none h1 => rw [h1] at h; cases h
    · intro hu
      rw [← hu]; exact .own h
  | none =>
    show _ ↔ (List.map (fun i : Option EntityInfo => i.bind EntityInfo.nsmap) p.around).reverse.findSome? _ = u
    rw [← List.map_reverse, List.findSome?_map]
    constructor
    · intro hc
      cases hc with
      | own h1 => rw [h1] at h; cases h
      | around h1 h2 h3 h4 => exact (findSome?_farthest _ _ _).2 ⟨_, _, _, h2, h3, h4⟩
      | none h1 h2 =>
        rw [List.findSome?_eq_none_iff]; intro b hb; exact h2 b (List.mem_reverse.1 hb)
    · intro hu
      cases u with
      | some u =>
        obtain ⟨near, a, far, h2, h3, h4⟩ := (findSome?_farthest _ _ _).1 hu
        exact .around h h2 h3 h4
      | none =>
        rw [List.findSome?_eq_none_iff] at hu
        exact .none h fun j hj => hu j (List.mem_reverse.2 hj)

/-- C46, exactly: the namespace of an element is that of the declaration of its prefix that counts, in every accepted class: the
own one or else the farthest one, whatever is declared in between. -/
theorem C46_exact (hc : classes.Proper) (n : Nat) (s : Schema) (ctx : Ctx) (name : String) (m : Option NsMap)
    (mode : Mode) (c nl : Bool) (hp : ctx.place.Proper) (hf : ctx.fieldName ≠ some "")
    (h : parse classes built n s ctx = .ok (.elem name m mode c nl)) :
    ∃ tag u, ctx.place.given = some tag ∧ ctx.place.Counts (ctx.place.prefix?.getD "") u ∧ name = qualified u tag ∧
      ∃ d, m = some d ∧ ∀ a, ctx.place.Counts a (Dict.get? d a) := by
  cases parse_fits hc built n s ctx hp hf h with
  | @elem _ tag _ hg hb =>
    obtain ⟨d, hd, hb⟩ := hb
    exact ⟨tag, _, hg, (Place.counts_iff _ _ _).2 rfl, rfl, d, hd, fun a => (Place.counts_iff _ _ _).2 (hb a).symm⟩

/-- C46, exactly, for attributes: without a prefix they are in no namespace. -/
theorem C46_exact_attribute (hc : classes.Proper) (n : Nat) (s : Schema) (ctx : Ctx) (name : String)
    (c : Bool) (hp : ctx.place.Proper) (hf : ctx.fieldName ≠ some "") (h : parse classes built n s ctx = .ok (.attr name c)) :
    ∃ tag, ctx.place.given = some tag ∧
      (ctx.place.attrPrefix? = none → name = tag) ∧
      ∀ a, ctx.place.attrPrefix? = some a → ∃ u, ctx.place.Counts a u ∧ name = qualified u tag := by
  cases parse_fits hc built n s ctx hp hf h with
  | @attr _ tag hg =>
    refine ⟨tag, hg, fun hn => ?_, fun a ha => ⟨_, (Place.counts_iff _ _ _).2 rfl, ?_⟩⟩
    · unfold Place.attrName; rw [hn]; rfl
    · unfold Place.attrName; rw [ha]; rfl

/-- C46, exactly, for the parts of the path of a wrapper. -/
theorem C46_exact_wrapped (hc : classes.Proper) (n : Nat) (s : Schema) (ctx : Ctx) (names : List String) (m : Option NsMap)
    (mode : Mode) (c : Bool) (inner : Ser) (hp : ctx.place.Proper) (hf : ctx.fieldName ≠ some "")
    (h : parse classes built n s ctx = .ok (.wrap names m mode c inner)) :
    ∃ path parts u, ctx.place.path = some path ∧ Segments path parts ∧ ctx.place.Counts (ctx.place.prefix?.getD "") u ∧
      names = parts.map (qualified u) := by
  cases parse_fits hc built n s ctx hp hf h with
  | wrap h1 h2 h3 h4 => exact ⟨_, _, _, h1, h2, (Place.counts_iff _ _ _).2 rfl, rfl⟩

/-- A prefix is refused if it is not declared although some other one is. -/
def Place.Refuses (p : Place) (pre : Option String) : Prop :=
  ∃ a, pre = some a ∧ p.Counts a none ∧ ∃ b u, p.Counts b (some u)

theorem Place.declared_iff (p : Place) (pre : Option String) : Declared p.scope pre ↔ ¬p.Refuses pre := by
  unfold Declared Place.Refuses
  constructor
  · rintro h ⟨a, ha, hn, b, u, hb⟩
    rcases h a ha with h | h
    · exact h ((Place.counts_iff _ _ _).1 hn)
    · have := (Place.counts_iff _ _ _).1 hb; rw [h b] at this; cases this
  · intro h a ha
    by_cases hn : uriIn p.scope a = none
    · refine .inr fun b => ?_
      cases hb : uriIn p.scope b with
      | none => rfl
      | some u => exact absurd ⟨a, ha, (Place.counts_iff _ _ _).2 hn, b, u, (Place.counts_iff _ _ _).2 hb⟩ h
    · exact .inl hn

/-- C47, exactly: a primitive element is accepted if and only if it has a name and its prefix is not refused, an attribute if and
only if it has a name, its prefix is not refused and is not the empty one; and nothing else is wrong with them. -/
theorem C47_exact (hc : classes.Proper) (s : Schema) (ty : String) (ctx : Ctx) (hd : PlainDefs ctx.defs) (hs : s.Plain)
    (hp : ctx.place.Proper) (hf : ctx.fieldName ≠ some "") (ht : Strips ctx.defs s ctx.defs (.prim ty)) :
    (ctx.location = some .element → ((∃ n x, parse classes built n s ctx = .ok x) ↔
      ctx.place.given ≠ none ∧ ¬ctx.place.Refuses ctx.place.prefix?)) ∧
    (ctx.location = some .attribute → ((∃ n x, parse classes built n s ctx = .ok x) ↔
      ctx.place.given ≠ none ∧ ctx.place.attrPrefix? ≠ some "" ∧ ¬ctx.place.Refuses ctx.place.attrPrefix?)) := by
  have scal : ctx.location ≠ some .wrapped → (s.Supported classes built.Keyed ctx.defs ctx.place ↔ ctx.place.Scalar) := by
    intro hl
    constructor
    · intro h
      cases h with
      | wrapped _ h => exact absurd h hl
      | prim _ h => exact h
      | inst h1 h => exact h
      | raw h1 => cases (ht.det h1).2
      | model h1 => cases (ht.det h1).2
      | dict h1 => cases (ht.det h1).2
      | typedDict h1 => cases (ht.det h1).2
      | collection h1 h2 => obtain ⟨-, rfl⟩ := ht.det h1; rcases h2 with h2 | h2 <;> cases h2
      | elements h1 h2 => obtain ⟨-, rfl⟩ := ht.det h1; rcases h2 with h2 | h2 <;> cases h2
      | tuple h1 h2 => obtain ⟨-, rfl⟩ := ht.det h1; rcases h2 with h2 | h2 <;> cases h2
      | primUnion h1 => cases (ht.det h1).2
      | modelUnion h1 => cases (ht.det h1).2
      | tagged h1 => cases (ht.det h1).2
    · exact .prim ht
  refine ⟨fun hl => ?_, fun hl => ?_⟩
  · have hl' : ctx.place.location = some .element := hl
    rw [C28_field_accepted hc s ctx hd hs hp hf, scal (by rw [hl]; intro h; cases h), Place.Scalar, hl',
      ← Place.declared_iff]
    simp [Place.ElementOk]
  · have hl' : ctx.place.location = some .attribute := hl
    rw [C28_field_accepted hc s ctx hd hs hp hf, scal (by rw [hl]; intro h; cases h), Place.Scalar, hl',
      ← Place.declared_iff]
    simp [Place.AttrOk]

namespace Ex

/-- A field inside a wrapper that binds `x` anew, in a class that binds it too. -/
def nested : Ctx := {
  modelName := "M", fieldName := some "f",
  info := some (.mk (some .element) (some "e") (some "x") none none none),
  parents := [some (.mk (some .wrapped) (some "w") (some "x") (some [("x", "urn:near")]) none none),
    some (.mk (some .element) none none (some [("x", "urn:far")]) none none)] }

/-- Non-vacuity of `C46_exact`: the farther declaration is the one that counts; the nearer is seen by no rule. -/
example : nested.place.Counts "x" (some "urn:far") :=
  .around (near := [_]) (far := []) rfl rfl rfl (fun _ h => nomatch h)

example : ∃ m, parse (fun _ => none) (fun _ => none) 9 (.prim "str") nested =
    .ok (.elem "{urn:far}e" m .strict false false) := ⟨some [("x", "urn:far")], by kernel_rfl⟩

/-- Non-vacuity of `C47_exact`: the prefix `y` is refused there. -/
example : nested.place.Refuses (some "y") :=
  ⟨"y", rfl, .none rfl (by simp [nested, Ctx.place]; constructor <;> rfl), "x", "urn:far",
    .around (near := [_]) (far := []) rfl rfl rfl (fun _ h => nomatch h)⟩

end Ex

end PXml
