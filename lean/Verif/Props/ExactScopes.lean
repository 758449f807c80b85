import Verif.Props.ExactNames

/-!
# Undeclared prefixes of elements, sub-models and wrappers (C47)

`C47_exact` is about primitive elements and attributes.  Here are the other users of a prefix: raw elements, elements with a dictionary,
sub-models and wrapper elements.
-/

namespace PXml

variable {classes : Classes} {built : Built}

/-- One of the maps binds the prefix. -/
def BoundIn (scope : List (Option NsMap)) (pre : String) : Prop := ∃ m d u, m ∈ scope ∧ m = some d ∧ Dict.get? d pre = some u

/-- The prefix is bound by no map, although the maps bind some prefix. -/
def Undeclared (scope : List (Option NsMap)) (pre : Option String) : Prop := ∃ a, pre = some a ∧ ¬BoundIn scope a ∧ ∃ b, BoundIn scope b

theorem boundIn_iff (own : Option NsMap) (maps : List (Option NsMap)) (a : String) : BoundIn (own :: maps) a ↔ uriIn (own :: maps) a ≠ none := by
  unfold uriIn
  rw [Ne, List.findSome?_eq_none_iff]
  constructor
  · rintro ⟨m, d, u, hm, rfl, hu⟩ h
    have := h (some d) (by simpa using hm)
    simp [hu] at this
  · intro h
    refine Classical.byContradiction fun hn => h ?_
    intro m hm
    cases m with
    | none => rfl
    | some d =>
      cases hu : Dict.get? d a with
      | none => simpa using hu
      | some u => exact absurd ⟨some d, d, u, by simpa using hm, rfl, hu⟩ hn

theorem declared_iff_undeclared (own : Option NsMap) (maps : List (Option NsMap)) (pre : Option String) :
    Declared (own :: maps) pre ↔ ¬Undeclared (own :: maps) pre := by
  unfold Declared Undeclared
  constructor
  · rintro h ⟨a, ha, hn, b, hb⟩
    rw [boundIn_iff] at hn hb
    rcases h a ha with h | h
    · exact hn h
    · exact hb (h b)
  · intro h a ha
    by_cases hn : uriIn (own :: maps) a = none
    · refine .inr fun b => ?_
      refine Classical.byContradiction fun hb => h ⟨a, ha, ?_, b, ?_⟩
      · rw [boundIn_iff]; simpa using hn
      · rw [boundIn_iff]; exact hb
    · exact .inl hn

/-- C47, exactly, for raw elements: accepted if and only if there is a name and the prefix is not an undeclared one. -/
theorem C47_exact_raw (hc : classes.Proper) (s : Schema) (ctx : Ctx) (hd : PlainDefs ctx.defs) (hs : s.Plain) (hp : ctx.place.Proper)
    (hf : ctx.fieldName ≠ some "") (ht : Strips ctx.defs s ctx.defs (.isInst true)) (hl : ctx.location = none ∨ ctx.location = some .element) :
    (∃ n x, parse classes built n s ctx = .ok x) ↔
      ctx.place.given ≠ none ∧ ¬Undeclared (ctx.place.nsmap :: ctx.place.maps) ctx.place.prefix? := by
  rw [C28_field_accepted hc s ctx hd hs hp hf, ← declared_iff_undeclared]
  constructor
  · intro h
    cases h with
    | wrapped _ h => rcases hl with hl | hl <;> (have := hl.symm.trans h; cases this)
    | raw _ _ h => exact h
    | prim h1 => cases (ht.det h1).2
    | inst h1 => cases (ht.det h1).2
    | model h1 => cases (ht.det h1).2
    | dict h1 => cases (ht.det h1).2
    | typedDict h1 => cases (ht.det h1).2
    | collection h1 h2 => obtain ⟨-, rfl⟩ := ht.det h1; rcases h2 with h2 | h2 <;> cases h2
    | elements h1 h2 => obtain ⟨-, rfl⟩ := ht.det h1; rcases h2 with h2 | h2 <;> cases h2
    | tuple h1 h2 => obtain ⟨-, rfl⟩ := ht.det h1; rcases h2 with h2 | h2 <;> cases h2
    | primUnion h1 => cases (ht.det h1).2
    | modelUnion h1 => cases (ht.det h1).2
    | tagged h1 => cases (ht.det h1).2
  · intro h
    exact .raw ht hl h

/-- C47, exactly, for sub-models: accepted if and only if the prefix, that of the field, else of the class, else the nearest one around, is
not an undeclared one; the map of the class counts as well as those of the field and around it. -/
theorem C47_exact_model (hc : classes.Proper) (s : Schema) (cls : String) (r : Bool) (cd : ClassDef) (hcd : classes cls = some cd) (ctx : Ctx)
    (hd : PlainDefs ctx.defs) (hs : s.Plain) (hp : ctx.place.Proper) (hf : ctx.fieldName ≠ some "")
    (ht : Strips ctx.defs s ctx.defs (.model cls r)) (hl : ctx.location = none ∨ ctx.location = some .element) :
    (∃ n x, parse classes built n s ctx = .ok x) ↔
      ¬Undeclared (ctx.place.nsmap :: cd.params.nsmap :: ctx.place.maps) (ctx.place.modelPrefix? cd) := by
  rw [C28_field_accepted hc s ctx hd hs hp hf, ← declared_iff_undeclared]
  constructor
  · intro h
    cases h with
    | wrapped _ h => rcases hl with hl | hl <;> (have := hl.symm.trans h; cases this)
    | raw h1 => cases (ht.det h1).2
    | prim h1 => cases (ht.det h1).2
    | inst h1 => cases (ht.det h1).2
    | model h1 h2 _ h3 =>
      obtain ⟨-, h⟩ := ht.det h1
      injection h with h _
      subst h
      rw [hcd] at h2
      injection h2 with h2
      subst h2
      exact h3
    | dict h1 => cases (ht.det h1).2
    | typedDict h1 => cases (ht.det h1).2
    | collection h1 h2 => obtain ⟨-, rfl⟩ := ht.det h1; rcases h2 with h2 | h2 <;> cases h2
    | elements h1 h2 => obtain ⟨-, rfl⟩ := ht.det h1; rcases h2 with h2 | h2 <;> cases h2
    | tuple h1 h2 => obtain ⟨-, rfl⟩ := ht.det h1; rcases h2 with h2 | h2 <;> cases h2
    | primUnion h1 => cases (ht.det h1).2
    | modelUnion h1 => cases (ht.det h1).2
    | tagged h1 => cases (ht.det h1).2
  · intro h
    exact .model ht hcd hl h

/-- C47 for wrappers: a wrapped field of any type whose prefix is an undeclared one is rejected, and so is one whose content is. -/
theorem C47_exact_wrapped (hc : classes.Proper) (s t : Schema) (ctx : Ctx) (hd : PlainDefs ctx.defs) (hs : s.Plain) (hp : ctx.place.Proper)
    (hf : ctx.fieldName ≠ some "") (ht : Strips ctx.defs s ctx.defs t) (hl : ctx.location = some .wrapped) :
    (∃ n x, parse classes built n s ctx = .ok x) ↔
      ctx.place.path ≠ none ∧ ¬Undeclared (ctx.place.nsmap :: ctx.place.maps) ctx.place.prefix? ∧
        t.Supported classes built.Keyed ctx.defs ctx.place.inside := by
  rw [C28_field_accepted hc s ctx hd hs hp hf, ← declared_iff_undeclared]
  have hl' : ctx.place.location = some .wrapped := hl
  constructor
  · intro h
    cases h with
    | wrapped h1 _ h2 h3 h4 =>
      obtain ⟨-, rfl⟩ := ht.det h1
      exact ⟨by simp [h2], h3, h4⟩
    | raw _ h => rcases h with h | h <;> (rw [hl'] at h; cases h)
    | prim _ h => rcases h with h | ⟨h, _⟩ | ⟨h, _⟩ <;> (rw [hl'] at h; cases h)
    | inst _ h => rcases h with h | ⟨h, _⟩ | ⟨h, _⟩ <;> (rw [hl'] at h; cases h)
    | model _ _ h => rcases h with h | h <;> (rw [hl'] at h; cases h)
    | dict _ _ _ h => rcases h with h | ⟨h, _⟩ <;> (rw [hl'] at h; cases h)
    | typedDict _ _ h => rcases h with h | ⟨h, _⟩ <;> (rw [hl'] at h; cases h)
    | collection _ _ _ _ h => rw [hl'] at h; cases h
    | elements _ _ _ _ h => rw [hl'] at h; cases h
    | tuple _ _ _ h => rcases h with h | h <;> (rw [hl'] at h; cases h)
    | primUnion _ _ _ h => rcases h with h | ⟨h, _⟩ | ⟨h, _⟩ <;> (rw [hl'] at h; cases h)
    | modelUnion _ _ h => rcases h with h | h <;> (rw [hl'] at h; cases h)
    | tagged _ _ h => rcases h with h | h <;> (rw [hl'] at h; cases h)
  · rintro ⟨h1, h2, h3⟩
    cases hpa : ctx.place.path with
    | none => exact absurd hpa h1
    | some path => exact .wrapped ht hl' hpa h2 h3

/-! ## Non-vacuity -/

namespace Ex

/-- A field with the prefix `pre` in a class that declares the prefix `x`. -/
def inScope (loc : Location) (pre : String) : Ctx := {
  modelName := "M", fieldName := some "f", info := some (.mk (some loc) (some "e") (some pre) none none none),
  parents := [some (.mk (some .element) none none (some [("x", "urn:x")]) none none)] }

theorem inScope_proper (loc : Location) (pre : String) : (inScope loc pre).place.Proper ∧ (inScope loc pre).fieldName ≠ some "" ∧
    PlainDefs (inScope loc pre).defs ∧ (inScope loc pre).location = some loc := by
  refine ⟨⟨?_, ?_⟩, by simp [inScope], ?_, rfl⟩
  · intro i hi
    injection hi with hi
    subst hi
    exact .mk (fun m hm => by cases hm) (fun w hw => by cases hw)
  · intro i hi m hm
    simp [inScope, Ctx.place] at hi
    subst hi
    injection hm with hm
    subst hm
    decide
  · intro r s h
    cases h

end Ex

/-- A raw element with the declared prefix is accepted, with another one it is not. -/
example : (∃ n x, parse (fun _ => none) (fun _ => none) n (.isInst true) (Ex.inScope .element "x") = .ok x) ∧
    ¬∃ n x, parse (fun _ => none) (fun _ => none) n (.isInst true) (Ex.inScope .element "y") = .ok x := by
  refine ⟨⟨9, .raw "{urn:x}e" .strict false, by kernel_rfl⟩, ?_⟩
  obtain ⟨h1, h2, h3, h4⟩ := Ex.inScope_proper .element "y"
  rw [C47_exact_raw (fun _ _ h => by cases h) _ _ h3 .isInst h1 h2 (.done rfl) (.inr h4)]
  rintro ⟨-, h⟩
  refine h ⟨"y", rfl, ?_, "x", some [("x", "urn:x")], [("x", "urn:x")], "urn:x", by simp [Ex.inScope, Ctx.place, Place.maps, EntityInfo.nsmap], rfl, rfl⟩
  rintro ⟨m, d, u, hm, rfl, hu⟩
  simp [Ex.inScope, Ctx.place, Place.maps, Place.nsmap, EntityInfo.nsmap] at hm
  subst hm
  simp [Dict.get?] at hu

/-- A wrapper with an undeclared prefix. -/
example : ¬∃ n x, parse (fun _ => none) (fun _ => none) n (.prim "str") (Ex.inScope .wrapped "y") = .ok x := by
  obtain ⟨h1, h2, h3, h4⟩ := Ex.inScope_proper .wrapped "y"
  rw [C47_exact_wrapped (fun _ _ h => by cases h) _ _ _ h3 .prim h1 h2 (.done rfl) h4]
  rintro ⟨-, h, -⟩
  refine h ⟨"y", rfl, ?_, "x", some [("x", "urn:x")], [("x", "urn:x")], "urn:x", by simp [Ex.inScope, Ctx.place, Place.maps, EntityInfo.nsmap], rfl, rfl⟩
  rintro ⟨m, d, u, hm, rfl, hu⟩
  simp [Ex.inScope, Ctx.place, Place.maps, Place.nsmap, EntityInfo.nsmap] at hm
  subst hm
  simp [Dict.get?] at hu

end PXml
