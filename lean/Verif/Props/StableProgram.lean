import Verif.Props.Stable
import Verif.Lemmas.StableProgram

/-!
# Reading, writing and reading again, for declared classes (C80)
-/

namespace PXml

/-- After a program that completes all its classes, what was read is sound by the types of the declarations. -/
theorem program_given {classes : Classes} (hst : classes.Standard) (n : Nat) (es : List Event) (env : Env)
    (henv : env.model = history classes n es .empty) (hall : ∀ c, (classes c).isSome = true → (history classes n es .empty c).isSome = true)
    (P : Prims) (B : Behind) (hF : env.FollowsDeclared P classes B)
    (hO : env.OnlyDeclared P classes B) (dicts eas : Bool) (fl : Flags) (wh : Bool) (hS : classes.Stable env P B dicts eas fl wh) :
    ∃ types, env.Everywhere (Ser.Resolved env) ∧ env.HasTypes types ∧ env.Follows P types ∧ env.Only P types ∧
      env.Stable P types dicts eas fl wh := by
  have hex : ∀ cls, ∃ o, DeclaredTypes env classes classes.Keyed B cls o := by
    intro cls
    refine declaredTypes_exists fun cd hcd => ?_
    obtain ⟨m, hm⟩ := Option.isSome_iff_exists.1 (hall cls (by rw [hcd]; rfl))
    obtain ⟨cd', r, d, h1, h2, h3, h4⟩ := C75_program hst n es cls m hm
    rw [hcd] at h1
    cases h1
    exact ⟨m, r, d, by rw [henv]; exact hm, h2, h3, h4⟩
  obtain ⟨types, ht⟩ := Classical.axiomOfChoice hex
  refine ⟨types, (history_accepts hst n es env henv hall).resolved hst.proper, declared_hasTypes ht hF.derived, declared_follows ht hF,
    declared_only ht hO, declared_stable ht (fun cls m hm => ?_) hS⟩
  rw [henv] at hm
  obtain ⟨cd, -, -, h1, -⟩ := C75_program hst n es cls m hm
  rw [h1]
  rfl

/-- C80: after a program that completes all its classes, every instance that was read from a document, whatever the document, can be written,
and reading what was written gives an equal instance. Everything is said in terms of the declarations of the classes. -/
theorem C80_program {classes : Classes} (hst : classes.Standard) (n : Nat) (es : List Event) (env : Env)
    (henv : env.model = history classes n es .empty) (hall : ∀ c, (classes c).isSome = true → (history classes n es .empty c).isSome = true)
    (hno : env.NoValidators) (P : Prims) (B : Behind) (hF : env.FollowsDeclared P classes B)
    (hO : env.OnlyDeclared P classes B) (dicts eas : Bool) (fl : Flags) (wh : Bool) (hS : classes.Stable env P B dicts eas fl wh)
    (cls : String) (doc : Node) (k : Nat) (v : Val) (h : (fromXmlTree env eas k cls doc).1 = .ok v) (hn : dicts = true → v.NoNil) :
    ∃ tree v' N, v'.bare = v.bare ∧ ∀ k ≥ N, toXmlTree env k fl cls v = .ok tree ∧ (fromXmlTree env eas k cls tree).1 = .ok v' := by
  obtain ⟨types, h1, h2, h3, h4, h5⟩ := program_given hst n es env henv hall P B hF hO dicts eas fl wh hS
  exact C80_reread env h1 hno P types h2 h3 h4 dicts eas fl wh h5 cls doc k v h hn

/-- C80: from text to text, after a program. -/
theorem C80_program_text {classes : Classes} (hst : classes.Standard) (n : Nat) (es : List Event) (env : Env)
    (henv : env.model = history classes n es .empty) (hall : ∀ c, (classes c).isSome = true → (history classes n es .empty c).isSome = true)
    (hno : env.NoValidators) (hraw : env.Everywhere Ser.NotRaw) (P : Prims) (B : Behind)
    (hF : env.FollowsDeclared P classes B) (hO : env.OnlyDeclared P classes B) (dicts eas : Bool) (fl : Flags)
    (wh : Bool) (hS : classes.Stable env P B dicts eas fl wh) (print : Node → Except PyErr String) (parse : String → Except PyErr Node)
    (cls text : String) (k : Nat) (v : Val) (h : fromXml env parse eas k cls text = .ok v) (hn : dicts = true → v.NoNil)
    (hlib : ∀ tree, (∃ N, ∀ k ≥ N, toXmlTree env k fl cls v = .ok tree) → Reparses print parse tree) :
    ∃ text' v' N, v'.bare = v.bare ∧ ∀ k ≥ N, toXml env print k fl cls v = .ok text' ∧ fromXml env parse eas k cls text' = .ok v' := by
  obtain ⟨types, h1, h2, h3, h4, h5⟩ := program_given hst n es env henv hall P B hF hO dicts eas fl wh hS
  exact C80_text env h1 hno hraw P types h2 h3 h4 dicts eas fl wh h5 print parse cls text k v h hn hlib

/-- C80: from text to indented text, after a program. -/
theorem C80_program_pretty {classes : Classes} (hst : classes.Standard) (n : Nat) (es : List Event) (env : Env)
    (henv : env.model = history classes n es .empty) (hall : ∀ c, (classes c).isSome = true → (history classes n es .empty c).isSome = true)
    (hno : env.NoValidators) (hraw : env.Everywhere Ser.NotRaw) (K : List String) (hK : env.Everywhere (Ser.TextsIn env K))
    (P : Prims) (B : Behind)
    (hF : env.FollowsDeclared P classes B) (hO : env.OnlyDeclared P classes B) (dicts eas : Bool) (fl : Flags)
    (wh : Bool) (hS : classes.Stable env P B dicts eas fl wh) (print : Node → Except PyErr String) (parse : String → Except PyErr Node)
    (cls text : String) (hroot : ∀ m, env.model cls = some m → m.OwnText → m.elementName ∈ K)
    (k : Nat) (v : Val) (h : fromXml env parse eas k cls text = .ok v) (hn : dicts = true → v.NoNil)
    (hlib : ∀ tree, (∃ N, ∀ k ≥ N, toXmlTree env k fl cls v = .ok tree) → ∃ s tree', print tree = .ok s ∧ parse s = .ok tree' ∧
      tree'.SameButBlank K tree) :
    ∃ text' v' N, v'.bare = v.bare ∧ ∀ k ≥ N, toXml env print k fl cls v = .ok text' ∧ fromXml env parse eas k cls text' = .ok v' := by
  obtain ⟨types, h1, h2, h3, h4, h5⟩ := program_given hst n es env henv hall P B hF hO dicts eas fl wh hS
  exact C80_pretty env h1 hno hraw K hK P types h2 h3 h4 dicts eas fl wh h5 print parse cls text hroot k v h hn hlib

/-- C80: for all declarations and defaults the assumptions about pydantic can be met. -/
theorem C80_pydantic_declared {classes : Classes} (B : Behind) (b : Backend)
    (model : String → Option ModelSer) (P : Prims) (reprOf : Val → String)
    (hP : ∀ s t v, P.parse s t = some v → P.Is s v ∧
      (t ≠ "" → encodePrimitive (typedEnv b model P (declTypes classes B) reprOf) (jsonBy (declTypes classes B) v) ≠ "")) :
    (typedEnv b model P (declTypes classes B) reprOf).OnlyDeclared P classes B := by
  have hO := C80_pydantic_exists b model P (declTypes classes B) reprOf hP
  refine ⟨?_, ?_, hO.prim⟩
  · intro cls cd r d fs cs h1 h2 h3 data fields set hv
    obtain ⟨value, h4, h5⟩ := hO.fields cls d _ _ (declTypes_fields h1 h2 h3) data fields set hv
    refine ⟨value, by rw [h4, List.map_map, List.map_map]; rfl, fun f hf => ?_⟩
    exact h5 _ (List.mem_map_of_mem hf)
  · intro cls cd r d s infos h1 h2 h3
    exact hO.root cls d _ s _ (declTypes_root h1 h2 h3)

/-! ## Non-vacuity -/

namespace TypedEx

theorem docs_only : docEnv.OnlyDeclared scalars docs behind := by
  refine C80_pydantic_declared behind _ _ _ _ fun s t v h => ?_
  have h' : prims.parse (core s) t = some v := h
  simp only [scalars, prims] at h' ⊢
  split at h'
  · rename_i e
    cases h'
    exact ⟨.inl ⟨e, _, rfl⟩, fun h => by simpa [jsonBy, encodePrimitive, pyStr] using h⟩
  · rename_i e
    split at h'
    · cases h'
      exact ⟨.inr ⟨e, _, rfl⟩, fun h => by simp [jsonBy, encodePrimitive]⟩
    · split at h'
      · cases h'
        exact ⟨.inr ⟨e, _, rfl⟩, fun h => by simp [jsonBy, encodePrimitive]⟩
      · cases h'
  · cases h'

theorem docs_stable (eas : Bool) : docs.Stable docEnv scalars behind false eas { excludeNone := true } true where
  flags := rfl
  classes cls cd h := by
    unfold docs at h
    split at h <;> cases h
    refine ⟨by simp [declared], by simp, false, defs, strips, neat, ?_⟩
    have hm : Strips defs (.ref "doc") defs (.model "Doc" false) := .ref (r := "doc") rfl (.done rfl)
    have hl : note.schema.Leaf defs := .inl (.inl ⟨"str", .default (.nullable (.done rfl))⟩)
    have hc : (kids.place declared).inside.location ≠ some .wrapped := by decide
    refine ⟨?_, by simp⟩
    show ∀ f ∈ [opn, note, kids], _
    simp only [List.forall_mem_cons]
    refine ⟨fun _ => ⟨rfl, .leaf (.inl (.inl ⟨"bool", .done rfl⟩)) (by decide), by simp, ?_⟩,
      fun _ => ⟨rfl, .leaf hl (by decide), by simp, ?_⟩, fun _ => ⟨rfl, ?_, by simp, ?_⟩, by simp⟩
    · rintro x hx; cases hx
    · rintro x hx; cases hx
      exact ⟨_, .elemNone hl rfl (.inr (.inl (.inl rfl))) (by simp)⟩
    · exact .wrapped rfl (.list (item := .ref "doc") (.default (.done rfl)) (.inl rfl) hc (.model hm) (.model hm hc))
    · rintro x hx; cases hx
      refine ⟨true, .wrapped (so' := false) rfl (by simp) (by simp) ?_⟩
      exact .listEmpty (item := .ref "doc") (.default (.done rfl)) (.inl rfl) (.inr rfl) (.model hm) (.inr rfl)

/-- Whatever text is read as a `Doc`, the instance comes back from the text that is printed for it, by the printer and the parser of
`ExampleXml.lean`. -/
example (eas : Bool) (text : String) (k : Nat) (v : Val) (h : fromXml docEnv Xml.parse eas k "Doc" text = .ok v) :
    ∃ text' v' N, v'.bare = v.bare ∧ ∀ k ≥ N, toXml docEnv Xml.print k { excludeNone := true } "Doc" v = .ok text' ∧
      fromXml docEnv Xml.parse eas k "Doc" text' = .ok v' := by
  refine C80_program_text docs_standard 9 program docEnv rfl docs_all docEnv_plain.1 docEnv_plain.2.2.1 scalars behind docs_follow docs_only
    false eas _ true (docs_stable eas) _ _ "Doc" text k v h (by simp) ?_
  rintro tree ⟨N, ht⟩
  obtain ⟨h1, h2⟩ := doc_speaks (ht N (by omega))
  obtain ⟨s, t', h3, h4, h5⟩ := Xml.parsed tree (Xml.speaks_printable words_plain.1 tree (by rw [h1]; exact words_plain.2.2) h2)
  refine ⟨s, t', h3, h4, ?_⟩
  rw [← Xml.said_drop t', h5, Xml.said_said]

end TypedEx

end PXml
