import Verif.Lemmas.Stable
import Verif.Props.TypedText

/-!
# Reading, writing and reading again (C80)
-/

namespace PXml

/-- C80: every instance that was read from a document, whatever the document, can be written, and reading what was written gives an equal
instance. -/
theorem C80_reread (env : Env) (henv : env.Everywhere (Ser.Resolved env)) (hno : env.NoValidators) (P : Prims) (types : String → Option Types)
    (hT : env.HasTypes types) (hF : env.Follows P types) (hO : env.Only P types) (dicts eas : Bool) (fl : Flags) (wh : Bool)
    (hS : env.Stable P types dicts eas fl wh) (cls : String) (doc : Node) (k : Nat) (v : Val)
    (h : (fromXmlTree env eas k cls doc).1 = .ok v) (hn : dicts = true → v.NoNil) :
    ∃ tree v' N, v'.bare = v.bare ∧ ∀ n ≥ N, toXmlTree env n fl cls v = .ok tree ∧ (fromXmlTree env eas n cls tree).1 = .ok v' :=
  C74_round_trip env henv P types hT hF eas fl wh false cls v (given_back hT hF hO hS (fromXmlTree_given hno h) hn)

/-- C80: the same for text, if the library reads back what it printed. -/
theorem C80_text (env : Env) (henv : env.Everywhere (Ser.Resolved env)) (hno : env.NoValidators) (hraw : env.Everywhere Ser.NotRaw)
    (P : Prims) (types : String → Option Types) (hT : env.HasTypes types) (hF : env.Follows P types) (hO : env.Only P types)
    (dicts eas : Bool) (fl : Flags) (wh : Bool) (hS : env.Stable P types dicts eas fl wh) (print : Node → Except PyErr String)
    (parse : String → Except PyErr Node) (cls text : String) (k : Nat) (v : Val)
    (h : fromXml env parse eas k cls text = .ok v) (hn : dicts = true → v.NoNil)
    (hlib : ∀ tree, (∃ N, ∀ n ≥ N, toXmlTree env n fl cls v = .ok tree) → Reparses print parse tree) :
    ∃ text' v' N, v'.bare = v.bare ∧ ∀ n ≥ N, toXml env print n fl cls v = .ok text' ∧ fromXml env parse eas n cls text' = .ok v' := by
  simp only [fromXml] at h
  split at h
  · cases h
  · exact C74_text env henv hno hraw P types hT hF print parse eas fl wh false cls v
      (given_back hT hF hO hS (fromXmlTree_given hno h) hn) hlib

/-- C80: with raw fields, too, if the library tells no text and an empty one apart. -/
theorem C80_text_raw (env : Env) (henv : env.Everywhere (Ser.Resolved env)) (hno : env.NoValidators)
    (P : Prims) (types : String → Option Types) (hT : env.HasTypes types) (hF : env.Follows P types) (hO : env.Only P types)
    (dicts eas : Bool) (fl : Flags) (wh : Bool) (hS : env.Stable P types dicts eas fl wh) (print : Node → Except PyErr String)
    (parse : String → Except PyErr Node) (cls text : String) (k : Nat) (v : Val)
    (h : fromXml env parse eas k cls text = .ok v) (hn : dicts = true → v.NoNil)
    (hlib : ∀ tree, (∃ N, ∀ n ≥ N, toXmlTree env n fl cls v = .ok tree) → ∃ s tree', print tree = .ok s ∧ parse s = .ok tree' ∧
      tree'.dropPrefixes.dropLines = tree.dropPrefixes.dropLines) :
    ∃ text' v' N, v'.bare = v.bare ∧ ∀ n ≥ N, toXml env print n fl cls v = .ok text' ∧ fromXml env parse eas n cls text' = .ok v' := by
  simp only [fromXml] at h
  split at h
  · cases h
  · exact C74_text_raw env henv hno P types hT hF print parse eas fl wh false cls v
      (given_back hT hF hO hS (fromXmlTree_given hno h) hn) hlib

/-- C80: without raw fields the library may put white space between elements, and may print empty texts as no text. -/
theorem C80_pretty (env : Env) (henv : env.Everywhere (Ser.Resolved env)) (hno : env.NoValidators) (hraw : env.Everywhere Ser.NotRaw)
    (K : List String) (hK : env.Everywhere (Ser.TextsIn env K)) (P : Prims) (types : String → Option Types)
    (hT : env.HasTypes types) (hF : env.Follows P types) (hO : env.Only P types)
    (dicts eas : Bool) (fl : Flags) (wh : Bool) (hS : env.Stable P types dicts eas fl wh) (print : Node → Except PyErr String)
    (parse : String → Except PyErr Node) (cls text : String) (hroot : ∀ m, env.model cls = some m → m.OwnText → m.elementName ∈ K)
    (k : Nat) (v : Val) (h : fromXml env parse eas k cls text = .ok v) (hn : dicts = true → v.NoNil)
    (hlib : ∀ tree, (∃ N, ∀ n ≥ N, toXmlTree env n fl cls v = .ok tree) → ∃ s tree', print tree = .ok s ∧ parse s = .ok tree' ∧
      tree'.SameButBlank K tree) :
    ∃ text' v' N, v'.bare = v.bare ∧ ∀ n ≥ N, toXml env print n fl cls v = .ok text' ∧ fromXml env parse eas n cls text' = .ok v' := by
  simp only [fromXml] at h
  split at h
  · cases h
  · exact C74_pretty env henv hno hraw K hK P types hT hF print parse eas fl wh false cls hroot v
      (given_back hT hF hO hS (fromXmlTree_given hno h) hn) hlib

/-- C80: the assumptions about pydantic can be met, for all types. -/
theorem C80_pydantic_exists (b : Backend) (model : String → Option ModelSer) (P : Prims) (types : String → Option Types) (reprOf : Val → String)
    (hP : ∀ s t v, P.parse s t = some v → P.Is s v ∧ (t ≠ "" → encodePrimitive (typedEnv b model P types reprOf) (jsonBy types v) ≠ "")) :
    (typedEnv b model P types reprOf).Only P types where
  fields cls d ts cs h data fields set hv := by
    simp only [typedEnv] at hv
    split at hv
    · rename_i hex
      cases hv
      rcases Classical.choose_spec hex with ⟨d', ts', cs', dict, value, h1, h2, h3, h4⟩ | ⟨d', s, ty, df, x, h1, -⟩
      · rw [h] at h1
        cases h1
        cases h2
        refine ⟨value, h4, fun t ht => ?_⟩
        rcases h3 t ht with ⟨y, a1, a2⟩ | h3
        · refine .inl ⟨y, a1, a2, ?_⟩
          simp only [setBy, h]
          exact List.mem_map.2 ⟨t, List.mem_filter.2 ⟨ht, by rw [a1]; rfl⟩, rfl⟩
        · exact .inr h3
      · rw [h] at h1
        cases h1
    · cases hv
  root cls d s ty df h y fields set hv := by
    simp only [typedEnv] at hv
    split at hv
    · rename_i hex
      cases hv
      rcases Classical.choose_spec hex with ⟨d', ts', cs', dict, value, h1, -⟩ | ⟨d', s', ty', df', x, h1, h2, h3⟩
      · rw [h] at h1
        cases h1
      · rw [h] at h1
        cases h1
        refine ⟨x, h2, ?_⟩
        rcases h3 with h3 | h3
        · refine .inl ⟨h3, ?_⟩
          cases y <;> first | exact absurd h3 Makes.ne_undef | simp [setBy, h]
        · exact .inr h3
    · cases hv
  prim := hP

/-! ## Non-vacuity -/

namespace TypedEx

theorem only : env.Only prims types := by
  refine C80_pydantic_exists _ _ _ _ _ fun s t v h => ?_
  simp only [prims] at h ⊢
  split at h
  · cases h
    exact ⟨.inl ⟨rfl, _, rfl⟩, fun h => by simpa [jsonBy, encodePrimitive, pyStr] using h⟩
  · split at h
    · cases h
      exact ⟨.inr ⟨rfl, _, rfl⟩, fun h => by simp [jsonBy, encodePrimitive]⟩
    · split at h
      · cases h
        exact ⟨.inr ⟨rfl, _, rfl⟩, fun h => by simp [jsonBy, encodePrimitive]⟩
      · cases h
  · cases h

theorem noValidators : env.NoValidators := by
  intro cls m fs h hb f hf
  have h' : (if cls = "Doc" then some doc else none) = some m := h
  split at h' <;> cases h'
  cases hb
  simp only [fields, List.map_cons, List.map_nil, List.mem_cons, List.not_mem_nil, or_false] at hf
  rcases hf with rfl | rfl | rfl <;> rfl

theorem stable (eas : Bool) : env.Stable prims types false eas { excludeNone := true } true where
  flags := rfl
  typed cls m h := by
    have h' : (if cls = "Doc" then some doc else none) = some m := h
    split at h' <;> cases h'
    rename_i e
    exact ⟨by simp [types, e], by simp [doc], by simp⟩
  fields cls d ts cs h := by
    have h' : (if cls = "Doc" then some (Types.fields defs fields []) else none) = some (.fields d ts cs) := h
    split at h' <;> cases h'
    simp only [fields, List.forall_mem_cons]
    refine ⟨fun _ => ⟨trivial, .attr, by simp, by simp⟩, fun _ => ⟨trivial, .elem, by simp, ?_⟩, fun _ => ⟨trivial, ?_, by simp, ?_⟩, by simp⟩
    · rintro x hx; cases hx
      exact ⟨_, .elemNone (.inr (.inl (.inl rfl))) (by simp)⟩
    · exact .wrap (.list (.default (.done rfl)) (.inl rfl) .proxy (.model rfl (.ref (r := "doc") rfl (.done rfl))))
    · rintro x hx; cases hx
      exact ⟨_, .wrap (so' := false) (by simp) (by simp) (.listEmpty (.inr rfl) .proxy)⟩
  computed cls d ts cs h := by
    have h' : (if cls = "Doc" then some (Types.fields defs fields []) else none) = some (.fields d ts cs) := h
    split at h' <;> cases h'
    simp
  root cls d s ty df h := by
    have h' : (if cls = "Doc" then some (Types.fields defs fields []) else none) = some (.root d s ty df) := h
    split at h' <;> cases h'

/-- Whatever document is read as a `Doc`, the instance comes back. -/
example (eas : Bool) (tree : Node) (k : Nat) (v : Val) (h : (fromXmlTree env eas k "Doc" tree).1 = .ok v) :
    ∃ tree' v' N, v'.bare = v.bare ∧ ∀ n ≥ N, toXmlTree env n { excludeNone := true } "Doc" v = .ok tree' ∧
      (fromXmlTree env eas n "Doc" tree').1 = .ok v' :=
  C80_reread env resolved noValidators prims types hasTypes follows only false eas _ true (stable eas) "Doc" tree k v h (by simp)

/-- Documents can be read: all that are written (`C74_round_trip`). -/
example (x : Doc) (h : x.Noted) : ∃ tree v' k, (fromXmlTree env false k "Doc" tree).1 = .ok v' ∧ v'.bare = x.val.bare := by
  obtain ⟨tree, v', N, h1, h2⟩ := C74_round_trip env resolved prims types hasTypes follows false _ true true "Doc" x.val (sound false h)
  exact ⟨tree, v', N, (h2 N (Nat.le_refl N)).2, h1⟩

end TypedEx

/-! ## Counterexamples -/

namespace RereadEx

/-- the field `u: Union[A, B]` -/
def union : Field := { name := "u", ser := .modelUnion "Doc" false [{ cls := "A", name := "u" }, { cls := "B", name := "u" }] }

/-- `class A(tag='u'): x: Literal['1'] = attr()`, `class B(tag='u'): x: int = attr()`, `class Doc(tag='doc'): u: Union[A, B]`, and
`class Opt(tag='opt'): x: Optional[str] = attr()` -/
def env : Env where
  backend := .std
  model
    | "A" => some { name := "A", elementName := "u", body := .fields [{ name := "x", ser := .attr "x" false }] }
    | "B" => some { name := "B", elementName := "u", body := .fields [{ name := "x", ser := .attr "x" false }] }
    | "Doc" => some { name := "Doc", elementName := "doc", body := .fields [union] }
    | "Opt" => some { name := "Opt", elementName := "opt", body := .fields [{ name := "x", ser := .attr "x" false }] }
    | _ => none
  validate
    | "A", .dict [("x", .str "1")] => .ok ([("x", .str "1")], ["x"])
    | "B", .dict [("x", .str "1")] => .ok ([("x", .int 1)], ["x"])
    | "B", .dict [("x", .str "01")] => .ok ([("x", .int 1)], ["x"])
    | "Doc", .dict [("u", u)] => .ok ([("u", u)], ["u"])
    | "Opt", .dict [("x", x)] => .ok ([("x", x)], ["x"])
    | "Opt", .dict [] => .ok ([("x", .none)], [])
    | cls, _ => .error ⟨cls, []⟩
  toJsonable
    | .model _ [("u", .model _ fields _)] _ => .dict [("u", .dict fields)]
    | .model _ fields _ => .dict fields
    | v => v
  reprOf _ := ""

end RereadEx

/-- C80: not so for unions of classes with the same tag. `<doc><u x="01"/></doc>` is read with a `B` inside, which is written as
`<u x="1"/>`, and that is read as an `A`. -/
theorem C80_counterexample_union : ∃ v tree v',
    (fromXmlTree RereadEx.env false 9 "Doc" (.elem "doc" [] [] none none [.elem "u" [("x", "01")] [] none none [] none] none)).1 = .ok v ∧
    toXmlTree RereadEx.env 9 {} "Doc" v = .ok tree ∧ (fromXmlTree RereadEx.env false 9 "Doc" tree).1 = .ok v' ∧
    v = .model "Doc" [("u", .model "B" [("x", .int 1)] ["x"])] ["u"] ∧ v' = .model "Doc" [("u", .model "A" [("x", .str "1")] ["x"])] ["u"] :=
  ⟨_, .elem "doc" [] [] none none [.elem "u" [("x", "1")] [] none none [] none] none, _, by kernel_rfl, by kernel_rfl, by kernel_rfl, rfl, rfl⟩

/-- C80: not so for optional attributes without `exclude_none`: the missing attribute is written as an empty one, which is read as the empty
string. -/
theorem C80_counterexample_none : ∃ v tree v',
    (fromXmlTree RereadEx.env false 9 "Opt" (.elem "opt" [] [] none none [] none)).1 = .ok v ∧
    toXmlTree RereadEx.env 9 {} "Opt" v = .ok tree ∧ (fromXmlTree RereadEx.env false 9 "Opt" tree).1 = .ok v' ∧
    v = .model "Opt" [("x", .none)] [] ∧ v' = .model "Opt" [("x", .str "")] ["x"] :=
  ⟨_, .elem "opt" [("x", "")] [] none none [] none, _, by kernel_rfl, by kernel_rfl, by kernel_rfl, rfl, rfl⟩

end PXml
