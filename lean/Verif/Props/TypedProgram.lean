import Verif.Lemmas.TypedProgram
import Verif.Props.Declared
import Verif.Props.Typed

/-!
# Typed instances of declared classes come back (C74)
-/

namespace PXml

/-- After a program that completes all its classes, the instances that are worth it are sound by the types of the declarations. -/
theorem program_sound {classes : Classes} (hst : classes.Standard) (n : Nat) (es : List Event) (env : Env)
    (henv : env.model = history classes n es .empty) (hall : ∀ c, (classes c).isSome = true → (history classes n es .empty c).isSome = true)
    (P : Prims) (B : Behind) (hF : env.FollowsDeclared P classes B) :
    ∃ types, env.Everywhere (Ser.Resolved env) ∧ env.HasTypes types ∧ env.Follows P types ∧ ∀ eas fl wh so cls v,
      Worth env P classes B eas fl wh so (.inst cls v) → Sound env P types eas fl wh so (.inst cls v) := by
  have hex : ∀ cls, ∃ o, DeclaredTypes env classes classes.Keyed B cls o := by
    intro cls
    refine declaredTypes_exists fun cd hcd => ?_
    obtain ⟨m, hm⟩ := Option.isSome_iff_exists.1 (hall cls (by rw [hcd]; rfl))
    obtain ⟨cd', r, d, h1, h2, h3, h4⟩ := C75_program hst n es cls m hm
    rw [hcd] at h1
    cases h1
    exact ⟨m, r, d, by rw [henv]; exact hm, h2, h3, h4⟩
  obtain ⟨types, ht⟩ := Classical.axiomOfChoice hex
  exact ⟨types, (history_accepts hst n es env henv hall).resolved hst.proper, declared_hasTypes ht hF.derived, declared_follows ht hF,
    fun eas fl wh so cls v h => worth_good ht h⟩

/-- C74: after a program that completes all its classes, every instance that is worth it comes back. It is written to a tree, and reading
the tree gives an equal instance. Everything is said in terms of the declarations of the classes. -/
theorem C74_program {classes : Classes} (hst : classes.Standard) (n : Nat) (es : List Event) (env : Env)
    (henv : env.model = history classes n es .empty) (hall : ∀ c, (classes c).isSome = true → (history classes n es .empty c).isSome = true)
    (P : Prims) (B : Behind) (hF : env.FollowsDeclared P classes B) (eas : Bool) (fl : Flags)
    (wh so : Bool) (cls : String) (v : Val) (h : Worth env P classes B eas fl wh so (.inst cls v)) :
    ∃ tree v' N, v'.bare = v.bare ∧ ∀ k ≥ N, toXmlTree env k fl cls v = .ok tree ∧ (fromXmlTree env eas k cls tree).1 = .ok v' := by
  obtain ⟨types, h1, h2, h3, h4⟩ := program_sound hst n es env henv hall P B hF
  exact C74_round_trip env h1 P types h2 h3 eas fl wh so cls v (h4 eas fl wh so cls v h)

/-! ## A pydantic that follows the declarations exists -/

open Classical in
/-- The types of all declared classes. -/
noncomputable def declTypes (classes : Classes) (B : Behind) (cls : String) : Option Types :=
  match classes cls with
  | none => none
  | some cd =>
    if h : ∃ d r, Strips [] cd.schema d (.model cls r) then
      match cd.body with
      | .fields fs cs => some (.fields (choose h) (fs.map fun f =>
          ⟨{ name := f.name, ser := .text false false, alias := if f.validationAlias = some "" then none else f.validationAlias }, f.schema,
            B.default cls f.name, f.noXml⟩) (cs.map fun c => ⟨{ name := c.name, ser := .text true false }, c.schema, B.get cls c.name⟩))
      | .root s _ => some (.root (choose h) (.text false false) s (B.default cls "root"))
    else none

theorem declTypes_fields {classes : Classes} {B : Behind} {cls : String} {cd : ClassDef} {r : Bool}
    {d : Dict String Schema} {fs : List FieldDef} {cs : List ComputedDef} (h1 : classes cls = some cd) (h2 : Strips [] cd.schema d (.model cls r))
    (h3 : cd.body = .fields fs cs) : declTypes classes B cls = some (.fields d (fs.map fun f =>
      ⟨{ name := f.name, ser := .text false false, alias := if f.validationAlias = some "" then none else f.validationAlias }, f.schema,
        B.default cls f.name, f.noXml⟩) (cs.map fun c => ⟨{ name := c.name, ser := .text true false }, c.schema, B.get cls c.name⟩)) := by
  have hex : ∃ d r, Strips [] cd.schema d (.model cls r) := ⟨d, r, h2⟩
  obtain ⟨r', h4⟩ := Classical.choose_spec hex
  simp only [declTypes, h1, dif_pos hex, h3, (h4.det h2).1]

theorem declTypes_root {classes : Classes} {B : Behind} {cls : String} {cd : ClassDef} {r : Bool}
    {d : Dict String Schema} {s : Schema} {infos : List EntityInfo} (h1 : classes cls = some cd) (h2 : Strips [] cd.schema d (.model cls r))
    (h3 : cd.body = .root s infos) :
    declTypes classes B cls = some (.root d (.text false false) s (B.default cls "root")) := by
  have hex : ∃ d r, Strips [] cd.schema d (.model cls r) := ⟨d, r, h2⟩
  obtain ⟨r', h4⟩ := Classical.choose_spec hex
  simp only [declTypes, h1, dif_pos hex, h3, (h4.det h2).1]

/-- C74: for all declarations, defaults and properties the assumptions about pydantic can be met. -/
theorem C74_pydantic_declared {classes : Classes} (hst : classes.Standard) (B : Behind) (b : Backend)
    (model : String → Option ModelSer) (P : Prims) (reprOf : Val → String)
    (hB : ∀ cls name fs fs', Val.bareItems fs = Val.bareItems fs' → (B.get cls name fs).bare = (B.get cls name fs').bare)
    (hP : ∀ s v, P.Is s v →
      v ≠ .none ∧ P.parse s (encodePrimitive (typedEnv b model P (declTypes classes B) reprOf) (jsonBy (declTypes classes B) v)) = some v ∧
      P.parse s (pyStr (typedEnv b model P (declTypes classes B) reprOf) (jsonBy (declTypes classes B) v)) = some v) :
    (typedEnv b model P (declTypes classes B) reprOf).FollowsDeclared P classes B := by
  have hF := C74_pydantic_exists b model P (declTypes classes B) reprOf hP
  refine ⟨?_, ?_, hB, ?_, ?_, hF.json_list, hF.json_dict, hF.json_str, hF.json_none, hF.prim⟩
  · intro cls cd r d fs cs h1 h2 h3 data value hv
    obtain ⟨set, h4⟩ := hF.fields cls d _ _ (declTypes_fields h1 h2 h3) data value (by
      intro t ht
      obtain ⟨f, hf, rfl⟩ := List.mem_map.1 ht
      exact hv f hf)
    exact ⟨set, by rw [h4, List.map_map, List.map_map]; rfl⟩
  · intro cls cd r d s infos h1 h2 h3
    exact hF.root cls d _ s _ (declTypes_root h1 h2 h3)
  · intro cls cd fs cs h1 h3
    obtain ⟨-, -, r, d, h2, -⟩ := hst cls cd h1
    exact hF.json_fields cls d _ _ (declTypes_fields h1 h2 h3)
  · intro cls cd s infos h1 h3
    obtain ⟨-, -, r, d, h2, -⟩ := hst cls cd h1
    exact hF.json_root cls d _ s _ (declTypes_root h1 h2 h3)

/-! ## Non-vacuity -/

theorem Schema.Scalar.occupies {classes : Classes} {d : Dict String Schema} {p : Place} {s : Schema} {slot : Slot} (hs : s.Scalar d)
    (h : s.Occupies classes d p slot) :
    (p.location = none ∧ (slot = .text ∨ (p.nillable = true ∧ slot = .attr Elem.nilAttr))) ∨
    (p.location = some .attribute ∧ ∃ tag, p.given = some tag ∧ slot = .attr (p.attrName tag)) ∨
    (p.location = some .element ∧ ∃ tag, p.given = some tag ∧ slot = .child (p.elementName tag)) := by
  cases h with
  | text h1 h2 => exact .inl ⟨h2, .inl rfl⟩
  | nil h1 h2 h3 => exact .inl ⟨h2, .inr ⟨h3, rfl⟩⟩
  | attr h1 h2 h3 => exact .inr (.inl ⟨h2, _, h3, rfl⟩)
  | elem h1 h2 h3 => exact .inr (.inr ⟨h2, _, h3, rfl⟩)
  | attrs h1 => exact absurd h1 hs.not_mapping
  | mapElem h1 => exact absurd h1 hs.not_mapping
  | raw h1 => rcases hs.form h1 with ⟨ty, e⟩ | e <;> cases e
  | model h1 => rcases hs.form h1 with ⟨ty, e⟩ | e <;> cases e
  | list h1 h2 => rcases hs.form h1 with ⟨ty, rfl⟩ | rfl <;> rcases h2 with e | e <;> cases e
  | tuple h1 h2 => rcases hs.form h1 with ⟨ty, rfl⟩ | rfl <;> rcases h2 with e | e <;> cases e
  | union h1 => rcases hs.form h1 with ⟨ty, e⟩ | e <;> cases e
  | tagged h1 => rcases hs.form h1 with ⟨ty, e⟩ | e <;> cases e

namespace TypedEx

/-- The same class, declared:
`class Doc(BaseXmlModel, tag='doc'): open: bool = attr(); note: Optional[str] = element(alias='remark', default=None);
kids: List['Doc'] = wrapped('kids', element('doc'), default=[])` -/
def opn : FieldDef := { name := "open", schema := .prim "bool", infos := [.mk (some .attribute) none none none none none] }
def note : FieldDef where
  name := "note"
  schema := .default (.nullable (.prim "str"))
  alias := some "remark"
  validationAlias := some "remark"
  infos := [.mk (some .element) none none none none none]
def kids : FieldDef where
  name := "kids"
  schema := .default (.list (.ref "doc"))
  infos := [.mk (some .wrapped) (some "kids") none none none (some (.mk (some .element) (some "doc") none none none none))]

def declared : ClassDef where
  name := "Doc"
  params := { tag := some "doc" }
  schema := .definitions [("doc", .model "Doc" false)] (.ref "doc")
  body := .fields [opn, note, kids] []

def docs : Classes
  | "Doc" => some declared
  | _ => none

def program : List Event := [.statement "Doc" false, .rebuild "Doc" true]

theorem strips : Strips [] declared.schema defs (.model "Doc" false) := .definitions (.ref (s := .model "Doc" false) rfl (.done rfl))

theorem docs_standard : docs.Standard := by
  intro c cd h
  unfold docs at h
  split at h <;> cases h
  refine ⟨⟨by decide, (fun m hm => by cases hm), ?_, by simp⟩, ⟨?_, by simp⟩, false, defs, strips, ?_⟩
  · simp only [List.forall_mem_cons]
    refine ⟨⟨by decide, Def.infos_all⟩, ⟨by decide, Def.infos_all⟩, ⟨by decide, fun i hi => ?_⟩, by simp⟩
    simp only [kids, List.mem_singleton] at hi
    subst hi
    exact .mk (fun m hm => by cases hm) fun w hw => by
      cases hw
      exact .mk (fun m hm => by cases hm) (fun w hw => by cases hw)
  · simp only [List.forall_mem_cons]
    exact ⟨.prim, .default (.nullable .prim), .default (.list .ref), by simp⟩
  · intro r s h
    simp only [defs, Dict.get?] at h
    split at h
    · cases h; exact .model
    · cases h

theorem docs_all (c : String) (h : (docs c).isSome = true) : (history docs 9 program .empty c).isSome = true := by
  unfold docs at h
  split at h
  · kernel_rfl
  · cases h

/-- The type below `Optional` and defaults. -/
def core : Schema → Schema
  | .default s => core s
  | .nullable s => core s
  | s => s

/-- Strings and truth values, also optional ones and such with a default. -/
def scalars : Prims where
  Is s v := prims.Is (core s) v
  parse s t := prims.parse (core s) t

def behind : Behind where
  default cls field :=
    match cls, field with
    | "Doc", "note" => some .none
    | "Doc", "kids" => some (.list [])
    | _, _ => none
  get _ _ _ := .none

noncomputable def docEnv : Env := typedEnv .lxml (history docs 9 program .empty) scalars (declTypes docs behind) fun _ => ""

theorem docs_follow : docEnv.FollowsDeclared scalars docs behind := by
  refine C74_pydantic_declared docs_standard behind _ _ _ _ (fun _ _ _ _ _ => rfl) ?_
  intro s v h
  rcases (h : prims.Is (core s) v) with ⟨e, t, rfl⟩ | ⟨e, b, rfl⟩
  · refine ⟨by simp, ?_, ?_⟩ <;> simp [scalars, e, jsonBy, encodePrimitive, pyStr, prims]
  · cases b <;> refine ⟨by simp, ?_, ?_⟩ <;> simp [scalars, e, jsonBy, encodePrimitive, pyStr, prims]

theorem neat : declared.Neat docs defs := by
  have h1 : opn.schema.Scalar defs := .inl ⟨"bool", .done rfl⟩
  have h2 : note.schema.Scalar defs := .inl ⟨"str", .default (.nullable (.done rfl))⟩
  have o1 : ∀ a, opn.schema.Occupies docs defs (opn.place declared) a → a = .attr "open" := by
    intro a h
    rcases h1.occupies h with ⟨e, -⟩ | ⟨-, tag, e, rfl⟩ | ⟨e, -⟩
    · cases e
    · cases e; kernel_rfl
    · cases e
  have o2 : ∀ a, note.schema.Occupies docs defs (note.place declared) a → a = .child "remark" := by
    intro a h
    rcases h2.occupies h with ⟨e, -⟩ | ⟨e, -⟩ | ⟨-, tag, e, rfl⟩
    · cases e
    · cases e
    · cases e; kernel_rfl
  refine ⟨?_, by simp, by decide, by decide, [([], opn.place declared, opn.schema), ([], note.place declared, note.schema),
    (["kids"], (kids.place declared).inside, kids.schema)], [], ?_, .nil, ?_, .nil, ?_, by simp⟩
  · simp [declared, opn, note, kids]
  · refine .cons ⟨.here (by decide), rfl⟩ (.cons ⟨.here (by decide), rfl⟩ (.cons ⟨?_, rfl⟩ .nil))
    exact .wrapped (path := "kids") (parts := ["kids"]) rfl rfl ⟨by simp, by decide, by decide⟩ (.here (by decide))
  · refine .field ?_ (.field ?_ (neat_single _))
    · intro a ha u hu b hb
      rw [o1 a ha]
      simp only [List.mem_cons, List.not_mem_nil, or_false] at hu
      rcases hu with rfl | rfl
      · rw [o2 b hb]; exact id
      · rw [show b = .child "kids" from hb]; exact id
    · intro a ha u hu b hb
      rw [o2 a ha]
      simp only [List.mem_cons, List.not_mem_nil, or_false] at hu
      subst hu
      rw [show b = .child "kids" from hb]
      simp [Slot.Competes]
  · intro e he hn
    simp only [List.append_nil, List.mem_cons, List.not_mem_nil, or_false] at he
    rcases he with rfl | rfl | rfl
    · exact absurd (o1 _ hn) (by decide)
    · cases o2 _ hn
    · cases hn

/-- With and without `skip_empty`, which makes no difference here: the attribute is always written. -/
theorem worth (skip so : Bool) {x : Doc} (h : x.Noted) :
    Worth docEnv scalars docs behind false { excludeNone := true, skipEmpty := skip } true so (.inst "Doc" x.val) := by
  induction h generalizing so with
  | @mk b n ks hn _ ih =>
    have hv : (Doc.mk b n ks).val =
        .model "Doc" [("open", .bool b), ("note", n.elim .none .str), ("kids", .list (Doc.vals ks))] ["open"] := by
      simp only [Doc.val]
    rw [hv]
    refine Worth.plain (rows := [(opn, .bool b, some false, true), (note, n.elim .none .str, some n.isNone, false),
      (kids, .list (Doc.vals ks), some ks.isEmpty, false)]) (cd := declared) (r := false) (d := defs) rfl strips neat rfl (by simp) (by simp [opn, note, kids]) ?_ ?_ ?_ (by simp) ?_
    · simp [opn, note, kids]
    · simp
    · simp only [List.forall_mem_cons]
      refine ⟨by simp, ?_, ?_, by simp⟩
      · intro h
        cases n with
        | none => exact ⟨_, rfl, rfl⟩
        | some n => simp at h
      · intro h
        cases ks with
        | nil => exact ⟨_, rfl, rfl⟩
        | cons k ks => simp at h
    · simp only [List.forall_mem_cons]
      refine ⟨?_, ?_, ?_, by simp⟩
      · rintro b' h; cases h
        exact .attr (.inl (.inl ⟨"bool", .done rfl⟩)) rfl (.inr ⟨rfl, _, rfl⟩)
      · rintro b' h; cases h
        have hl : note.schema.Leaf defs := .inl (.inl ⟨"str", .default (.nullable (.done rfl))⟩)
        cases n with
        | none => exact .elemNone hl rfl (.inl rfl) (by simp)
        | some n =>
          refine .elem hl rfl (.inl ⟨rfl, _, rfl⟩) (.inr ?_)
          show encodePrimitive docEnv (jsonBy (declTypes docs behind) (.str n)) ≠ ""
          simp only [jsonBy, encodePrimitive, pyStr]
          exact fun e => hn (by rw [e])
      · rintro b' h; cases h
        have hm : Strips defs (.ref "doc") defs (.model "Doc" false) := .ref (r := "doc") rfl (.done rfl)
        cases ks with
        | nil =>
          cases skip with
          | false =>
            refine .wrapped (so' := false) rfl (by simp) (by simp [ClassDef.flagsIn, declared]) ?_
            exact .listEmpty (item := .ref "doc") (.default (.done rfl)) (.inl rfl) (.inr rfl) (.model hm) (.inr rfl)
          | true => exact .wrappedNone rfl (.inr ⟨rfl, rfl⟩) (.list (item := .ref "doc") (.default (.done rfl)) (.inl rfl) (.inr rfl) (.model hm))
        | cons k ks =>
          refine .wrapped (so' := true) rfl (by simp) (by simp [Doc.vals, Val.len?]) ?_
          refine .list (item := .ref "doc") (.default (.done rfl)) (.inl rfl) (.inr rfl) (.model hm) ?_
          intro x hx
          obtain ⟨k', hk, rfl⟩ := mem_vals (ks := k :: ks) hx
          exact .model hm (.inr rfl) (ih k' hk _)

/-- Documents of all widths and depths come back after the program. -/
example (skip : Bool) (x : Doc) (h : x.Noted) : ∃ tree v' N, v'.bare = x.val.bare ∧
    ∀ n ≥ N, toXmlTree docEnv n { excludeNone := true, skipEmpty := skip } "Doc" x.val = .ok tree ∧
    (fromXmlTree docEnv false n "Doc" tree).1 = .ok v' :=
  C74_program docs_standard 9 program docEnv rfl docs_all scalars behind docs_follow false _ true true "Doc" x.val (worth skip true h)

end TypedEx

end PXml
