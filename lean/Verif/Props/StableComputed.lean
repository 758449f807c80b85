import Verif.Props.StableProgram

/-!
# Classes with computed fields and fields outside the XML (non-vacuity of C74 and C80)
-/

namespace PXml

theorem Dict.get?_bareItems (k : String) : ∀ d : List (String × Val), Dict.get? (Val.bareItems d) k = (Dict.get? d k).map Val.bare
  | [] => rfl
  | (k', v) :: d => by
    simp only [Val.bareItems, Dict.get?]
    split
    · rfl
    · exact get?_bareItems k d

theorem Val.bare_str {v : Val} {t : String} (h : v.bare = .str t) : v = .str t := by
  cases v <;> simp_all [Val.bare]

namespace NotesEx

open TypedEx (scalars prims core)

/-- `class Note(BaseXmlModel, tag='note'): title: str = attr(); cache: NoXml[str] = ''; replies: List['Note'] = element('note', default=[])` and
`@computed_attr def loud(self) -> str: return self.title + '!'` -/
def title : FieldDef := { name := "title", schema := .prim "str", infos := [.mk (some .attribute) none none none none none] }
def cache : FieldDef := { name := "cache", schema := .default (.prim "str"), noXml := true }
def replies : FieldDef where
  name := "replies"
  schema := .default (.list (.ref "note"))
  infos := [.mk (some .element) (some "note") none none none none]
def loud : ComputedDef := { name := "loud", schema := .prim "str", info := some (.mk (some .attribute) none none none none none) }

def declared : ClassDef where
  name := "Note"
  params := { tag := some "note" }
  schema := .definitions [("note", .model "Note" false)] (.ref "note")
  body := .fields [title, cache, replies] [loud]

def notes : Classes
  | "Note" => some declared
  | _ => none

def defs : Dict String Schema := [("note", .model "Note" false)]

def program : List Event := [.statement "Note" false, .rebuild "Note" true]

theorem strips : Strips [] declared.schema defs (.model "Note" false) := .definitions (.ref (s := .model "Note" false) rfl (.done rfl))

theorem notes_standard : notes.Standard := by
  intro c cd h
  unfold notes at h
  split at h <;> cases h
  refine ⟨⟨by decide, (fun m hm => by cases hm), ?_, ?_⟩, ⟨?_, ?_⟩, false, defs, strips, ?_⟩
  · simp only [List.forall_mem_cons]
    exact ⟨⟨by decide, Def.infos_all⟩, ⟨by decide, by simp [cache]⟩, ⟨by decide, Def.infos_all⟩, by simp⟩
  · simp only [List.forall_mem_cons]
    refine ⟨⟨by decide, ?_⟩, by simp⟩
    rintro i e
    cases e
    exact .mk (fun m hm => by cases hm) (fun w hw => by cases hw)
  · simp only [List.forall_mem_cons]
    exact ⟨.prim, .default .prim, .default (.list .ref), by simp⟩
  · simp only [List.forall_mem_cons]
    exact ⟨.prim, by simp⟩
  · intro r s h
    simp only [defs, Dict.get?] at h
    split at h
    · cases h; exact .model
    · cases h

theorem notes_all (c : String) (h : (notes c).isSome = true) : (history notes 9 program .empty c).isSome = true := by
  unfold notes at h
  split at h
  · kernel_rfl
  · cases h

def behind : Behind where
  default cls field :=
    match cls, field with
    | "Note", "cache" => some (.str "")
    | "Note", "replies" => some (.list [])
    | _, _ => none
  get _ _ fields :=
    match Dict.get? fields "title" with
    | some (.str t) => .str (t ++ "!")
    | _ => .str ""

theorem behind_bare (cls name : String) (fs fs' : List (String × Val)) (h : Val.bareItems fs = Val.bareItems fs') :
    (behind.get cls name fs).bare = (behind.get cls name fs').bare := by
  have h1 := Dict.get?_bareItems "title" fs
  have h2 := Dict.get?_bareItems "title" fs'
  rw [h, h2] at h1
  have key : ∀ {o o' : Option Val}, Option.map Val.bare o = Option.map Val.bare o' → ∀ t, o = some (.str t) → o' = some (.str t) := by
    rintro (_ | v) (_ | v') e t et
    · cases et
    · cases e
    · cases e
    · cases et
      simp only [Option.map_some, Option.some.injEq] at e
      rw [Val.bare_str (v := v') (t := t) (by rw [← e]; rfl)]
  simp only [behind]
  split
  · rename_i t e
    rw [key h1.symm t e]
  · rename_i hne
    split
    · rename_i t e
      exact absurd (key h1 t e) (hne t)
    · rfl

theorem behind_str (cls name : String) (fs : List (String × Val)) : ∃ t, behind.get cls name fs = .str t := by
  simp only [behind]
  split
  · exact ⟨_, rfl⟩
  · exact ⟨_, rfl⟩

noncomputable def noteEnv : Env := typedEnv .lxml (history notes 9 program .empty) scalars (declTypes notes behind) fun _ => ""

theorem notes_follow : noteEnv.FollowsDeclared scalars notes behind := by
  refine C74_pydantic_declared notes_standard behind _ _ _ _ behind_bare ?_
  intro s v h
  rcases (h : prims.Is (core s) v) with ⟨e, t, rfl⟩ | ⟨e, b, rfl⟩
  · refine ⟨by simp, ?_, ?_⟩ <;> simp [scalars, e, jsonBy, encodePrimitive, pyStr, prims]
  · cases b <;> refine ⟨by simp, ?_, ?_⟩ <;> simp [scalars, e, jsonBy, encodePrimitive, pyStr, prims]

theorem notes_only : noteEnv.OnlyDeclared scalars notes behind := by
  refine C80_pydantic_declared behind _ _ _ _ fun s t v h => ?_
  have h' : prims.parse (core s) t = some v := h
  simp only [scalars, prims] at h' ⊢
  split at h'
  · rename_i e
    cases h'
    exact ⟨.inl ⟨e, _, rfl⟩, fun h => by simpa [jsonBy, encodePrimitive, pyStr] using h⟩
  · rename_i e
    split at h'
    · cases h'
      exact ⟨.inr ⟨e, _, rfl⟩, fun h => by simp [jsonBy, encodePrimitive]⟩
    · split at h'
      · cases h'
        exact ⟨.inr ⟨e, _, rfl⟩, fun h => by simp [jsonBy, encodePrimitive]⟩
      · cases h'
  · cases h'

theorem model : Strips defs (.ref "note") defs (.model "Note" false) := .ref (r := "note") rfl (.done rfl)

theorem neat : declared.Neat notes defs := by
  have h1 : (Schema.prim "str").Scalar defs := .inl ⟨"str", .done rfl⟩
  have o1 : ∀ a, title.schema.Occupies notes defs (title.place declared) a → a = .attr "title" := by
    intro a h
    rcases h1.occupies h with ⟨e, -⟩ | ⟨-, tag, e, rfl⟩ | ⟨e, -⟩
    · cases e
    · cases e; kernel_rfl
    · cases e
  have o2 : ∀ a, loud.schema.Occupies notes defs (loud.place declared).stored a → a = .attr "loud" := by
    intro a h
    rcases h1.occupies h with ⟨e, -⟩ | ⟨-, tag, e, rfl⟩ | ⟨e, -⟩
    · cases e
    · cases e; kernel_rfl
    · cases e
  have o3 : ∀ a, replies.schema.Occupies notes defs (replies.place declared) a → ∃ t, a = .child t := by
    intro a h
    have hs : Strips defs replies.schema defs (.list (.ref "note")) := .default (.done rfl)
    have item : ∀ {b}, (Schema.ref "note").Occupies notes defs (replies.place declared) b → ∃ t, b = .child t := by
      intro b h
      cases h with
      | text h1 => rcases h1.form model with ⟨_, e⟩ | e <;> cases e
      | nil h1 => rcases h1.form model with ⟨_, e⟩ | e <;> cases e
      | attr h1 => rcases h1.form model with ⟨_, e⟩ | e <;> cases e
      | elem => exact ⟨_, rfl⟩
      | attrs h1 =>
        rcases h1 with ⟨_, _, h1⟩ | ⟨_, h1⟩ <;> cases (model.det h1).2
      | mapElem => exact ⟨_, rfl⟩
      | raw => exact ⟨_, rfl⟩
      | model => exact ⟨_, rfl⟩
      | list h1 h2 => rcases h2 with rfl | rfl <;> cases (model.det h1).2
      | tuple h1 h2 => rcases h2 with rfl | rfl <;> cases (model.det h1).2
      | union h1 => cases (model.det h1).2
      | tagged h1 => cases (model.det h1).2
    cases h with
    | text h1 => rcases h1.form hs with ⟨_, e⟩ | e <;> cases e
    | nil h1 => rcases h1.form hs with ⟨_, e⟩ | e <;> cases e
    | attr h1 => rcases h1.form hs with ⟨_, e⟩ | e <;> cases e
    | elem => exact ⟨_, rfl⟩
    | attrs h1 =>
      rcases h1 with ⟨_, _, h1⟩ | ⟨_, h1⟩ <;> cases (hs.det h1).2
    | mapElem => exact ⟨_, rfl⟩
    | raw => exact ⟨_, rfl⟩
    | model => exact ⟨_, rfl⟩
    | list h1 h2 h3 =>
      rcases h2 with rfl | rfl <;> cases (hs.det h1).2
      exact item h3
    | tuple h1 h2 => rcases h2 with rfl | rfl <;> cases (hs.det h1).2
    | union h1 => cases (hs.det h1).2
    | tagged h1 => cases (hs.det h1).2
  refine ⟨?_, ?_, by decide, by decide, [([], title.place declared, title.schema), ([], replies.place declared, replies.schema)],
    [([], (loud.place declared).stored, loud.schema)], ?_, ?_, ?_, neat_single _, ?_, ?_⟩
  · simp [declared, title, cache, replies]
  · simp [declared, loud]
  · exact .cons ⟨.here (by decide), rfl⟩ (.cons ⟨.here (by decide), rfl⟩ .nil)
  · exact .cons ⟨.here (by decide), rfl⟩ .nil
  · refine .field ?_ (neat_single _)
    intro a ha u hu b hb
    rw [o1 a ha]
    simp only [List.mem_cons, List.not_mem_nil, or_false] at hu
    subst hu
    obtain ⟨t, rfl⟩ := o3 b hb
    exact id
  · intro e he hn
    simp only [List.cons_append, List.nil_append, List.mem_cons, List.not_mem_nil, or_false] at he
    rcases he with rfl | rfl | rfl
    · exact absurd (o1 _ hn) (by decide)
    · obtain ⟨t, e⟩ := o3 _ hn; cases e
    · exact absurd (o2 _ hn) (by decide)
  · intro e he a ha u hu b hb
    simp only [List.mem_cons, List.not_mem_nil, or_false] at he hu
    subst hu
    rw [o2 b hb]
    rcases he with rfl | rfl
    · rw [o1 a ha]; simp [Slot.Competes]
    · obtain ⟨t, rfl⟩ := o3 a ha; exact id

theorem notes_stable (eas : Bool) : notes.Stable noteEnv scalars behind false eas {} false where
  flags := rfl
  classes cls cd h := by
    unfold notes at h
    split at h <;> cases h
    refine ⟨by simp [declared], fun _ => rfl, false, defs, strips, neat, ?_⟩
    have hl : (Schema.prim "str").Leaf defs := .inl (.inl ⟨"str", .done rfl⟩)
    have hi : (Schema.ref "note").ItemAt defs (replies.place declared) := .model model
    have hc : (replies.place declared).location ≠ some .wrapped := by decide
    refine ⟨?_, ?_⟩
    · show ∀ f ∈ [title, cache, replies], _
      simp only [List.forall_mem_cons]
      refine ⟨fun _ => ⟨rfl, .leaf hl (by decide), by simp, ?_⟩, fun (e : cache.noXml = false) => by simp [cache] at e,
        fun _ => ⟨rfl, ?_, by simp, ?_⟩, by simp⟩
      · rintro x hx; cases hx
      · exact .list (item := .ref "note") (.default (.done rfl)) (.inl rfl) hc hi (.model model hc)
      · rintro x hx; cases hx
        exact ⟨true, .listEmpty (item := .ref "note") (.default (.done rfl)) (.inl rfl) (.inr rfl) hi (.inr rfl)⟩
    · show ∀ c ∈ [loud], _
      simp only [List.forall_mem_cons]
      refine ⟨⟨trivial, by simp, fun value _ => ⟨false, ?_⟩⟩, by simp⟩
      exact .attr hl rfl (.inl ⟨rfl, behind_str _ _ _⟩)

theorem noteEnv_plain : noteEnv.NoValidators := by
  intro cls m fs hm hb
  have hm' : history notes 9 program .empty cls = some m := hm
  obtain ⟨cd, -, -, h1, -⟩ := C75_program notes_standard 9 program cls m hm'
  unfold notes at h1
  split at h1
  · have h2 : history notes 9 program .empty "Note" = some { name := "Note", elementName := "note", body := .fields [
        { name := "title", ser := .attr "title" false }, { name := "replies", ser := .homog "Note" false (.proxy
          { cls := "Note", name := "note", nsmap := some [] }) }, { name := "loud", ser := .attr "loud" true }] } := by kernel_rfl
    rw [h2] at hm'
    cases hm'
    cases hb
    simp
  · cases h1

/-- Whatever document is read as a `Note`, the instance can be written, with its computed attributes, and comes back. -/
example (eas : Bool) (doc : Node) (k : Nat) (v : Val) (h : (fromXmlTree noteEnv eas k "Note" doc).1 = .ok v) :
    ∃ tree v' N, v'.bare = v.bare ∧ ∀ k ≥ N, toXmlTree noteEnv k {} "Note" v = .ok tree ∧ (fromXmlTree noteEnv eas k "Note" tree).1 = .ok v' :=
  C80_program notes_standard 9 program noteEnv rfl notes_all noteEnv_plain scalars behind notes_follow notes_only false eas {} false (notes_stable eas)
    "Note" doc k v h (by simp)

/-- Notes with answers. -/
inductive Note where
  | mk (title : String) (replies : List Note)

mutual
def Note.val : Note → Val
  | .mk t rs => .model "Note" [("title", .str t), ("cache", .str ""), ("replies", .list (Note.vals rs)), ("loud", .str (t ++ "!"))] ["title"]
def Note.vals : List Note → List Val
  | [] => []
  | r :: rs => r.val :: Note.vals rs
end

mutual
theorem worth : (x : Note) → (skip so : Bool) →
    Worth noteEnv scalars notes behind false { skipEmpty := skip } false so (.inst "Note" x.val)
  | .mk t rs, skip, so => by
    have hl : (Schema.prim "str").Leaf defs := .inl (.inl ⟨"str", .done rfl⟩)
    have hi : (Schema.ref "note").ItemAt defs (replies.place declared) := .model model
    have hv : (Note.mk t rs).val = .model "Note" [("title", .str t), ("cache", .str ""), ("replies", .list (Note.vals rs)),
        ("loud", .str (t ++ "!"))] ["title"] := by simp only [Note.val]
    rw [hv]
    refine .fields (rows := [(title, .str t, some false, true), (cache, .str "", none, false), (replies, .list (Note.vals rs), some rs.isEmpty, false)])
      (more := [(loud, some false, true)]) (cd := declared) (r := false) (d := defs) rfl strips neat rfl (fun _ => rfl) (fun _ => rfl) rfl ?_ ?_ ?_ ?_ ?_ ?_ ?_ ?_
    · simp [title, cache, replies]
    · simp [cache]
    · simp only [List.forall_mem_cons]
      refine ⟨by simp, fun _ => ⟨_, rfl, rfl⟩, fun h => ?_, by simp⟩
      cases rs with
      | nil => exact ⟨_, rfl, rfl⟩
      | cons r rs => simp at h
    · exact fun _ => .inl ⟨_, .head _, by simp⟩
    · simp only [List.forall_mem_cons]
      refine ⟨?_, by simp, ?_, by simp⟩
      · rintro b' h; cases h
        exact .attr hl rfl (.inl ⟨rfl, _, rfl⟩)
      · rintro b' h; cases h
        cases rs with
        | nil => exact .listEmpty (item := .ref "note") (.default (.done rfl)) (.inl rfl) (.inr rfl) hi (.inr rfl)
        | cons r rs =>
          refine .list (item := .ref "note") (.default (.done rfl)) (.inl rfl) (.inr rfl) hi ?_
          intro x hx
          exact .model model (.inr rfl) (worths (r :: rs) _ _ x hx)
    · simp
    · simp
    · simp only [List.forall_mem_cons]
      refine ⟨?_, by simp⟩
      rintro b' h; cases h
      exact .attr hl rfl (.inl ⟨rfl, _, rfl⟩)
theorem worths : (rs : List Note) → (skip so : Bool) → ∀ x ∈ Note.vals rs,
    Worth noteEnv scalars notes behind false { skipEmpty := skip } false so (.inst "Note" x)
  | [], _, _ => by simp [Note.vals]
  | r :: rs, skip, so => by
    intro x hx
    simp only [Note.vals, List.mem_cons] at hx
    rcases hx with rfl | hx
    · exact worth r skip so
    · exact worths rs skip so x hx
end

/-- Notes of all widths and depths come back, with their computed attributes. -/
example (skip : Bool) (x : Note) : ∃ tree v' N, v'.bare = x.val.bare ∧
    ∀ n ≥ N, toXmlTree noteEnv n { skipEmpty := skip } "Note" x.val = .ok tree ∧ (fromXmlTree noteEnv false n "Note" tree).1 = .ok v' :=
  C74_program notes_standard 9 program noteEnv rfl notes_all scalars behind notes_follow false _ false true "Note" x.val (worth x skip true)

end NotesEx

end PXml
