import Verif.SpecProgramVocabulary
import Verif.Props.Declared
import Verif.Props.Vocabulary
import Verif.Props.TypedText

/-!
# The output has the structure that the declarations prescribe: C76 for programs
-/

namespace PXml

variable {classes : Classes} {keyed : String → String → String → Prop} {d : Dict String Schema}

/-- The vocabulary of a set of permissions. -/
def Permit.words (Q : Permit → Prop) : Vocabulary where
  attr t k := Q (.attr t k)
  child t c := Q (.child t c)
  text t := Q (.text t)
  free t := Q (.any t)

theorem Place.Compound.notWrapped {p : Place} (h : p.Compound) : p.location ≠ some .wrapped := by
  rcases h with h | h <;> rw [h] <;> simp

theorem path_permitted {V : Vocabulary} (names : List String) (t : String) (h : ∀ a b, (a, b) ∈ (t :: names).zip names → V.child a b) :
    V.Path t names := by
  induction names generalizing t with
  | nil => trivial
  | cons n ns ih =>
    simp only [List.zip_cons_cons, List.mem_cons] at h
    exact ⟨h t n (.inl rfl), ih n fun a b hab => h a b (.inr hab)⟩

theorem space_entry {p : Place} {a : AttrsSer} (h : a.Fits p) : a.space = p.entrySpace := by
  obtain ⟨h1, ⟨m, h2, h3⟩, h4, -⟩ := h
  unfold AttrsSer.space Place.entrySpace
  rw [h1, h2, h4]
  cases p.nsAttrs with
  | false => rfl
  | true =>
    simp only [if_true, Option.bind_some]
    cases p.prefix? with
    | none => rfl
    | some x => simp only [Option.bind_some]; split <;> simp [h3]

theorem declared_words (Q : Permit → Prop) {p : Place} {s : Schema} {x : Ser} (h : s.Becomes classes keyed d p x) (t : String)
    (hQ : ∀ w, s.Permits classes d p t w → Q w) : x.DeclaredIn (Permit.words Q) (fun cls tag => Q (.inst cls tag)) t := by
  induction h generalizing t with
  | wrapped h1 h2 h3 h4 _ ih =>
    exact ⟨path_permitted _ _ fun a b hab => hQ _ (.path h1 h2 h3 hab), ih _ fun w hw => hQ w (.wrapped h1 h2 h3 hw)⟩
  | text h1 h2 => exact ⟨hQ _ (.text h1 h2), fun hn => hQ _ (.textNil h1 h2 hn)⟩
  | attr h1 h2 h3 => exact hQ _ (.attr h1 h2 h3)
  | elem h1 h2 h3 => exact ⟨hQ _ (.elem h1 h2 h3), hQ _ (.elemText h1 h2 h3), fun hn => hQ _ (.elemNil h1 h2 h3 hn)⟩
  | attrs h1 h2 h3 =>
    intro k
    rw [space_entry h3]
    exact hQ _ (.attrs h1 h2)
  | mapElem h1 h2 h3 h4 =>
    refine ⟨hQ _ (.mapElem h1 h2 h3), fun k => ?_⟩
    rw [space_entry h4]
    exact hQ _ (.mapElemAttrs h1 h2 h3)
  | raw h1 h2 => exact hQ _ (.raw h1 h2)
  | model h1 h2 h3 h4 =>
    exact ⟨hQ _ (.model h1 h2 h3 h4), fun hn => hQ _ (.modelNil h1 h2 h3 h4 hn), hQ _ (.modelInst h1 h2 h3 h4)⟩
  | list h1 h2 h3 _ ih => exact ih t fun w hw => hQ w (.list h1 h2 h3 hw)
  | @tuple p s u title rows h1 h2 h3 h4 ih =>
    have hr : ∀ r ∈ rows, r.2.DeclaredIn (Permit.words Q) (fun cls tag => Q (.inst cls tag)) t :=
      fun r hr => ih r hr t fun w hw => hQ w (.tuple h1 h2 h3 (List.mem_map_of_mem hr) hw)
    simp only [Ser.DeclaredIn]
    clear h1 h2 h4 ih
    induction rows with
    | nil => trivial
    | cons r rows ih => exact ⟨hr r (by simp), ih (fun r' h' => hr r' (by simp [h']))⟩
  | primUnion h1 _ h3 _ ih => exact ih t fun w hw => hQ w (.union h1 (by simp) h3 hw)
  | modelUnion h1 _ h3 _ _ ih =>
    simp only [Ser.DeclaredIn, List.mem_map]
    rintro p ⟨r, hr, rfl⟩
    have := ih r hr t fun w hw => hQ w (.union h1 (List.mem_map_of_mem hr) h3.notWrapped hw)
    simpa only [Ser.DeclaredIn] using this
  | tagged h1 _ h3 _ _ h6 _ _ _ ih =>
    simp only [Ser.DeclaredIn]
    intro a ha
    have := ih a ha t fun w hw => hQ w (.tagged h1 (h6 a ha) h3 hw)
    simpa only [Ser.DeclaredIn] using this

/-- C76 for programs: whatever classes a program defines, in whatever order; whatever is written for an instance of a class, and with
whatever flags, the root element is that of the class, and every element, attribute and text in the document stands where the
declarations permit it.  Nothing follows the elements. -/
theorem C76_program (hst : classes.Standard) (hns : ∀ cls cd, classes cls = some cd → ∀ f, cd.serializers f = none) (n : Nat)
    (es : List Event) (env : Env) (henv : env.model = history classes n es .empty) (k : Nat) (fl : Flags) (cls : String) (v : Val)
    (root : Node) (h : toXmlTree env k fl cls v = .ok root) :
    ∃ cd, classes cls = some cd ∧ root.tag = cd.rootName ∧ root.Speaks (classes.vocabulary cls) := by
  have hfit := fun c m (hm : env.model c = some m) => C75_program hst n es c m (by rw [← henv]; exact hm)
  cases hm : env.model cls with
  | none => unfold toXmlTree at h; rw [hm] at h; cases h
  | some m =>
    obtain ⟨cd, r, d, h1, h2, h3, h4⟩ := hfit cls m hm
    refine ⟨cd, h1, ?_⟩
    rw [← h3.elementName]
    refine C76_vocabulary env ?_ (classes.vocabulary cls) (fun c t => classes.Permits cls (.inst c t)) ?_ k fl cls v m hm ?_ root h
    · intro c m' fs hm' hb x hx
      obtain ⟨cd', r', d', g1, g2, g3, g4⟩ := hfit c m' hm'
      have gb := g3.body
      split at gb
      · obtain ⟨a, b, e1, e2, e3⟩ := gb
        rw [hb] at e1
        cases e1
        rcases List.mem_append.1 hx with hx | hx
        · obtain ⟨f, -, hf⟩ := e2.mem_right x hx
          rw [hf.serializer]; exact hns c cd' g1 _
        · obtain ⟨f, -, hf⟩ := e3.mem_right x hx
          rw [hf.serializer]; exact hns c cd' g1 _
      · obtain ⟨y, e1, -⟩ := gb
        rw [hb] at e1
        cases e1
    · intro c t m' hat hm'
      obtain ⟨cd', r', d', g1, g2, g3, g4⟩ := hfit c m' hm'
      have hin : ∀ w, cd'.Permits classes d' t w → classes.Permits cls w := fun w hw => .inside hat g1 g2 hw
      show m'.DeclaredIn (Permit.words (classes.Permits cls)) _ t
      unfold ModelSer.Becomes at g4
      unfold ClassDef.Permits at hin
      unfold ModelSer.DeclaredIn
      split at g4
      · rename_i fs cs hbody
        obtain ⟨a, b, e1, e2, e3⟩ := g4
        rw [e1]
        intro x hx
        rw [hbody] at hin
        rcases List.mem_append.1 hx with hx | hx
        · obtain ⟨f, hf, -, hx⟩ := e2.mem_right x hx
          simp only [List.mem_filter, Bool.not_eq_true'] at hf
          exact declared_words _ hx t fun w hw => hin w (.inl ⟨f, hf.1, hf.2, hw⟩)
        · obtain ⟨f, hf, -, hx⟩ := e3.mem_right x hx
          exact declared_words _ hx t fun w hw => hin w (.inr ⟨f, hf, hw⟩)
      · rename_i s infos hbody
        obtain ⟨y, e1, e2⟩ := g4
        rw [e1]
        rw [hbody] at hin
        exact declared_words _ e2 t fun w hw => hin w hw
    · rw [h3.elementName]; exact .root h1

/-! ## Non-vacuity -/

namespace TypedEx

/-- What the declarations of `Doc` permit. -/
def Permitted : Permit → Prop
  | .attr t k => t = "doc" ∧ k = "open"
  | .child t c => (t = "doc" ∧ (c = "remark" ∨ c = "kids")) ∨ (t = "kids" ∧ c = "doc")
  | .text t => t = "remark"
  | .any _ => False
  | .inst cls t => cls = "Doc" ∧ t = "doc"

theorem opn_permits {w : Permit} (h : opn.schema.Permits docs defs (opn.place declared) "doc" w) : Permitted w := by
  have hs : Strips defs opn.schema defs (.prim "bool") := .done rfl
  have hl : (opn.place declared).location = some .attribute := rfl
  have hg : (opn.place declared).given = some "open" := rfl
  cases h with
  | attr h1 h2 h3 =>
    rw [hg] at h3; cases h3
    exact ⟨rfl, rfl⟩
  | attrs h1 h2 => rw [hl] at h2; cases h2
  | mapElem h1 h2 => rw [hl] at h2; cases h2
  | mapElemAttrs h1 h2 => rw [hl] at h2; cases h2
  | path h1 | wrapped h1 | text _ h1 | textNil _ h1 | elem _ h1 | elemText _ h1 | elemNil _ h1 => rw [hl] at h1; cases h1
  | raw h1 | model h1 | modelInst h1 | modelNil h1 | union h1 | tagged h1 => cases (hs.det h1).2
  | list h1 h2 | tuple h1 h2 => cases (hs.det h1).2; rcases h2 with h2 | h2 <;> cases h2

theorem note_permits {w : Permit} (h : note.schema.Permits docs defs (note.place declared) "doc" w) : Permitted w := by
  have hs : Strips defs note.schema defs (.prim "str") := .default (.nullable (.done rfl))
  have hl : (note.place declared).location = some .element := rfl
  have hg : (note.place declared).given = some "remark" := rfl
  cases h with
  | attr h1 h2 h3 => rw [hl] at h2; cases h2
  | path h1 | wrapped h1 | text _ h1 | textNil _ h1 => rw [hl] at h1; cases h1
  | elem h1 h2 h3 => rw [hg] at h3; cases h3; exact .inl ⟨rfl, .inl (by kernel_rfl)⟩
  | elemText h1 h2 h3 => rw [hg] at h3; cases h3; show _ = _; kernel_rfl
  | elemNil _ _ _ h1 => cases h1
  | attrs h1 | mapElem h1 | mapElemAttrs h1 => rcases h1.form hs with ⟨_, _, h⟩ | ⟨_, h⟩ <;> cases h
  | raw h1 | model h1 | modelInst h1 | modelNil h1 | union h1 | tagged h1 => cases (hs.det h1).2
  | list h1 h2 | tuple h1 h2 => cases (hs.det h1).2; rcases h2 with h2 | h2 <;> cases h2

theorem item_permits {w : Permit} (h : Schema.Permits docs defs (kids.place declared).inside "kids" (.ref "doc") w) : Permitted w := by
  have hs : Strips defs (.ref "doc") defs (.model "Doc" false) := .ref (s := .model "Doc" false) rfl (.done rfl)
  have hl : (kids.place declared).inside.location = some .element := rfl
  have hsc : ∀ ty, ¬Strips defs (.ref "doc") defs (.prim ty) := fun ty h => by cases (hs.det h).2
  cases h with
  | attr h1 h2 h3 => rw [hl] at h2; cases h2
  | path h1 | wrapped h1 | text _ h1 | textNil _ h1 => rw [hl] at h1; cases h1
  | elem h1 | elemText h1 | elemNil h1 => rcases h1 with ⟨ty, h⟩ | h <;> cases (hs.det h).2
  | attrs h1 | mapElem h1 | mapElemAttrs h1 => rcases h1.form hs with ⟨_, _, h⟩ | ⟨_, h⟩ <;> cases h
  | model h1 _ h2 h3 => cases (hs.det h1).2; cases h2; cases h3; exact .inr ⟨rfl, by kernel_rfl⟩
  | modelInst h1 _ h2 h3 => cases (hs.det h1).2; cases h2; cases h3; exact ⟨rfl, by kernel_rfl⟩
  | modelNil _ _ _ _ h => cases h
  | raw h1 | union h1 | tagged h1 => cases (hs.det h1).2
  | list h1 h2 | tuple h1 h2 => cases (hs.det h1).2; rcases h2 with h2 | h2 <;> cases h2

theorem list_permits {w : Permit} (h : kids.schema.Permits docs defs (kids.place declared).inside "kids" w) : Permitted w := by
  have hs : Strips defs kids.schema defs (.list (.ref "doc")) := .default (.done rfl)
  have hl : (kids.place declared).inside.location = some .element := rfl
  cases h with
  | attr h1 h2 h3 => rw [hl] at h2; cases h2
  | path h1 | wrapped h1 | text _ h1 | textNil _ h1 => rw [hl] at h1; cases h1
  | elem h1 | elemText h1 | elemNil h1 => rcases h1 with ⟨ty, h⟩ | h <;> cases (hs.det h).2
  | attrs h1 | mapElem h1 | mapElemAttrs h1 => rcases h1.form hs with ⟨_, _, h⟩ | ⟨_, h⟩ <;> cases h
  | model h1 | modelInst h1 | modelNil h1 | raw h1 | union h1 | tagged h1 => cases (hs.det h1).2
  | list h1 h2 _ h3 =>
    cases (hs.det h1).2
    rcases h2 with h2 | h2 <;> cases h2
    exact item_permits h3
  | tuple h1 h2 => cases (hs.det h1).2; rcases h2 with h2 | h2 <;> cases h2

theorem segments_kids {parts : List String} (h : Segments "kids" parts) : parts = ["kids"] := by
  refine segments_unique h ⟨by simp, ?_, by kernel_rfl⟩
  simp only [List.mem_singleton, forall_eq]
  decide

theorem kids_permits {w : Permit} (h : kids.schema.Permits docs defs (kids.place declared) "doc" w) : Permitted w := by
  have hs : Strips defs kids.schema defs (.list (.ref "doc")) := .default (.done rfl)
  have hl : (kids.place declared).location = some .wrapped := rfl
  have hp : (kids.place declared).path = some "kids" := rfl
  have hn : ["kids"].map (kids.place declared).elementName = ["kids"] := by kernel_rfl
  cases h with
  | path h1 h2 h3 h4 =>
    rw [hp] at h2; cases h2
    rw [segments_kids h3, hn] at h4
    simp only [List.zip_cons_cons, List.zip_nil_right, List.mem_singleton, Prod.mk.injEq] at h4
    exact .inl ⟨h4.1, .inr h4.2⟩
  | wrapped h1 h2 h3 h4 =>
    rw [hp] at h2; cases h2
    rw [segments_kids h3, hn] at h4
    exact list_permits h4
  | attr h1 h2 h3 => rw [hl] at h2; cases h2
  | text _ h1 | textNil _ h1 => rw [hl] at h1; cases h1
  | elem h1 | elemText h1 | elemNil h1 => rcases h1 with ⟨ty, h⟩ | h <;> cases (hs.det h).2
  | attrs h1 | mapElem h1 | mapElemAttrs h1 => rcases h1.form hs with ⟨_, _, h⟩ | ⟨_, h⟩ <;> cases h
  | model h1 | modelInst h1 | modelNil h1 | raw h1 | union h1 | tagged h1 => cases (hs.det h1).2
  | list _ _ h3 => exact absurd hl h3.notWrapped
  | tuple h1 h2 => cases (hs.det h1).2; rcases h2 with h2 | h2 <;> cases h2

theorem permitted {w : Permit} (h : docs.Permits "Doc" w) : Permitted w := by
  induction h with
  | root h => cases h; exact ⟨rfl, by kernel_rfl⟩
  | inside _ h1 h2 h3 ih =>
    obtain ⟨rfl, rfl⟩ := ih
    cases h1
    cases (strips.det h2).1
    rcases h3 with ⟨f, hf, -, h⟩ | ⟨c, hc, -⟩
    · simp only [List.mem_cons, List.not_mem_nil, or_false] at hf
      rcases hf with rfl | rfl | rfl
      · exact opn_permits h
      · exact note_permits h
      · exact kids_permits h
    · cases hc

/-- Non-vacuity: all documents after the program, whatever the instance. -/
example (n : Nat) (fl : Flags) (v : Val) (root : Node) (h : toXmlTree docEnv n fl "Doc" v = .ok root) :
    root.tag = "doc" ∧ root.Speaks (docs.vocabulary "Doc") := by
  obtain ⟨cd, h1, h2, h3⟩ := C76_program docs_standard (by
    intro cls cd h
    unfold docs at h
    split at h <;> cases h
    exact fun _ => rfl) 9 program docEnv rfl n fl "Doc" v root h
  cases h1
  exact ⟨h2.trans (by kernel_rfl), h3⟩

/-- The vocabulary has nothing but what is declared: no other attributes, and no text in `doc` elements. -/
example : ¬(docs.vocabulary "Doc").attr "doc" "note" ∧ ¬(docs.vocabulary "Doc").text "doc" ∧ ∀ t, ¬(docs.vocabulary "Doc").free t := by
  refine ⟨fun h => ?_, fun h => ?_, fun t h => permitted h⟩
  · exact absurd (permitted h).2 (by decide)
  · exact absurd (show "doc" = "remark" from permitted h) (by decide)

/-- The attribute `open` is in it. -/
example : (docs.vocabulary "Doc").attr "doc" "open" :=
  .inside (.root rfl) rfl strips (.inl ⟨opn, by simp, rfl, .attr (tag := "open") (.inl ⟨_, .done rfl⟩) rfl rfl⟩)

end TypedEx

end PXml
