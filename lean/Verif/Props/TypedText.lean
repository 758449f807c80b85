import Verif.Props.TypedProgram
import Verif.Props.Indent
import Verif.Props.Vocabulary

/-!
# Typed instances come back from text (C74)
-/

namespace PXml

/-- C74: every sound instance comes back from text, if the library reads back what it printed for the instance. -/
theorem C74_text (env : Env) (henv : env.Everywhere (Ser.Resolved env)) (hno : env.NoValidators) (hraw : env.Everywhere Ser.NotRaw)
    (P : Prims) (types : String → Option Types)
    (hT : env.HasTypes types) (hF : env.Follows P types) (print : Node → Except PyErr String) (parse : String → Except PyErr Node)
    (eas : Bool) (fl : Flags) (wh so : Bool) (cls : String) (v : Val) (h : Sound env P types eas fl wh so (.inst cls v))
    (hlib : ∀ tree, (∃ N, ∀ n ≥ N, toXmlTree env n fl cls v = .ok tree) → Reparses print parse tree) :
    ∃ text v' N, v'.bare = v.bare ∧ ∀ n ≥ N, toXml env print n fl cls v = .ok text ∧ fromXml env parse eas n cls text = .ok v' := by
  obtain ⟨fields, set, fields', set', rfl, h1, h2⟩ := sound_back hT hF h
  obtain ⟨text, N, h3⟩ := C68_text_round_trip env henv hno hraw print parse eas fl cls _ _ h1 hlib
  exact ⟨text, _, N, h2, h3⟩

/-- C74: with raw fields, too, if the library tells no text and an empty one apart. -/
theorem C74_text_raw (env : Env) (henv : env.Everywhere (Ser.Resolved env)) (hno : env.NoValidators) (P : Prims) (types : String → Option Types)
    (hT : env.HasTypes types) (hF : env.Follows P types) (print : Node → Except PyErr String) (parse : String → Except PyErr Node)
    (eas : Bool) (fl : Flags) (wh so : Bool) (cls : String) (v : Val) (h : Sound env P types eas fl wh so (.inst cls v))
    (hlib : ∀ tree, (∃ N, ∀ n ≥ N, toXmlTree env n fl cls v = .ok tree) → ∃ s tree', print tree = .ok s ∧ parse s = .ok tree' ∧
      tree'.dropPrefixes.dropLines = tree.dropPrefixes.dropLines) :
    ∃ text v' N, v'.bare = v.bare ∧ ∀ n ≥ N, toXml env print n fl cls v = .ok text ∧ fromXml env parse eas n cls text = .ok v' := by
  obtain ⟨fields, set, fields', set', rfl, h1, h2⟩ := sound_back hT hF h
  obtain ⟨text, N, h3⟩ := C68_text_round_trip_raw env henv hno print parse eas fl cls _ _ h1 hlib
  exact ⟨text, _, N, h2, h3⟩

/-- C74: without raw fields the library may put white space between elements, and may print empty texts as no text. -/
theorem C74_pretty (env : Env) (henv : env.Everywhere (Ser.Resolved env)) (hno : env.NoValidators) (hraw : env.Everywhere Ser.NotRaw)
    (K : List String) (hK : env.Everywhere (Ser.TextsIn env K)) (P : Prims) (types : String → Option Types)
    (hT : env.HasTypes types) (hF : env.Follows P types) (print : Node → Except PyErr String) (parse : String → Except PyErr Node)
    (eas : Bool) (fl : Flags) (wh so : Bool) (cls : String) (hroot : ∀ m, env.model cls = some m → m.OwnText → m.elementName ∈ K) (v : Val)
    (h : Sound env P types eas fl wh so (.inst cls v))
    (hlib : ∀ tree, (∃ N, ∀ n ≥ N, toXmlTree env n fl cls v = .ok tree) → ∃ s tree', print tree = .ok s ∧ parse s = .ok tree' ∧
      tree'.SameButBlank K tree) :
    ∃ text v' N, v'.bare = v.bare ∧ ∀ n ≥ N, toXml env print n fl cls v = .ok text ∧ fromXml env parse eas n cls text = .ok v' := by
  obtain ⟨fields, set, fields', set', rfl, h1, h2⟩ := sound_back hT hF h
  obtain ⟨text, N, h3⟩ := C69_pretty_round_trip env henv hno hraw K hK print parse eas fl cls _ _ h1 hroot hlib
  exact ⟨text, _, N, h2, h3⟩

/-- C74: from text, after a program. -/
theorem C74_program_text {classes : Classes} (hst : classes.Standard) (n : Nat) (es : List Event) (env : Env)
    (henv : env.model = history classes n es .empty) (hall : ∀ c, (classes c).isSome = true → (history classes n es .empty c).isSome = true)
    (hno : env.NoValidators) (hraw : env.Everywhere Ser.NotRaw)
    (P : Prims) (B : Behind) (hF : env.FollowsDeclared P classes B)
    (print : Node → Except PyErr String) (parse : String → Except PyErr Node) (eas : Bool) (fl : Flags)
    (wh so : Bool) (cls : String) (v : Val) (h : Worth env P classes B eas fl wh so (.inst cls v))
    (hlib : ∀ tree, (∃ N, ∀ k ≥ N, toXmlTree env k fl cls v = .ok tree) → Reparses print parse tree) :
    ∃ text v' N, v'.bare = v.bare ∧ ∀ k ≥ N, toXml env print k fl cls v = .ok text ∧ fromXml env parse eas k cls text = .ok v' := by
  obtain ⟨types, h1, h2, h3, h4⟩ := program_sound hst n es env henv hall P B hF
  exact C74_text env h1 hno hraw P types h2 h3 print parse eas fl wh so cls v (h4 eas fl wh so cls v h) hlib

/-- C74: from indented text, after a program. -/
theorem C74_program_pretty {classes : Classes} (hst : classes.Standard) (n : Nat) (es : List Event) (env : Env)
    (henv : env.model = history classes n es .empty) (hall : ∀ c, (classes c).isSome = true → (history classes n es .empty c).isSome = true)
    (hno : env.NoValidators) (hraw : env.Everywhere Ser.NotRaw) (K : List String) (hK : env.Everywhere (Ser.TextsIn env K))
    (P : Prims) (B : Behind) (hF : env.FollowsDeclared P classes B)
    (print : Node → Except PyErr String) (parse : String → Except PyErr Node) (eas : Bool) (fl : Flags)
    (wh so : Bool) (cls : String) (hroot : ∀ m, env.model cls = some m → m.OwnText → m.elementName ∈ K) (v : Val)
    (h : Worth env P classes B eas fl wh so (.inst cls v))
    (hlib : ∀ tree, (∃ N, ∀ k ≥ N, toXmlTree env k fl cls v = .ok tree) → ∃ s tree', print tree = .ok s ∧ parse s = .ok tree' ∧
      tree'.SameButBlank K tree) :
    ∃ text v' N, v'.bare = v.bare ∧ ∀ k ≥ N, toXml env print k fl cls v = .ok text ∧ fromXml env parse eas k cls text = .ok v' := by
  obtain ⟨types, h1, h2, h3, h4⟩ := program_sound hst n es env henv hall P B hF
  exact C74_pretty env h1 hno hraw K hK P types h2 h3 print parse eas fl wh so cls hroot v (h4 eas fl wh so cls v h) hlib

/-! ## Documents in a vocabulary of plain names can be printed and parsed -/

namespace Xml

/-- The names are plain, and nothing is arbitrary. -/
def Plain (V : Vocabulary) : Prop := (∀ t k, V.attr t k → IsName k) ∧ (∀ t c, V.child t c → IsName c) ∧ ∀ t, ¬V.free t

/-- No element has both text and children, and nothing is arbitrary. -/
def Separate (V : Vocabulary) : Prop := (∀ t c, V.child t c → ¬V.text t) ∧ ∀ t, ¬V.free t

variable {V : Vocabulary}

mutual
theorem speaks_printable (hV : Plain V) (n : Node) (ht : IsName n.tag) (h : n.Speaks V) : Printable n := by
  cases n with
  | elem tag attrib nsmap text tail children line =>
    simp only [Node.Speaks] at h
    exact ⟨ht, fun k hk => hV.1 _ _ (h.1 k hk), speakIn_printable hV tag children h.2.2.2⟩
  | comment => exact h.elim
  | pi => exact h.elim
theorem speakIn_printable (hV : Plain V) (t : String) (l : List Node) (h : Node.SpeakIn V t l) : PrintableList l := by
  cases l with
  | nil => trivial
  | cons n l =>
    simp only [Node.SpeakIn] at h
    obtain ⟨h1, h2⟩ := h.1 (hV.2.2 t)
    exact ⟨speaks_printable hV n (hV.2.1 _ _ h1) h2, speakIn_printable hV t l h.2⟩
end

mutual
theorem speaks_indentable (hV : Separate V) (K : List String) (hK : ∀ t ∈ K, V.text t) (n : Node) (h : n.Speaks V) : Indentable K n := by
  cases n with
  | elem tag attrib nsmap text tail children line =>
    simp only [Node.Speaks] at h
    obtain ⟨-, h1, h2, h3⟩ := h
    have h4 : children ≠ [] → ¬V.text tag := by
      intro hc
      cases children with
      | nil => exact absurd rfl hc
      | cons c cs => exact hV.1 _ _ (h3.1 (hV.2 tag)).1
    refine ⟨?_, h2, fun hc => ?_, speakIn_indentable hV K hK tag children h3⟩
    · cases children with
      | nil => exact .inl rfl
      | cons c cs => exact .inr fun hm => h4 (by simp) (hK _ hm)
    · exact Classical.byContradiction fun e => h4 hc (h1 e)
  | comment => exact h.elim
  | pi => exact h.elim
theorem speakIn_indentable (hV : Separate V) (K : List String) (hK : ∀ t ∈ K, V.text t) (t : String) (l : List Node)
    (h : Node.SpeakIn V t l) : IndentableList K l := by
  cases l with
  | nil => trivial
  | cons n l =>
    simp only [Node.SpeakIn] at h
    exact ⟨speaks_indentable hV K hK n (h.1 (hV.2 t)).2, speakIn_indentable hV K hK t l h.2⟩
end

end Xml

namespace TypedEx

/-- The class after the program. -/
def docSer : ModelSer where
  name := "Doc"
  elementName := "doc"
  body := .fields [
    { name := "open", ser := .attr "open" false },
    { name := "note", ser := .elem "remark" (some []) .strict false false, alias := some "remark" },
    { name := "kids", ser := .wrap ["kids"] (some []) .strict false (.homog "Doc" false (.proxy { cls := "Doc", name := "doc", nsmap := some [] })) }]

theorem docEnv_model (cls : String) : docEnv.model cls = if cls = "Doc" then some docSer else none := by
  show history docs 9 program .empty cls = _
  by_cases h : cls = "Doc"
  · subst h
    rw [if_pos rfl]
    kernel_rfl
  · rw [if_neg h]
    cases hm : history docs 9 program .empty cls with
    | none => rfl
    | some m =>
      obtain ⟨cd, -, -, h1, -⟩ := C75_program docs_standard 9 program cls m hm
      unfold docs at h1
      split at h1
      · exact absurd rfl h
      · cases h1

theorem docEnv_is {cls : String} {m : ModelSer} (h : docEnv.model cls = some m) : cls = "Doc" ∧ m = docSer := by
  rw [docEnv_model] at h
  split at h
  · cases h; exact ⟨by assumption, rfl⟩
  · cases h

theorem docEnv_plain : docEnv.NoValidators ∧ docEnv.NoSerializers ∧ docEnv.Everywhere Ser.NotRaw ∧
    docEnv.Everywhere (Ser.TextsIn docEnv ["remark"]) ∧ ¬docSer.OwnText := by
  have ho : ¬docSer.OwnText := by
    rintro ⟨f, hf, h⟩
    simp only [List.mem_cons, List.not_mem_nil, or_false] at hf
    rcases hf with rfl | rfl | rfl <;> exact h.elim
  refine ⟨?_, ?_, ?_, ?_, ho⟩
  · intro cls m fs hm hb
    obtain ⟨rfl, rfl⟩ := docEnv_is hm
    cases hb
    simp
  · intro cls m fs hm hb
    obtain ⟨rfl, rfl⟩ := docEnv_is hm
    cases hb
    simp
  · intro cls m hm
    obtain ⟨rfl, rfl⟩ := docEnv_is hm
    simp [ModelSer.Everywhere, docSer, Ser.NotRaw]
  · intro cls m hm
    obtain ⟨rfl, rfl⟩ := docEnv_is hm
    simp only [ModelSer.Everywhere, docSer, List.forall_mem_cons]
    refine ⟨by simp [Ser.TextsIn], by simp [Ser.TextsIn], ?_, by simp⟩
    simp only [Ser.everywhere_wrap, Ser.everywhere_homog, Ser.everywhere_proxy, Ser.TextsIn, Ser.OwnText]
    refine ⟨False.elim, trivial, fun m hm h => ?_⟩
    obtain ⟨-, rfl⟩ := docEnv_is hm
    exact absurd h ho

/-- `<doc open="..."><remark>text</remark><kids><doc open="...">...</doc></kids></doc>` -/
def words : Vocabulary where
  attr t k := t = "doc" ∧ k = "open"
  child t c := (t = "doc" ∧ (c = "remark" ∨ c = "kids")) ∨ (t = "kids" ∧ c = "doc")
  text t := t = "remark"

theorem declaredIn : docEnv.DeclaredIn words fun cls t => cls = "Doc" ∧ t = "doc" := by
  rintro cls t m ⟨rfl, rfl⟩ hm
  obtain ⟨-, rfl⟩ := docEnv_is hm
  simp [ModelSer.DeclaredIn, docSer, Ser.DeclaredIn, Proxy.DeclaredIn, words, Vocabulary.Path]

theorem words_plain : Xml.Plain words ∧ Xml.Separate words ∧ Xml.IsName "doc" := by
  have hn : ∀ s : String, Xml.IsName s ↔ (s.toList ≠ [] ∧ ∀ c ∈ s.toList, Xml.isNameChar c = true) := fun _ => Iff.rfl
  refine ⟨⟨?_, ?_, fun t h => h⟩, ⟨?_, fun t h => h⟩, ?_⟩
  · rintro t k ⟨rfl, rfl⟩
    simp [hn, Xml.isNameChar]
  · rintro t c (⟨rfl, rfl | rfl⟩ | ⟨rfl, rfl⟩) <;> simp [hn, Xml.isNameChar]
  · rintro t c (⟨rfl, -⟩ | ⟨rfl, -⟩) <;> simp [words]
  · simp [hn, Xml.isNameChar]

/-- C76 for documents: whatever is written for them. -/
theorem doc_speaks {n : Nat} {fl : Flags} {v : Val} {tree : Node} (h : toXmlTree docEnv n fl "Doc" v = .ok tree) :
    tree.tag = "doc" ∧ tree.Speaks words :=
  C76_vocabulary docEnv docEnv_plain.2.1 words _ declaredIn n fl "Doc" v docSer (by rw [docEnv_model]; rfl) ⟨rfl, rfl⟩ tree h

/-- Documents of all widths and depths, with any notes, come back from the text that is printed and parsed in `ExampleXml.lean`. -/
example (skip : Bool) (x : Doc) (h : x.Noted) : ∃ text v' N, v'.bare = x.val.bare ∧
    ∀ n ≥ N, toXml docEnv Xml.print n { excludeNone := true, skipEmpty := skip } "Doc" x.val = .ok text ∧
      fromXml docEnv Xml.parse false n "Doc" text = .ok v' := by
  refine C74_program_text docs_standard 9 program docEnv rfl docs_all docEnv_plain.1 docEnv_plain.2.2.1 scalars behind docs_follow _ _
    false _ true true "Doc" x.val (worth skip true h) ?_
  rintro tree ⟨N, ht⟩
  obtain ⟨h1, h2⟩ := doc_speaks (ht N (by omega))
  obtain ⟨s, t', h3, h4, h5⟩ := Xml.parsed tree (Xml.speaks_printable words_plain.1 tree (by rw [h1]; exact words_plain.2.2) h2)
  refine ⟨s, t', h3, h4, ?_⟩
  rw [← Xml.said_drop t', h5, Xml.said_said]

/-- They come back from the indented text, too. -/
example (skip : Bool) (x : Doc) (h : x.Noted) : ∃ text v' N, v'.bare = x.val.bare ∧
    ∀ n ≥ N, toXml docEnv Xml.pretty n { excludeNone := true, skipEmpty := skip } "Doc" x.val = .ok text ∧
      fromXml docEnv Xml.parse false n "Doc" text = .ok v' := by
  refine C74_program_pretty docs_standard 9 program docEnv rfl docs_all docEnv_plain.1 docEnv_plain.2.2.1 ["remark"] docEnv_plain.2.2.2.1
    scalars behind docs_follow _ _ false _ true true "Doc" ?_ x.val (worth skip true h) ?_
  · intro m hm ho
    obtain ⟨-, rfl⟩ := docEnv_is hm
    exact absurd ho docEnv_plain.2.2.2.2
  · rintro tree ⟨N, ht⟩
    obtain ⟨h1, h2⟩ := doc_speaks (ht N (by omega))
    exact Xml.pretty_parsed _ tree (Xml.speaks_printable words_plain.1 tree (by rw [h1]; exact words_plain.2.2) h2)
      (Xml.speaks_indentable words_plain.2.1 _ (by simp [words]) tree h2)

end TypedEx

end PXml
