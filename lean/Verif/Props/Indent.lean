import Verif.SpecIndent
import Verif.Lemmas.ExampleXml
import Verif.Props.Text

/-!
# Indentation (C69)
-/

namespace PXml

open Elem

/-- The normal form of texts. -/
def keepIn (K : List String) (f : Option String → Option String) (tag : String) (t : Option String) : Option String :=
  if tag ∈ K then dropEmpty t else f t

mutual
theorem fromNative_without (b1 b2 : Backend) (K : List String) (f : Option String → Option String) (hf : ∀ t, f (f t) = f t)
    (he : ∀ t, f (dropEmpty t) = f t) (n : Node) : (fromNative b1 (n.without K f)).mapMeta (keepIn K f) f (fun _ => -1) =
      (fromNative b2 n).mapMeta (keepIn K f) f (fun _ => -1) := by
  cases n with
  | elem tag attrib nsmap text tail cs line =>
    have : keepIn K f tag (if tag ∈ K then dropEmpty text else f text) = keepIn K f tag text := by
      unfold keepIn
      split
      · exact Xml.dropEmpty_dropEmpty text
      · exact hf text
    simp [Node.without, fromNative, mapMeta, fromNativeList_without b1 b2 K f hf he cs, this, hf]
  | comment text tail =>
    have : ∀ tag, keepIn K f tag (dropEmpty text) = keepIn K f tag text := by
      intro tag
      unfold keepIn
      split
      · exact Xml.dropEmpty_dropEmpty text
      · exact he text
    simp [Node.without, fromNative, mapMeta, mapMetaList, hf, this]
  | pi text tail =>
    have : ∀ tag, keepIn K f tag (dropEmpty text) = keepIn K f tag text := by
      intro tag
      unfold keepIn
      split
      · exact Xml.dropEmpty_dropEmpty text
      · exact he text
    simp [Node.without, fromNative, mapMeta, mapMetaList, hf, this]
theorem fromNativeList_without (b1 b2 : Backend) (K : List String) (f : Option String → Option String) (hf : ∀ t, f (f t) = f t)
    (he : ∀ t, f (dropEmpty t) = f t) (l : List Node) :
    mapMetaList (keepIn K f) f (fun _ => -1) (fromNativeList b1 (Node.withoutList K f l)) =
      mapMetaList (keepIn K f) f (fun _ => -1) (fromNativeList b2 l) := by
  cases l with
  | nil => rfl
  | cons n l =>
    have hd : (n.without K f).isComment = n.isComment := by cases n <;> rfl
    simp only [Node.withoutList, fromNativeList, hd]
    cases hc : n.isComment with
    | true => simpa using fromNativeList_without b1 b2 K f hf he l
    | false => simp [mapMetaList, fromNative_without b1 b2 K f hf he n, fromNativeList_without b1 b2 K f hf he l]
end

theorem dropBlank_dropEmpty (t : Option String) : dropBlank (dropEmpty t) = dropBlank t := by
  cases t with
  | none => rfl
  | some s =>
    by_cases h : s = ""
    · subst h; rfl
    · simp [dropEmpty, h]

theorem without_tag (K : List String) (f : Option String → Option String) (n : Node) : (n.without K f).tag = n.tag := by
  cases n <;> rfl

theorem allowed_of_textsIn {env : Env} {K : List String} (hK : env.Everywhere (Ser.TextsIn env K))
    (hraw : env.Everywhere Ser.NotRaw) : env.Everywhere (Ser.Allowed
      ⟨fun _ _ => True, fun _ => True, True, (· ∈ K), fun cls => ∃ m, env.model cls = some m ∧ m.OwnText⟩ False True) := by
  have key : ∀ s : Ser, s.Everywhere (Ser.TextsIn env K) → s.Everywhere Ser.NotRaw → s.Everywhere (Ser.Allowed
      ⟨fun _ _ => True, fun _ => True, True, (· ∈ K), fun cls => ∃ m, env.model cls = some m ∧ m.OwnText⟩ False True) := by
    intro s h1
    induction h1 with
    | @mk s h _ ih =>
      intro h2
      obtain ⟨h2, k2⟩ := h2
      refine ⟨⟨fun _ _ => trivial, ?_⟩, fun t ht => ih t ht (k2 t ht)⟩
      cases s <;> first | trivial | exact h2 | exact h | skip
      rintro ⟨m, hm, ho⟩
      exact h m hm ho
  intro c m hm
  have h1 := hK c m hm
  have h2 := hraw c m hm
  cases hb : m.body with
  | fields fs =>
    simp only [ModelSer.Everywhere, hb] at h1 h2 ⊢
    exact fun f hf => key _ (h1 f hf) (h2 f hf)
  | root s =>
    simp only [ModelSer.Everywhere, hb] at h1 h2 ⊢
    exact key _ h1 h2

theorem without_alike (env : Env) (hno : env.NoValidators) (hraw : env.Everywhere Ser.NotRaw) (K : List String)
    (hK : env.Everywhere (Ser.TextsIn env K)) (cls : String)
    (hroot : ∀ m, env.model cls = some m → m.OwnText → m.elementName ∈ K) (b1 b2 : Backend) (eas : Bool) (n : Nat)
    (forbid : Prop) (f : Option String → Option String) (hf : ∀ t, f (f t) = f t) (hnone : f none = none) (he : ∀ t, f (dropEmpty t) = f t)
    (hu : forbid → ∀ p t, unboundText p (f t) = unboundText p t)
    (hforbid : ∀ cls m, env.model cls = some m → m.extraForbid = true → forbid)
    (doc1 doc2 : Node) (h : doc1.without K f = doc2.without K f) :
    (fromXmlTree { env with backend := b1 } eas n cls doc1).1.noLines =
      (fromXmlTree { env with backend := b2 } eas n cls doc2).1.noLines := by
  have ht : doc1.tag = doc2.tag := by rw [← without_tag K f doc1, h, without_tag]
  have hd : ∀ p t, unboundText p (dropEmpty t) = unboundText p t := by
    intro p t
    cases t with
    | none => rfl
    | some s =>
      by_cases h : s = ""
      · subst h; rfl
      · simp [dropEmpty, h]
  refine (fromXmlTree_agree (metaSim (env1 := { env with backend := b1 }) (env2 := { env with backend := b2 }) eas (fx := keepIn K f)
    (ft := f) (fl := fun _ => -1) (raw := False) (forbid := forbid) (X := (· ∈ K))
    (own := fun cls => ∃ m, env.model cls = some m ∧ m.OwnText) rfl rfl (fun _ _ _ _ => rfl) ?_ ?_ False.elim ?_ hu
    (fun _ => rfl) hforbid hno (fun cls m hm ho => ⟨m, hm, ho⟩)) (allowed_of_textsIn (env := { env with backend := b1 }) hK hraw) n cls
    doc1 doc2 ht ⟨?_, fromNative_noNs _ _, fromNative_noNs _ _⟩ hroot).1.lines_eq
  · intro tag htag t
    simp only [keepIn, htag, if_true]
    cases t with
    | none => rfl
    | some s => by_cases h : s = "" <;> simp [dropEmpty, textVal, h]
  · intro tag
    unfold keepIn
    split
    · rfl
    · exact hnone
  · intro hfb tag p t
    unfold keepIn
    split
    · exact hd p t
    · exact hu hfb p t
  · show (fromNative b1 doc1).mapMeta _ _ _ = (fromNative b2 doc2).mapMeta _ _ _
    rw [← fromNative_without b1 b1 K f hf he doc1, h, fromNative_without b1 b2 K f hf he doc2]

/-- C69: white space between the elements has no influence.  Documents that differ in it only are read alike, at every depth, by
either backend and with all classes without raw fields and custom validators, also those that forbid extra data: the same instance, the same
errors up to line numbers, or the same exception.  Elements with a tag in `K` are those whose text some field takes. -/
theorem C69_white_space (env : Env) (hno : env.NoValidators) (hraw : env.Everywhere Ser.NotRaw) (K : List String)
    (hK : env.Everywhere (Ser.TextsIn env K)) (cls : String)
    (hroot : ∀ m, env.model cls = some m → m.OwnText → m.elementName ∈ K) (b1 b2 : Backend) (eas : Bool) (n : Nat)
    (doc1 doc2 : Node) (h : doc1.SameButBlank K doc2) :
    (fromXmlTree { env with backend := b1 } eas n cls doc1).1.noLines =
      (fromXmlTree { env with backend := b2 } eas n cls doc2).1.noLines := by
  refine without_alike env hno hraw K hK cls hroot b1 b2 eas n True dropBlank ?_ rfl dropBlank_dropEmpty ?_ (fun _ _ _ _ => trivial) doc1 doc2 h
  · intro t
    cases t with
    | none => rfl
    | some s => by_cases h : Elem.strip s = "" <;> simp [dropBlank, h]
  · intro _ p t
    cases t with
    | none => rfl
    | some s => by_cases h : Elem.strip s = "" <;> simp [dropBlank, unboundText, h]

/-- C69: where no class forbids extra data, texts that no field takes have no influence, blank or not. -/
theorem C69_texts_nobody_takes (env : Env) (hno : env.NoValidators) (hraw : env.Everywhere Ser.NotRaw) (hforbid : env.NoForbid)
    (K : List String) (hK : env.Everywhere (Ser.TextsIn env K)) (cls : String)
    (hroot : ∀ m, env.model cls = some m → m.OwnText → m.elementName ∈ K) (b1 b2 : Backend) (eas : Bool) (n : Nat)
    (doc1 doc2 : Node) (h : doc1.SameButTexts K doc2) :
    (fromXmlTree { env with backend := b1 } eas n cls doc1).1.noLines =
      (fromXmlTree { env with backend := b2 } eas n cls doc2).1.noLines :=
  without_alike env hno hraw K hK cls hroot b1 b2 eas n False (fun _ => none) (fun _ => rfl) rfl (fun _ => rfl) False.elim
    (fun c m hm hf => by rw [hforbid c m hm] at hf; cases hf) doc1 doc2 h

/-- C69: what is written with indentation is read back.  `print` may put white space between the elements, as `pretty_print` does. -/
theorem C69_pretty_round_trip (env : Env) (henv : env.Everywhere (Ser.Resolved env)) (hno : env.NoValidators)
    (hraw : env.Everywhere Ser.NotRaw) (K : List String) (hK : env.Everywhere (Ser.TextsIn env K))
    (print : Node → Except PyErr String) (parse : String → Except PyErr Node) (eas : Bool) (fl : Flags)
    (cls : String) (v v' : Val) (h : Handed env eas fl wh so (.model cls v (env.toJsonable v) v'))
    (hroot : ∀ m, env.model cls = some m → m.OwnText → m.elementName ∈ K)
    (hlib : ∀ tree, (∃ N, ∀ n ≥ N, toXmlTree env n fl cls v = .ok tree) → ∃ s tree', print tree = .ok s ∧ parse s = .ok tree' ∧
      tree'.SameButBlank K tree) :
    ∃ text N, ∀ n ≥ N, toXml env print n fl cls v = .ok text ∧ fromXml env parse eas n cls text = .ok v' := by
  obtain ⟨tree, N, ht⟩ := C01_round_trip env henv eas fl cls v v' h
  obtain ⟨s, tree', h1, h2, h3⟩ := hlib tree ⟨N, fun n hn => (ht n hn).1⟩
  refine ⟨s, N, fun n hn => ⟨?_, ?_⟩⟩
  · simp [toXml, (ht n hn).1, Out.bind, h1]
  · have := C69_white_space env hno hraw K hK cls hroot env.backend env.backend eas n tree' tree h3
    rw [(ht n hn).2] at this
    simp only [fromXml, h2]
    revert this
    cases (fromXmlTree env eas n cls tree').1 <;> simp [Out.noLines, Out.lines]

/-! ## Examples -/

namespace Xml

mutual
theorem without_said (K : List String) (n : Node) : n.said.without K dropBlank = n.without K dropBlank := by
  cases n with
  | elem => simp [Node.said, Node.without, dropEmpty_dropEmpty, dropBlank_dropEmpty, withoutList_said]
  | comment => simp [Node.said, Node.without, dropEmpty_dropEmpty, dropBlank_dropEmpty]
  | pi => simp [Node.said, Node.without, dropEmpty_dropEmpty, dropBlank_dropEmpty]
theorem withoutList_said (K : List String) (l : List Node) : Node.withoutList K dropBlank (Node.saidList l) = Node.withoutList K dropBlank l := by
  cases l with
  | nil => rfl
  | cons n l => simp [Node.saidList, Node.withoutList, without_said K n, withoutList_said K l]
end

theorem lineBreak_blank (k : Nat) : dropBlank (some (lineBreak k)) = none := by
  have h : Elem.strip (lineBreak k) = "" := by
    have h1 : ∀ n, List.dropWhile Elem.isSpace (List.replicate n ' ') = [] := by
      intro n
      induction n with
      | zero => rfl
      | succ n ih => rw [List.replicate_succ, List.dropWhile_cons_of_pos (by decide), ih]
    rw [Elem.strip, lineBreak, String.toList_ofList, List.dropWhile_cons_of_pos (by decide), h1]
    rfl
  simp [dropBlank, h]

mutual
/-- Elements with children have no text, and a tag outside `K`; there are no tails. -/
def Indentable (K : List String) : Node → Prop
  | .elem tag _ _ text tail children _ => (children = [] ∨ tag ∉ K) ∧ tail = none ∧ (children ≠ [] → text = none) ∧ IndentableList K children
  | _ => False
def IndentableList (K : List String) : List Node → Prop
  | [] => True
  | n :: ns => Indentable K n ∧ IndentableList K ns
end

mutual
theorem without_indented (K : List String) (k : Nat) (n : Node) (h : Indentable K n) :
    (indented k n).without K dropBlank = n.without K dropBlank := by
  cases n with
  | elem tag attrib nsmap text tail children line =>
    obtain ⟨h1, rfl, h2, h3⟩ := h
    have ih := withoutList_indented K (k + 1) children h3
    rcases h1 with rfl | h1
    · simp only [indented, Node.without, ih, lineBreak_blank, List.isEmpty_nil, Bool.true_or, if_true]
      rfl
    · cases children with
      | nil =>
        simp only [indented, Node.without, ih, lineBreak_blank, List.isEmpty_nil, Bool.true_or, if_true]
        rfl
      | cons c cs =>
        have := h2 (by simp)
        subst this
        simp only [indented, Node.without, ih, lineBreak_blank, List.isEmpty_cons, Bool.false_or, Option.isSome_none, if_neg h1,
          Bool.false_eq_true, if_false]
        rfl
  | comment => exact h.elim
  | pi => exact h.elim
theorem withoutList_indented (K : List String) (k : Nat) (l : List Node) (h : IndentableList K l) :
    Node.withoutList K dropBlank (indentedList k l) = Node.withoutList K dropBlank l := by
  cases l with
  | nil => rfl
  | cons n l => simp [indentedList, Node.withoutList, without_indented K k n h.1, withoutList_indented K k l h.2]
end

mutual
theorem printable_indented (k : Nat) (n : Node) (h : Printable n) : Printable (indented k n) := by
  cases n with
  | elem => exact ⟨h.1, h.2.1, printableList_indented _ _ h.2.2⟩
  | comment => exact h.elim
  | pi => exact h.elim
theorem printableList_indented (k : Nat) (l : List Node) (h : PrintableList l) : PrintableList (indentedList k l) := by
  cases l with
  | nil => trivial
  | cons n l => exact ⟨printable_indented k n h.1, printableList_indented k l h.2⟩
end

mutual
theorem without_drop (K : List String) (n : Node) : n.dropPrefixes.dropLines.without K dropBlank = n.without K dropBlank := by
  cases n with
  | elem => simp [Node.without, Node.dropPrefixes, Node.dropLines, withoutList_drop]
  | comment => rfl
  | pi => rfl
theorem withoutList_drop (K : List String) (l : List Node) :
    Node.withoutList K dropBlank (Node.dropLinesList (Node.dropPrefixesList l)) = Node.withoutList K dropBlank l := by
  cases l with
  | nil => rfl
  | cons n l => simp [Node.withoutList, Node.dropPrefixesList, Node.dropLinesList, without_drop K n, withoutList_drop K l]
end

/-- What is printed with indentation is parsed to a document that differs in white space only. -/
theorem pretty_parsed (K : List String) (t : Node) (h : Printable t) (hi : Indentable K t) :
    ∃ s t', pretty t = .ok s ∧ parse s = .ok t' ∧ t'.SameButBlank K t := by
  obtain ⟨s, t', h1, h2, h3⟩ := parsed (indented 0 t) (printable_indented 0 t h)
  refine ⟨s, t', h1, h2, ?_⟩
  rw [Node.SameButBlank, ← without_drop K t', h3, without_said, without_indented K 0 t hi]

end Xml

namespace Ex

theorem square_texts (inner outer : Bool) : (squareEnv inner outer).Everywhere (Ser.TextsIn (squareEnv inner outer) ["side", "label", "name"]) := by
  intro cls m hm
  simp only [squareEnv] at hm
  split at hm
  · injection hm with hm
    subst hm
    simp only [ModelSer.Everywhere, square, List.forall_mem_cons]
    exact ⟨⟨by simp [Ser.TextsIn], by simp [Ser.subs]⟩, ⟨by simp [Ser.TextsIn], by simp [Ser.subs]⟩, ⟨trivial, by simp [Ser.subs]⟩, by simp⟩
  · split at hm
    · injection hm with hm
      subst hm
      simp only [ModelSer.Everywhere, sheet, List.forall_mem_cons]
      refine ⟨⟨?_, by simp [Ser.subs]⟩, ⟨by simp [Ser.TextsIn], by simp [Ser.subs]⟩, by simp⟩
      intro m hm ho
      simp only [squareEnv, if_true, Option.some.injEq] at hm
      subst hm
      obtain ⟨f, hf, ho⟩ := ho
      simp only [List.mem_cons, List.not_mem_nil, or_false] at hf
      rcases hf with rfl | rfl | rfl <;> exact ho.elim
    · cases hm

/-- Whatever the strings: the sheet is read back from the indented text. -/
example (side name : String) (hs : side ≠ "") (hn : name ≠ "") :
    ∃ text N, ∀ n ≥ N, toXml (squareEnv false false) Xml.pretty n {} "Sheet" (sheetVal side name) = .ok text ∧
      fromXml (squareEnv false false) Xml.parse false n "Sheet" text = .ok (sheetVal side name) := by
  refine C69_pretty_round_trip _ (square_resolved _ _) (square_cases _ _).1 (square_cases _ _).2 _ (square_texts _ _) _ _ _ _ _ _ _
    (sheet_handed false side name hs hn) ?_ ?_
  · intro m hm ho
    simp only [squareEnv, String.reduceEq, if_false, if_true, Option.some.injEq] at hm
    subst hm
    obtain ⟨f, hf, ho⟩ := ho
    simp only [List.mem_cons, List.not_mem_nil, or_false] at hf
    rcases hf with rfl | rfl <;> exact ho.elim
  · rintro tree ⟨N, h⟩
    have h1 := h (N + 9) (by omega)
    have h2 : toXmlTree (squareEnv false false) (N + 9) {} "Sheet" (sheetVal side name) = .ok (sheetDoc side name) := rfl
    rw [h2] at h1
    injection h1 with h1
    subst h1
    apply Xml.pretty_parsed
    · have hn : ∀ s : String, Xml.IsName s ↔ (s.toList ≠ [] ∧ ∀ c ∈ s.toList, Xml.isNameChar c = true) := fun _ => Iff.rfl
      simp [sheetDoc, Xml.Printable, Xml.PrintableList, Dict.keys, hn, Xml.isNameChar]
    · simp [sheetDoc, Xml.Indentable, Xml.IndentableList]

/-- The text is indented. -/
example : Xml.pretty (sheetDoc "3" "A") = .ok
    "<sheet>\n  <square unit=\"cm\">\n    <side>3</side>\n    <label>side 3</label>\n    </square>\n  <name>A</name>\n  </sheet>\n" := by
  kernel_rfl

/-- A class with a text and a child element, which forbids extra data. -/
def mixed : ModelSer where
  name := "Mixed"
  elementName := "mixed"
  extraForbid := true
  body := .fields [{ name := "text", ser := .text false false }, { name := "b", ser := .elem "b" none .strict false false }]

/-- A class around it, which forbids extra data, too. -/
def around : ModelSer where
  name := "Around"
  elementName := "around"
  extraForbid := true
  body := .fields [{ name := "m", ser := .proxy { cls := "Mixed", name := "mixed" } }, { name := "c", ser := .elem "c" none .strict false false }]

def mixedEnv : Env where
  backend := .lxml
  model cls := if cls = "Mixed" then some mixed else if cls = "Around" then some around else none
  validate cls d := match d with
    | .dict fs => check cls (if cls = "Mixed" then [("text", false), ("b", true)] else [("m", true), ("c", true)]) fs
    | _ => .error ⟨cls, []⟩
  toJsonable := json
  reprOf _ := "..."

theorem mixed_cases : mixedEnv.NoValidators ∧ mixedEnv.Everywhere Ser.NotRaw ∧
    mixedEnv.Everywhere (Ser.TextsIn mixedEnv ["mixed", "b", "c"]) ∧
    ∀ m, mixedEnv.model "Around" = some m → m.OwnText → m.elementName ∈ ["mixed", "b", "c"] := by
  refine ⟨?_, ?_, ?_, ?_⟩
  · intro cls m fs hm hb f hf
    simp only [mixedEnv] at hm
    split at hm
    · injection hm with hm
      subst hm
      injection hb with hb
      subst hb
      revert f
      simp
    · split at hm
      · injection hm with hm
        subst hm
        injection hb with hb
        subst hb
        revert f
        simp
      · cases hm
  · intro cls m hm
    simp only [mixedEnv] at hm
    split at hm
    · injection hm with hm
      subst hm
      simp only [ModelSer.Everywhere, mixed, List.forall_mem_cons]
      exact ⟨⟨trivial, by simp [Ser.subs]⟩, ⟨trivial, by simp [Ser.subs]⟩, by simp⟩
    · split at hm
      · injection hm with hm
        subst hm
        simp only [ModelSer.Everywhere, around, List.forall_mem_cons]
        exact ⟨⟨trivial, by simp [Ser.subs]⟩, ⟨trivial, by simp [Ser.subs]⟩, by simp⟩
      · cases hm
  · intro cls m hm
    simp only [mixedEnv] at hm
    split at hm
    · injection hm with hm
      subst hm
      simp only [ModelSer.Everywhere, mixed, List.forall_mem_cons]
      exact ⟨⟨trivial, by simp [Ser.subs]⟩, ⟨by simp [Ser.TextsIn], by simp [Ser.subs]⟩, by simp⟩
    · split at hm
      · injection hm with hm
        subst hm
        simp only [ModelSer.Everywhere, around, List.forall_mem_cons]
        exact ⟨⟨by simp [Ser.TextsIn], by simp [Ser.subs]⟩, ⟨by simp [Ser.TextsIn], by simp [Ser.subs]⟩, by simp⟩
      · cases hm
  · intro m hm ho
    simp only [mixedEnv, String.reduceEq, if_false, if_true, Option.some.injEq] at hm
    subst hm
    obtain ⟨f, hf, ho⟩ := ho
    simp only [List.mem_cons, List.not_mem_nil, or_false] at hf
    rcases hf with rfl | rfl <;> exact ho.elim

/-- `<around><mixed>t<b>1</b></mixed><c>2</c></around>`, with and without line breaks between the elements. -/
def aroundDoc (w : Option String) : Node :=
  .elem "around" [] [] w none [.elem "mixed" [] [] (some "t") w [.elem "b" [] [] (some "1") w [] none] none,
    .elem "c" [] [] (some "2") w [] none] none

/-- The two documents are read alike, although the classes forbid extra data. -/
example : (fromXmlTree mixedEnv false 9 "Around" (aroundDoc (some "\n  "))).1.noLines = (fromXmlTree mixedEnv false 9 "Around" (aroundDoc none)).1.noLines ∧
    (fromXmlTree mixedEnv false 9 "Around" (aroundDoc none)).1 =
      .ok (.model "Around" [("m", .model "Mixed" [("text", .str "t"), ("b", .str "1")] ["text", "b"]), ("c", .str "2")] ["m", "c"]) :=
  ⟨C69_white_space mixedEnv mixed_cases.1 mixed_cases.2.1 _ mixed_cases.2.2.1 _ mixed_cases.2.2.2 .lxml .lxml _ _ _ _ (by
    show Node.without _ _ _ = Node.without _ _ _
    kernel_rfl), by kernel_rfl⟩

/-- Other texts are reported, as the class forbids extra data. -/
example : ((fromXmlTree mixedEnv false 9 "Around" (aroundDoc (some "x"))).1 matches .verr _) := by kernel_rfl

/-- Where nothing is forbidden, other texts are not even noticed. -/
example : (fromXmlTree { squareEnv false false with backend := .std } false 9 "Sheet" (.elem "sheet" [] [] (some "ignored") none
    [.elem "square" [("unit", "cm")] [] (some "ignored") (some "ignored") [.elem "side" [] [] (some "3") none [] none] none,
      .elem "name" [] [] (some "A") (some "ignored") [] none] none)).1.noLines = (Out.ok (sheetVal "3" "A")).noLines :=
  (C69_texts_nobody_takes (squareEnv false false) (square_cases _ _).1 (square_cases _ _).2
    (by
      intro cls m hm
      simp only [squareEnv] at hm
      split at hm
      · injection hm with hm
        subst hm
        rfl
      · split at hm
        · injection hm with hm
          subst hm
          rfl
        · cases hm)
    ["side", "label", "name"] (square_texts _ _) "Sheet" (by
      intro m hm ho
      simp only [squareEnv, String.reduceEq, if_false, if_true, Option.some.injEq] at hm
      subst hm
      obtain ⟨f, hf, ho⟩ := ho
      simp only [List.mem_cons, List.not_mem_nil, or_false] at hf
      rcases hf with rfl | rfl <;> exact ho.elim) .std .lxml false 9 _
    (.elem "sheet" [] [] none none [.elem "square" [("unit", "cm")] [] none none [.elem "side" [] [] (some "3") none [] none] none,
      .elem "name" [] [] (some "A") none [] none] none) rfl).trans (congrArg Out.noLines (by rfl))

/-- C69: a class that takes the text of an element with children gets the indentation: the text `None` of an instance comes back as a line
break from the indented text. -/
theorem C69_text_field_gets_indentation :
    ((toXml mixedEnv Xml.print 9 { excludeNone := true } "Mixed" (.model "Mixed" [("text", .none), ("b", .str "1")] ["b"])).bind
      (fromXml mixedEnv Xml.parse false 9 "Mixed") = .ok (.model "Mixed" [("text", .none), ("b", .str "1")] ["b"])) ∧
    ((toXml mixedEnv Xml.pretty 9 { excludeNone := true } "Mixed" (.model "Mixed" [("text", .none), ("b", .str "1")] ["b"])).bind
      (fromXml mixedEnv Xml.parse false 9 "Mixed") = .ok (.model "Mixed" [("text", .str "\n  "), ("b", .str "1")] ["text", "b"])) := by
  refine ⟨?_, ?_⟩ <;> kernel_rfl

end Ex
end PXml
