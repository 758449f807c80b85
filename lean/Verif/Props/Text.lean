import Verif.SpecText
import Verif.Lemmas.ExampleXml
import Verif.Props.RoundTrip
import Verif.Props.Invariance

/-!
# Reading and writing text (C68)
-/

namespace PXml

open Elem

mutual
theorem fromNative_said (b1 b2 : Backend) (n : Node) :
    (fromNative b1 n.said).mapMeta (fun _ => dropEmpty) dropEmpty (fun _ => -1) = (fromNative b2 n).mapMeta (fun _ => dropEmpty) dropEmpty (fun _ => -1) := by
  have hd : ∀ t, dropEmpty (dropEmpty t) = dropEmpty t := by
    intro t
    cases t with
    | none => rfl
    | some s => by_cases h : s = "" <;> simp [dropEmpty, h]
  cases n with
  | elem tag attrib nsmap text tail cs line => simp [Node.said, fromNative, mapMeta, fromNativeList_said b1 b2 cs, hd]
  | comment => simp [Node.said, fromNative, mapMeta, mapMetaList, hd]
  | pi => simp [Node.said, fromNative, mapMeta, mapMetaList, hd]
theorem fromNativeList_said (b1 b2 : Backend) (l : List Node) :
    mapMetaList (fun _ => dropEmpty) dropEmpty (fun _ => -1) (fromNativeList b1 (Node.saidList l)) =
      mapMetaList (fun _ => dropEmpty) dropEmpty (fun _ => -1) (fromNativeList b2 l) := by
  cases l with
  | nil => rfl
  | cons n l =>
    have hd : n.said.isComment = n.isComment := by cases n <;> rfl
    simp only [Node.saidList, fromNativeList, hd]
    cases hc : n.isComment with
    | true => simpa using fromNativeList_said b1 b2 l
    | false => simp [mapMetaList, fromNative_said b1 b2 n, fromNativeList_said b1 b2 l]
end

theorem said_tag (n : Node) : n.said.tag = n.tag := by cases n <;> rfl

/-- C68: documents that say the same are read alike, by either backend and with all classes without raw fields and custom validators: the same
instance, the same errors up to line numbers, or the same exception. -/
theorem C68_read_alike (env : Env) (hno : env.NoValidators) (hraw : env.Everywhere Ser.NotRaw) (b1 b2 : Backend) (eas : Bool) (n : Nat)
    (cls : String) (doc1 doc2 : Node) (h : doc1.said = doc2.said) :
    (fromXmlTree { env with backend := b1 } eas n cls doc1).1.noLines = (fromXmlTree { env with backend := b2 } eas n cls doc2).1.noLines := by
  have ht : doc1.tag = doc2.tag := by rw [← said_tag doc1, h, said_tag]
  refine (fromXmlTree_agree (metaSim (env1 := { env with backend := b1 }) (env2 := { env with backend := b2 }) eas (fx := fun _ => dropEmpty) (X := fun _ => True) (own := fun _ => True)
    (ft := dropEmpty) (fl := fun _ => -1) (raw := False) (forbid := True) rfl rfl (fun _ _ _ _ => rfl) ?_ (fun _ => rfl) False.elim ?_ ?_
    (fun _ => rfl) (fun _ _ _ _ => trivial) hno (fun _ _ _ _ => trivial)) (allowed_of_notRaw (env := { env with backend := b1 }) hraw) n cls doc1 doc2 ht
    ⟨?_, fromNative_noNs _ _, fromNative_noNs _ _⟩).1.lines_eq
  · intro _ _ t
    cases t with
    | none => rfl
    | some s => by_cases h : s = "" <;> simp [dropEmpty, textVal, h]
  · intro _ _ p t
    cases t with
    | none => rfl
    | some s =>
      by_cases h : s = ""
      · subst h; rfl
      · simp [dropEmpty, h]
  · intro _ p t
    cases t with
    | none => rfl
    | some s =>
      by_cases h : s = ""
      · subst h; rfl
      · simp [dropEmpty, h]
  · show (fromNative b1 doc1).mapMeta _ _ _ = (fromNative b2 doc2).mapMeta _ _ _
    rw [← fromNative_said b1, h, fromNative_said b1 b2]

/-- C68: `from_xml` is parsing followed by `from_xml_tree`, `to_xml` is `to_xml_tree` followed by printing, with the same options; what
the XML library raises reaches the caller unchanged, and text is only given if the whole instance was written. -/
theorem C68_library (env : Env) (parse : String → Except PyErr Node) (print : Node → Except PyErr String) (eas : Bool) (n : Nat) (fl : Flags)
    (cls : String) :
    (∀ source e, parse source = .error e → fromXml env parse eas n cls source = .crash e) ∧
    (∀ source root, parse source = .ok root → fromXml env parse eas n cls source = (fromXmlTree env eas n cls root).1) ∧
    (∀ v text, toXml env print n fl cls v = .ok text ↔ ∃ tree, toXmlTree env n fl cls v = .ok tree ∧ print tree = .ok text) ∧
    (∀ v e, toXml env print n fl cls v = .crash e ↔
      toXmlTree env n fl cls v = .crash e ∨ ∃ tree, toXmlTree env n fl cls v = .ok tree ∧ print tree = .error e) := by
  refine ⟨fun source e h => by simp [fromXml, h], fun source root h => by simp [fromXml, h], fun v text => ?_, fun v e => ?_⟩
  · unfold toXml
    cases toXmlTree env n fl cls v with
    | ok t => cases h : print t <;> simp [Out.bind, h]
    | _ => simp [Out.bind]
  · unfold toXml
    cases toXmlTree env n fl cls v with
    | ok t => cases h : print t <;> simp [Out.bind, h]
    | _ => simp [Out.bind]

/-- C68: `from_xml(to_xml(v))`. If the XML library reads back what it printed for the instance, then so does the class, from the text: the
instance that the round trip of trees gives (see `C01_round_trip`). -/
theorem C68_text_round_trip (env : Env) (henv : env.Everywhere (Ser.Resolved env)) (hno : env.NoValidators)
    (hraw : env.Everywhere Ser.NotRaw) (print : Node → Except PyErr String) (parse : String → Except PyErr Node) (eas : Bool) (fl : Flags)
    (cls : String) (v v' : Val) (h : Handed env eas fl wh so (.model cls v (env.toJsonable v) v'))
    (hlib : ∀ tree, (∃ N, ∀ n ≥ N, toXmlTree env n fl cls v = .ok tree) → Reparses print parse tree) :
    ∃ text N, ∀ n ≥ N, toXml env print n fl cls v = .ok text ∧ fromXml env parse eas n cls text = .ok v' := by
  obtain ⟨tree, N, ht⟩ := C01_round_trip env henv eas fl cls v v' h
  obtain ⟨s, tree', h1, h2, h3⟩ := hlib tree ⟨N, fun n hn => (ht n hn).1⟩
  refine ⟨s, N, fun n hn => ⟨?_, ?_⟩⟩
  · simp [toXml, (ht n hn).1, Out.bind, h1]
  · have := C68_read_alike env hno hraw env.backend env.backend eas n cls tree' tree h3
    rw [(ht n hn).2] at this
    simp only [fromXml, h2]
    revert this
    cases (fromXmlTree env eas n cls tree').1 <;> simp [Out.noLines, Out.lines]

/-! ## Raw fields -/

mutual
theorem fromNative_meta (b1 b2 : Backend) (n : Node) :
    (fromNative b1 n.dropPrefixes.dropLines).mapMeta (fun _ => id) id (fun _ => -1) = (fromNative b2 n).mapMeta (fun _ => id) id (fun _ => -1) := by
  cases n with
  | elem tag attrib nsmap text tail cs line => simp [Node.dropPrefixes, Node.dropLines, fromNative, mapMeta, fromNativeList_meta b1 b2 cs]
  | comment => rfl
  | pi => rfl
theorem fromNativeList_meta (b1 b2 : Backend) (l : List Node) :
    mapMetaList (fun _ => id) id (fun _ => -1) (fromNativeList b1 (Node.dropLinesList (Node.dropPrefixesList l))) =
      mapMetaList (fun _ => id) id (fun _ => -1) (fromNativeList b2 l) := by
  cases l with
  | nil => rfl
  | cons n l =>
    have hd : n.dropPrefixes.dropLines.isComment = n.isComment := by cases n <;> rfl
    simp only [Node.dropPrefixesList, Node.dropLinesList, fromNativeList, hd]
    cases hc : n.isComment with
    | true => simpa using fromNativeList_meta b1 b2 l
    | false => simp [mapMetaList, fromNative_meta b1 b2 n, fromNativeList_meta b1 b2 l]
end

/-- C68: with raw fields, which also show the difference between an empty text and none, the same holds for documents that differ in
prefix declarations and line numbers only. -/
theorem C68_read_alike_raw (env : Env) (hno : env.NoValidators) (b1 b2 : Backend) (eas : Bool) (n : Nat)
    (cls : String) (doc1 doc2 : Node) (h : doc1.dropPrefixes.dropLines = doc2.dropPrefixes.dropLines) :
    (fromXmlTree { env with backend := b1 } eas n cls doc1).1.noLines = (fromXmlTree { env with backend := b2 } eas n cls doc2).1.noLines := by
  have hd : ∀ n : Node, n.dropPrefixes.dropLines.tag = n.tag := fun n => by cases n <;> rfl
  have ht : doc1.tag = doc2.tag := by rw [← hd doc1, h, hd]
  have hE : Env.Everywhere { env with backend := b1 } (Ser.Allowed .any True True) := by
    have h : ∀ s : Ser, s.Allowed .any True True := by
      intro s; refine ⟨fun _ _ => trivial, ?_⟩
      cases s <;> first | trivial | exact fun _ => trivial | exact fun _ _ _ => trivial
    intro c m hm
    cases hb : m.body with
    | fields fs => simp only [ModelSer.Everywhere, hb]; exact fun f _ => Ser.everywhere_of_all h _
    | root s => simp only [ModelSer.Everywhere, hb]; exact Ser.everywhere_of_all h _
  refine (fromXmlTree_agree (metaSim (env1 := { env with backend := b1 }) (env2 := { env with backend := b2 }) eas
    (fx := fun _ => id) (X := fun _ => True) (own := fun _ => True) (ft := id) (fl := fun _ => -1) (raw := True) (forbid := True) rfl rfl (fun _ _ _ _ => rfl) (fun _ _ _ => rfl)
    (fun _ => rfl) (fun _ => ⟨rfl, rfl⟩) (fun _ _ _ _ => rfl) (fun _ _ _ => rfl) (fun _ => rfl) (fun _ _ _ _ => trivial) hno (fun _ _ _ _ => trivial)) hE n cls doc1 doc2 ht
    ⟨?_, fromNative_noNs _ _, fromNative_noNs _ _⟩).1.lines_eq
  show (fromNative b1 doc1).mapMeta _ _ _ = (fromNative b2 doc2).mapMeta _ _ _
  rw [← fromNative_meta b1, h, fromNative_meta b1 b2]

/-- C68: `from_xml(to_xml(v))` for classes with raw fields. -/
theorem C68_text_round_trip_raw (env : Env) (henv : env.Everywhere (Ser.Resolved env)) (hno : env.NoValidators)
    (print : Node → Except PyErr String) (parse : String → Except PyErr Node) (eas : Bool) (fl : Flags)
    (cls : String) (v v' : Val) (h : Handed env eas fl wh so (.model cls v (env.toJsonable v) v'))
    (hlib : ∀ tree, (∃ N, ∀ n ≥ N, toXmlTree env n fl cls v = .ok tree) → ∃ s tree', print tree = .ok s ∧ parse s = .ok tree' ∧
      tree'.dropPrefixes.dropLines = tree.dropPrefixes.dropLines) :
    ∃ text N, ∀ n ≥ N, toXml env print n fl cls v = .ok text ∧ fromXml env parse eas n cls text = .ok v' := by
  obtain ⟨tree, N, ht⟩ := C01_round_trip env henv eas fl cls v v' h
  obtain ⟨s, tree', h1, h2, h3⟩ := hlib tree ⟨N, fun n hn => (ht n hn).1⟩
  refine ⟨s, N, fun n hn => ⟨?_, ?_⟩⟩
  · simp [toXml, (ht n hn).1, Out.bind, h1]
  · have := C68_read_alike_raw env hno env.backend env.backend eas n cls tree' tree h3
    rw [(ht n hn).2] at this
    simp only [fromXml, h2]
    revert this
    cases (fromXmlTree env eas n cls tree').1 <;> simp [Out.noLines, Out.lines]

namespace Ex

/-- The sheet of `C01_all_sheets` as a document. -/
def sheetDoc (side name : String) : Node :=
  .elem "sheet" [] [] none none [.elem "square" [("unit", "cm")] [] none none
    [.elem "side" [] [] (some side) none [] none, .elem "label" [] [] (some ("side " ++ side)) none [] none] none,
    .elem "name" [] [] (some name) none [] none] none

theorem square_cases (inner outer : Bool) :
    (squareEnv inner outer).NoValidators ∧ (squareEnv inner outer).Everywhere Ser.NotRaw := by
  constructor
  · intro cls m fs hm hb f hf
    simp only [squareEnv] at hm
    split at hm
    · injection hm with hm
      subst hm
      injection hb with hb
      subst hb
      revert f
      simp
    · split at hm
      · injection hm with hm
        subst hm
        injection hb with hb
        subst hb
        revert f
        simp
      · cases hm
  · intro cls m hm
    simp only [squareEnv] at hm
    split at hm
    · injection hm with hm
      subst hm
      simp only [ModelSer.Everywhere, square, List.forall_mem_cons]
      exact ⟨⟨trivial, by simp [Ser.subs]⟩, ⟨trivial, by simp [Ser.subs]⟩, ⟨trivial, by simp [Ser.subs]⟩, by simp⟩
    · split at hm
      · injection hm with hm
        subst hm
        simp only [ModelSer.Everywhere, sheet, List.forall_mem_cons]
        exact ⟨⟨trivial, by simp [Ser.subs]⟩, ⟨trivial, by simp [Ser.subs]⟩, by simp⟩
      · cases hm

/-- Whatever the strings, with all their special characters: the text of the sheet is read as the same sheet, by the printer and the
parser of `Verif/ExampleXml.lean`. -/
example (side name : String) (hs : side ≠ "") (hn : name ≠ "") :
    ∃ text N, ∀ n ≥ N, toXml (squareEnv false false) Xml.print n {} "Sheet" (sheetVal side name) = .ok text ∧
      fromXml (squareEnv false false) Xml.parse false n "Sheet" text = .ok (sheetVal side name) := by
  refine C68_text_round_trip _ (square_resolved _ _) (square_cases _ _).1 (square_cases _ _).2 _ _ _ _ _ _ _
    (sheet_handed false side name hs hn) ?_
  rintro tree ⟨N, h⟩
  have h1 := h (N + 9) (by omega)
  have h2 : toXmlTree (squareEnv false false) (N + 9) {} "Sheet" (sheetVal side name) = .ok (sheetDoc side name) := rfl
  rw [h2] at h1
  injection h1 with h1
  subst h1
  apply Xml.reparses
  have hn : ∀ s : String, Xml.IsName s ↔ (s.toList ≠ [] ∧ ∀ c ∈ s.toList, Xml.isNameChar c = true) := fun _ => Iff.rfl
  simp [sheetDoc, Xml.Printable, Xml.PrintableList, Dict.keys, hn, Xml.isNameChar]

/-- A class with a raw element. -/
def holder : ModelSer where
  name := "Holder"
  elementName := "holder"
  body := .fields [{ name := "any", ser := .raw "any" .strict false }]

def holderEnv : Env where
  backend := .std
  model cls := if cls = "Holder" then some holder else none
  validate cls d := match d with
    | .dict fs => check cls [("any", true)] fs
    | _ => .error ⟨cls, []⟩
  toJsonable := json
  reprOf _ := "..."

/-- A raw element with a text between its children. -/
def anyNode (a s t : String) : Node :=
  .elem "any" [("k", a)] [] (some s) none [.elem "b" [] [] none (some t) [] none] none

def holderVal (a s t : String) : Val := .model "Holder" [("any", .raw (anyNode a s t))] ["any"]

theorem holder_cases : holderEnv.NoValidators ∧ holderEnv.Everywhere (Ser.Resolved holderEnv) := by
  constructor
  · intro cls m fs hm hb f hf
    simp only [holderEnv] at hm
    split at hm
    · injection hm with hm
      subst hm
      injection hb with hb
      subst hb
      revert f
      simp
    · cases hm
  · intro cls m hm
    simp only [holderEnv] at hm
    split at hm
    · injection hm with hm
      subst hm
      simp only [ModelSer.Everywhere, holder, List.forall_mem_cons]
      exact ⟨⟨trivial, by simp [Ser.subs]⟩, by simp⟩
    · cases hm

theorem holder_handed (a s t : String) :
    Handed holderEnv false {} true false (.model "Holder" (holderVal a s t) (json (holderVal a s t)) (holderVal a s t)) := by
  refine .fields (fun _ => true) (m := holder) (rows := [
      ({ name := "any", ser := .raw "any" .strict false }, some (.raw (anyNode a s t), .raw (anyNode a s t)), .raw (anyNode a s t))])
    rfl rfl (by simp) (.field trivial (by simp) .nil) (by simp) ?_ (by simp) ?_ ?_
  · simp [Field.Writes, Dict.get?, jsonItems, json]
  · simp only [List.forall_mem_cons]
    refine ⟨?_, by simp⟩
    exact .raw (node := anyNode a s t) rfl (by simp [anyNode, Node.NoPIs, Node.NoPIsList]) rfl (by intro h; cases h)
  · simp [handedData, Dict.set, holderEnv, Val.isNone, check, Dict.get?]

/-- A raw element with mixed content comes back from the text, whatever the strings in it are. -/
example (a s t : String) (hs : s ≠ "") (ht : t ≠ "") :
    ∃ text N, ∀ n ≥ N, toXml holderEnv Xml.print n {} "Holder" (holderVal a s t) = .ok text ∧
      fromXml holderEnv Xml.parse false n "Holder" text = .ok (holderVal a s t) := by
  refine C68_text_round_trip_raw _ holder_cases.2 holder_cases.1 _ _ _ _ _ _ _ (holder_handed a s t) ?_
  rintro tree ⟨N, h⟩
  have h1 := h (N + 9) (by omega)
  have h2 : toXmlTree holderEnv (N + 9) {} "Holder" (holderVal a s t) =
      .ok (.elem "holder" [] [] none none [anyNode a s t] none) := rfl
  rw [h2] at h1
  injection h1 with h1
  subst h1
  have hn : ∀ s : String, Xml.IsName s ↔ (s.toList ≠ [] ∧ ∀ c ∈ s.toList, Xml.isNameChar c = true) := fun _ => Iff.rfl
  obtain ⟨x, y, h1, h2, h3⟩ := Xml.parsed (.elem "holder" [] [] none none [anyNode a s t] none)
    (by simp [anyNode, Xml.Printable, Xml.PrintableList, Dict.keys, hn, Xml.isNameChar])
  refine ⟨x, y, h1, h2, h3.trans ?_⟩
  simp [anyNode, Node.said, Node.saidList, Node.dropPrefixes, Node.dropPrefixesList, Node.dropLines, Node.dropLinesList, dropEmpty, hs, ht]

/-- C68: a raw element whose text is the empty string comes back without a text. -/
theorem C68_empty_text_lost :
    (toXml holderEnv Xml.print 9 {} "Holder" (holderVal "a" "" "t")).bind (fromXml holderEnv Xml.parse false 9 "Holder") =
      .ok (.model "Holder" [("any", .raw (.elem "any" [("k", "a")] [] none none [.elem "b" [] [] none (some "t") [] none] none))] ["any"]) ∧
    (toXml holderEnv Xml.print 9 {} "Holder" (holderVal "a" "" "t")).bind (fromXml holderEnv Xml.parse false 9 "Holder") ≠
      .ok (holderVal "a" "" "t") := by
  have h : (toXml holderEnv Xml.print 9 {} "Holder" (holderVal "a" "" "t")).bind (fromXml holderEnv Xml.parse false 9 "Holder") =
      .ok (.model "Holder" [("any", .raw (.elem "any" [("k", "a")] [] none none [.elem "b" [] [] none (some "t") [] none] none))] ["any"]) := by
    kernel_rfl
  refine ⟨h, ?_⟩
  rw [h]
  simp [holderVal, anyNode]

end Ex
end PXml
