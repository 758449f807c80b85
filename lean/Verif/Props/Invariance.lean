import Verif.Lemmas.SimMeta
import Verif.Example

/-!
# What does not matter when reading: comments, tails, the backend (C10, C38, C40)
-/

namespace PXml

open Elem

/-! ## C10 comments -/

mutual
theorem fromNative_dropComments (b : Backend) (n : Node) : fromNative b n.dropComments = fromNative b n := by
  cases n with
  | elem tag attrib nsmap text tail cs line => simp [Node.dropComments, fromNative, fromNativeList_dropComments b cs]
  | comment => rfl
  | pi => rfl
theorem fromNativeList_dropComments (b : Backend) (l : List Node) :
    fromNativeList b (Node.dropCommentsList l) = fromNativeList b l := by
  cases l with
  | nil => rfl
  | cons n l =>
    have hd : n.dropComments.isComment = n.isComment := by cases n <;> rfl
    have h1 := fromNative_dropComments b n
    have h2 := fromNativeList_dropComments b l
    simp only [Node.dropCommentsList, fromNativeList]
    cases hc : n.isComment with
    | true => simpa using h2
    | false => simp [fromNativeList, hd, hc, h1, h2]
end

/-- C10: comments never bind to a field and never block a search: reading gives the same result (value or errors) as
reading the document without the comments (and the text directly following them). -/
theorem C10_comments_invisible (env : Env) (eas : Bool) (n : Nat) (cls : String) (root : Node) :
    fromXmlTree env eas n cls root.dropComments = fromXmlTree env eas n cls root := by
  have ht : root.dropComments.tag = root.tag := by cases root <;> rfl
  simp only [fromXmlTree, fromNative_dropComments, ht]

theorem joinText_none (t : Option String) : joinText t none = t := by cases t <;> rfl

theorem addTail_none (n : Node) : n.addTail none = n := by cases n <;> simp [Node.addTail, joinText_none]

mutual
theorem removeComments_eq (n : Node) (h : n.NoTextAfterComments) : n.removeComments = n.dropComments := by
  cases n with
  | elem tag attrib nsmap text tail cs line =>
    simp only [Node.NoTextAfterComments] at h
    simp [Node.removeComments, Node.dropComments, removeCommentsList_eq cs h, joinText_none]
  | comment => rfl
  | pi => rfl
theorem removeCommentsList_eq (l : List Node) (h : Node.NoTextAfterCommentsList l) :
    Node.removeCommentsList l = (none, Node.dropCommentsList l) := by
  cases l with
  | nil => rfl
  | cons n l =>
    cases n with
    | comment text tail =>
      obtain ⟨rfl, h⟩ := h
      simp only [Node.removeCommentsList, removeCommentsList_eq l h]
      simp [Node.dropCommentsList, Node.isComment, joinText]
    | elem tag attrib nsmap text tail cs line =>
      obtain ⟨h1, h⟩ := h
      simp only [Node.removeCommentsList, removeCommentsList_eq l h, addTail_none, removeComments_eq _ h1]
      simp [Node.dropCommentsList, Node.isComment]
    | pi text tail =>
      obtain ⟨h1, h⟩ := h
      simp only [Node.removeCommentsList, removeCommentsList_eq l h, addTail_none, removeComments_eq _ h1]
      simp [Node.dropCommentsList, Node.isComment]
end

/-- C10 (partial: the full statement has no hypothesis `h`): taking the comments out of the text of the document does
not change the result, if no text follows a comment directly.  The restriction is needed, see `C10_counterexample`. -/
theorem C10_comments_removed_partial (env : Env) (eas : Bool) (n : Nat) (cls : String) (root : Node)
    (h : root.NoTextAfterComments) :
    fromXmlTree env eas n cls root.removeComments = fromXmlTree env eas n cls root := by
  rw [removeComments_eq root h, C10_comments_invisible]

/-- `<home zip="1"><!-- c -->Main St</home>`: the text after the comment is not read, without the comment it is. -/
theorem C10_counterexample :
    let doc := Ex.el "Address" none [.comment (some "c") (some "Main St")] [("zip", "1")]
    (fromXmlTree Ex.env false 9 "Address" doc).1 =
      .ok (.model "Address" [("zip", .str "1"), ("street", .none)] ["zip"]) ∧
    (fromXmlTree Ex.env false 9 "Address" doc.removeComments).1 =
      .ok (.model "Address" [("zip", .str "1"), ("street", .str "Main St")] ["zip", "street"]) := ⟨rfl, rfl⟩

/-- A document with comments before, between and inside elements meets the hypothesis and is read. -/
example : let doc := Ex.el "person" none [.comment (some "x") none, Ex.el "name" (some "Ann") [.comment none none],
      .comment none none] [("id", "7")]
    doc.NoTextAfterComments ∧ ((fromXmlTree Ex.env false 9 "Person" doc).1 matches .ok _) :=
  ⟨⟨rfl, ⟨rfl, trivial⟩, rfl, trivial⟩, rfl⟩

/-! ## C40 tails -/

mutual
theorem fromNative_mapTails (b : Backend) (f : Option String → Option String) (n : Node) :
    fromNative b (n.mapTails f) = (fromNative b n).mapMeta (fun _ => id) f id := by
  cases n with
  | elem tag attrib nsmap text tail cs line => simp [Node.mapTails, fromNative, mapMeta, fromNativeList_mapTails b f cs]
  | comment => simp [Node.mapTails, fromNative, mapMeta, mapMetaList]
  | pi => simp [Node.mapTails, fromNative, mapMeta, mapMetaList]
theorem fromNativeList_mapTails (b : Backend) (f : Option String → Option String) (l : List Node) :
    fromNativeList b (Node.mapTailsList f l) = mapMetaList (fun _ => id) f id (fromNativeList b l) := by
  cases l with
  | nil => rfl
  | cons n l =>
    have hd : (n.mapTails f).isComment = n.isComment := by cases n <;> rfl
    have h1 := fromNative_mapTails b f n
    have h2 := fromNativeList_mapTails b f l
    simp only [Node.mapTailsList, fromNativeList, hd]
    cases hc : n.isComment with
    | true => simpa using h2
    | false => simp [mapMetaList, h1, h2]
end

theorem mapTails_tag (f : Option String → Option String) (n : Node) : (n.mapTails f).tag = n.tag := by cases n <;> rfl

theorem allowed_of_notRaw {env : Env} (h : env.Everywhere Ser.NotRaw) :
    env.Everywhere (Ser.Allowed .any False True) := by
  have key : ∀ s : Ser, s.NotRaw → s.Allowed .any False True := by
    intro s hs
    refine ⟨fun _ _ => trivial, ?_⟩
    cases s <;> first | trivial | exact hs | exact fun _ => trivial | exact fun _ _ _ => trivial
  intro c m hm
  have := h c m hm
  cases hb : m.body with
  | fields fs =>
    simp only [ModelSer.Everywhere, hb] at this ⊢
    exact fun f hf => Ser.everywhere_mono (this f hf) key
  | root s =>
    simp only [ModelSer.Everywhere, hb] at this ⊢
    exact Ser.everywhere_mono this key

theorem tails_agree (env : Env) (hno : env.NoValidators) (hraw : env.Everywhere Ser.NotRaw) (forbid : Prop)
    (ft : Option String → Option String) (hft : forbid → ∀ p t, unboundText p (ft t) = unboundText p t)
    (hforbid : ∀ cls m, env.model cls = some m → m.extraForbid = true → forbid)
    (eas : Bool) (n : Nat) (cls : String) (doc1 doc2 : Node) (h : doc1.mapTails ft = doc2.mapTails ft) :
    (fromXmlTree env eas n cls doc1).1 = (fromXmlTree env eas n cls doc2).1 := by
  have ht : doc1.tag = doc2.tag := by rw [← mapTails_tag ft doc1, h, mapTails_tag]
  refine (fromXmlTree_agree (metaSim (env1 := env) (env2 := env) eas (fx := fun _ => id) (X := fun _ => True) (own := fun _ => True) (ft := ft) (fl := id) (raw := False)
    (forbid := forbid) rfl rfl ?_ (fun _ _ _ => rfl) (fun _ => rfl) False.elim (fun _ _ _ _ => rfl) hft (fun _ => rfl) hforbid hno (fun _ _ _ _ => trivial)) (allowed_of_notRaw hraw) n cls doc1 doc2 ht
    ⟨?_, fromNative_noNs _ _, fromNative_noNs _ _⟩).1.eq
  · intro sm1 sm2 h loc
    exact lines_id h loc
  · rw [← fromNative_mapTails, ← fromNative_mapTails, h]

/-- C40: without raw fields and `extra='forbid'`, text following elements (indentation or anything else) has no influence
at all: documents that agree up to tails are read alike, at every depth, with the same values and errors. -/
theorem C40_tails_irrelevant (env : Env) (hno : env.NoValidators) (hraw : env.Everywhere Ser.NotRaw)
    (hforbid : env.NoForbid) (eas : Bool) (n : Nat) (cls : String) (doc1 doc2 : Node)
    (h : doc1.mapTails (fun _ => none) = doc2.mapTails (fun _ => none)) :
    (fromXmlTree env eas n cls doc1).1 = (fromXmlTree env eas n cls doc2).1 :=
  tails_agree env hno hraw False _ False.elim (fun c m hm hf => by rw [hforbid c m hm] at hf; cases hf) eas n cls doc1 doc2 h

/-- C40: with `extra='forbid'` the same holds for blank tails. -/
theorem C40_blank_tails_irrelevant (env : Env) (hno : env.NoValidators) (hraw : env.Everywhere Ser.NotRaw)
    (eas : Bool) (n : Nat) (cls : String) (doc1 doc2 : Node) (h : doc1.mapTails dropBlank = doc2.mapTails dropBlank) :
    (fromXmlTree env eas n cls doc1).1 = (fromXmlTree env eas n cls doc2).1 := by
  refine tails_agree env hno hraw True _ (fun _ p t => ?_) (fun _ _ _ _ => trivial) eas n cls doc1 doc2 h
  cases t with
  | none => rfl
  | some t =>
    by_cases h : strip t = ""
    · simp [dropBlank, unboundText, h]
    · simp [dropBlank, h]

/-- The hypotheses are met by a class without raw fields and two documents that differ in indentation. -/
example : (Ex.env .ordered).NoValidators ∧ (Ex.env .ordered).NoForbid ∧
    (Node.elem "tree" [("id", "1")] [] (some "\n ") none [.elem "tree" [("id", "2")] [] none (some "\n ") [] none] none).mapTails
      dropBlank =
    (Node.elem "tree" [("id", "1")] [] (some "\n ") none [.elem "tree" [("id", "2")] [] none none [] none] none).mapTails
      dropBlank := by
  refine ⟨Ex.noValidators, ?_, rfl⟩
  apply Ex.model_cases <;> rfl

example : (Ex.env .ordered).Everywhere Ser.NotRaw := by apply Ex.everywhere; simp [Ser.NotRaw]

/-! ## C38 backends -/

mutual
theorem fromNative_backend (b1 b2 : Backend) (n : Node) :
    (fromNative b1 n).mapMeta (fun _ => id) id (fun _ => -1) = (fromNative b2 n).mapMeta (fun _ => id) id (fun _ => -1) := by
  cases n with
  | elem tag attrib nsmap text tail cs line => simp [fromNative, mapMeta, fromNativeList_backend b1 b2 cs]
  | comment => rfl
  | pi => rfl
theorem fromNativeList_backend (b1 b2 : Backend) (l : List Node) :
    mapMetaList (fun _ => id) id (fun _ => -1) (fromNativeList b1 l) = mapMetaList (fun _ => id) id (fun _ => -1) (fromNativeList b2 l) := by
  cases l with
  | nil => rfl
  | cons n l =>
    simp only [fromNativeList]
    cases hc : n.isComment with
    | true => simpa using fromNativeList_backend b1 b2 l
    | false => simp [mapMetaList, fromNative_backend b1 b2 n, fromNativeList_backend b1 b2 l]
end

/-- C38 (reading): both backends give the same outcome for every tree: the same instance, or the same errors (locations,
messages, inputs) with the line numbers left aside, or the same exception. -/
theorem C38_backends_read_alike (env : Env) (hno : env.NoValidators) (eas : Bool) (n : Nat) (cls : String) (root : Node) :
    (fromXmlTree { env with backend := .lxml } eas n cls root).1.lines (fun _ => -1) =
      (fromXmlTree { env with backend := .std } eas n cls root).1.lines (fun _ => -1) := by
  have hE : ({ env with backend := .lxml } : Env).Everywhere (Ser.Allowed .any True True) := by
    have h : ∀ s : Ser, s.Allowed .any True True := by
      intro s; refine ⟨fun _ _ => trivial, ?_⟩
      cases s <;> first | trivial | exact fun _ => trivial | exact fun _ _ _ => trivial
    intro c m hm
    cases hb : m.body with
    | fields fs => simp only [ModelSer.Everywhere, hb]; exact fun f _ => Ser.everywhere_of_all h _
    | root s => simp only [ModelSer.Everywhere, hb]; exact Ser.everywhere_of_all h _
  exact (fromXmlTree_agree (metaSim (env1 := { env with backend := .lxml }) (env2 := { env with backend := .std }) eas
    (fx := fun _ => id) (X := fun _ => True) (own := fun _ => True) (ft := id) (fl := fun _ => -1) (raw := True) (forbid := True) rfl rfl (fun _ _ _ _ => rfl) (fun _ _ _ => rfl)
    (fun _ => rfl) (fun _ => ⟨rfl, rfl⟩) (fun _ _ _ _ => rfl) (fun _ _ _ => rfl) (fun _ => rfl) (fun _ _ _ _ => trivial) hno (fun _ _ _ _ => trivial)) hE n cls root root rfl
    ⟨fromNative_backend _ _ _, fromNative_noNs _ _, fromNative_noNs _ _⟩).1.lines_eq

/-- A document with lines, read by both backends. -/
example : (fromXmlTree (Ex.env .strict .lxml) false 9 "Person" Ex.personDoc).1 = .ok Ex.ann ∧
    (fromXmlTree (Ex.env .strict .std) false 9 "Person" Ex.personDoc).1 = .ok Ex.ann := ⟨rfl, rfl⟩

/-- The lines may differ: an error with and without a line. -/
example : let doc := Ex.el "person" none [Ex.el "home" none [] [] (some 2)] [("id", "7")] (some 1)
    ((fromXmlTree (Ex.env .ordered .lxml) false 9 "Person" doc).1 matches .verr ⟨_, [{ line := some 2, .. }]⟩) ∧
    ((fromXmlTree (Ex.env .ordered .std) false 9 "Person" doc).1 matches .verr ⟨_, [{ line := some (-1), .. }]⟩) := ⟨rfl, rfl⟩

end PXml
