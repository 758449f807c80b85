import Verif.Lemmas.SimAttrs
import Verif.Example

/-!
# Foreign attributes, the order of attributes, and prefixes (C59, C60)
-/

namespace PXml

open Elem

/-! ## Helpers -/

mutual
theorem fromNative_agreeIn (K : List String) (b : Backend) (n n' : Node) (h : n.AgreeIn K n') :
    (fromNative b n).onlyAttrs K = (fromNative b n').onlyAttrs K ∧ n.isComment = n'.isComment := by
  cases n with
  | elem tag attrib nsmap text tail cs line =>
    cases n' with
    | elem tag' attrib' nsmap' text' tail' cs' line' =>
      simp only [Node.AgreeIn] at h
      obtain ⟨rfl, rfl, rfl, rfl, h1, h2⟩ := h
      have h3 := fromNativeList_agreeIn K b cs cs' h2
      have h4 := pick_congr h1
      simp [fromNative, onlyAttrs, h3, h4, Node.isComment]
    | comment => simp [Node.AgreeIn] at h
    | pi => simp [Node.AgreeIn] at h
  | comment text tail =>
    cases n' with
    | comment => simp only [Node.AgreeIn] at h; obtain ⟨rfl, rfl⟩ := h; exact ⟨rfl, rfl⟩
    | elem => simp [Node.AgreeIn] at h
    | pi => simp [Node.AgreeIn] at h
  | pi text tail =>
    cases n' with
    | pi => simp only [Node.AgreeIn] at h; obtain ⟨rfl, rfl⟩ := h; exact ⟨rfl, rfl⟩
    | elem => simp [Node.AgreeIn] at h
    | comment => simp [Node.AgreeIn] at h
theorem fromNativeList_agreeIn (K : List String) (b : Backend) (l l' : List Node) (h : Node.AgreeInList K l l') :
    onlyAttrsList K (fromNativeList b l) = onlyAttrsList K (fromNativeList b l') := by
  cases l with
  | nil => cases l' <;> simp [Node.AgreeInList] at h ⊢
  | cons n l =>
    cases l' with
    | nil => simp [Node.AgreeInList] at h
    | cons n' l' =>
      simp only [Node.AgreeInList] at h
      have h1 := fromNative_agreeIn K b n n' h.1
      have h2 := fromNativeList_agreeIn K b l l' h.2
      simp only [fromNativeList, h1.2]
      cases n'.isComment with
      | true => simpa using h2
      | false => simp [onlyAttrsList, h1.1, h2]
end

mutual
theorem fromNative_once (b : Backend) (n : Node) (h : n.AttrsOnce) : (fromNative b n).once := by
  cases n with
  | elem tag attrib nsmap text tail cs line =>
    simp only [Node.AttrsOnce] at h
    simp only [fromNative, once]
    exact ⟨h.1, fromNativeList_once b cs h.2⟩
  | comment => simp [fromNative, once, onceList, Dict.wf_nil]
  | pi => simp [fromNative, once, onceList, Dict.wf_nil]
theorem fromNativeList_once (b : Backend) (l : List Node) (h : Node.AttrsOnceList l) : onceList (fromNativeList b l) := by
  cases l with
  | nil => trivial
  | cons n l =>
    simp only [Node.AttrsOnceList] at h
    simp only [fromNativeList]
    split
    · exact fromNativeList_once b l h.2
    · exact ⟨fromNative_once b n h.1, fromNativeList_once b l h.2⟩
end

theorem agreeIn_tag {K : List String} {n n' : Node} (h : n.AgreeIn K n') : n.tag = n'.tag := by
  cases n <;> cases n' <;> simp_all [Node.AgreeIn, Node.tag]

theorem allowed_of_readsAttrs {env : Env} {K : List String} (hK : env.Everywhere (Ser.ReadsAttrs K))
    (hraw : env.Everywhere Ser.NotRaw) : env.Everywhere (Ser.Allowed ⟨fun _ _ => True, (· ∈ K), False, fun _ => True, fun _ => True⟩ False True) := by
  have key : ∀ s : Ser, s.Everywhere (Ser.ReadsAttrs K) → s.Everywhere Ser.NotRaw →
      s.Everywhere (Ser.Allowed ⟨fun _ _ => True, (· ∈ K), False, fun _ => True, fun _ => True⟩ False True) := by
    intro s h1
    induction h1 with
    | @mk s h _ ih =>
      intro h2
      obtain ⟨h2, k2⟩ := h2
      refine ⟨⟨fun _ _ => trivial, ?_⟩, fun t ht => ih t ht (k2 t ht)⟩
      cases s <;> first | trivial | exact h2 | exact h | exact fun _ => trivial | exact fun _ _ _ => trivial
  intro c m hm
  have h1 := hK c m hm
  have h2 := hraw c m hm
  cases hb : m.body with
  | fields fs =>
    simp only [ModelSer.Everywhere, hb] at h1 h2 ⊢
    exact fun f hf => key _ (h1 f hf) (h2 f hf)
  | root s =>
    simp only [ModelSer.Everywhere, hb] at h1 h2 ⊢
    exact key _ h1 h2

/-! ## C59 foreign attributes -/

/-- C59: two documents that agree in the attributes the fields of the classes look for (and in `xsi:nil`), and in
everything that is not an attribute, are read alike, whatever other attributes occur anywhere in them and in whatever
order the attributes are written: the same values, or the same errors.  All three search modes, all unions, all depths. -/
theorem C59_foreign_attributes (env : Env) (hno : env.NoValidators) (hforbid : env.NoForbid) (K : List String)
    (hnil : nilAttr ∈ K) (hK : env.Everywhere (Ser.ReadsAttrs K)) (hraw : env.Everywhere Ser.NotRaw)
    (eas : Bool) (n : Nat) (cls : String) (doc1 doc2 : Node) (h1 : doc1.AttrsOnce) (h2 : doc2.AttrsOnce)
    (h : doc1.AgreeIn K doc2) :
    (fromXmlTree env eas n cls doc1).1 = (fromXmlTree env eas n cls doc2).1 :=
  (fromXmlTree_agree (attrsSim env eas K hnil hforbid hno) (allowed_of_readsAttrs hK hraw) n cls doc1 doc2 (agreeIn_tag h)
    ⟨(fromNative_agreeIn K _ _ _ h).1, fromNative_once _ _ h1, fromNative_once _ _ h2⟩).1.eq

/-- The example classes without `Person`, which has a dictionary. -/
def Ex.attrEnv : Env := { Ex.env with model := fun
  | "Tree" => some Ex.tree
  | "Dog" => some Ex.dog
  | "Cat" => some Ex.cat
  | "Owner" => some Ex.owner
  | _ => none }

theorem Ex.attrEnv_cases {P : String → ModelSer → Prop} (h1 : P "Tree" tree) (h2 : P "Dog" dog) (h3 : P "Cat" cat)
    (h4 : P "Owner" owner) : ∀ cls m, attrEnv.model cls = some m → P cls m := by
  intro cls m h
  simp only [attrEnv] at h
  split at h <;> first | (injection h with h; subst h; assumption) | exact absurd h (by simp)

/-- The hypotheses are met by classes with attributes, lists and both kinds of unions. -/
example : Ex.attrEnv.NoValidators ∧ Ex.attrEnv.NoForbid := by
  refine ⟨fun cls m fs hm hb f hf => ?_, Ex.attrEnv_cases rfl rfl rfl rfl⟩
  have := Ex.attrEnv_cases (P := fun _ m => ∀ fs, m.body = .fields fs → ∀ f ∈ fs, f.validator = none) ?_ ?_ ?_ ?_ cls m hm
  · exact this fs hb f hf
  all_goals
    intro fs hb
    simp only [Ex.tree, Ex.dog, Ex.cat, Ex.owner, Body.fields.injEq] at hb
    subst hb
    simp

example : Ex.attrEnv.Everywhere (Ser.ReadsAttrs [nilAttr, "id", "kind"]) ∧ Ex.attrEnv.Everywhere Ser.NotRaw := by
  constructor <;> apply Ex.attrEnv_cases <;>
    simp only [ModelSer.Everywhere, Ex.tree, Ex.dog, Ex.cat, Ex.owner, List.mem_cons, List.not_mem_nil, or_false,
      forall_eq_or_imp, forall_eq] <;>
    refine ⟨?_, ?_⟩ <;> refine ⟨by simp [Ser.ReadsAttrs, Ser.NotRaw], ?_⟩ <;>
    simp only [Ser.subs, List.map_cons, List.map_nil, List.mem_cons, List.not_mem_nil, or_false, forall_eq_or_imp, forall_eq,
      false_imp_iff, implies_true] <;>
    repeat' first | exact ⟨trivial, by simp [Ser.subs]⟩ | constructor

/-- Two documents that differ in foreign attributes and the order of attributes, at two levels; they are read. -/
example : let doc1 := Ex.el "tree" none [Ex.el "tree" none [] [("id", "2")]] [("id", "1"), (nilAttr, "false")]
    let doc2 := Ex.el "tree" none [Ex.el "tree" none [] [("lang", "en"), ("id", "2"), ("x", "")]] [(nilAttr, "false"), ("x", "y"), ("id", "1")]
    doc1.AttrsOnce ∧ doc2.AttrsOnce ∧ doc1.AgreeIn [nilAttr, "id", "kind"] doc2 ∧
      ((fromXmlTree Ex.attrEnv false 9 "Tree" doc1).1 matches .ok _) ∧
      ((fromXmlTree Ex.attrEnv false 9 "Tree" doc2).1 matches .ok _) := by
  refine ⟨?_, ?_, ?_, rfl, rfl⟩
  · simp [Ex.el, Node.AttrsOnce, Node.AttrsOnceList, nilAttr]
  · simp [Ex.el, Node.AttrsOnce, Node.AttrsOnceList, nilAttr]
  · simp only [Ex.el, Node.AgreeIn, Node.AgreeInList, List.mem_cons, List.not_mem_nil, or_false, forall_eq_or_imp, forall_eq,
      true_and, and_true]
    exact ⟨⟨rfl, rfl, rfl⟩, rfl, rfl, rfl⟩

/-- A dictionary takes all attributes: there the same change is visible. -/
example : let doc1 := Ex.el "person" none [Ex.el "name" (some "Ann"), Ex.el "extra" none [] [("a", "1")]] [("id", "7")]
    let doc2 := Ex.el "person" none [Ex.el "name" (some "Ann"), Ex.el "extra" none [] [("a", "1"), ("b", "2")]] [("id", "7")]
    ((fromXmlTree (Ex.env .ordered) false 9 "Person" doc1).1 matches .ok (.model _ [_, _, _, _, _, _, ("extra", .dict [_])] _)) ∧
      ((fromXmlTree (Ex.env .ordered) false 9 "Person" doc2).1 matches
        .ok (.model _ [_, _, _, _, _, _, ("extra", .dict [_, _])] _)) := ⟨rfl, rfl⟩

/-! ## C60 prefixes -/

mutual
theorem fromNative_dropPrefixes (b : Backend) (n : Node) : fromNative b n.dropPrefixes = fromNative b n := by
  cases n with
  | elem tag attrib nsmap text tail cs line => simp [Node.dropPrefixes, fromNative, fromNativeList_dropPrefixes b cs]
  | comment => rfl
  | pi => rfl
theorem fromNativeList_dropPrefixes (b : Backend) (l : List Node) :
    fromNativeList b (Node.dropPrefixesList l) = fromNativeList b l := by
  cases l with
  | nil => rfl
  | cons n l =>
    have hd : n.dropPrefixes.isComment = n.isComment := by cases n <;> rfl
    simp only [Node.dropPrefixesList, fromNativeList, hd, fromNative_dropPrefixes b n, fromNativeList_dropPrefixes b l]
end

/-- C60: the prefixes a document uses for its namespaces, and where it declares them, have no influence: documents with
the same expanded names are read alike, by all classes, with raw fields, validators and `extra='forbid'` included. -/
theorem C60_prefixes_irrelevant (env : Env) (eas : Bool) (n : Nat) (cls : String) (doc1 doc2 : Node)
    (h : doc1.dropPrefixes = doc2.dropPrefixes) :
    (fromXmlTree env eas n cls doc1).1 = (fromXmlTree env eas n cls doc2).1 := by
  have ht : doc1.tag = doc2.tag := by
    have hd : ∀ d : Node, d.dropPrefixes.tag = d.tag := fun d => by cases d <;> rfl
    rw [← hd doc1, h, hd]
  have hf : fromNative env.backend doc1 = fromNative env.backend doc2 := by
    rw [← fromNative_dropPrefixes, h, fromNative_dropPrefixes]
  unfold fromXmlTree
  rw [hf, ht]

/-- The same document with the namespace declared under two prefixes, or as the default. -/
example : let doc (nsmap : NsMap) := Node.elem "person" [("id", "7")] nsmap none none [Ex.el "name" (some "Ann")] none
    (doc [("a", "urn:x")]).dropPrefixes = (doc [("", "urn:x"), ("b", "urn:y")]).dropPrefixes ∧
      ((fromXmlTree Ex.env false 9 "Person" (doc [("a", "urn:x")])).1 matches .ok _) := ⟨rfl, rfl⟩

end PXml
