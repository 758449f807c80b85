import Verif.SpecStrictCut
import Verif.Lemmas.SimStrict
import Verif.Props.OrderValues

/-!
# C108: in strict mode a foreign element hides its later siblings

Specification: `SpecStrictCut.lean`.
-/

namespace PXml

open Elem

theorem cutForeign_tag (K : List String) (n : Node) : (n.cutForeign K).tag = n.tag := by cases n <;> rfl

theorem cutForeign_isComment (K : List String) (n : Node) : (n.cutForeign K).isComment = n.isComment := by cases n <;> rfl

mutual
theorem cut_cutForeign (K : List String) (b : Backend) (n : Node) :
    (fromNative b (n.cutForeign K)).cut (fun t => decide (t ∈ K)) = (fromNative b n).cut (fun t => decide (t ∈ K)) := by
  cases n with
  | elem tag attrib nsmap text tail cs line => simp [Node.cutForeign, fromNative, Elem.cut, cut_cutForeignList K b cs]
  | comment => rfl
  | pi => rfl
theorem cut_cutForeignList (K : List String) (b : Backend) (l : List Node) :
    cutList (fun t => decide (t ∈ K)) (fromNativeList b (Node.cutForeignList K l)) = cutList (fun t => decide (t ∈ K)) (fromNativeList b l) := by
  cases l with
  | nil => rfl
  | cons n l =>
    have h1 := cut_cutForeign K b n
    have h2 := cut_cutForeignList K b l
    cases hc : n.isComment with
    | true => simp [Node.cutForeignList, fromNativeList, hc, h2]
    | false =>
      by_cases hk : n.tag ∈ K
      · simp [Node.cutForeignList, fromNativeList, hc, hk, cutForeign_isComment, cutList, fromNative_tag, cutForeign_tag, h1, h2]
      · simp [Node.cutForeignList, fromNativeList, hc, hk, cutList, fromNative_tag]
end

mutual
theorem cutForeign_cutForeign (K : List String) (n : Node) : (n.cutForeign K).cutForeign K = n.cutForeign K := by
  cases n with
  | elem tag attrib nsmap text tail cs line => simp only [Node.cutForeign, cutForeignList_cutForeignList K cs]
  | comment => rfl
  | pi => rfl
theorem cutForeignList_cutForeignList (K : List String) (l : List Node) :
    Node.cutForeignList K (Node.cutForeignList K l) = Node.cutForeignList K l := by
  cases l with
  | nil => rfl
  | cons n l =>
    have h1 := cutForeign_cutForeign K n
    have h2 := cutForeignList_cutForeignList K l
    cases hc : n.isComment with
    | true => simp [Node.cutForeignList, hc, h2]
    | false =>
      by_cases hk : n.tag ∈ K
      · simp [Node.cutForeignList, hc, hk, cutForeign_isComment, cutForeign_tag, h1, h2]
      · simp [Node.cutForeignList, hc, hk]
end

mutual
theorem fromNative_held (K : String → Bool) (b : Backend) (n : Node) : Held K (fromNative b n) := by
  cases n with
  | elem tag attrib nsmap text tail cs line => exact .mk (Nat.zero_le _) (fromNativeList_held K b cs)
  | comment => exact .mk (Nat.zero_le _) (by simp [fromNative])
  | pi => exact .mk (Nat.zero_le _) (by simp [fromNative])
theorem fromNativeList_held (K : String → Bool) (b : Backend) (l : List Node) : ∀ c ∈ fromNativeList b l, Held K c := by
  cases l with
  | nil => simp [fromNativeList]
  | cons n l =>
    have h1 := fromNative_held K b n
    have h2 := fromNativeList_held K b l
    simp only [fromNativeList]
    split
    · exact h2
    · intro c hc
      rcases List.mem_cons.1 hc with rfl | hc
      · exact h1
      · exact h2 c hc
end

/-- C108: with strict search (the default), two documents that agree in what stands, in each element, before the first child with a tag no field looks for are
read alike: the same values, or the same errors. -/
theorem C108_strict_cut (env : Env) (hno : env.NoValidators) (hforbid : env.NoForbid) (K : List String) (hK : env.Everywhere (Ser.LooksFor K .strict))
    (hraw : env.Everywhere Ser.NotRaw) (eas : Bool) (n : Nat) (cls : String) (doc1 doc2 : Node)
    (h : doc1.cutForeign K = doc2.cutForeign K) : (fromXmlTree env eas n cls doc1).1 = (fromXmlTree env eas n cls doc2).1 := by
  have ht : doc1.tag = doc2.tag := by rw [← cutForeign_tag K doc1, h, cutForeign_tag]
  have hE : env.Everywhere (Ser.Allowed (.tags fun t m => (fun t => decide (t ∈ K)) t = true ∧ m = .strict) False True) := by
    simpa using allowed_unions hK hraw
  refine (fromXmlTree_agree (cutSim env eas (fun t => decide (t ∈ K)) hforbid hno) hE n cls doc1 doc2 ht ⟨?_, fromNative_held _ _ _, fromNative_held _ _ _⟩).1.eq
  rw [← cut_cutForeign K _ doc1, h, cut_cutForeign]

/-- C108: a document is read as if the first foreign child of each element, and all that follows it there, were missing. -/
theorem C108_hidden (env : Env) (hno : env.NoValidators) (hforbid : env.NoForbid) (K : List String) (hK : env.Everywhere (Ser.LooksFor K .strict))
    (hraw : env.Everywhere Ser.NotRaw) (eas : Bool) (n : Nat) (cls : String) (doc : Node) :
    (fromXmlTree env eas n cls (doc.cutForeign K)).1 = (fromXmlTree env eas n cls doc).1 :=
  C108_strict_cut env hno hforbid K hK hraw eas n cls _ _ (cutForeign_cutForeign K doc)

theorem dropForeignList_nil {K : List String} {l : List Node} (h : ∀ x ∈ l, x.tag ∉ K) : Node.dropForeignList K l = [] := by
  induction l with
  | nil => rfl
  | cons n l ih => simp [Node.dropForeignList, h n (by simp), ih fun x hx => h x (by simp [hx])]

mutual
theorem cut_dropForeign {K : List String} (b : Backend) (n : Node) (h : n.ForeignLast K) :
    (fromNative b (n.dropForeign K)).cut (fun t => decide (t ∈ K)) = (fromNative b n).cut (fun t => decide (t ∈ K)) := by
  cases n with
  | elem tag attrib nsmap text tail cs line => simp [Node.dropForeign, fromNative, Elem.cut, cut_dropForeignList b cs h]
  | comment => rfl
  | pi => rfl
theorem cut_dropForeignList {K : List String} (b : Backend) (l : List Node) (h : Node.ForeignLastList K l) :
    cutList (fun t => decide (t ∈ K)) (fromNativeList b (Node.dropForeignList K l)) = cutList (fun t => decide (t ∈ K)) (fromNativeList b l) := by
  cases l with
  | nil => rfl
  | cons n l =>
    obtain ⟨g1, g2, g3⟩ := h
    have h1 := cut_dropForeign b n g1
    have h2 := cut_dropForeignList b l g2
    by_cases hk : n.tag ∈ K
    · cases hc : n.isComment with
      | true => simp [Node.dropForeignList, fromNativeList, hc, hk, dropForeign_isComment, h2]
      | false => simp [Node.dropForeignList, fromNativeList, hc, hk, dropForeign_isComment, cutList, fromNative_tag, dropForeign_tag, h1, h2]
    · cases hc : n.isComment with
      | true => simp [Node.dropForeignList, fromNativeList, hc, hk, h2]
      | false => simp [Node.dropForeignList, fromNativeList, hc, hk, cutList, fromNative_tag, dropForeignList_nil (g3 hc hk)]
end

/-- C108: foreign elements that come last, in each element, have no influence. -/
theorem C108_foreign_last (env : Env) (hno : env.NoValidators) (hforbid : env.NoForbid) (K : List String) (hK : env.Everywhere (Ser.LooksFor K .strict))
    (hraw : env.Everywhere Ser.NotRaw) (eas : Bool) (n : Nat) (cls : String) (doc : Node) (h : doc.ForeignLast K) :
    (fromXmlTree env eas n cls (doc.dropForeign K)).1 = (fromXmlTree env eas n cls doc).1 := by
  have hE : env.Everywhere (Ser.Allowed (.tags fun t m => (fun t => decide (t ∈ K)) t = true ∧ m = .strict) False True) := by
    simpa using allowed_unions hK hraw
  exact (fromXmlTree_agree (cutSim env eas (fun t => decide (t ∈ K)) hforbid hno) hE n cls _ doc (dropForeign_tag K doc)
    ⟨cut_dropForeign _ doc h, fromNative_held _ _ _, fromNative_held _ _ _⟩).1.eq

namespace Ex

/-- A shop with foreign elements behind its children, known elements behind those, and a comment in front. -/
def shopCut : Node :=
  el "shop" none [.comment none none, el "owner" (some "Ann"), el "item" (some "1"),
    el "addr" none [el "street" (some "s"), el "town" (some "t"), el "zip" (some "z"), el "street" (some "u")],
    el "ad" none [el "item" (some "2")], el "meta" none [el "note" (some "n")]]

/-- The same without what is hidden. -/
def shopCutLeft : Node :=
  el "shop" none [.comment none none, el "owner" (some "Ann"), el "item" (some "1"), el "addr" none [el "street" (some "s"), el "town" (some "t")]]

example : shopCut.cutForeign shopTags = shopCutLeft := by kernel_rfl

/-- Non-vacuity of `C108_hidden` and `C108_strict_cut`. -/
example : (fromXmlTree (shopEnv .strict) false 9 "Shop" (shopCut.cutForeign shopTags)).1 = (fromXmlTree (shopEnv .strict) false 9 "Shop" shopCut).1 :=
  have ⟨h1, h2, h3, h4, _⟩ := shop_ok .strict
  C108_hidden _ h1 h2 shopTags h3 h4 false 9 "Shop" shopCut
example : (fromXmlTree (shopEnv .strict) false 9 "Shop" shopCut).1 = (fromXmlTree (shopEnv .strict) false 9 "Shop" shopCutLeft).1 :=
  have ⟨h1, h2, h3, h4, _⟩ := shop_ok .strict
  C108_strict_cut _ h1 h2 shopTags h3 h4 false 9 "Shop" shopCut shopCutLeft (by kernel_rfl)

/-- The note behind the foreign element is lost in strict mode and only there. -/
example : (fromXmlTree (shopEnv .strict) false 9 "Shop" shopCut).1 =
    .ok (.model "Shop" [("owner", .str "Ann"), ("items", .list [.str "1"]),
      ("addr", .model "Addr" [("street", .str "s"), ("town", .str "t")] ["street", "town"]), ("note", .none)] ["owner", "items", "addr"]) ∧
    (fromXmlTree (shopEnv .ordered) false 9 "Shop" shopCut).1 =
    .ok (.model "Shop" [("owner", .str "Ann"), ("items", .list [.str "1"]),
      ("addr", .model "Addr" [("street", .str "s"), ("town", .str "t")] ["street", "town"]), ("note", .str "n")] ["owner", "items", "addr", "note"]) :=
  ⟨by kernel_rfl, by kernel_rfl⟩

/-- A zoo with foreign elements and known ones behind them. -/
def zooCut : Node := el "zoo" none [el "animal" none [el "name" (some "O"), el "wing" (some "w"), el "tail" (some "?"), el "mane" (some "m")], lion,
  el "keeper" (some "Ann"), el "sign", owl]

/-- Non-vacuity of `C108_strict_cut`, with a union of models. -/
example : (fromXmlTree (zooEnv .strict) false 9 "Zoo" zooCut).1 = (fromXmlTree (zooEnv .strict) false 9 "Zoo" zooDoc).1 :=
  have ⟨h1, h2, _, h4, h5, _⟩ := zoo_ok .strict
  C108_strict_cut _ h1 h2 zooTags h4 h5 false 9 "Zoo" zooCut zooDoc (by kernel_rfl)
example : (fromXmlTree (zooEnv .strict) false 9 "Zoo" zooCut).1 = .ok zooVal := by kernel_rfl

/-- A union none of whose classes fits, with a hidden sibling: these are the errors for the visible part alone, too. -/
example : errLocs (fromXmlTree (zooEnv .strict) false 9 "Zoo"
    (el "zoo" none [el "animal" none [el "name" (some "?")], el "sign", el "keeper" (some "Ann")])).1 =
    [[.name "animals", .idx 0, .name "Lion", .name "part"], [.name "animals", .idx 0, .name "Owl", .name "part"]] := by kernel_rfl
example : errLocs (fromXmlTree (zooEnv .strict) false 9 "Zoo" (el "zoo" none [el "animal" none [el "name" (some "?")]])).1 =
    [[.name "animals", .idx 0, .name "Lion", .name "part"], [.name "animals", .idx 0, .name "Owl", .name "part"]] := by kernel_rfl

/-- A zoo whose foreign elements come last. -/
def zooLast : Node := el "zoo" none [el "animal" none [el "name" (some "O"), .comment none none, el "wing" (some "w"), el "tail" (some "?")], lion,
  el "keeper" (some "Ann"), el "sign", .pi none none, el "sign" none [owl]]

/-- Non-vacuity of `C108_foreign_last`. -/
example : (fromXmlTree (zooEnv .strict) false 9 "Zoo" (zooLast.dropForeign zooTags)).1 = (fromXmlTree (zooEnv .strict) false 9 "Zoo" zooLast).1 := by
  have ⟨h1, h2, _, h4, h5, _⟩ := zoo_ok .strict
  refine C108_foreign_last _ h1 h2 zooTags h4 h5 false 9 "Zoo" zooLast ?_
  simp [zooLast, el, lion, owl, Node.ForeignLast, Node.ForeignLastList, Node.isComment, Node.tag, zooTags]
example : (fromXmlTree (zooEnv .strict) false 9 "Zoo" zooLast).1 = .ok zooVal := by kernel_rfl

/-- A class with `extra='forbid'` (`forbid`), or with a raw field. -/
def crate (forbid : Bool) : ModelSer where
  name := "Crate"
  elementName := "crate"
  body := .fields [{ name := "x", ser := if forbid then .elem "x" none .strict false false else .raw "x" .strict false }]
  extraForbid := forbid

def crateEnv (forbid : Bool) : Env where
  backend := .lxml
  model c := if c = "Crate" then some (crate forbid) else none
  validate c d := match d with | .dict fs => check c [("x", true)] fs | _ => .error ⟨c, []⟩
  toJsonable := json
  reprOf _ := "..."

/-- Both conditions on the classes are needed: `extra='forbid'` reports what is hidden … -/
example : errLocs (fromXmlTree (crateEnv true) false 9 "Crate" (el "crate" none [el "x" (some "1"), el "y" (some "2")])).1 = [[.name "y"]] ∧
    (fromXmlTree (crateEnv true) false 9 "Crate" ((el "crate" none [el "x" (some "1"), el "y" (some "2")]).cutForeign ["x"])).1 =
      .ok (.model "Crate" [("x", .str "1")] ["x"]) := ⟨by kernel_rfl, by kernel_rfl⟩

/-- … and a raw field holds it. -/
example : (fromXmlTree (crateEnv false) false 9 "Crate" (el "crate" none [el "x" none [el "y"]])).1 =
      .ok (.model "Crate" [("x", .raw (el "x" none [el "y"]))] ["x"]) ∧
    (fromXmlTree (crateEnv false) false 9 "Crate" ((el "crate" none [el "x" none [el "y"]]).cutForeign ["x"])).1 =
      .ok (.model "Crate" [("x", .raw (el "x" none []))] ["x"]) := ⟨by kernel_rfl, by kernel_rfl⟩

end Ex

end PXml
