import Verif.SpecPi
import Verif.Props.Order
import Verif.Props.OrderValues

/-!
# C107: processing instructions

Specification: `SpecPi.lean`.
-/

namespace PXml

open Elem

mutual
theorem dropForeign_dropPis {K : List String} (hK : piTag ∉ K) (n : Node) : n.dropPis.dropForeign K = n.dropForeign K := by
  cases n with
  | elem tag attrib nsmap text tail cs line => simp only [Node.dropPis, Node.dropForeign, dropForeignList_dropPis hK cs]
  | comment => rfl
  | pi => rfl
theorem dropForeignList_dropPis {K : List String} (hK : piTag ∉ K) (l : List Node) :
    Node.dropForeignList K (Node.dropPisList l) = Node.dropForeignList K l := by
  cases l with
  | nil => rfl
  | cons n l =>
    have h1 := dropForeignList_dropPis hK l
    have h2 := dropForeign_dropPis hK n
    have ht : n.dropPis.tag = n.tag := by cases n <;> rfl
    cases hp : n.isPi with
    | true =>
      have : n.tag ∉ K := by
        cases n with
        | pi => exact hK
        | _ => cases hp
      simp only [Node.dropPisList, hp, if_true, Node.dropForeignList, this, if_false, h1]
    | false => simp only [Node.dropPisList, hp, Bool.false_eq_true, if_false, Node.dropForeignList, ht, h1, h2]
end

/-- C107 (ordered mode; partial: without `extra='forbid'`, raw fields and plain unions of models; false in strict mode, see `C107_counterexample`): a document is
read as if its processing instructions were not there. -/
theorem C107_ordered_partial (env : Env) (hno : env.NoValidators) (hforbid : env.NoForbid) (K : List String) (hpi : piTag ∉ K)
    (hK : env.Everywhere (Ser.LooksFor K .ordered)) (hraw : env.Everywhere Ser.NotRaw) (hunion : env.Everywhere Ser.NotUnion) (eas : Bool) (n : Nat)
    (cls : String) (doc : Node) : (fromXmlTree env eas n cls doc.dropPis).1 = (fromXmlTree env eas n cls doc).1 :=
  C08_ordered_partial env hno hforbid K hK hraw hunion eas n cls _ _ (dropForeign_dropPis hpi doc)

/-- C107 (ordered mode with unions of models; partial as above): with and without the processing instructions the document gives the same instance, or is
rejected with a validation error. -/
theorem C107_ordered_values_partial (env : Env) (hno : env.NoValidators) (hforbid : env.NoForbid) (hE : env.Everywhere (Ser.Resolved env)) (K : List String)
    (hpi : piTag ∉ K) (hK : env.Everywhere (Ser.LooksFor K .ordered)) (hraw : env.Everywhere Ser.NotRaw) (eas : Bool)
    (heas : eas = false ∨ env.Everywhere Ser.NoTextItems) (cls : String) (m : ModelSer) (hm : env.model cls = some m) (doc : Node) :
    ∃ N, ∀ n, N ≤ n → SameVerdict (fromXmlTree env eas n cls doc.dropPis).1 (fromXmlTree env eas n cls doc).1 :=
  C08_ordered_values_partial env hno hforbid hE K hK hraw eas heas cls m hm _ _ (dropForeign_dropPis hpi doc)

/-- C107 (unordered mode; partial: as above, and among the children of an element each known tag occurs at most once, see `C08_unordered_counterexample`). -/
theorem C107_unordered_partial (env : Env) (hno : env.NoValidators) (hforbid : env.NoForbid) (K : List String) (hpi : piTag ∉ K)
    (hK : env.Everywhere (Ser.LooksFor K .unordered)) (hraw : env.Everywhere Ser.NotRaw) (hunion : env.Everywhere Ser.NotUnion) (eas : Bool) (n : Nat)
    (cls : String) (doc : Node) (hu : (doc.dropForeign K).UniqueTags K) :
    (fromXmlTree env eas n cls doc.dropPis).1 = (fromXmlTree env eas n cls doc).1 :=
  C08_unordered_partial env hno hforbid K hK hraw hunion eas n cls _ _ (dropForeign_dropPis hpi doc)
    (by rw [dropForeign_dropPis hpi]; exact hu)

/-- C107 (unordered mode with unions of models; partial as above): with and without the processing instructions the document gives the same instance, or is
rejected with a validation error. -/
theorem C107_unordered_values_partial (env : Env) (hno : env.NoValidators) (hforbid : env.NoForbid) (hE : env.Everywhere (Ser.Resolved env)) (K : List String)
    (hpi : piTag ∉ K) (hK : env.Everywhere (Ser.LooksFor K .unordered)) (hraw : env.Everywhere Ser.NotRaw) (eas : Bool)
    (heas : eas = false ∨ env.Everywhere Ser.NoTextItems) (cls : String) (m : ModelSer) (hm : env.model cls = some m) (doc : Node)
    (hu : (doc.dropForeign K).UniqueTags K) :
    ∃ N, ∀ n, N ≤ n → SameVerdict (fromXmlTree env eas n cls doc.dropPis).1 (fromXmlTree env eas n cls doc).1 :=
  C08_C09_unordered_values_partial env hno hforbid hE K hK hraw eas heas cls m hm _ _ (by rw [dropForeign_dropPis hpi]; exact .refl _)
    (by rw [dropForeign_dropPis hpi]; exact hu)

namespace Ex

/-- A shop with processing instructions before, between and inside its elements. -/
def shopPi : Node :=
  el "shop" none [.pi (some "a") (some "\n"), el "owner" (some "Ann"), .pi (some "b") none, el "item" (some "1"), .pi (some "c") none,
    el "addr" none [.pi (some "d") none, el "street" (some "s"), el "town" (some "t")]]

/-- What is read from it. -/
def shopPiVal : Val :=
  .model "Shop" [("owner", .str "Ann"), ("items", .list [.str "1"]),
    ("addr", .model "Addr" [("street", .str "s"), ("town", .str "t")] ["street", "town"]), ("note", .none)] ["owner", "items", "addr"]

theorem piTag_new : piTag ∉ shopTags := by decide

/-- Non-vacuity of `C107_ordered_partial` … -/
example : (fromXmlTree (shopEnv .ordered) false 9 "Shop" shopPi.dropPis).1 = (fromXmlTree (shopEnv .ordered) false 9 "Shop" shopPi).1 :=
  have ⟨h1, h2, h3, h4, h5⟩ := shop_ok .ordered
  C107_ordered_partial _ h1 h2 shopTags piTag_new h3 h4 h5 false 9 "Shop" shopPi

/-- … and of `C107_unordered_partial`. -/
example : (fromXmlTree (shopEnv .unordered) false 9 "Shop" shopPi.dropPis).1 = (fromXmlTree (shopEnv .unordered) false 9 "Shop" shopPi).1 := by
  obtain ⟨h1, h2, h3, h4, h5⟩ := shop_ok .unordered
  refine C107_unordered_partial _ h1 h2 shopTags piTag_new h3 h4 h5 false 9 "Shop" shopPi ?_
  have h : shopPi.dropForeign shopTags = el "shop" none [el "owner" (some "Ann"), el "item" (some "1"),
    el "addr" none [el "street" (some "s"), el "town" (some "t")]] := by kernel_rfl
  rw [h]
  refine ⟨by decide, ?_⟩
  simp [Node.UniqueTagsList, Node.UniqueTags, el, shopTags, Node.tag]

/-- Both times an instance is read. -/
example : (fromXmlTree (shopEnv .ordered) false 9 "Shop" shopPi).1 = .ok shopPiVal ∧ (fromXmlTree (shopEnv .unordered) false 9 "Shop" shopPi).1 = .ok shopPiVal :=
  ⟨by kernel_rfl, by kernel_rfl⟩

/-- Non-vacuity of `C107_ordered_values_partial`. -/
example : ∃ N, ∀ n, N ≤ n → SameVerdict (fromXmlTree (shopEnv .ordered) false n "Shop" shopPi.dropPis).1 (fromXmlTree (shopEnv .ordered) false n "Shop" shopPi).1 := by
  obtain ⟨h1, h2, h3, h4, _⟩ := shop_ok .ordered
  refine C107_ordered_values_partial _ h1 h2 ?_ shopTags piTag_new h3 h4 false (.inl rfl) "Shop" (shop .ordered) (by kernel_rfl) shopPi
  apply shop_everywhere
  simp [Ser.Resolved, shopEnv]

/-- A zoo with processing instructions. -/
def zooUnordered : Node := el "zoo" none [.pi (some "a") none, el "keeper" (some "Ann"), .pi (some "b") none,
  el "animal" none [el "wing" (some "w"), .pi (some "c") none, el "name" (some "O")]]

/-- Non-vacuity of `C107_unordered_values_partial`. -/
example : ∃ N, ∀ n, N ≤ n → SameVerdict (fromXmlTree (zooEnv .unordered) false n "Zoo" zooUnordered.dropPis).1
    (fromXmlTree (zooEnv .unordered) false n "Zoo" zooUnordered).1 := by
  obtain ⟨h1, h2, h3, h4, h5, _⟩ := zoo_ok .unordered
  refine C107_unordered_values_partial _ h1 h2 h3 zooTags (by decide) h4 h5 false (.inl rfl) "Zoo" (zoo .unordered) (by kernel_rfl) zooUnordered ?_
  have h : zooUnordered.dropForeign zooTags = el "zoo" none [el "keeper" (some "Ann"), el "animal" none [el "wing" (some "w"), el "name" (some "O")]] := by
    kernel_rfl
  rw [h]
  refine ⟨by decide, ?_⟩
  simp [Node.UniqueTagsList, Node.UniqueTags, el, zooTags, Node.tag]
example : (fromXmlTree (zooEnv .unordered) false 9 "Zoo" zooUnordered).1 = .ok (.model "Zoo" [("animals", .list [.model "Owl"
    [("name", .str "O"), ("part", .str "w")] ["name", "part"]]), ("keeper", .str "Ann")] ["animals", "keeper"]) := by kernel_rfl

end Ex

/-- C107 is false in strict mode, the default: a processing instruction in front of the first element hides all of them, and the document is rejected; without it
an instance is read. -/
theorem C107_counterexample :
    Ex.errLocs (fromXmlTree (Ex.shopEnv .strict) false 9 "Shop" Ex.shopPi).1 = [[.name "owner"], [.name "addr"]] ∧
    (fromXmlTree (Ex.shopEnv .strict) false 9 "Shop" Ex.shopPi.dropPis).1 = .ok Ex.shopPiVal := ⟨by kernel_rfl, by kernel_rfl⟩

end PXml
