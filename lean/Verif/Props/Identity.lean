import Verif.Lemmas.HeapSer
import Verif.Example

/-!
# Object identity

Reading and writing in a store of mutable objects (`Verif/Heap.lean`, `Verif/HeapWrite.lean`; the specification is
`Verif/SpecHeap.lean`).
-/

namespace PXml
namespace Heap

/-! ## An example

`Owner` has a tagged and a plain union.  The document is stored with sharing: the same `pet` object twice. -/

namespace Ex

def pet : Node := PXml.Ex.el "pet" none [PXml.Ex.el "lives" (some "9")] [("kind", "cat")]

def doc : Node := PXml.Ex.el "owner" none [pet, pet]

def store : Store := [
  .dict [],
  .dict [("kind", "cat")],
  .node (.elem "lives" 0 [] (some "9") none [] none),
  .node (.elem "pet" 1 [] none none [2] none),
  .node (.elem "owner" 0 [] none none [3, 3] none)]

theorem stored : IsNode store doc 4 := by
  have h2 : IsNode store (PXml.Ex.el "lives" (some "9")) 2 := .elem rfl rfl rfl (by simp)
  have h3 : IsNode store pet 3 := .elem (as := [2]) rfl rfl rfl fun i b c hb hc => by
    match i with
    | 0 => cases hb; cases hc; exact h2
    | i + 1 => simp at hb
  exact .elem (as := [3, 3]) rfl rfl rfl fun i b c hb hc => by
    match i with
    | 0 => cases hb; cases hc; exact h3
    | 1 => cases hb; cases hc; exact h3
    | i + 2 => simp at hb

def cat : Val := .model "Cat" [("kind", .str "cat"), ("lives", .str "9")] ["kind", "lives"]

/-- `class Box(BaseXmlModel): first: Element = element(); second: Element = element(); names: List[str] = element(tag="n");
home: Address` -/
def box : ModelSer where
  name := "Box"
  elementName := "box"
  body := .fields [
    { name := "first", ser := .raw "first" .strict false },
    { name := "second", ser := .raw "second" .strict false },
    { name := "names", ser := .homog "Box" false (.elem "n" none .strict false false) },
    { name := "home", ser := .proxy { cls := "Address", name := "home" } }]

def boxEnv : Env := { PXml.Ex.env with model := fun cls => if cls = "Box" then some box else PXml.Ex.model .strict cls }

/-- An instance of `Box`, at address 9, in which both raw fields hold the same native element, which in turn shares its
attribute dictionary with other elements. -/
def boxStore : Store := store ++ [
  .pyList [.str "x", .none],
  .inst "Address" [("zip", .str "1"), ("street", .none)] ["zip"],
  .pyDict [],
  .inst "Other" [] [],
  .inst "Box" [("first", .ref 3), ("second", .ref 3), ("names", .ref 5), ("home", .ref 6)] ["first", "second", "names", "home"]]

def boxVal : Val := .model "Box" [("first", .raw pet), ("second", .raw pet), ("names", .list [.str "x", .none]),
  ("home", .model "Address" [("zip", .str "1"), ("street", .none)] ["zip"])] ["first", "second", "names", "home"]

theorem boxStored : IsVal boxStore (.ref 9) boxVal := by
  have h2 : IsNode boxStore (PXml.Ex.el "lives" (some "9")) 2 := .elem rfl rfl rfl (by simp)
  have h3 : IsVal boxStore (.ref 3) (.raw pet) := .raw (.elem (as := [2]) rfl rfl rfl fun i b c hb hc => by
    match i with
    | 0 => cases hb; cases hc; exact h2
    | i + 1 => simp at hb)
  have h5 : IsVal boxStore (.ref 5) (.list [.str "x", .none]) := .list (vs := [.str "x", .none]) rfl rfl fun i v w hv hw => by
    match i with
    | 0 => cases hv; cases hw; exact .str _
    | 1 => cases hv; cases hw; exact .none
    | i + 2 => simp at hv
  have h6 : IsVal boxStore (.ref 6) (.model "Address" [("zip", .str "1"), ("street", .none)] ["zip"]) :=
    .model (d := [("zip", .str "1"), ("street", .none)]) rfl rfl fun i v w hv hw => by
      match i with
      | 0 => cases hv; cases hw; exact .str _
      | 1 => cases hv; cases hw; exact .none
      | i + 2 => simp at hv
  exact .model (d := [("first", .ref 3), ("second", .ref 3), ("names", .ref 5), ("home", .ref 6)]) rfl rfl fun i v w hv hw => by
    match i with
    | 0 => cases hv; cases hw; exact h3
    | 1 => cases hv; cases hw; exact h3
    | 2 => cases hv; cases hw; exact h5
    | 3 => cases hv; cases hw; exact h6
    | i + 4 => simp at hv

end Ex

/-! ## C44 -/

/-- C44, for reading: whatever `from_xml_tree` does with a native tree – succeed, fail, or not return – every object that
existed before (the tree, its attribute dictionaries, and everything else) is as it was. -/
theorem C44_tree_unchanged (env : Env) (eas : Bool) (n : Nat) (cls : String) (h : Store) (t : Node) (root : Addr)
    (ht : IsNode h t root) (x : Addr) (c : Cell) (hx : h[x]? = some c) :
    (fromXmlTree env eas n cls root h).2[x]? = some c := by
  rw [← hx]
  exact (fromXmlTree_refines env eas n cls ht).2.get (lt_of_some hx)

/-- C44: so the tree can be read again, by any class, with the result it would have had the first time. -/
theorem C44_read_again (env env' : Env) (eas eas' : Bool) (n n' : Nat) (cls cls' : String) (h : Store) (t : Node)
    (root : Addr) (ht : IsNode h t root) :
    (fromXmlTree env' eas' n' cls' root (fromXmlTree env eas n cls root h).2).1 = (fromXmlTree env' eas' n' cls' root h).1 := by
  rw [(fromXmlTree_refines env' eas' n' cls' ht).1,
    (fromXmlTree_refines env' eas' n' cls' (ht.grow (fromXmlTree_refines env eas n cls ht).2)).1]

/-- Non-vacuity: reading the example allocates objects, and consumes them (so the store is not just the old one). -/
example : (fromXmlTree PXml.Ex.env false 9 "Owner" 4 Ex.store).2.length > Ex.store.length ∧
    (fromXmlTree PXml.Ex.env false 9 "Owner" 4 Ex.store).1 = .ok (.model "Owner" [("pet", Ex.cat), ("any", Ex.cat)] ["pet", "any"]) :=
  ⟨by decide +kernel, by kernel_rfl⟩

/-- C44, for writing: whatever `to_xml_tree` does with an instance – return a tree or fail – every object that existed before
(the instance, its sub-models, lists, dictionaries and native elements, and everything else) is as it was.  (A custom serializer is
a function from values to elements here: what it does to the instance is its own business.) -/
theorem C44_instance_unchanged (env : Env) (n : Nat) (fl : Flags) (cls : String) (h : Store) (v : HVal) (w : Val)
    (hv : IsVal h v w) (x : Addr) (c : Cell) (hx : h[x]? = some c) :
    (toXmlTree env n fl cls v h).2[x]? = some c := by
  rw [← hx]
  exact (toXmlTree_refines env n fl cls hv).1.get (lt_of_some hx)

/-- C44: the tree that is returned consists of new objects only, so nothing that is done to it later can reach the instance (nor the
other way round), even if the instance holds native elements. -/
theorem C44_output_separate (env : Env) (n : Nat) (fl : Flags) (cls : String) (h h' : Store) (v : HVal) (w : Val)
    (hv : IsVal h v w) (root : Addr) (hr : toXmlTree env n fl cls v h = (.ok root, h')) (x : Addr) (hx : Part h' root x) :
    h[x]? = none := by
  have := (toXmlTree_refines env n fl cls hv).2
  rw [hr] at this
  refine List.getElem?_eq_none ?_
  cases ho : PXml.toXmlTree env n fl cls w with
  | ok t =>
    rw [ho] at this
    obtain ⟨_, h1, _, h3⟩ := this
    cases h1
    exact h3 x hx
  | verr x => rw [ho] at this; cases this
  | crash x => rw [ho] at this; cases this
  | diverge => rw [ho] at this; cases this

/-- C44: so the instance can be written again, as any class, with the result it would have had the first time. -/
theorem C44_write_again (env env' : Env) (n n' : Nat) (fl fl' : Flags) (cls cls' : String) (h h' h'' : Store) (v : HVal) (w : Val)
    (hv : IsVal h v w) (r1 r2 : Addr) (t : Node) (h1 : toXmlTree env' n' fl' cls' v h = (.ok r1, h')) (ht : IsNode h' t r1)
    (h2 : toXmlTree env' n' fl' cls' v (toXmlTree env n fl cls v h).2 = (.ok r2, h'')) : IsNode h'' t r2 := by
  have e1 := (toXmlTree_refines env' n' fl' cls' hv).2
  have e2 := (toXmlTree_refines env' n' fl' cls' (hv.grow (toXmlTree_refines env n fl cls hv).1)).2
  rw [h1] at e1
  rw [h2] at e2
  cases ho : PXml.toXmlTree env' n' fl' cls' w with
  | ok t' =>
    rw [ho] at e1 e2
    obtain ⟨_, h3, h4, _⟩ := e1
    obtain ⟨_, h5, h6, _⟩ := e2
    cases h3; cases h5
    have : t = t' := Option.some.inj (ht.read.symm.trans h4.read)
    exact this ▸ h6
  | verr x => rw [ho] at e1; cases e1
  | crash x => rw [ho] at e1; cases e1
  | diverge => rw [ho] at e1; cases e1

/-- Non-vacuity: an instance that shares native elements is stored at address 9, ... -/
example : IsVal Ex.boxStore (.ref 9) Ex.boxVal := Ex.boxStored

/-- ... and is written: the native elements appear twice, as copies. -/
example : PXml.toXmlTree Ex.boxEnv 9 {} "Box" Ex.boxVal = .ok (PXml.Ex.el "box" none
      [Ex.pet, Ex.pet, PXml.Ex.el "n" (some "x"), PXml.Ex.el "n" (some ""), PXml.Ex.el "home" (some "") [] [("zip", "1")]]) ∧
    (toXmlTree Ex.boxEnv 9 {} "Box" (.ref 9) Ex.boxStore).2.length > Ex.boxStore.length :=
  ⟨by kernel_rfl, by decide +kernel⟩

/-! ## C51 -/

/-- C51: reading a native tree with object identity gives exactly the result of the model in which elements are values. -/
theorem C51_same_result (env : Env) (eas : Bool) (n : Nat) (cls : String) (h : Store) (t : Node) (root : Addr)
    (ht : IsNode h t root) : (fromXmlTree env eas n cls root h).1 = (PXml.fromXmlTree env eas n cls t).1 :=
  (fromXmlTree_refines env eas n cls ht).1

/-- C51: writing an instance with object identity gives exactly the result of the model in which everything is a value. -/
theorem C51_same_output (env : Env) (n : Nat) (fl : Flags) (cls : String) (h : Store) (v : HVal) (w : Val) (hv : IsVal h v w) :
    match PXml.toXmlTree env n fl cls w with
    | .ok t => ∃ root h', toXmlTree env n fl cls v h = (.ok root, h') ∧ IsNode h' t root
    | .verr x => (toXmlTree env n fl cls v h).1 = .verr x
    | .crash x => (toXmlTree env n fl cls v h).1 = .crash x
    | .diverge => (toXmlTree env n fl cls v h).1 = .diverge := by
  have := (toXmlTree_refines env n fl cls hv).2
  cases ho : PXml.toXmlTree env n fl cls w with
  | ok t =>
    rw [ho] at this
    obtain ⟨root, h1, h2, _⟩ := this
    exact ⟨root, _, Prod.ext h1 rfl, h2⟩
  | verr x => rw [ho] at this; exact this
  | crash x => rw [ho] at this; exact this
  | diverge => rw [ho] at this; exact this

/-- C51, for every serializer: writing a field into an element that is stored as a tree, while the instance is stored elsewhere,
leaves the element the other model returns at the same address – again as a tree, of old and new objects – or fails as the other
model does, and changes no other object. -/
theorem C51_every_field_written (env : Env) (n : Nat) (fl : Flags) (s : Ser) (h : Store) (e : Elem) (a : Addr) (F : Addr → Prop)
    (v : HVal) (w enc : Val) (h0 : Store) (hv : IsVal h0 v w) (hold : ∀ (x : Addr) (c : Cell), h0[x]? = some c → h[x]? = some c)
    (ht : IsTree h e a F) (hF : ∀ x, F x → h0[x]? = none) :
    (match PXml.ser env n fl s e w enc with
      | .ok e' => (ser env n fl s a v enc h).1 = .ok () ∧
          ∃ F', IsTree (ser env n fl s a v enc h).2 e' a F' ∧ ∀ x, F' x → F x ∨ h.length ≤ x
      | .verr x => (ser env n fl s a v enc h).1 = .verr x
      | .crash x => (ser env n fl s a v enc h).1 = .crash x
      | .diverge => (ser env n fl s a v enc h).1 = .diverge) ∧
    ∀ (x : Addr) (c : Cell), h[x]? = some c → ¬ F x → (ser env n fl s a v enc h).2[x]? = some c := by
  have hlt : ∀ x, x < h0.length → h[x]? = h0[x]? := fun x hx => by
    obtain ⟨c, hc⟩ : ∃ c, h0[x]? = some c := ⟨h0[x], List.getElem?_eq_getElem hx⟩
    rw [hc, hold x c hc]
  have hle : h0.length ≤ h.length := by
    cases hl : h0.length with
    | zero => exact Nat.zero_le _
    | succ k =>
      have hk : k < h0.length := by omega
      have := hlt k hk
      rw [List.getElem?_eq_getElem hk] at this
      exact lt_of_some this
  have hr := ser_refines h0 env n fl s h e a F v w enc ht
    ⟨⟨hle, fun x hx _ => hlt x hx⟩, fun x hx => List.getElem?_eq_none_iff.1 (hF x hx)⟩ hv
  refine ⟨?_, fun x c hx hn => by rw [← hx]; exact hr.ext.same x (lt_of_some hx) hn⟩
  have := hr.step
  cases ho : PXml.ser env n fl s e w enc with
  | ok e' =>
    rw [ho] at this
    obtain ⟨h1, F', h2, _, h3⟩ := this
    exact ⟨h1, F', h2, h3⟩
  | verr x => rw [ho] at this; exact this
  | crash x => rw [ho] at this; exact this
  | diverge => rw [ho] at this; exact this

/-- C51, for every serializer: reading a field of an element that is stored as a tree gives the result of the other model,
leaves the element that model returns at the same address – again as a tree, of old and new objects – and changes no other
object. -/
theorem C51_every_field (env : Env) (eas : Bool) (n : Nat) (s : Ser) (loc : Loc) (h : Store) (e : Elem) (a : Addr)
    (F : Addr → Prop) (sm : SMap) (ht : IsTree h e a F) :
    (deser env eas n s loc a ⟨h, sm⟩).1 = (PXml.deser env eas n s loc ⟨e, sm⟩).1 ∧
    (deser env eas n s loc a ⟨h, sm⟩).2.sm = (PXml.deser env eas n s loc ⟨e, sm⟩).2.sm ∧
    (∃ F', IsTree (deser env eas n s loc a ⟨h, sm⟩).2.h (PXml.deser env eas n s loc ⟨e, sm⟩).2.el a F' ∧
      ∀ x, F' x → F x ∨ h.length ≤ x) ∧
    ∀ (x : Addr) (c : Cell), h[x]? = some c → ¬ F x → (deser env eas n s loc a ⟨h, sm⟩).2.h[x]? = some c := by
  obtain ⟨h1, h2, F', h3, h4, h5⟩ := deser_refines env eas n s loc h e a F sm ht
  refine ⟨h1, h2, ⟨F', h3, h5⟩, fun x c hx hn => ?_⟩
  rw [← hx]
  exact h4.same x (lt_of_some hx) hn

/-- C51: a snapshot of an element is the same tree, made of objects that did not exist before, and taking it changes
nothing. -/
theorem C51_snapshot (h : Store) (e : Elem) (a : Addr) (F : Addr → Prop) (ht : IsTree h e a F) :
    ∃ s h' F', h.createSnapshot a = some (s, h') ∧ IsTree h' e s F' ∧ (∀ x, F' x → h.length ≤ x) ∧
      ∀ (x : Addr) (c : Cell), h[x]? = some c → h'[x]? = some c := by
  obtain ⟨s, h', h1, F', h2, h3, h4⟩ := ht.snapshot
  exact ⟨s, h', F', h1, h2, h3, fun x c hx => by rw [← hx]; exact h4.get (lt_of_some hx)⟩

/-- Non-vacuity of `C44` and `C51`: the example document is stored at address 4, and one of its objects twice. -/
example : IsNode Ex.store Ex.doc 4 := Ex.stored

/-- The two models give the same, non-trivial result on it. -/
example : (PXml.fromXmlTree PXml.Ex.env false 9 "Owner" Ex.doc).1 =
    .ok (.model "Owner" [("pet", Ex.cat), ("any", Ex.cat)] ["pet", "any"]) := by kernel_rfl

/-- Non-vacuity of `C51_every_field` and `C51_snapshot`: the elements `from_native` makes are stored as trees, whose objects are
all new – also where the native tree shares them. -/
example : ∃ a h F, Ex.store.fromNative .lxml Ex.store.length 4 = some (a, h) ∧ IsTree h (PXml.fromNative .lxml Ex.doc) a F ∧
    ∀ x, F x → Ex.store.length ≤ x := by
  obtain ⟨a, h, h1, F, h2, h3, _⟩ := Ex.stored.fromNative .lxml
  exact ⟨a, h, F, h1, h2, h3⟩

/-- What sharing would do: if the snapshot of the element were the element itself, a failed alternative would consume what the
next one needs.  (A `cat` read as `Dog` and then as `Cat`, without snapshots and with one.) -/
example :
    let new := Store.put [] (PXml.fromNative .lxml (PXml.Ex.el "owner" none [Ex.pet]))
    let read (cls : String) (a : Addr) (h : Store) := deser PXml.Ex.env false 9 (.proxy { cls := cls, name := "pet" }) [] a ⟨h, []⟩
    (read "Cat" new.1 (read "Dog" new.1 new.2).2.h).1 = .ok .none ∧
    (new.2.createSnapshot new.1).map (fun sh => (read "Cat" new.1 (read "Dog" sh.1 sh.2).2.h).1) = some (.ok Ex.cat) :=
  ⟨by kernel_rfl, by kernel_rfl⟩

end Heap
end PXml
