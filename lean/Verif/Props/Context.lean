import Verif.Lemmas.Threaded
import Verif.Example
import Verif.SpecEffort

/-!
# The validation context and `empty_as_string` reach every nested model (C61)
-/

namespace PXml
namespace Threaded

variable {C W : Type}

/-- C61: whatever the classes, the document and the validators, every call of `model_validate` during `from_xml` is given the
context that was passed to `from_xml`. -/
theorem C61_context_in_every_call (E : TEnv C W) (parse : String → Except PyErr Node) (n : Nat) (cls source : String)
    (context : Option C) (emptyAsString : Bool) (w : W) :
    ∀ call ∈ (fromXml E.noted parse n cls source context emptyAsString (w, [])).2.2, call.1 = context := by
  simp only [fromXml]
  split
  · simp
  · rename_i root _
    refine fromXmlTree_keepsW (E := E.noted) (o := ⟨context, emptyAsString⟩) (P := fun w => ∀ call ∈ w.2, call.1 = context) ?_ n cls
      root (w, []) (by simp)
    intro cls v w hw call hc
    simp only [TEnv.noted, List.mem_append, List.mem_singleton] at hc
    rcases hc with hc | rfl
    · exact hw call hc
    · rfl

/-- C61: validators that do the same when they are given the context `context`, but behave differently under other contexts,
lead to the same result: no part of the reading falls back to another context. -/
theorem C61_no_other_context (E E' : TEnv C W) (hb : E.backend = E'.backend) (hm : E.model = E'.model)
    (parse : String → Except PyErr Node) (n : Nat) (cls source : String) (context : Option C) (emptyAsString : Bool) (w : W)
    (h : ∀ cls v w, E.validate context cls v w = E'.validate context cls v w) :
    fromXml E parse n cls source context emptyAsString w = fromXml E' parse n cls source context emptyAsString w := by
  have hA : Agree E E' ⟨context, emptyAsString⟩ ⟨context, emptyAsString⟩ := ⟨hb, hm, rfl, h⟩
  simp only [fromXml, fromXmlTree, hm, hb, hA.modelSer fun x => hA.read n x]

/-- C61: with validators whose answers depend on the context and the data only, reading under a context is reading with
validators into which this context has been built, and `empty_as_string` is the same throughout.  Every theorem about
`fromXmlTree` therefore holds under every context. -/
theorem C61_context_built_in (E : TEnv C W) (V : Option C → String → Val → Except VErr (List (String × Val) × List String))
    (hV : ∀ c cls v w, (E.validate c cls v w).1 = V c cls v) (toJsonable : Val → Val) (reprOf : Val → String)
    (n : Nat) (cls : String) (root : Node) (context : Option C) (emptyAsString : Bool) (w : W) :
    (fromXmlTree E n cls root context emptyAsString w).1 =
      (PXml.fromXmlTree { backend := E.backend, model := E.model, validate := V context, toJsonable := toJsonable, reprOf := reprOf }
        emptyAsString n cls root).1 := by
  simp only [fromXmlTree, PXml.fromXmlTree]
  cases E.model cls with
  | none => rfl
  | some m =>
    simp only
    split
    · have := modelSer_drop hV toJsonable reprOf (read E n) ⟨context, emptyAsString⟩ _
        (fun x loc s => read_drop hV toJsonable reprOf n x ⟨context, emptyAsString⟩ loc s) cls m []
        ⟨fromNative E.backend root, [], w⟩
      exact congrArg Prod.fst this
    · rfl

/-! ## A concrete case -/

namespace Ex

/-- ```python
class Item(BaseXmlModel, tag='item'):
    name: str
class Box(BaseXmlModel, tag='box'):
    items: list[Item] = wrapped('items', element('item'))
```
-/
def itemSer : ModelSer := { name := "Item", elementName := "item", body := .fields [{ name := "name", ser := .text false false }] }

def boxSer : ModelSer :=
  { name := "Box", elementName := "box"
    body := .fields [{
      name := "items", ser := .wrap ["items"] none .strict false (.homog "Box" false (.proxy { cls := "Item", name := "item" })) }] }

/-- The context is the set of known names; `Item` has a validator that rejects other names, and accepts nothing without a
context. -/
def known (c : Option (List String)) (cls : String) (v : Val) : Except VErr (List (String × Val) × List String) :=
  match cls, v with
  | "Item", .dict d =>
    match (Dict.get? d "name" : Option Val) with
    | some (.str s) =>
      if (c.getD []).contains s then .ok ([("name", .str s)], ["name"])
      else .error ⟨"Item", [⟨"value_error", "unknown", [.name "name"], .str s, none⟩]⟩
    | _ => .error ⟨"Item", []⟩
  | _, .dict d => .ok (d, d.map Prod.fst)
  | _, _ => .error ⟨cls, []⟩

/-- The state of the world is the number of validations so far. -/
def ctxEnv : TEnv (List String) Nat :=
  { backend := .lxml, model := fun c => if c = "Item" then some itemSer else if c = "Box" then some boxSer else none
    validate := fun c cls v w => (known c cls v, w + 1) }

def boxDoc : Node :=
  .elem "box" [] [] none none
    [.elem "items" [] [] none none
      [.elem "item" [] [] (some "bolt") none [] (some 3), .elem "item" [] [] (some "nut") none [] (some 4)] (some 2)] (some 1)

/-- The two items and the box are validated, all with the context. -/
example : (fromXml ctxEnv.noted (fun _ => .ok boxDoc) 9 "Box" "<box/>" (some ["bolt", "nut"]) false (0, [])).2.2.map
    (fun call => (call.1, call.2.1)) =
      [(some ["bolt", "nut"], "Item"), (some ["bolt", "nut"], "Item"), (some ["bolt", "nut"], "Box")] := by kernel_rfl

/-- With this context the document is accepted. -/
example : (fromXml ctxEnv (fun _ => .ok boxDoc) 9 "Box" "<box/>" (some ["bolt", "nut"]) false 0).1 =
    .ok (.model "Box" [("items", .list [.model "Item" [("name", .str "bolt")] ["name"], .model "Item" [("name", .str "nut")] ["name"]])]
      ["items"]) := by kernel_rfl

/-- Without it, both items are rejected. -/
example : (fromXml ctxEnv (fun _ => .ok boxDoc) 9 "Box" "<box/>" none false 0).1 =
    .verr ⟨"Box",
      [⟨"value_error", "unknown", [.name "items", .idx 0, .name "name"], .str "bolt", some 3⟩,
       ⟨"value_error", "unknown", [.name "items", .idx 1, .name "name"], .str "nut", some 4⟩]⟩ := by kernel_rfl

/-- The answers of the validators depend on the context and the data only. -/
example : ∀ c cls v w, (ctxEnv.validate c cls v w).1 = known c cls v := fun _ _ _ _ => rfl

end Ex
end Threaded
end PXml
