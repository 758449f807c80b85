import Verif.Lemmas.SubDoc

/-!
# C90: a sub-model is written as it is written by itself

The specification is in `Verif/SpecSubDoc.lean`.
-/

namespace PXml

open Elem

/-- C90: for every sub-model of an instance (a field, an item of a list or tuple, a member of a union) the document has a child that is the
document of the sub-model by itself, under the name and with the namespace declarations that the field gives; unless it is empty and
`skip_empty` holds.  (Conditions: the encoded form of the sub-model is the one that it has by itself, and no wrapped field goes through an
element with the same name.) -/
theorem C90_sub_document (env : Env) (hno : env.NoSerializers) (n : Nat) (fl : Flags) (cls : String) (m : ModelSer) (fs : List Field)
    (hm : env.model cls = some m) (hb : m.body = .fields fs) (cls' : String) (vals : Dict String Val) (set : List String) (doc : Node)
    (h : toXmlTree env n fl cls (.model cls' vals set) = .ok doc) (d : Dict String Val)
    (hd : env.toJsonable (.model cls' vals set) = .dict d) (f : Field) (hf : f ∈ fs) (hx : f.exclude = false)
    (hset : fl.excludeUnset = true → f.name ∈ set) (v enc : Val) (hv : vals.get? f.name = some v) (henc : d.get? f.name = some enc)
    (p : Proxy) (w : Val) (hw : w ≠ .none) (hsub : f.ser.HasSub v enc p w (env.toJsonable w)) (hthrough : ∀ g ∈ fs, ¬ g.ser.Through p.name) :
    let fl' := { fl with skipEmpty := m.skipEmpty.getD fl.skipEmpty }
    ∃ j sub, toXmlTree env j fl' p.cls w = .ok sub ∧
      ((fl'.skipEmpty = true ∧ sub.Bare) ∨ sub.renamed p.name (nativeNsmap env.backend p.nsmap) ∈ doc.children) := by
  intro fl'
  have hwn : w.isNone = false := by cases w <;> first | rfl | exact absurd rfl hw
  unfold toXmlTree at h
  simp only [hm] at h
  obtain ⟨root, h1, h2⟩ := bind_ok h
  cases h2
  simp only [serModel, hb] at h1
  have hitem : getItem (env.toJsonable (.model cls' vals set)) f.name = .ok enc := by rw [hd]; simp only [getItem, henc]
  exact (serFields_delivers (fl := fl') hno hwn fs (hno cls m fs hm hb) hthrough f hf hx hset hv hitem hsub
    { tag := m.elementName, nsmap := m.nsmap } root rfl h1).document hno

/-- C90 for the root value of a root model. -/
theorem C90_sub_document_root (env : Env) (hno : env.NoSerializers) (n : Nat) (fl : Flags) (cls : String) (m : ModelSer) (s : Ser)
    (hm : env.model cls = some m) (hb : m.body = .root s) (cls' : String) (vals : Dict String Val) (set : List String) (doc : Node)
    (h : toXmlTree env n fl cls (.model cls' vals set) = .ok doc) (hset : fl.excludeUnset = true → "root" ∈ set) (v : Val)
    (hv : vals.get? "root" = some v) (p : Proxy) (w : Val) (hw : w ≠ .none)
    (hsub : s.HasSub v (env.toJsonable (.model cls' vals set)) p w (env.toJsonable w)) (hthrough : ¬ s.Through p.name) :
    let fl' := { fl with skipEmpty := m.skipEmpty.getD fl.skipEmpty }
    ∃ j sub, toXmlTree env j fl' p.cls w = .ok sub ∧
      ((fl'.skipEmpty = true ∧ sub.Bare) ∨ sub.renamed p.name (nativeNsmap env.backend p.nsmap) ∈ doc.children) := by
  intro fl'
  have hwn : w.isNone = false := by cases w <;> first | rfl | exact absurd rfl hw
  unfold toXmlTree at h
  simp only [hm] at h
  obtain ⟨root, h1, h2⟩ := bind_ok h
  cases h2
  have hu : (fl.excludeUnset && !set.contains "root") = false := by
    cases hc : fl.excludeUnset with
    | false => rfl
    | true => simpa using hset hc
  simp only [serModel, hb, hu, Bool.false_eq_true, if_false, getAttr, hv, Out.bind] at h1
  exact (hasSub_delivers hno hsub hwn hthrough n fl' { tag := m.elementName, nsmap := m.nsmap } root rfl h1).document hno

namespace Ex

/-- A sub-tree that has a sub-tree itself. -/
abbrev bough : Val := .model "Tree" [("id", .str "2"), ("kids", .list [.model "Tree" [("id", .str "3"), ("kids", .none)] ["id"]])] ["id", "kids"]

/-- A sub-tree without sub-trees. -/
abbrev twig : Val := .model "Tree" [("id", .str "4"), ("kids", .none)] ["id"]

/-- A tree with the two sub-trees. -/
abbrev bush : Val := .model "Tree" [("id", .str "1"), ("kids", .list [bough, twig])] ["id", "kids"]

theorem tree_through (g : Field) (fs : List Field) (hb : tree.body = .fields fs) (hg : g ∈ fs) : ¬ g.ser.Through "tree" := by
  simp only [tree, Body.fields.injEq] at hb
  subst hb
  simp at hg
  rcases hg with rfl | rfl
  · intro h; cases h
  · intro h
    cases h with
    | item h => cases h

/-- The first item of the list is in the document as it is by itself. -/
example : ∃ doc, toXmlTree (env) 9 {} "Tree" bush = .ok doc ∧ ∃ j sub, toXmlTree (env) j {} "Tree" bough = .ok sub ∧
    (False ∨ sub.renamed "tree" [] ∈ doc.children) := by
  refine ⟨_, rfl, ?_⟩
  obtain ⟨j, sub, h1, h2⟩ := C90_sub_document (env) (noSerializers) 9 {} "Tree" tree _ rfl rfl "Tree"
    [("id", .str "1"), ("kids", .list [bough, twig])] ["id", "kids"] _ rfl [("id", .str "1"), ("kids", .list [json bough, json twig])] rfl
    { name := "kids", ser := .homog "Tree" false (.proxy { cls := "Tree", name := "tree" }) } (by simp) rfl (by simp) (.list [bough, twig])
    (.list [json bough, json twig]) rfl rfl { cls := "Tree", name := "tree" } bough nofun
    (.item (i := 0) (v := bough) (enc := json bough) rfl rfl .proxy) (fun g hg => tree_through g _ rfl hg)
  refine ⟨j, sub, h1, ?_⟩
  rcases h2 with h2 | h2
  · exact absurd h2.1 (by decide)
  · exact .inr h2

/-- `class Home: zip: str = attr()` and `class Owner: home: Home; floor: str = wrapped("home", element())`. -/
def throughEnv : Env where
  backend := .lxml
  model cls :=
    if cls = "Home" then some { name := "Home", elementName := "home", body := .fields [{ name := "zip", ser := .attr "zip" false }] }
    else if cls = "Owner" then some {
      name := "Owner"
      elementName := "owner"
      body := .fields [{ name := "home", ser := .proxy { cls := "Home", name := "home" } },
        { name := "floor", ser := .wrap ["home"] none .strict false (.elem "floor" none .strict false false) }] }
    else none
  validate _ d := match d with | .dict fs => .ok (fs, fs.map Prod.fst) | _ => .ok ([], [])
  toJsonable := json
  reprOf _ := ""

/-- C90 without the condition on wrapped fields: the wrapped field is written into the element of the sub-model, which by itself has no
such child. -/
theorem C90_through_needed :
    let home : Val := .model "Home" [("zip", .str "1")] ["zip"]
    toXmlTree throughEnv 9 {} "Owner" (.model "Owner" [("home", home), ("floor", .str "2")] ["home", "floor"]) =
        .ok (el "owner" none [el "home" none [el "floor" (some "2")] [("zip", "1")]]) ∧
      toXmlTree throughEnv 9 {} "Home" home = .ok (el "home" none [] [("zip", "1")]) :=
  ⟨by kernel_rfl, by kernel_rfl⟩

end Ex
end PXml
