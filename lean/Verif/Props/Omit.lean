import Verif.Lemmas.Omit
import Verif.Props.SkipEmpty

/-!
# Flags only leave things out (C83)
-/

namespace PXml

open Elem

/-- C83: more flags, less output: what is written with `skip_empty`, `exclude_none` or `exclude_unset` is what is written without, with
attributes, texts and elements left out. Missing: classes in which a text, an attribute or a wrapper element is shared by several fields,
and classes with a wrapped field after a raw one (there it is not true), and custom serializers. -/
theorem C83_less_output_partial (env : Env) (hns : env.NoSerializers) (hU : env.Unshared) (n : Nat) (fl fl' : Flags) (hfl : fl.Le fl')
    (cls : String) (v : Val) (less more : Node) (h' : toXmlTree env n fl' cls v = .ok less) (h : toXmlTree env n fl cls v = .ok more) :
    less.Part more := by
  unfold toXmlTree at h h'
  cases hm : env.model cls with
  | none => rw [hm] at h; cases h
  | some m =>
    simp only [hm] at h h'
    obtain ⟨e, h1, h2⟩ := bind_ok h
    obtain ⟨e', h3, h4⟩ := bind_ok h'
    cases h2; cases h4
    exact part_native _ (serModel_part hns (ser_part hns hU n) hU hm hfl (part_refl _) (a := { tag := m.elementName, nsmap := m.nsmap }) (by exact rfl) ⟨rfl, rfl, rfl, rfl⟩ h3 h1)

theorem node_part_tag {t t' : String} {at_ at' : Dict String String} {ns ns' : NsMap} {x x' tl tl' : Option String} {cs cs' : List Node}
    {l l' : Option Int} (h : Node.Part (.elem t at_ ns x tl cs l) (.elem t' at' ns' x' tl' cs' l')) : t = t' := by cases h; rfl

namespace Ex

/-! ## Non-vacuity -/

theorem unshared (mode : Mode) (b : Backend) : (env mode b).Unshared := by
  apply model_cases <;>
    simp [address, person, tree, dog, cat, owner, Ser.Apart, Ser.exclusive, Ser.slots, Ser.wild, Slot.Competes, List.pairwise_cons]

/-- A blank person with all flags is a part of the person without flags. -/
example : (el "person" none [] [("id", "7")]).Part (el "person" none [el "name" (some ""), el "nick" (some "") [] [(nilAttr, "true")], el "mail" (some ""), el "mail" (some ""),
    el "contact" none [el "phones" none [el "phone" (some "")]], el "home" (some "") [] [("zip", "")], el "extra"] [("id", "7")]) :=
  C83_less_output_partial (env .strict) noSerializers (unshared _ _) 9 {} { skipEmpty := true } ⟨by simp, by simp, by simp⟩ "Person" blank _ _
    blank_written rfl

/-- `class N: x: Optional[str] = wrapped('w', element()); r: Optional[Element] = element(); y: Optional[str] = element()`. -/
def slipModel : ModelSer where
  name := "N"
  elementName := "n"
  body := .fields [
    { name := "x", ser := .wrap ["w"] none .strict false (.elem "x" none .strict false false) },
    { name := "r", ser := .raw "r" .strict false },
    { name := "y", ser := .elem "y" none .strict false false }]

def slipEnv : Env where
  backend := .lxml
  model cls := if cls = "N" then some slipModel else none
  validate := validate
  toJsonable := json
  reprOf _ := "..."

theorem slip_unshared : slipEnv.Unshared := by
  intro cls m hm
  by_cases h : cls = "N"
  · simp only [slipEnv, h, if_true, Option.some.injEq] at hm
    subst hm
    simp [slipModel, Ser.Apart, Ser.exclusive, Ser.slots, Ser.wild, Slot.Competes, List.pairwise_cons]
  · simp [slipEnv, h] at hm

theorem slip_serializers : slipEnv.NoSerializers := by
  intro cls m fs hm hb f hf
  by_cases h : cls = "N"
  · simp only [slipEnv, h, if_true, Option.some.injEq] at hm
    subst hm
    simp only [slipModel, Body.fields.injEq] at hb
    subst hb
    simp only [List.mem_cons, List.not_mem_nil, or_false] at hf
    rcases hf with rfl | rfl | rfl <;> rfl
  · simp [slipEnv, h] at hm

/-- Raw elements: what is `None` beside them, and an empty one, is left out, they stay. -/
example : (el "n" none [el "w" none [el "x" (some "1")], el "any" (some "2") [el "z"]]).Part
    (el "n" none [el "w" none [el "x" (some "1")], el "any" (some "2") [el "z"], el "y" (some "")]) :=
  C83_less_output_partial slipEnv slip_serializers slip_unshared 9 {} { skipEmpty := true } ⟨by simp, by simp, by simp⟩ "N"
    (.model "N" [("x", .str "1"), ("r", .raw (el "any" (some "2") [el "z"])), ("y", .none)] ["x", "r", "y"]) _ _ (by kernel_rfl) (by kernel_rfl)

/-! ## Counterexamples -/

/-- `class S: a: Optional[str] = wrapped('w', element()); x: Optional[str] = element(); b: Optional[str] = wrapped('w', element())`. -/
def sharing : ModelSer where
  name := "S"
  elementName := "s"
  body := .fields [
    { name := "a", ser := .wrap ["w"] none .strict false (.elem "a" none .strict false false) },
    { name := "x", ser := .elem "x" none .strict false false },
    { name := "b", ser := .wrap ["w"] none .strict false (.elem "b" none .strict false false) }]

/-- `class D: id: str = attr(); more: Dict[str, str] = {}`. -/
def attributed : ModelSer where
  name := "D"
  elementName := "d"
  body := .fields [
    { name := "id", ser := .attr "id" false },
    { name := "more", ser := .attrs {} }]

def sharingEnv : Env where
  backend := .lxml
  model cls := if cls = "S" then some sharing else if cls = "D" then some attributed else none
  validate := validate
  toJsonable := json
  reprOf _ := "..."

/-- C83 does not hold of shared wrapper elements: when the field between them is left out, two wrapper elements become one. -/
theorem C83_counterexample_wrapped : ∃ v less more,
    toXmlTree sharingEnv 9 { excludeNone := true } "S" v = .ok less ∧ toXmlTree sharingEnv 9 {} "S" v = .ok more ∧ ¬less.Part more := by
  refine ⟨.model "S" [("a", .str "1"), ("x", .none), ("b", .str "2")] [], el "s" none [el "w" none [el "a" (some "1"), el "b" (some "2")]],
    el "s" none [el "w" none [el "a" (some "1")], el "x" (some ""), el "w" none [el "b" (some "2")]], rfl, rfl, fun h => ?_⟩
  simp only [el] at h
  cases h with
  | elem _ _ h =>
    cases h with
    | keep h _ =>
      cases h with
      | elem _ _ h =>
        cases h with
        | keep _ h => cases h
        | drop _ h => cases h
    | drop _ h =>
      cases h with
      | keep h _ => exact absurd (node_part_tag h) (by simp)
      | drop _ h =>
        cases h with
        | drop _ h => cases h
        | keep h _ =>
          cases h with
          | elem _ _ h =>
            cases h with
            | keep h _ => exact absurd (node_part_tag h) (by simp)
            | drop _ h => cases h

/-- `class R: r: Element = element(); y: Optional[str] = element(); x: str = wrapped('w', element())`. -/
def rawFirstEnv : Env where
  backend := .lxml
  model cls := if cls = "R" then some { name := "R", elementName := "n", body := .fields [
    { name := "r", ser := .raw "r" .strict false },
    { name := "y", ser := .elem "y" none .strict false false },
    { name := "x", ser := .wrap ["w"] none .strict false (.elem "x" none .strict false false) }] } else none
  validate := validate
  toJsonable := json
  reprOf _ := "..."

/-- C83 does not hold of wrapper elements after raw elements: when the field between them is left out, the wrapped field is written into a raw
element that has the name of the wrapper. -/
theorem C83_counterexample_raw : ∃ v less more,
    toXmlTree rawFirstEnv 9 { excludeNone := true } "R" v = .ok less ∧ toXmlTree rawFirstEnv 9 {} "R" v = .ok more ∧ ¬less.Part more := by
  refine ⟨.model "R" [("r", .raw (el "w" (some "1"))), ("y", .none), ("x", .str "2")] ["r", "y", "x"], el "n" none [el "w" (some "1") [el "x" (some "2")]],
    el "n" none [el "w" (some "1"), el "y" (some ""), el "w" none [el "x" (some "2")]], by kernel_rfl, by kernel_rfl, fun h => ?_⟩
  simp only [el] at h
  cases h with
  | elem _ _ h =>
    cases h with
    | keep h _ =>
      cases h with
      | elem _ _ h => cases h
    | drop _ h =>
      cases h with
      | keep h _ => exact absurd (node_part_tag h) (by simp)
      | drop _ h =>
        cases h with
        | drop _ h => cases h
        | keep h _ =>
          cases h with
          | elem _ h _ => simp at h

/-- C83 does not hold of dictionaries of attributes: when the dictionary is left out, attributes that it would replace appear. -/
theorem C83_counterexample_attributes : ∃ v less more,
    toXmlTree sharingEnv 9 { excludeUnset := true } "D" v = .ok less ∧ toXmlTree sharingEnv 9 {} "D" v = .ok more ∧ ¬less.Part more := by
  refine ⟨.model "D" [("id", .str "1"), ("more", .dict [])] ["id"], el "d" none [] [("id", "1")], el "d", rfl, rfl, fun h => ?_⟩
  simp only [el] at h
  cases h with
  | elem h _ _ => cases h

end Ex

end PXml
