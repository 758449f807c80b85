import Verif.Example
import Verif.SpecRoundTrip
import Verif.Lemmas.Dict
import Std.Data.String.ToInt

/-!
# The text of primitive values

C50: primitive values are written in the form of XML Schema: Booleans as `true` and `false`, integers in decimal notation,
strings as they are.
-/

namespace PXml

/-- The text is the XML form of the (encoded) value. For an integer: decimal digits, without the separators Lean's reader of
numbers admits, with a minus in front if negative. -/
def Denotes (t : String) : Val → Prop
  | .str s => t = s
  | .bool b => t = if b then "true" else "false"
  | .int i => t.toInt? = some i ∧ '_' ∉ t.toList
  | _ => False

/-- Values with an XML form. -/
def Val.Lexical : Val → Prop
  | .str _ => True
  | .bool _ => True
  | .int _ => True
  | _ => False

theorem repr_no_separator (i : Int) : '_' ∉ i.repr.toList := by
  have hn : ∀ n : Nat, '_' ∉ n.repr.toList := by
    intro n h
    rw [Nat.repr, String.toList_ofList] at h
    exact absurd (Nat.isDigit_of_mem_toDigits (by decide) (by decide) h) (by decide)
  rw [Int.repr_eq_if]
  split
  · exact hn _
  · rw [String.toList_append, List.mem_append, not_or]
    exact ⟨by decide, hn _⟩

theorem encode_denotes (env : Env) {enc : Val} (h : enc.Lexical) : Denotes (encodePrimitive env enc) enc := by
  cases enc with
  | str s => rfl
  | bool b => cases b <;> rfl
  | int i =>
    exact ⟨Int.toInt?_repr i, repr_no_separator i⟩
  | _ => exact absurd h (by simp [Val.Lexical])

/-- C50: different Booleans, different integers and different strings have different texts. -/
theorem C50_injective (t : String) :
    (∀ a b : Bool, Denotes t (.bool a) → Denotes t (.bool b) → a = b) ∧
    (∀ i j : Int, Denotes t (.int i) → Denotes t (.int j) → i = j) ∧
    (∀ r s : String, Denotes t (.str r) → Denotes t (.str s) → r = s) := by
  refine ⟨?_, ?_, ?_⟩
  · intro a b ha hb
    cases a <;> cases b <;> first | rfl | exact absurd (Eq.trans (Eq.symm ha) hb) (by decide)
  · intro i j hi hj
    exact Option.some.inj (Eq.trans (Eq.symm hi.1) hj.1)
  · intro r s hr hs
    exact Eq.trans (Eq.symm hr) hs

theorem toInt?_empty (i : Int) : ("" : String).toInt? ≠ some i := by
  intro h
  rcases String.toInt?_eq_some_iff.1 h with ⟨b, h, -⟩ | ⟨t, h, -⟩
  · exact (String.isNat_iff.1 (String.isNat_of_toNat?_eq_some h)).1 rfl
  · have := congrArg String.toList h
    simp at this

/-- C50: the text of a text field is the XML form of its value; nothing else changes. -/
theorem C50_text (env : Env) (n : Nat) (fl : Flags) (c nl : Bool) (el : Elem) (v enc : Val) (hv : v ≠ .none) (h : enc.Lexical) :
    ∃ el', ser env (n + 1) fl (.text c nl) el v enc = .ok el' ∧ (∃ t, el'.text = some t ∧ Denotes t enc) ∧
      el'.attrib = el.attrib ∧ el'.elements = el.elements := by
  refine ⟨_, rfl, ?_⟩
  have hn : v.isNone = false := by cases v <;> first | rfl | exact absurd rfl hv
  unfold serText
  simp only [hn, Bool.false_and, Bool.and_false, Bool.false_eq_true, if_false]
  exact ⟨⟨_, rfl, encode_denotes env h⟩, rfl, rfl⟩

/-- C50: the value of an attribute field is the XML form of its value. -/
theorem C50_attribute (env : Env) (n : Nat) (fl : Flags) (c : Bool) (name : String) (el : Elem) (v enc : Val) (hv : v ≠ .none)
    (h : enc.Lexical) :
    ∃ el', ser env (n + 1) fl (.attr name c) el v enc = .ok el' ∧ (∃ t, el'.getAttrib name = some t ∧ Denotes t enc) ∧
      el'.text = el.text ∧ el'.elements = el.elements := by
  have hn : v.isNone = false := by cases v <;> first | rfl | exact absurd rfl hv
  change ∃ el', serStep env (ser env n) fl (.attr name c) el v enc = .ok el' ∧ _
  simp only [serStep, hn, Bool.false_and, Bool.false_eq_true, if_false]
  exact ⟨_, rfl, ⟨_, by simp [Elem.getAttrib, Elem.setAttribute, Dict.get?_set_self], encode_denotes env h⟩, rfl, rfl⟩

/-- C50: the text of the element of an element field is the XML form of its value (with `skip_empty`, the element of an empty
string is left out). -/
theorem C50_element (env : Env) (n : Nat) (fl : Flags) (c nl : Bool) (name : String) (m : Option NsMap) (mode : Mode) (el : Elem)
    (v enc : Val) (hv : v ≠ .none) (h : enc.Lexical) :
    ∃ el', ser env (n + 1) fl (.elem name m mode c nl) el v enc = .ok el' ∧
      ((∃ sub t, el'.elements = el.elements ++ [sub] ∧ sub.tag = name ∧ sub.text = some t ∧ Denotes t enc) ∨
        (fl.skipEmpty = true ∧ enc = .str "" ∧ el' = el)) := by
  have hn : v.isNone = false := by cases v <;> first | rfl | exact absurd rfl hv
  change ∃ el', serStep env (ser env n) fl (.elem name m mode c nl) el v enc = .ok el' ∧ _
  simp only [serStep, hn, Bool.false_and, Bool.false_eq_true, if_false, serText, Bool.and_false]
  refine ⟨_, rfl, ?_⟩
  unfold appendUnlessEmpty
  split
  · rename_i hs
    rw [Bool.and_eq_true] at hs
    refine Or.inr ⟨hs.1, ?_, rfl⟩
    have ht : encodePrimitive env enc = "" := by
      have := hs.2
      simp only [Elem.isEmpty, Bool.and_eq_true] at this
      have := this.1.1.1
      simpa [Elem.setText, Elem.truthy] using this
    have hd := encode_denotes env h
    rw [ht] at hd
    cases enc with
    | str s => exact congrArg _ (Eq.symm hd)
    | bool b => cases b <;> exact absurd (show ("" : String) = _ from hd) (by decide)
    | int i => exact absurd hd.1 (toInt?_empty i)
    | _ => exact absurd h (by simp [Val.Lexical])
  · exact Or.inl ⟨_, _, rfl, rfl, rfl, encode_denotes env h⟩

/-- Non-vacuity: a Boolean, negative numbers. -/
example : (Val.bool true).Lexical ∧ Denotes "true" (.bool true) ∧ Denotes (toString (-17 : Int)) (.int (-17)) ∧ ¬ Denotes "True" (.bool true) :=
  ⟨trivial, rfl, ⟨Int.toInt?_repr (-17), repr_no_separator _⟩, fun h => absurd (show "True" = "true" from h) (by decide)⟩

end PXml
