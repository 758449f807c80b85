import Verif.Config
import Verif.Mypy

/-!
# Specification of the configuration and of the mypy plugin
-/

namespace PXml

/-- `val` is the word `w` (in small letters), each letter small or capital. -/
def Spells : List Char → List Char → Prop
  | [], [] => True
  | c :: cs, w :: ws => (c = w ∨ ('a' ≤ w ∧ w ≤ 'z' ∧ w.toNat = c.toNat + 32)) ∧ Spells cs ws
  | _, _ => False

/-- The words for yes and no. -/
def boolWords : Bool → List String
  | true => ["y", "yes", "t", "true", "on", "1"]
  | false => ["n", "no", "f", "false", "off", "0"]

/-- What an environment variable says: the default if it is not set, else the boolean one of whose words it spells. -/
def Says (var : Option String) (default b : Bool) : Prop :=
  match var with
  | none => b = default
  | some s => ∃ w ∈ boolWords b, Spells s.toList w.toList

namespace Mypy

/-- The argument given by name, if any. -/
def given (args : List (Option String × Expr)) (k : String) : Option Expr := (args.find? fun a => a.1 = some k).map Prod.snd

/-- Evaluation of arguments at run time, where `None` and `...` are written as such and nobody writes `PydanticUndefined`. -/
structure Eval (val : Expr → PyArg) (dots : PyArg) : Prop where
  ellipsis : ∀ e, val e = dots ↔ e = .ellipsis
  none : ∀ e, val e = .none ↔ e = .name "builtins.None"
  undefined : ∀ e, val e ≠ .undefined
  dots : dots ≠ .none

/-- The value of an argument at run time; constructors have `PydanticUndefined` as the default of `default` and `default_factory`
(fields.py:124-125, 154-155, 186-187). -/
def valueOr (val : Expr → PyArg) : Option Expr → PyArg
  | some e => val e
  | none => .undefined

/-- A field is required at run time if it has neither a default value (`...` is none) nor a factory for one (pydantic/fields.py,
`FieldInfo.is_required`). -/
def Required (dots : PyArg) (f : FieldInfo) : Prop :=
  (f.attrs.get? "default" = none ∨ f.attrs.get? "default" = some dots) ∧
  (f.attrs.get? "default_factory" = none ∨ f.attrs.get? "default_factory" = some .none)

/-- What pydantic's plugin says about expressions other than calls of `pydantic.Field`: the value assigned is the default value. -/
structure Transformer.Standard (sup : Transformer) : Prop where
  hasDefault : ∀ f args, f ≠ some "pydantic.fields.Field" → sup.hasDefault (.call f args) = true
  aliasInfo : ∀ f args, f ≠ some "pydantic.fields.Field" → sup.aliasInfo (.call f args) = (none, false)
  strict : ∀ f args, f ≠ some "pydantic.fields.Field" → sup.strict (.call f args) = none
  frozen : ∀ f args, f ≠ some "pydantic.fields.Field" → sup.frozen (.call f args) = false

/-- The full names of the field constructors: they are defined in fields.py:120, 148, 180. -/
def constructors : List String := ["pydantic_xml.fields.attr", "pydantic_xml.fields.element", "pydantic_xml.fields.wrapped"]

end Mypy
end PXml
