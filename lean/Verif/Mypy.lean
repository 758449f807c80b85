import Verif.Define

/-!
# The mypy plugin

Models `pydantic_xml/mypy.py`: what the plugin tells mypy about a field by looking at the expression assigned to it.  The methods of
pydantic's own plugin that it falls back to are parameters.
-/

namespace PXml
namespace Mypy

/-- The expressions the plugin tells apart: `TempNode` (no value assigned), `...`, a name, a string literal, a call (the callee is the
`fullname` of a `RefExpr`, `none` for another callee; the arguments with their names, `zip(expr.arg_names, expr.args)`), anything
else. -/
inductive Expr where
  | temp
  | ellipsis
  | name (fullname : String)
  | str (value : String)
  | call (callee : Option String) (args : List (Option String × Expr))
  | other (id : Nat)

/-- `arg.__class__ is nodes.EllipsisExpr`, mypy.py:44. -/
def Expr.isEllipsis : Expr → Bool
  | .ellipsis => true
  | _ => false

/-- `isinstance(arg, nodes.NameExpr) and arg.fullname == ...`, mypy.py:46, 84-87, 109. -/
def Expr.isName (full : String) : Expr → Bool
  | .name f => f = full
  | _ => false

/-- `PydanticModelTransformer` of pydantic, as far as it is called: `get_has_default`, `get_alias_info`, `get_strict`,
`is_field_frozen`. -/
structure Transformer where
  hasDefault : Expr → Bool
  aliasInfo : Expr → Option String × Bool
  strict : Expr → Option Bool
  frozen : Expr → Bool

/-- `ENTITIES_FULLNAME`, mypy.py:8-11. -/
def entities : List String := ["pydantic_xml.model.attr", "pydantic_xml.model.element", "pydantic_xml.model.wrapped"]

/-- The arguments of a call of one of the names, mypy.py:37-41, 60-64, 78-82, 98-102. -/
def Expr.entityArgs (names : List String) : Expr → Option (List (Option String × Expr))
  | .call (some f) args => if names.contains f then some args else none
  | _ => none

/-- The loop of `get_has_default`, mypy.py:42-48. -/
def hasDefaultLoop : List (Option String × Expr) → Bool
  | [] => false
  | (n, e) :: rest =>
    if n = some "default" then !e.isEllipsis
    else if n = some "default_factory" then !e.isName "builtins.None"
    else hasDefaultLoop rest

/-- The loop of `get_alias_info`, mypy.py:65-71; `none` if it ends without a result. -/
def aliasLoop : List (Option String × Expr) → Option (Option String × Bool)
  | [] => none
  | (n, e) :: rest =>
    if n ≠ some "alias" then aliasLoop rest
    else match e with
      | .str s => some (some s, false)
      | _ => some (none, true)

/-- The loop of `get_strict`, mypy.py:83-91; `none` if it ends without a result. -/
def strictLoop : List (Option String × Expr) → Option (Option Bool)
  | [] => none
  | (n, e) :: rest =>
    if n ≠ some "strict" then strictLoop rest
    else if e.isName "builtins.True" then some (some true)
    else if e.isName "builtins.False" then some (some false)
    else some none

/-- The loop of `is_field_frozen`, mypy.py:106-109; `none` if it ends without a result. -/
def frozenLoop : List (Option String × Expr) → Option Bool
  | [] => none
  | (n, e) :: rest => if n = some "frozen" then some (e.isName "builtins.True") else frozenLoop rest

/-- `PydanticXmlModelTransformer`, mypy.py:30-110, with the recognised names as a parameter. -/
def transformer (names : List String) (sup : Transformer) : Transformer where
  hasDefault
    | .temp => false
    | e => match e.entityArgs names with
      | some args => hasDefaultLoop args
      | none => sup.hasDefault e
  aliasInfo
    | .temp => (none, false)
    | e => match e.entityArgs names with
      | some args => (aliasLoop args).getD (sup.aliasInfo e)
      | none => sup.aliasInfo e
  strict e := match e.entityArgs names with
    | some args => (strictLoop args).getD (sup.strict e)
    | none => sup.strict e
  frozen
    | .temp => false
    | e => match e.entityArgs names with
      | some args => (frozenLoop args).getD (sup.frozen e)
      | none => false

/-- The plugin, mypy.py:19-27. -/
def plugin (sup : Transformer) : Transformer := transformer entities sup

/-- `get_metaclass_hook`, mypy.py:7, 20-23: the metaclasses whose classes are treated as models, besides those pydantic's plugin
knows. -/
def isModelMetaclass (sup : String → Bool) (fullname : String) : Bool := fullname = "pydantic_xml.model.XmlModelMeta" || sup fullname

end Mypy
end PXml
