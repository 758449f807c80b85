import Verif.Compile

/-!
# Configuration

Models `pydantic_xml/config.py`, the choice of the backend in `pydantic_xml/element/native/__init__.py`, and the test for generic
parameters in `BaseXmlModel.__build_serializer__`.
-/

namespace PXml

/-- `str.lower()` on one character, for ASCII letters.  (Simplification: other letters are kept.  None of them is lowered to a letter
that occurs in a word of `strtobool`.) -/
def lowerChar (c : Char) : Char := if 'A' ≤ c ∧ c ≤ 'Z' then Char.ofNat (c.toNat + 32) else c

/-- `strtobool`, config.py:4-15; `none` is a `ValueError`. -/
def strtobool (val : String) : Option Bool :=
  let val := String.ofList (val.toList.map lowerChar)
  if ["y", "yes", "t", "true", "on", "1"].contains val then some true
  else if ["n", "no", "f", "false", "off", "0"].contains val then some false
  else none

/-- What the package is configured to at its import. -/
structure Config where
  registerPrefixes : Bool
  backend : Backend
deriving DecidableEq, Repr

/-- Importing the package: config.py:18-19 and element/native/__init__.py:9-15; `none` is a `ValueError`.  `environ` is `os.environ`,
`lxml` is whether `import lxml` works. -/
def importConfig (environ : String → Option String) (lxml : Bool) : Option Config :=
  match strtobool ((environ "REGISTER_NS_PREFIXES").getD "true") with
  | none => none
  | some register =>
    match strtobool ((environ "FORCE_STD_XML").getD "false") with
    | none => none
    | some force => some { registerPrefixes := register, backend := if force then .std else if lxml then .lxml else .std }

/-- What pydantic says about the type parameters of a class: `__pydantic_root_model__`, whether
`__pydantic_generic_metadata__['parameters']` is not empty, and for the field `root`, if there is one, whether its annotation is a
`TypeVar`. -/
structure Generics where
  root : Bool
  parameters : Bool
  rootField : Option Bool := none

/-- Whether `__build_serializer__` leaves the class without a serializer because of its type parameters, model.py:207-217. -/
def Generics.waits (g : Generics) : Bool :=
  if g.root then
    if g.parameters then g.rootField = none || g.rootField = some true else false
  else g.parameters

end PXml
