import Verif.Names

/-!
# Field constructors and `create_model`

Models `attr`, `element`, `wrapped`, `computed_entity`, `computed_attr`, `computed_element` (fields.py:110-356), `create_model`
(model.py:34-95) and `parse_version` (compat.py:12-26).  pydantic's `FieldInfo` is modelled as far as the constructors touch it: the
attributes that were set, and the metadata.
-/

namespace PXml

/-- A Python object given as an argument; `undefined` is `PydanticUndefined`, `obj` is any object not listed. -/
inductive PyArg where
  | none
  | undefined
  | bool (b : Bool)
  | str (s : String)
  | map (m : NsMap)
  | mode (m : Mode)
  | obj (id : Nat)
deriving DecidableEq, Repr

/-- `value in (None, PydanticUndefined)`, where `value` comes from `kwargs.get(...)`. -/
def PyArg.isUnset : Option PyArg → Bool
  | some .none => true
  | some .undefined => true
  | some _ => false
  | Option.none => true

/-- Keyword arguments. -/
abbrev Kwargs := Dict String PyArg

/-- `kwargs.get(k)`. -/
def Kwargs.getOrNone (k : Kwargs) (key : String) : PyArg := (k.get? key).getD .none

/-- An item of the metadata of a field: an `XmlEntityInfo`, or any other object. -/
inductive MetaItem where
  | xml (info : EntityInfo)
  | other (id : Nat)

/-- `isinstance(item, XmlEntityInfo)`. -/
def MetaItem.info? : MetaItem → Option EntityInfo
  | .xml i => some i
  | .other _ => none

/-- pydantic's `FieldInfo`: `attrs` is `_attributes_set`, the arguments it was given except those that are `PydanticUndefined`
(pydantic/fields.py, `FieldInfo.__init__`). -/
structure FieldInfo where
  attrs : Kwargs
  metadata : List MetaItem

/-- `FieldInfo(**kwargs)`; `constraints` stands for the metadata pydantic makes out of arguments such as `gt` (pydantic/fields.py,
`FieldInfo._collect_metadata`). -/
def FieldInfo.new (constraints : Kwargs → List Nat) (kwargs : Kwargs) : FieldInfo :=
  { attrs := kwargs.filter fun kv => kv.2 ≠ .undefined, metadata := (constraints kwargs).map .other }

/-- `merge_field_infos(a, b)`, compat.py:32-36 (pydantic/fields.py, `FieldInfo._construct`): attributes set in `b` win, the metadata is
joined.  (Simplification: versions of pydantic before 2.12 keep one item of metadata per type.) -/
def FieldInfo.merge2 (a b : FieldInfo) : FieldInfo :=
  { attrs := Dict.update a.attrs b.attrs, metadata := a.metadata ++ b.metadata }

/-- The entity infos in the metadata, fields.py:98. -/
def FieldInfo.infos (f : FieldInfo) : List EntityInfo := f.metadata.filterMap MetaItem.info?

/-- `field_info.metadata.append(info)`. -/
def FieldInfo.append (f : FieldInfo) (i : EntityInfo) : FieldInfo := { f with metadata := f.metadata ++ [.xml i] }

/-- `prepare_field_kwargs`, fields.py:110-117. -/
def prepareFieldKwargs (kwargs : Kwargs) : Kwargs :=
  let kwargs : Kwargs := if PyArg.isUnset (kwargs.get? "serialization_alias") then
      kwargs.set "serialization_alias" (kwargs.getOrNone "alias") else kwargs
  if PyArg.isUnset (kwargs.get? "validation_alias") then kwargs.set "validation_alias" (kwargs.getOrNone "alias") else kwargs

/-- The arguments `default` and `default_factory` in front of the others, as in `FieldInfo(default=..., default_factory=..., **kwargs)`,
fields.py:140, 172, 204. -/
def withDefaults (default factory : PyArg) (kwargs : Kwargs) : Kwargs := ("default", default) :: ("default_factory", factory) :: kwargs

/-- `attr`, fields.py:120-145. -/
def attrField (constraints : Kwargs → List Nat) (name ns : Option String) (default factory : PyArg) (kwargs : Kwargs) : FieldInfo :=
  let kwargs := prepareFieldKwargs kwargs
  (FieldInfo.new constraints (withDefaults default factory kwargs)).append (.mk (some .attribute) name ns none none none)

/-- `element`, fields.py:148-177. -/
def elementField (constraints : Kwargs → List Nat) (tag ns : Option String) (nsmap : Option NsMap) (nillable : Option Bool)
    (default factory : PyArg) (kwargs : Kwargs) : FieldInfo :=
  let kwargs := prepareFieldKwargs kwargs
  (FieldInfo.new constraints (withDefaults default factory kwargs)).append (.mk (some .element) tag ns nsmap nillable none)

/-- `wrapped`, fields.py:180-220 (elements are values here, so the copy of `entity` is the same value). -/
def wrappedField (constraints : Kwargs → List Nat) (path : String) (entity : Option FieldInfo) (ns : Option String)
    (nsmap : Option NsMap) (default factory : PyArg) (kwargs : Kwargs) : FieldInfo :=
  match entity with
  | none =>
    (FieldInfo.new constraints (withDefaults default factory kwargs)).append (.mk (some .wrapped) (some path) ns nsmap none none)
  | some entity =>
    let wrappedInfo := EntityInfo.extract entity.infos
    let inner : FieldInfo := { entity with metadata := entity.metadata.filter fun m => m.info?.isNone }
    ((FieldInfo.new constraints (withDefaults default factory kwargs)).merge2 inner).append
      (.mk (some .wrapped) (some path) ns nsmap none wrappedInfo)

/-! ## Computed fields -/

/-- `ComputedXmlEntityInfo`, fields.py:223-236: the location, the four popped arguments, the arguments left for
`pydantic.computed_field`. -/
structure ComputedInfo where
  location : Location
  path : PyArg
  ns : PyArg
  nsmap : PyArg
  nillable : PyArg
  rest : Kwargs
deriving DecidableEq, Repr

/-- One call of `decorator`, fields.py:260-277: the info it makes, and the dictionary `kwargs` of the enclosing call afterwards: the
arguments are popped from it. -/
def computedDecorator (location : Location) (kwargs : Kwargs) : ComputedInfo × Kwargs :=
  let path := kwargs.getOrNone "path"
  let kwargs := kwargs.erase "path"
  let ns := Kwargs.getOrNone kwargs "ns"
  let kwargs := kwargs.erase "ns"
  let nsmap := Kwargs.getOrNone kwargs "nsmap"
  let kwargs := kwargs.erase "nsmap"
  let nillable := Kwargs.getOrNone kwargs "nillable"
  let kwargs := kwargs.erase "nillable"
  (⟨location, path, ns, nsmap, nillable, kwargs⟩, kwargs)

/-- The infos that one decorator object, made by one call of `computed_entity` (fields.py:255-282), gives to the properties it is
applied to, one after the other. -/
def computedUses (location : Location) : Nat → Kwargs → List ComputedInfo
  | 0, _ => []
  | n + 1, kwargs =>
    match computedDecorator location kwargs with
    | (info, kwargs) => info :: computedUses location n kwargs

/-- `computed_attr`, fields.py:300-316: location and arguments of `computed_entity`. -/
def computedAttr (name ns : PyArg) (kwargs : Kwargs) : Location × Kwargs :=
  (.attribute, ("path", name) :: ("ns", ns) :: kwargs)

/-- `computed_element`, fields.py:336-356. -/
def computedElement (tag ns nsmap nillable : PyArg) (kwargs : Kwargs) : Location × Kwargs :=
  (.element, ("path", tag) :: ("ns", ns) :: ("nsmap", nsmap) :: ("nillable", nillable) :: kwargs)

/-! ## `create_model` -/

/-- The keyword arguments of a class statement, as `__init_subclass__` takes them, model.py:165-174; the remaining ones go to the next
`__init_subclass__` (`super().__init_subclass__(**kwargs)`, line 186). -/
def initSubclassArgs (kw : Kwargs) : ClassArgs × Kwargs :=
  ({ tag := match kw.get? "tag" with | some (.str s) => some s | _ => none
     ns := match kw.get? "ns" with | some (.str s) => some s | _ => none
     nsmap := match kw.get? "nsmap" with | some (.map m) => some m | _ => none
     nsAttrs := match kw.get? "ns_attrs" with | some (.bool b) => some b | _ => none
     skipEmpty := match kw.get? "skip_empty" with | some (.bool b) => some b | _ => none
     searchMode := match kw.get? "search_mode" with | some (.mode m) => some m | _ => none },
   kw.filter fun kv => !(["tag", "ns", "nsmap", "ns_attrs", "skip_empty", "search_mode"].contains kv.1))

/-- A class: what `BaseXmlModel.__init_subclass__` makes of the class statement and its bases, the keyword arguments handed on, its name
and its module. -/
structure NewClass where
  cls : Cls
  extra : Kwargs
  name : String
  module : String

/-- A base: a model class with the model classes behind it in the mro of the new class, or a class that is no subclass of
`BaseXmlModel`. -/
inductive Base where
  | xml (c : Cls)
  | plain (name : String)

def Base.cls? : Base → Option Cls
  | .xml c => some c
  | .plain _ => none

/-- A class statement in module `module` (or the call of the metaclass it stands for; the metaclass is popped from the keyword
arguments by `types.prepare_class`).  The method resolution order is a parameter: it gives the order of the model classes among the
ancestors. -/
def classStatement (mro : List Base → List Cls) (module name : String) (bases : List Base) (kwargs : Kwargs) : NewClass :=
  let (args, extra) := initSubclassArgs (kwargs.erase "metaclass")
  { cls := .mk args (mro bases), extra := extra, name := name, module := module }

/-- `x if x is not None else None` as an argument. -/
def optArg {α : Type} (f : α → PyArg) : Option α → PyArg
  | some x => f x
  | none => .none

/-- Arguments of `create_model`, model.py:34-46; `base` is empty if not given; `clsKwargs` is `kwargs['__cls_kwargs__']`; `hasConfig` tells
whether `__config__` is given (and not empty). -/
structure CreateArgs where
  name : String
  args : ClassArgs := {}
  base : List Base := []
  module : Option String := none
  clsKwargs : Kwargs := []
  hasConfig : Bool := false

/-- `create_model`, model.py:66-95: the new class and the dictionary `__cls_kwargs__`, which it changes.  `pydantic.create_model` makes
the class statement with the bases and keyword arguments it is given; it is not given a module, so the class gets the module of its
caller, `pydantic_xml.model` (pydantic/main.py, `create_model`). -/
def createModel (mro : List Base → List Cls) (a : CreateArgs) : NewClass × Kwargs :=
  let kw : Kwargs := a.clsKwargs.set "metaclass" (.obj 0)
  let kw : Kwargs := kw.set "tag" (optArg .str a.args.tag)
  let kw : Kwargs := kw.set "ns" (optArg .str a.args.ns)
  let kw : Kwargs := kw.set "nsmap" (optArg .map a.args.nsmap)
  let kw : Kwargs := kw.set "ns_attrs" (optArg .bool a.args.nsAttrs)
  let kw : Kwargs := kw.set "skip_empty" (optArg .bool a.args.skipEmpty)
  let kw : Kwargs := kw.set "search_mode" (optArg .mode a.args.searchMode)
  let bases := if a.base.isEmpty then [.plain "BaseXmlModel"] else a.base
  let bases := if a.hasConfig then bases ++ [.plain (a.name ++ "Base")] else bases
  (classStatement mro "pydantic_xml.model" a.name bases kw, kw)

/-! ## Versions -/

/-- The value of a string of ASCII digits, `int(...)`. -/
def digitsValue (ds : List Char) : Nat := ds.foldl (fun n c => 10 * n + (c.toNat - '0'.toNat)) 0

/-- `[0-9]`. -/
def isAsciiDigit (c : Char) : Bool := '0' ≤ c && c ≤ '9'

/-- `\.?` after the lazy `.*?`, which takes nothing: nothing behind it has to match. -/
def dropDot : List Char → List Char
  | '.' :: cs => cs
  | cs => cs

/-- `parse_version`, compat.py:12-26: `m.group(1) or 0` etc. (The regular expression cannot fail: every part of it is optional.) -/
def parseVersion (version : String) : Nat × Nat × Nat :=
  let s := version.toList
  let major := s.takeWhile isAsciiDigit
  let s := dropDot (s.dropWhile isAsciiDigit)
  let minor := s.takeWhile isAsciiDigit
  let s := dropDot (s.dropWhile isAsciiDigit)
  let micro := s.takeWhile isAsciiDigit
  (digitsValue major, digitsValue minor, digitsValue micro)

end PXml
