import Verif.Base

/-!
# Names, namespaces, entity metadata, class parameters

Models `pydantic_xml/utils.py` (QName, merge_nsmaps, select_ns, register_nsmap), `pydantic_xml/fields.py`
(XmlEntityInfo.merge) and `BaseXmlModel.__init_subclass__` of `pydantic_xml/model.py`.
-/

namespace PXml

/-- `NsMap`, typedefs.py: prefix to uri. -/
abbrev NsMap := Dict String String

/-- `QName`, utils.py:16-26. -/
structure QName where
  tag : String
  ns : Option String
deriving DecidableEq, Repr

/-- The characters before the last `'}'` and those after it, if there is one: what the greedy `(.*)}` matches. -/
def splitLastBrace : List Char → Option (List Char × List Char)
  | [] => none
  | c :: cs =>
    match splitLastBrace cs with
    | some (a, b) => some (c :: a, b)
    | none => if c = '}' then some ([], cs) else none

/-- `QName.from_uri`, utils.py:28-40: `re.match(r'({(.*)})?(.*)', uri)`; `.` does not match a newline and both
`.*` are greedy, so the namespace ends at the last `'}'` of the first line.  The regular expression can match the
empty string, hence the `ValueError` branch is unreachable. -/
def QName.fromUri (uri : String) : QName :=
  let line := uri.toList.takeWhile (· ≠ '\n')
  match line with
  | '{' :: rest =>
    match splitLastBrace rest with
    | some (ns, tag) => { tag := String.ofList tag, ns := some (String.ofList ns) }
    | none => { tag := String.ofList line, ns := none }
  | _ => { tag := String.ofList line, ns := none }

/-- `QName.uri`, utils.py:67-69: an empty or missing namespace is not printed. -/
def QName.uri (q : QName) : String :=
  match q.ns with
  | none => q.tag
  | some ns => if ns = "" then q.tag else "{" ++ ns ++ "}" ++ q.tag

/-- Truthiness of an optional mapping (`if nsmap`). -/
def truthyMap {α β : Type} : Option (Dict α β) → Bool
  | none => false
  | some [] => false
  | some (_ :: _) => true

/-- Result of definition-time code: an exception or a value.  `modelError` is `errors.ModelError` /
`errors.ModelFieldError`, `typeError` is `TypeError`, `assertion` is `AssertionError`, `keyError` is `KeyError`. -/
inductive DefErr where
  | modelError (msg : String)
  | fieldError (msg : String)
  | typeError (msg : String)
  | assertion (msg : String)
  | keyError
  | diverge
deriving DecidableEq, Repr

/-- `QName.from_alias`, utils.py:42-65. -/
def QName.fromAlias (tag : String) (ns : Option String) (nsmap : Option NsMap) (isAttr : Bool) : Except DefErr QName :=
  if !isAttr || ns.isSome then
    match ns with
    | none => .ok { tag := tag, ns := if truthyMap nsmap then (nsmap.getD []).get? "" else none }
    | some a =>
      if truthyMap nsmap then
        match (nsmap.getD []).get? a with
        | some uri => .ok { tag := tag, ns := some uri }
        | none => .error (.modelError "namespace alias not declared in nsmap")
      else .ok { tag := tag, ns := none }
  else .ok { tag := tag, ns := ns }

/-- `ChainMap(*maps)` as a plain dictionary: `ChainMap.__iter__` updates an empty dict with the maps from the last
to the first, so the first map wins. -/
def chainMap (maps : List NsMap) : NsMap := maps.reverse.foldl Dict.update []

/-- `merge_nsmaps`, utils.py:75-83: falsy maps are dropped, the first map that has a prefix wins.  The result is
always a (possibly empty) map. -/
def mergeNsmaps (maps : List (Option NsMap)) : NsMap :=
  chainMap ((maps.filter truthyMap).map (·.getD []))

/-- `re.match(r"ns\d+$", prefix)`, utils.py:92 (ASCII digits only: a simplification, Python's `\d` also matches
other Unicode digits; `$` also matches before a final newline). -/
def reservedPrefix (p : String) : Bool :=
  match p.toList with
  | 'n' :: 's' :: ds =>
    let ds := if ds.getLast? = some '\n' then ds.dropLast else ds
    !ds.isEmpty && ds.all Char.isDigit
  | _ => false

/-- `register_nsmap`, utils.py:86-93: the prefixes handed to `etree.register_namespace`, in order. -/
def registered (nsmap : NsMap) : List (String × String) :=
  nsmap.filter fun pu => pu.1 ≠ "" && !reservedPrefix pu.1

/-- `select_ns`, utils.py:100-105. -/
def selectNs : List (Option String) → Option String
  | [] => none
  | some ns :: _ => some ns
  | none :: rest => selectNs rest

/-- `EntityLocation`, typedefs.py. -/
inductive Location where
  | element | attribute | wrapped
deriving DecidableEq, Repr

/-- `XmlEntityInfo`, fields.py:41-62: the XML part of a field's metadata.  The pydantic `FieldInfo` part of the
merge is not modelled. -/
inductive EntityInfo where
  | mk (location : Option Location) (path : Option String) (ns : Option String) (nsmap : Option NsMap)
      (nillable : Option Bool) (wrapped : Option EntityInfo)
deriving Repr

namespace EntityInfo
def location : EntityInfo → Option Location | mk l _ _ _ _ _ => l
def path : EntityInfo → Option String | mk _ p _ _ _ _ => p
def ns : EntityInfo → Option String | mk _ _ n _ _ _ => n
def nsmap : EntityInfo → Option NsMap | mk _ _ _ m _ _ => m
def nillable : EntityInfo → Option Bool | mk _ _ _ _ n _ => n
def wrapped : EntityInfo → Option EntityInfo | mk _ _ _ _ _ w => w
end EntityInfo

/-- The local variables of `XmlEntityInfo.merge`, fields.py:66-71. -/
def EntityInfo.unset : EntityInfo := .mk none none none none none none

/-- One iteration of the loop of `XmlEntityInfo.merge`, fields.py:73-85. -/
def EntityInfo.mergeStep (acc e : EntityInfo) : EntityInfo :=
  .mk (e.location.or acc.location)
      (e.path.or acc.path)
      (e.ns.or acc.ns)
      (match e.nsmap with
       | some m => some (mergeNsmaps [some m, acc.nsmap])
       | none => acc.nsmap)
      (e.nillable.or acc.nillable)
      (e.wrapped.or acc.wrapped)

/-- `XmlEntityInfo.merge`, fields.py:64-94. -/
def EntityInfo.merge (infos : List EntityInfo) : EntityInfo := infos.foldl EntityInfo.mergeStep .unset

/-- `extract_field_xml_entity_info`, fields.py:97-104; the argument is the list of `XmlEntityInfo` items of the
field's metadata. -/
def EntityInfo.extract : List EntityInfo → Option EntityInfo
  | [] => none
  | i :: is => some (EntityInfo.merge (i :: is))

/-- `SearchMode`, element.py:491-502. -/
inductive Mode where
  | strict | ordered | unordered
deriving DecidableEq, Repr

/-- The xml class attributes of a model class, model.py:154-159.  `nsAttrs` and `searchMode` always have a value. -/
structure ClassParams where
  tag : Option String := none
  ns : Option String := none
  nsmap : Option NsMap := none
  nsAttrs : Bool := false
  skipEmpty : Option Bool := none
  searchMode : Mode := .strict
deriving DecidableEq, Repr

/-- The keyword arguments of a class statement, model.py:165-174. -/
structure ClassArgs where
  tag : Option String := none
  ns : Option String := none
  nsmap : Option NsMap := none
  nsAttrs : Option Bool := none
  skipEmpty : Option Bool := none
  searchMode : Option Mode := none
deriving DecidableEq, Repr

/-- `BaseXmlModel.__init_subclass__`, model.py:188-198: `parent` holds the values `getattr` finds on the
bases; `Cls.params` below says where it finds them. -/
def ClassParams.subclass (parent : ClassParams) (a : ClassArgs) : ClassParams where
  tag := a.tag.or parent.tag
  ns := a.ns.or parent.ns
  nsAttrs := a.nsAttrs.getD parent.nsAttrs
  skipEmpty := a.skipEmpty.or parent.skipEmpty
  searchMode := a.searchMode.getD parent.searchMode
  nsmap := if truthyMap parent.nsmap then some ((parent.nsmap.getD []).update (a.nsmap.getD [])) else a.nsmap

/-- A class at the end of a chain of class statements. -/
def ClassParams.chain (base : ClassParams) (args : List ClassArgs) : ClassParams := args.foldl ClassParams.subclass base

/-- A class: the arguments of its class statement and, behind it in its mro, the model classes below `BaseXmlModel` (other
classes, `BaseXmlModel` included, have none of the attributes, model.py:154-159, and `getattr` passes over them). -/
inductive Cls where
  | mk (args : ClassArgs) (mro : List Cls)

def Cls.args : Cls → ClassArgs
  | .mk a _ => a

def Cls.mro : Cls → List Cls
  | .mk _ m => m

/-- `BaseXmlModel.__init_subclass__`, model.py:188-198, with `getattr`: every model class has all the attributes in its own
`__dict__`, so the first class of the mro decides. -/
def Cls.params : Cls → ClassParams
  | .mk a [] => ({} : ClassParams).subclass a
  | .mk a (c :: _) => c.params.subclass a

end PXml
