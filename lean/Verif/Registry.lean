import Verif.Names

/-!
# The global registry of namespace prefixes

`register_nsmap` of utils.py hands the prefixes of every namespace map it sees to `etree.register_namespace`, a function of the
XML library that changes a global table.  The functions of the library are modelled here after CPython's xml/etree/ElementTree.py
(the lxml versions do the same to their own table and reject some more prefixes).
-/

namespace PXml

/-- `ElementTree._namespace_map`: from uri to prefix. -/
abbrev Registry := Dict String String

/-- The namespace that the prefix `xml` is bound to. -/
def xmlUri : String := "http://www.w3.org/XML/1998/namespace"

/-- The table before the first registration, ElementTree.py:1003-1014. -/
def Registry.initial : Registry :=
  [(xmlUri, "xml"), ("http://www.w3.org/1999/xhtml", "html"), ("http://www.w3.org/1999/02/22-rdf-syntax-ns#", "rdf"),
   ("http://schemas.xmlsoap.org/wsdl/", "wsdl"), ("http://www.w3.org/2001/XMLSchema", "xs"),
   ("http://www.w3.org/2001/XMLSchema-instance", "xsi"), ("http://purl.org/dc/elements/1.1/", "dc")]

/-- `ElementTree.register_namespace`, ElementTree.py:984-1001; the error is a `ValueError`. -/
def Registry.register (r : Registry) (pre uri : String) : Except String Registry :=
  if reservedPrefix pre then .error "Prefix format reserved for internal use"
  else .ok (Dict.set (r.filter fun kv => !(kv.1 = uri || kv.2 = pre)) uri pre)

/-- The calls of `register_namespace` one after the other. -/
def Registry.registerAll : List (String × String) → Registry → Except String Registry
  | [], r => .ok r
  | (pre, uri) :: rest, r =>
    match r.register pre uri with
    | .error e => .error e
    | .ok r' => registerAll rest r'

/-- `register_nsmap`, utils.py:86-93. -/
def Registry.registerNsmap (r : Registry) (nsmap : NsMap) : Except String Registry := registerAll (registered nsmap) r

/-- The table after a history of `register_nsmap` calls.  They are made by `XmlEntityInfo.__post_init__` and
`ComputedXmlEntityInfo.__post_init__` (fields.py:60-62, 238-240) for every `element`, `wrapped` and merged annotation with a map and by
`__build_serializer__` (model.py:219-220) for every class with one, unless `config.REGISTER_NS_PREFIXES` is off: then the history
is empty. -/
def Registry.after : List NsMap → Registry → Except String Registry
  | [], r => .ok r
  | m :: ms, r =>
    match r.registerNsmap m with
    | .error e => .error e
    | .ok r' => after ms r'

/-- One name of the namespace `uri` met by `ElementTree._namespaces`, ElementTree.py:815-830, while a document is written: the prefix
it gets, and the declarations (from uri to prefix) so far. -/
def Registry.qualify (r : Registry) (uri : String) (decls : Dict String String) : String × Dict String String :=
  match Dict.get? decls uri with
  | some pre => (pre, decls)
  | none =>
    let pre := (Dict.get? r uri).getD ("ns" ++ toString decls.length)
    (pre, if pre ≠ "xml" then Dict.set decls uri pre else decls)

/-- `ElementTree._namespaces`, ElementTree.py:804-863, for the namespaces of the qualified names of a document in document order: the
prefixes of the names, and the declarations, all of which are written to the root element. -/
def Registry.qualifyAll (r : Registry) : List String → Dict String String → List String × Dict String String
  | [], decls => ([], decls)
  | uri :: uris, decls =>
    match r.qualify uri decls with
    | (pre, decls') =>
      match qualifyAll r uris decls' with
      | (pres, decls'') => (pre :: pres, decls'')

end PXml
