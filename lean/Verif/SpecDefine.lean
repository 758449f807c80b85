import Verif.Define

/-!
# Specification of field constructors and `create_model` (C65, C66)
-/

namespace PXml

/-- The argument was given: neither left out nor `None` or `PydanticUndefined`. -/
def Kwargs.given (kw : Kwargs) (k : String) : Option PyArg := (kw.get? k).filter fun a => a ≠ .none && a ≠ .undefined

/-- The argument was passed: neither left out nor `PydanticUndefined`; `None` is a value like any other. -/
def Kwargs.passed (kw : Kwargs) (k : String) : Option PyArg := (kw.get? k).filter fun a => a ≠ .undefined

/-- The two names that an alias stands for in pydantic. -/
def aliasKeys : List String := ["validation_alias", "serialization_alias"]

/-- Keyword arguments of a call: every key once, and none of the keys that are parameters of the constructors. -/
structure Kwargs.Proper (kw : Kwargs) : Prop where
  wf : kw.WF
  noDefault : "default" ∉ kw.keys
  noFactory : "default_factory" ∉ kw.keys

/-- A chain of `wrapped` calls around an entity: the path, namespace and namespace map of each, outermost first. -/
def EntityInfo.wrappedIn : List (String × Option String × Option NsMap) → EntityInfo → EntityInfo
  | [], i => i
  | (path, ns, nsmap) :: ws, i => .mk (some .wrapped) (some path) ns nsmap none (some (wrappedIn ws i))

/-- The keyword arguments of the class statement with these parameters: those that are given, by name. -/
def ClassArgs.written (a : ClassArgs) : Kwargs :=
  (a.tag.toList.map fun x => ("tag", .str x)) ++ (a.ns.toList.map fun x => ("ns", .str x)) ++
    (a.nsmap.toList.map fun x => ("nsmap", .map x)) ++ (a.nsAttrs.toList.map fun x => ("ns_attrs", .bool x)) ++
    (a.skipEmpty.toList.map fun x => ("skip_empty", .bool x)) ++ (a.searchMode.toList.map fun x => ("search_mode", .mode x))

/-- The names of the parameters of model classes. -/
def ClassArgs.names : List String := ["tag", "ns", "nsmap", "ns_attrs", "skip_empty", "search_mode"]

/-- A further base that is no model class does not change the order of the model classes among the ancestors. -/
def PlainBasesIgnored (mro : List Base → List Cls) : Prop :=
  ∀ bs bs', bs.filterMap Base.cls? = bs'.filterMap Base.cls? → mro bs = mro bs'

end PXml
