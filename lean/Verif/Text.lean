import Verif.Serializer

/-!
# `from_xml` and `to_xml`

The two methods that take and give text.  The XML library's parser and printer (`etree.fromstring`, `etree.tostring`, with the remaining
keyword arguments) are parameters.
-/

namespace PXml

/-- `BaseXmlModel.from_xml`, model.py:283-305. -/
def fromXml (env : Env) (parse : String → Except PyErr Node) (eas : Bool) (n : Nat) (cls : String) (source : String) : Out Val :=
  match parse source with
  | .error e => .crash e
  | .ok root => (fromXmlTree env eas n cls root).1

/-- `BaseXmlModel.to_xml`, model.py:335-351. -/
def toXml (env : Env) (print : Node → Except PyErr String) (n : Nat) (fl : Flags) (cls : String) (v : Val) : Out String :=
  (toXmlTree env n fl cls v).bind fun tree =>
    match print tree with
    | .error e => .crash e
    | .ok s => .ok s

end PXml
