import Verif.Base

/-!
# Collecting custom field validators and serializers

Models `XmlModelMeta._collect_xml_field_serializers_validators` (model.py:115-139) and the decorators `xml_field_validator` and
`xml_field_serializer` (fields.py:359-392).  `F` is the type of Python functions.
-/

namespace PXml

/-- An attribute of a class: a Python object, whether it is true in a condition, and the tuples that the decorators left on it
(empty: not decorated). -/
structure Member (F : Type) where
  func : F
  truthy : Bool := true
  serializes : List String := []
  validates : List String := []

/-- An item of a field's metadata: `XmlFieldValidator`, `XmlFieldSerializer` (fields.py:395-402) or something else. -/
inductive Metadatum (F : Type) where
  | validator (f : F)
  | serializer (f : F)
  | other

/-- The namespaces of a class and its bases in method resolution order. -/
abbrev Mro (F : Type) := List (Dict String (Member F))

/-- `getattr(cls, name, None)`: the first class in the method resolution order that has the attribute. -/
def Mro.getattr {F : Type} (mro : Mro F) (name : String) : Option (Member F) := mro.findSome? fun d => Dict.get? d name

/-- One item of the metadata of a field, model.py:118-122, for one of the two kinds. -/
def annotateStep {F : Type} (pick : Metadatum F → Option F) (field : String) (d : Dict String F) (m : Metadatum F) : Dict String F :=
  match pick m with
  | some f => Dict.set d field f
  | none => d

/-- The functions of the kind asked for in the metadata, last one winning, model.py:117-122. -/
def annotated {F : Type} (pick : Metadatum F → Option F) : List (String × List (Metadatum F)) → Dict String F → Dict String F
  | [], d => d
  | (field, ms) :: rest, d =>
    annotated pick rest (ms.foldl (annotateStep pick field) d)

/-- One attribute of the class, model.py:129-135, for one of the two decorators. -/
def claimStep {F : Type} (mro : Mro F) (claims : Member F → List String) (name : String) (d : Dict String F) : Dict String F :=
  match mro.getattr name with
  | some m => if m.truthy then (claims m).foldl (fun d field => Dict.set d field m.func) d else d
  | none => d

/-- The loop over the attributes, model.py:128-135, for one of the two decorators. -/
def claimed {F : Type} (mro : Mro F) (claims : Member F → List String) : List String → Dict String F → Dict String F
  | [], d => d
  | name :: names, d =>
    claimed mro claims names (claimStep mro claims name d)

/-- `__xml_field_validators__` of a class: `fields` is `model_fields` with the metadata, `order` is the order in which the set
`set(dir(cls)) - set(dir(BaseModel))` happens to be iterated. -/
def collectValidators {F : Type} (fields : List (String × List (Metadatum F))) (mro : Mro F) (order : List String) : Dict String F :=
  claimed mro Member.validates order
    (annotated (fun m => match m with | .validator f => some f | _ => none) fields [])

/-- `__xml_field_serializers__` of a class. -/
def collectSerializers {F : Type} (fields : List (String × List (Metadatum F))) (mro : Mro F) (order : List String) : Dict String F :=
  claimed mro Member.serializes order
    (annotated (fun m => match m with | .serializer f => some f | _ => none) fields [])

end PXml
