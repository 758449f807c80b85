import Verif.SpecDeclared
import Verif.SpecVocabulary

/-!
# Specification: the vocabulary that a program declares (C76)

What may stand where in the documents of a class, by the declarations only, without serializers.
-/

namespace PXml

/-- Something that a declaration permits. -/
inductive Permit where
  /-- elements with the tag may have the attribute -/
  | attr (tag name : String)
  /-- elements with the first tag may have children with the second -/
  | child (tag child : String)
  /-- elements with the tag may have text -/
  | text (tag : String)
  /-- elements with the tag may have any children -/
  | any (tag : String)
  /-- elements with the tag may hold instances of the class -/
  | inst (cls tag : String)

/-- The namespace of the entries of a dictionary: with `ns_attrs` that of the prefix, if there is one. -/
def Place.entrySpace (p : Place) : Option String :=
  if p.nsAttrs then p.prefix?.bind fun x => if x = "" then none else uriIn p.scope x else none

/-- What an entity of a type at a place permits, if it belongs to an element with the tag. -/
inductive Schema.Permits (classes : Classes) (d : Dict String Schema) : Place → String → Schema → Permit → Prop
  /-- the elements of a path, each inside the one before it -/
  | path {p : Place} {t path a b : String} {s : Schema} {parts : List String} : p.location = some .wrapped → p.path = some path →
      Segments path parts → (a, b) ∈ (t :: parts.map p.elementName).zip (parts.map p.elementName) → Permits classes d p t s (.child a b)
  /-- the content is inside the last one -/
  | wrapped {p : Place} {t path : String} {s : Schema} {parts : List String} {w : Permit} : p.location = some .wrapped → p.path = some path →
      Segments path parts → Permits classes d p.inside ((parts.map p.elementName).getLast?.getD t) s w → Permits classes d p t s w
  | text {p : Place} {t : String} {s : Schema} : s.Scalar d → p.location = none → Permits classes d p t s (.text t)
  | textNil {p : Place} {t : String} {s : Schema} : s.Scalar d → p.location = none → p.nillable = true →
      Permits classes d p t s (.attr t Elem.nilAttr)
  | attr {p : Place} {t tag : String} {s : Schema} : s.Scalar d → p.location = some .attribute → p.given = some tag →
      Permits classes d p t s (.attr t (p.attrName tag))
  | elem {p : Place} {t tag : String} {s : Schema} : s.Scalar d → p.location = some .element → p.given = some tag →
      Permits classes d p t s (.child t (p.elementName tag))
  | elemText {p : Place} {t tag : String} {s : Schema} : s.Scalar d → p.location = some .element → p.given = some tag →
      Permits classes d p t s (.text (p.elementName tag))
  | elemNil {p : Place} {t tag : String} {s : Schema} : s.Scalar d → p.location = some .element → p.given = some tag → p.nillable = true →
      Permits classes d p t s (.attr (p.elementName tag) Elem.nilAttr)
  | attrs {p : Place} {t k : String} {s : Schema} : s.Mapping d → p.location = none →
      Permits classes d p t s (.attr t (qualified p.entrySpace k))
  | mapElem {p : Place} {t tag : String} {s : Schema} : s.Mapping d → p.location = some .element → p.given = some tag →
      Permits classes d p t s (.child t (p.elementName tag))
  | mapElemAttrs {p : Place} {t tag k : String} {s : Schema} : s.Mapping d → p.location = some .element → p.given = some tag →
      Permits classes d p t s (.attr (p.elementName tag) (qualified p.entrySpace k))
  | raw {p : Place} {t : String} {s : Schema} : Strips d s d (.isInst true) → p.Compound → Permits classes d p t s (.any t)
  | model {p : Place} {t cls tag : String} {s : Schema} {r : Bool} {cd : ClassDef} : Strips d s d (.model cls r) → p.Compound →
      classes cls = some cd → givenName [p.path, cd.params.tag, p.fieldAlias, p.fieldName, some cd.name] = some tag →
      Permits classes d p t s (.child t (p.modelName cd tag))
  | modelInst {p : Place} {t cls tag : String} {s : Schema} {r : Bool} {cd : ClassDef} : Strips d s d (.model cls r) → p.Compound →
      classes cls = some cd → givenName [p.path, cd.params.tag, p.fieldAlias, p.fieldName, some cd.name] = some tag →
      Permits classes d p t s (.inst cls (p.modelName cd tag))
  | modelNil {p : Place} {t cls tag : String} {s : Schema} {r : Bool} {cd : ClassDef} : Strips d s d (.model cls r) → p.Compound →
      classes cls = some cd → givenName [p.path, cd.params.tag, p.fieldAlias, p.fieldName, some cd.name] = some tag → p.nillable = true →
      Permits classes d p t s (.attr (p.modelName cd tag) Elem.nilAttr)
  | list {p : Place} {t : String} {s u item : Schema} {w : Permit} : Strips d s d u → u = .list item ∨ u = .tuple [item] (some 0) →
      p.Compound → Permits classes d p t item w → Permits classes d p t s w
  | tuple {p : Place} {t : String} {s u item : Schema} {items : List Schema} {w : Permit} : Strips d s d u →
      u = .tuple items none ∨ u = .call true items → p.Compound → item ∈ items →
      Permits classes d p t item w → Permits classes d p t s w
  | union {p : Place} {t : String} {s c : Schema} {cs : List Schema} {w : Permit} : Strips d s d (.union cs) → c ∈ cs →
      p.location ≠ some .wrapped → Permits classes d p t c w → Permits classes d p t s w
  | tagged {p : Place} {t : String} {s : Schema} {discr : Option String} {c : Option String × Schema} {cs : List (Option String × Schema)}
      {w : Permit} : Strips d s d (.tagged discr cs) → c ∈ cs → p.Compound → Permits classes d p t c.2 w → Permits classes d p t s w

/-- What the fields and computed fields of a class permit for elements with the tag that hold instances of it. -/
def ClassDef.Permits (classes : Classes) (d : Dict String Schema) (cd : ClassDef) (t : String) (w : Permit) : Prop :=
  match cd.body with
  | .fields fs cs => (∃ f ∈ fs, f.noXml = false ∧ f.schema.Permits classes d (f.place cd) t w) ∨
      ∃ c ∈ cs, c.schema.Permits classes d (c.place cd) t w
  | .root s infos => s.Permits classes d (cd.rootPlace infos) t w

/-- What is permitted in documents of the class: the root element holds an instance of it, and wherever an instance may be, what its class
permits. -/
inductive Classes.Permits (classes : Classes) (root : String) : Permit → Prop
  | root {cd : ClassDef} : classes root = some cd → Permits classes root (.inst root cd.rootName)
  | inside {cls t : String} {cd : ClassDef} {r : Bool} {d : Dict String Schema} {w : Permit} : Permits classes root (.inst cls t) →
      classes cls = some cd → Strips [] cd.schema d (.model cls r) → cd.Permits classes d t w → Permits classes root w

/-- The vocabulary of the documents of the class. -/
def Classes.vocabulary (classes : Classes) (root : String) : Vocabulary where
  attr t k := classes.Permits root (.attr t k)
  child t c := classes.Permits root (.child t c)
  text t := classes.Permits root (.text t)
  free t := classes.Permits root (.any t)

end PXml
