import Verif.SpecCompile

/-!
# Specification of the representation of types (C75)

Which XML representation a type gets at a place. Together with the settings of `Place` this is the whole meaning of a field declaration.
-/

namespace PXml

/-- A primitive type, or a class that is no model. -/
def Schema.Scalar (d : Dict String Schema) (s : Schema) : Prop := (∃ ty, Strips d s d (.prim ty)) ∨ Strips d s d (.isInst false)

/-- A dictionary of primitive values. -/
def Schema.Mapping (d : Dict String Schema) (s : Schema) : Prop := (∃ k v, Strips d s d (.dict k v)) ∨ ∃ vs, Strips d s d (.typedDict vs)

/-- The representation of a type at a place, given the definitions in scope and a relation that says in which attribute of which class
a discriminator is. -/
inductive Schema.Becomes (classes : Classes) (keyed : String → String → String → Prop) (d : Dict String Schema) : Place → Schema → Ser → Prop
  /-- `wrapped(path, …)`: the content, inside elements for the parts of the path -/
  | wrapped {p : Place} {s : Schema} {path : String} {parts : List String} {m : Option NsMap} {x : Ser} : p.location = some .wrapped →
      p.path = some path → Segments path parts → Binds p.scope m → Becomes classes keyed d p.inside s x →
      Becomes classes keyed d p s (.wrap (parts.map p.elementName) m p.mode p.computed x)
  /-- primitive types: text, an attribute or an element -/
  | text {p : Place} {s : Schema} : s.Scalar d → p.location = none → Becomes classes keyed d p s (.text p.computed p.nillable)
  | attr {p : Place} {s : Schema} {tag : String} : s.Scalar d → p.location = some .attribute → p.given = some tag →
      Becomes classes keyed d p s (.attr (p.attrName tag) p.computed)
  | elem {p : Place} {s : Schema} {tag : String} {m : Option NsMap} : s.Scalar d → p.location = some .element → p.given = some tag →
      Binds p.scope m → Becomes classes keyed d p s (.elem (p.elementName tag) m p.mode p.computed p.nillable)
  /-- dictionaries: the attributes of the element, or of an element of their own -/
  | attrs {p : Place} {s : Schema} {a : AttrsSer} : s.Mapping d → p.location = none → a.Fits p → Becomes classes keyed d p s (.attrs a)
  | mapElem {p : Place} {s : Schema} {a : AttrsSer} {tag : String} : s.Mapping d → p.location = some .element → p.given = some tag →
      a.Fits p → Becomes classes keyed d p s (.mapElem a (p.elementName tag) p.mode)
  /-- raw elements -/
  | raw {p : Place} {s : Schema} {tag : String} : Strips d s d (.isInst true) → p.Compound → p.given = some tag →
      Becomes classes keyed d p s (.raw (p.elementName tag) p.mode p.computed)
  /-- models: an element -/
  | model {p : Place} {s : Schema} {cls : String} {r : Bool} {cd : ClassDef} {tag : String} {m : Option NsMap} :
      Strips d s d (.model cls r) → p.Compound → classes cls = some cd →
      givenName [p.path, cd.params.tag, p.fieldAlias, p.fieldName, some cd.name] = some tag → Binds (p.modelScope cd) m →
      Becomes classes keyed d p s
        (.proxy { cls := cls, name := p.modelName cd tag, nsmap := m, mode := p.mode, computed := p.computed, nillable := p.nillable })
  /-- lists, sets and tuples of any length: the items one after the other -/
  | list {p : Place} {s t item : Schema} {title : Title} {x : Ser} : Strips d s d t → t = .list item ∨ t = .tuple [item] (some 0) →
      p.Compound → Becomes classes keyed d p item x → Becomes classes keyed d p s (.homog title p.computed x)
  /-- tuples of a fixed length and named tuples: the items one after the other -/
  | tuple {p : Place} {s t : Schema} {title : Title} {rows : List (Schema × Ser)} : Strips d s d t →
      t = .tuple (rows.map Prod.fst) none ∨ t = .call true (rows.map Prod.fst) → p.Compound →
      (∀ r ∈ rows, Becomes classes keyed d p r.1 r.2) → Becomes classes keyed d p s (.hetero title p.computed (rows.map Prod.snd))
  /-- unions of primitive types: as the first of them -/
  | primUnion {p : Place} {s c : Schema} {cs : List Schema} {x : Ser} : Strips d s d (.union (c :: cs)) → (∀ i ∈ c :: cs, i.Scalar d) →
      p.location ≠ some .wrapped → Becomes classes keyed d p c x → Becomes classes keyed d p s (.primUnion p.computed x)
  /-- unions of models: one of the elements -/
  | modelUnion {p : Place} {s : Schema} {title : Title} {rows : List (Schema × Proxy)} : Strips d s d (.union (rows.map Prod.fst)) →
      rows ≠ [] → p.Compound → (∀ r ∈ rows, ∃ b, Strips d r.1 d (.model r.2.cls b)) →
      (∀ r ∈ rows, Becomes classes keyed d p r.1 (.proxy r.2)) →
      Becomes classes keyed d p s (.modelUnion title p.computed (rows.map Prod.snd))
  /-- discriminated unions: the element whose attribute holds the tag -/
  | tagged {p : Place} {s : Schema} {discr attr : String} {cs : List (Option String × Schema)} {alts : List (String × Proxy)}
      {choice : String → Schema} : Strips d s d (.tagged (some discr) cs) → cs ≠ [] → p.Compound → (alts.map Prod.fst).Nodup →
      (∀ c ∈ cs, ∃ a ∈ alts, c.1 = some a.1) → (∀ a ∈ alts, (some a.1, choice a.1) ∈ cs) →
      (∀ a ∈ alts, Strips d (choice a.1) d (.model a.2.cls false)) → (∀ a ∈ alts, keyed a.2.cls discr attr) →
      (∀ a ∈ alts, Becomes classes keyed d p (choice a.1) (.proxy a.2)) →
      Becomes classes keyed d p s (.tagged p.computed discr attr p.mode alts)

/-- The serializer of a class has its fields and computed fields in the order of their definition, with their settings, each represented
as its type is. -/
def ModelSer.Becomes (classes : Classes) (keyed : String → String → String → Prop) (d : Dict String Schema) (cd : ClassDef) (m : ModelSer) : Prop :=
  match cd.body with
  | .fields fs cs => ∃ a b, m.body = .fields (a ++ b) ∧
      Each (fun f x => x.Fits classes cd f ∧ f.schema.Becomes classes keyed d (f.place cd) x.ser) (fs.filter fun f => !f.noXml) a ∧
      Each (fun c x => x.FitsComputed classes cd c ∧ c.schema.Becomes classes keyed d (c.place cd) x.ser) cs b
  | .root s infos => ∃ x, m.body = .root x ∧ s.Becomes classes keyed d (cd.rootPlace infos) x

end PXml
