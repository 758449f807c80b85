import Verif.SpecTypedProgram

/-!
# Specification of reading, writing and reading again (C80)

What pydantic can make out of data, and for which classes every instance that was read from a document comes back.
-/

namespace PXml

mutual
/-- No dictionary in the value has the key `xsi:nil`. -/
def Val.NoNil : Val → Prop
  | .list vs => Val.NoNilList vs
  | .dict d => Elem.nilAttr ∉ Dict.keys d
  | .model _ fields _ => Val.NoNilItems fields
  | _ => True
def Val.NoNilList : List Val → Prop
  | [] => True
  | v :: vs => v.NoNil ∧ Val.NoNilList vs
def Val.NoNilItems : List (String × Val) → Prop
  | [] => True
  | (_, v) :: d => v.NoNil ∧ Val.NoNilItems d
end

/-- pydantic makes instances out of the data by the types, and in no other way: every field has the value made out of its data, and is set, or
it has no data and its default; computed fields are functions of the fields. What a primitive type makes out of a string is a value of the type, and only the empty string makes a value
that is written as the empty string. -/
structure Env.Only (env : Env) (P : Prims) (types : String → Option Types) : Prop where
  fields : ∀ cls d ts cs, types cls = some (.fields d ts cs) → ∀ (data : Dict String Val) fields set,
    env.validate cls (.dict data) = .ok (fields, set) →
    ∃ value : String → Val, fields = ts.map (fun t => (t.field.name, value t.field.name)) ++
      cs.map (fun c => (c.field.name, c.get (ts.map fun t => (t.field.name, value t.field.name)))) ∧ ∀ t ∈ ts,
      (∃ y, data.get? t.key = some y ∧ Makes P d t.ty y (value t.field.name) ∧ t.field.name ∈ set) ∨
      (data.get? t.key = none ∧ t.default = some (value t.field.name))
  root : ∀ cls d s ty df, types cls = some (.root d s ty df) → ∀ y fields set, env.validate cls y = .ok (fields, set) →
    ∃ x, fields = [("root", x)] ∧ ((Makes P d ty y x ∧ "root" ∈ set) ∨ (y = .undef ∧ df = some x))
  prim : ∀ s t v, P.parse s t = some v → P.Is s v ∧ (t ≠ "" → encodePrimitive env (env.toJsonable v) ≠ "")

/-- Fields of which all values that can be read come back. The alternatives of a union have different names, the discriminator of a tagged
union can only be the tag, and the items of tuples are not optional. `dicts` says whether dictionaries may occur. -/
inductive Restores (P : Prims) (types : String → Option Types) (dicts : Bool) (fl : Flags) : Dict String Schema → Ser → Schema → Prop
  | text {d : Dict String Schema} {ty : Schema} {nillable : Bool} : Restores P types dicts fl d (.text false nillable) ty
  | attr {d : Dict String Schema} {ty : Schema} {name : String} : Restores P types dicts fl d (.attr name false) ty
  | elem {d : Dict String Schema} {ty : Schema} {name : String} {nsmap : Option NsMap} {mode : Mode} {nillable : Bool} :
      Restores P types dicts fl d (.elem name nsmap mode false nillable) ty
  | primUnion {d : Dict String Schema} {ty : Schema} {inner : Ser} : inner.Leaf → Restores P types dicts fl d inner ty →
      Restores P types dicts fl d (.primUnion false inner) ty
  | attrs {d : Dict String Schema} {ty k vt : Schema} {a : AttrsSer} : dicts = true → a.computed = false → a.namespaced = false → Strips d ty d (.dict k vt) →
      Restores P types dicts fl d (.attrs a) ty
  | mapElem {d : Dict String Schema} {ty k vt : Schema} {a : AttrsSer} {name : String} {mode : Mode} : dicts = true → a.computed = false →
      a.namespaced = false → Strips d ty d (.dict k vt) → Restores P types dicts fl d (.mapElem a name mode) ty
  | raw {d : Dict String Schema} {ty : Schema} {name : String} {mode : Mode} : Strips d ty d (.isInst true) →
      Restores P types dicts fl d (.raw name mode false) ty
  | model {d : Dict String Schema} {ty : Schema} {p : Proxy} {r : Bool} : p.computed = false → Strips d ty d (.model p.cls r) →
      Restores P types dicts fl d (.proxy p) ty
  | union {d : Dict String Schema} {ty : Schema} {cs : List Schema} {title : Title} {alts : List Proxy} : Strips d ty d (.union cs) →
      (∀ p ∈ alts, p.computed = false ∧ ∃ c ∈ cs, ∃ r, Strips d c d (.model p.cls r)) → (alts.map fun p => p.cls).Nodup →
      (alts.map fun p => p.name).Nodup → Restores P types dicts fl d (.modelUnion title false alts) ty
  | tagged {d : Dict String Schema} {ty : Schema} {o : Option String} {cs : List (Option String × Schema)} {discr attrName : String} {mode : Mode}
      {alts : List (String × Proxy)} : Strips d ty d (.tagged o cs) → (alts.map Prod.fst).Nodup →
      (∀ a ∈ alts, a.1 ≠ "" ∧ a.2.computed = false ∧ (∃ c ∈ cs, ∃ r, Strips d c.2 d (.model a.2.cls r)) ∧
        ∃ d' ts cs' t, types a.2.cls = some (.fields d' ts cs') ∧ t ∈ ts ∧ t.hidden = false ∧ t.field.ser = .attr attrName false ∧ t.field.name = discr ∧
          (∀ s v, P.parse t.ty s = some v → v = .str a.1) ∧ ∀ x, t.default = some x → x = .str a.1 ∧ fl.excludeUnset = false) →
      Restores P types dicts fl d (.tagged false discr attrName mode alts) ty
  | list {d : Dict String Schema} {ty t item : Schema} {title : Title} {inner : Ser} : Strips d ty d t →
      t = .list item ∨ t = .tuple [item] (some 0) → inner.Item → Restores P types dicts fl d inner item → Restores P types dicts fl d (.homog title false inner) ty
  | tuple {d : Dict String Schema} {ty t : Schema} {title : Title} {rows : List (Ser × Schema)} : Strips d ty d t →
      t = .tuple (rows.map Prod.snd) none ∨ t = .call true (rows.map Prod.snd) → rows ≠ [] → (∀ r ∈ rows, r.1.Item) →
      (∀ r ∈ rows, ¬r.2.Nullable d) → (∀ r ∈ rows, Restores P types dicts fl d r.1 r.2) →
      Restores P types dicts fl d (.hetero title false (rows.map Prod.fst)) ty
  | wrap {d : Dict String Schema} {ty : Schema} {t : String} {path : List String} {nsmap : Option NsMap} {mode : Mode} {inner : Ser} :
      Restores P types dicts fl d inner ty → Restores P types dicts fl d (.wrap (t :: path) nsmap mode false inner) ty

/-- Classes of which all instances that can be read come back: no field is excluded, defaults come back, with `exclude_unset` nothing is read
for a field for which nothing is written, and empty elements are written. Computed fields (only if `wh` is `false`, and then no class forbids
what is not read) have values that can be written. -/
structure Env.Stable (env : Env) (P : Prims) (types : String → Option Types) (dicts eas : Bool) (fl : Flags) (wh : Bool) : Prop where
  flags : fl.skipEmpty = false
  typed : ∀ cls m, env.model cls = some m → (types cls).isSome = true ∧ m.skipEmpty ≠ some true ∧ (wh = false → m.extraForbid = false)
  fields : ∀ cls d ts cs, types cls = some (.fields d ts cs) → ∀ t ∈ ts, t.hidden = false → t.field.exclude = false ∧
    Restores P types dicts fl d t.field.ser t.ty ∧ (fl.excludeUnset = true → t.field.ser.Silent eas) ∧
    ∀ x, t.default = some x → ∃ void, Sound env P types eas fl wh false (.field d t.field.ser t.ty x void)
  computed : ∀ cls d ts cs, types cls = some (.fields d ts cs) → ∀ c ∈ cs, wh = false ∧ c.field.exclude = false ∧
    (fl.excludeUnset = true → c.field.ser.stored.Silent eas) ∧
    ∀ value : String → Val, (∀ t ∈ ts, (∃ y, Makes P d t.ty y (value t.field.name)) ∨ t.default = some (value t.field.name)) →
      ∃ void, Sound env P types eas fl wh false
        (.field d c.field.ser.stored c.ty (c.get (ts.map fun t => (t.field.name, value t.field.name))) void)
  root : ∀ cls d s ty df, types cls = some (.root d s ty df) → Restores P types dicts fl d s ty ∧
    ∀ x, df = some x → fl.excludeUnset = false ∧ ∃ void, Sound env P types eas fl wh false (.field d s ty x void)

/-! ## In terms of declarations -/

/-- pydantic makes instances out of the data by the declared types, and in no other way. -/
structure Env.OnlyDeclared (env : Env) (P : Prims) (classes : Classes) (B : Behind) : Prop where
  fields : ∀ cls cd r d fs cs, classes cls = some cd → Strips [] cd.schema d (.model cls r) → cd.body = .fields fs cs →
    ∀ (data : Dict String Val) fields set, env.validate cls (.dict data) = .ok (fields, set) →
    ∃ value : String → Val, fields = fs.map (fun f => (f.name, value f.name)) ++
      cs.map (fun c => (c.name, B.get cls c.name (fs.map fun f => (f.name, value f.name)))) ∧ ∀ f ∈ fs,
      (∃ y, data.get? f.key = some y ∧ Makes P d f.schema y (value f.name) ∧ f.name ∈ set) ∨
      (data.get? f.key = none ∧ B.default cls f.name = some (value f.name))
  root : ∀ cls cd r d s infos, classes cls = some cd → Strips [] cd.schema d (.model cls r) → cd.body = .root s infos →
    ∀ y fields set, env.validate cls y = .ok (fields, set) →
    ∃ x, fields = [("root", x)] ∧ ((Makes P d s y x ∧ "root" ∈ set) ∨ (y = .undef ∧ B.default cls "root" = some x))
  prim : ∀ s t v, P.parse s t = some v → P.Is s v ∧ (t ≠ "" → encodePrimitive env (env.toJsonable v) ≠ "")

/-- Types of which all values that can be read at a place come back. The alternatives of a union are different classes with different names,
the discriminator of a tagged union can only be the tag, and the items of tuples are not optional. -/
inductive Schema.Returns (P : Prims) (classes : Classes) (B : Behind) (dicts : Bool) (fl : Flags)
    (d : Dict String Schema) : Place → Schema → Prop
  | leaf {p : Place} {s : Schema} : s.Leaf d → p.location ≠ some .wrapped → Returns P classes B dicts fl d p s
  | dict {p : Place} {s k vt : Schema} : dicts = true → Strips d s d (.dict k vt) → p.location ≠ some .wrapped → p.nsAttrs = false →
      Returns P classes B dicts fl d p s
  | raw {p : Place} {s : Schema} : Strips d s d (.isInst true) → p.location ≠ some .wrapped → Returns P classes B dicts fl d p s
  | model {p : Place} {s : Schema} {cls : String} {r : Bool} : Strips d s d (.model cls r) → p.location ≠ some .wrapped →
      Returns P classes B dicts fl d p s
  | union {p : Place} {s c : Schema} {cs : List Schema} {cls : String} {r : Bool} : Strips d s d (.union (c :: cs)) →
      Strips d c d (.model cls r) → p.location ≠ some .wrapped →
      (c :: cs).Pairwise (fun a b => (∀ cls r r', Strips d a d (.model cls r) → ¬Strips d b d (.model cls r')) ∧
        ∀ t, a.Occupies classes d p (.child t) → ¬b.Occupies classes d p (.child t)) →
      Returns P classes B dicts fl d p s
  | tagged {p : Place} {s : Schema} {discr : String} {cs : List (Option String × Schema)} : Strips d s d (.tagged (some discr) cs) →
      p.location ≠ some .wrapped →
      (∀ c ∈ cs, ∀ tag cls, c.1 = some tag → Strips d c.2 d (.model cls false) → tag ≠ "" ∧
        ∃ cd r d' fs cs' f, classes cls = some cd ∧ Strips [] cd.schema d' (.model cls r) ∧ cd.body = .fields fs cs' ∧
          f ∈ fs ∧ f.noXml = false ∧ f.name = discr ∧ (∀ t v, P.parse f.schema t = some v → v = .str tag) ∧
          ∀ x, B.default cls discr = some x → x = .str tag ∧ fl.excludeUnset = false) →
      Returns P classes B dicts fl d p s
  | list {p : Place} {s t item : Schema} : Strips d s d t → t = .list item ∨ t = .tuple [item] (some 0) → p.location ≠ some .wrapped →
      item.ItemAt d p → Returns P classes B dicts fl d p item → Returns P classes B dicts fl d p s
  | tuple {p : Place} {s t : Schema} {items : List Schema} : Strips d s d t → t = .tuple items none ∨ t = .call true items →
      p.location ≠ some .wrapped → items ≠ [] → (∀ i ∈ items, i.ItemAt d p) → (∀ i ∈ items, ¬i.Nullable d) →
      (∀ i ∈ items, Returns P classes B dicts fl d p i) → Returns P classes B dicts fl d p s
  | wrapped {p : Place} {s : Schema} : p.location = some .wrapped → Returns P classes B dicts fl d p.inside s →
      Returns P classes B dicts fl d p s

/-- Declarations of classes of which all instances that can be read come back: no field is excluded, defaults come back, with `exclude_unset`
nothing is read for a field for which nothing is written, and empty elements are written. Computed fields (only if `wh` is `false`, and then
no class forbids what is not read) have values that can be written. -/
structure Classes.Stable (classes : Classes) (env : Env) (P : Prims) (B : Behind) (dicts eas : Bool) (fl : Flags) (wh : Bool) : Prop where
  flags : fl.skipEmpty = false
  classes : ∀ cls cd, classes cls = some cd → cd.params.skipEmpty ≠ some true ∧ (wh = false → cd.extraForbid = false) ∧ ∃ r d, Strips [] cd.schema d (.model cls r) ∧
    cd.Neat classes d ∧
    match cd.body with
    | .fields fs cs => (∀ f ∈ fs, f.noXml = false → f.exclude = false ∧ f.schema.Returns P classes B dicts fl d (f.place cd) ∧
        (fl.excludeUnset = true → f.schema.Quiet eas d (f.place cd)) ∧
        ∀ x, B.default cls f.name = some x → ∃ void, Worth env P classes B eas fl wh false (.field d (f.place cd) f.schema x void)) ∧
        (∀ c ∈ cs, wh = false ∧ (fl.excludeUnset = true → c.schema.Quiet eas d (c.place cd).stored) ∧
          ∀ value : String → Val, (∀ f ∈ fs, (∃ y, Makes P d f.schema y (value f.name)) ∨ B.default cls f.name = some (value f.name)) →
            ∃ void, Worth env P classes B eas fl wh false
              (.field d (c.place cd).stored c.schema (B.get cls c.name (fs.map fun f => (f.name, value f.name))) void))
    | .root s infos => s.Returns P classes B dicts fl d (cd.rootPlace infos) ∧
        ∀ x, B.default cls "root" = some x → fl.excludeUnset = false ∧
          ∃ void, Worth env P classes B eas fl wh false (.field d (cd.rootPlace infos) s x void)

end PXml
