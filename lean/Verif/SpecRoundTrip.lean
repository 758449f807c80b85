import Verif.Spec

/-!
# Specification of the round trip

Which classes are covered (`Tidy`), and what pydantic is handed when a written instance is read (`Handed`): both are about
classes and values only and do not mention elements, cursors or lookups.
-/

namespace PXml

/-! ## Classes -/

mutual
/-- The places a field occupies in the element of its class; a wrapped field occupies its outermost wrapper. -/
def Ser.slots : Ser → List Slot
  | .text _ nillable => if nillable then [.text, .attr Elem.nilAttr] else [.text]
  | .attr name _ => [.attr name]
  | .elem name _ _ _ _ => [.child name]
  | .attrs _ => [.attrs]
  | .mapElem _ name _ => [.child name]
  | .raw name _ _ => [.child name]
  | .proxy p => [.child p.name]
  | .primUnion _ inner => inner.slots
  | .modelUnion _ _ alts => alts.map fun p => .child p.name
  | .tagged _ _ _ _ alts => alts.map fun tp => .child tp.2.name
  | .wrap [] _ _ _ inner => inner.slots
  | .wrap (t :: _) _ _ _ _ => [.child t]
  | .homog _ _ inner => inner.slots
  | .hetero _ _ inners => Ser.slotsList inners
def Ser.slotsList : List Ser → List Slot
  | [] => []
  | s :: ss => s.slots ++ Ser.slotsList ss
end

/-- Two places that cannot be occupied by different fields: the same place, or an attribute and all attributes. -/
def Slot.Competes : Slot → Slot → Prop
  | .text, .text => True
  | .attr k, .attr k' => k = k'
  | .attr _, .attrs => True
  | .attrs, .attr _ => True
  | .attrs, .attrs => True
  | .child t, .child t' => t = t'
  | _, _ => False

/-- The field lies inside the wrapper element `t`. -/
def Ser.Under (t : String) : Ser → Prop
  | .wrap (t' :: _) _ _ _ _ => t' = t
  | _ => False

/-- A wrapped field, seen from inside its outermost wrapper. -/
def Ser.inWrapper : Ser → Ser
  | .wrap [_] _ _ _ inner => inner
  | .wrap (_ :: t :: ts) nsmap mode c inner => .wrap (t :: ts) nsmap mode c inner
  | s => s

/-- Fields that do not compete: no two of them occupy the same place, except that consecutive wrapped fields may share wrapper
elements, inside which the same holds. -/
inductive Tidy : List Ser → Prop
  | nil : Tidy []
  | field {s : Ser} {rest : List Ser} : s.NotWrapped →
      (∀ a ∈ s.slots, ∀ u ∈ rest, ∀ b ∈ u.slots, ¬ a.Competes b) → Tidy rest → Tidy (s :: rest)
  | wrapped {t : String} {group rest : List Ser} : group ≠ [] → (∀ s ∈ group, s.Under t) → Tidy (group.map Ser.inWrapper) →
      (∀ u ∈ rest, Slot.child t ∉ u.slots) → Tidy rest → Tidy (group ++ rest)

/-- Items of lists and tuples: fields that occupy child elements only and find their element by looking at the next child. In
a union the alternatives have the same name or are read in strict mode. -/
inductive Ser.Item : Ser → Prop
  | elem {name : String} {nsmap : Option NsMap} {mode : Mode} {c nillable : Bool} : Item (.elem name nsmap mode c nillable)
  | mapElem {a : AttrsSer} {name : String} {mode : Mode} : Item (.mapElem a name mode)
  | raw {name : String} {mode : Mode} {c : Bool} : Item (.raw name mode c)
  | proxy {p : Proxy} : Item (.proxy p)
  | primUnion {c : Bool} {inner : Ser} : Item inner → Item (.primUnion c inner)
  | modelUnion {title : Title} {c : Bool} {alts : List Proxy} : (∀ p ∈ alts, p.mode = .strict) → Item (.modelUnion title c alts)
  | tagged {c : Bool} {discr attrName : String} {mode : Mode} {alts : List (String × Proxy)} :
      mode = .strict ∨ (∀ a ∈ alts, ∀ b ∈ alts, a.2.name = b.2.name) → Item (.tagged c discr attrName mode alts)
  | hetero {title : Title} {c : Bool} {inners : List Ser} : inners ≠ [] → (∀ s ∈ inners, Item s) → Item (.hetero title c inners)

/-- Fields that read as `None` when nothing was written for them: not all attributes (which read as an empty dictionary) and not
text if empty text counts as a string. -/
inductive Ser.Silent (eas : Bool) : Ser → Prop
  | text {c nillable : Bool} : eas = false → Silent eas (.text c nillable)
  | attr {name : String} {c : Bool} : Silent eas (.attr name c)
  | item {s : Ser} : s.Item → Silent eas s
  | modelUnion {title : Title} {c : Bool} {alts : List Proxy} : Silent eas (.modelUnion title c alts)
  | tagged {c : Bool} {discr attrName : String} {mode : Mode} {alts : List (String × Proxy)} :
      Silent eas (.tagged c discr attrName mode alts)
  | primUnion {c : Bool} {inner : Ser} : inner.Leaf → Silent eas inner → Silent eas (.primUnion c inner)
  | homog {title : Title} {c : Bool} {inner : Ser} : inner.Item → Silent eas (.homog title c inner)
  | wrap {t : String} {ts : List String} {nsmap : Option NsMap} {mode : Mode} {inner : Ser} : Silent eas inner →
      Silent eas (.wrap (t :: ts) nsmap mode false inner)

mutual
/-- A computed field, as if its value were stored. -/
def Ser.stored : Ser → Ser
  | .text _ nillable => .text false nillable
  | .attr name _ => .attr name false
  | .elem name nsmap mode _ nillable => .elem name nsmap mode false nillable
  | .attrs a => .attrs { a with computed := false }
  | .mapElem a name mode => .mapElem { a with computed := false } name mode
  | .raw name mode _ => .raw name mode false
  | .proxy p => .proxy { p with computed := false }
  | .primUnion _ inner => .primUnion false inner.stored
  | .modelUnion title _ alts => .modelUnion title false (alts.map fun p => { p with computed := false })
  | .tagged _ discr attrName mode alts => .tagged false discr attrName mode (alts.map fun tp => (tp.1, { tp.2 with computed := false }))
  | .wrap path nsmap mode _ inner => .wrap path nsmap mode false inner.stored
  | .homog title _ inner => .homog title false inner.stored
  | .hetero title _ inners => .hetero title false (Ser.storedList inners)
def Ser.storedList : List Ser → List Ser
  | [] => []
  | s :: ss => s.stored :: Ser.storedList ss
end

/-! ## Values -/

/-- What a stretch of text means: empty text is absent, or the empty string with `empty_as_string`. -/
def textMeans (eas : Bool) (t : String) : Val := if t = "" then (if eas then .str "" else .none) else .str t

/-- The value of a field that is written: nothing for excluded fields, and for unset fields with `exclude_unset`. -/
def Field.Writes (fl : Flags) (fields : Dict String Val) (set : List String) (enc : Dict String Val) (f : Field) :
    Option (Val × Val) → Prop
  | none => f.exclude = true ∨ (fl.excludeUnset = true ∧ f.name ∉ set)
  | some (x, y) => f.exclude = false ∧ (fl.excludeUnset = true → f.name ∈ set) ∧ fields.get? f.name = some x ∧ enc.get? f.name = some y

/-- The field data handed to pydantic: fields that are `None` are left out. -/
def handedData (rows : List (Field × Option (Val × Val) × Val)) : Dict String Val :=
  rows.foldl (fun res r => if r.2.2.isNone then res else res.set (r.1.alias.getD r.1.name) r.2.2) []

/-- What is read back: for a field with a value (`none`: not written), or for an instance of a class. -/
inductive Thing where
  /-- The field `s`, written with the value and its encoding, is handed to pydantic as `d`. -/
  | field (s : Ser) (val : Option (Val × Val)) (d : Val)
  /-- The instance `v` of `cls` with the encoding `enc`: the new instance is `v'`. -/
  | model (cls : String) (v enc v' : Val)

/-- An attribute dictionary whose names can be read back: pairwise different names, `xsi:nil` not among them; plain names in a
usable namespace if they are namespaced. -/
def AttrsSer.Readable (a : AttrsSer) (d : Dict String Val) : Prop :=
  d.WF ∧ (∀ k ∈ d.keys, QName.uri ⟨k, a.space⟩ ≠ Elem.nilAttr) ∧ (a.namespaced = true → ∀ k ∈ d.keys, PlainName k) ∧
    ∀ ns, a.space = some ns → ns ≠ "" ∧ '\n' ∉ ns.toList

/-- The dictionary read back: all values as strings. -/
def asStrings (env : Env) (d : Dict String Val) : Val := .dict (d.map fun kv => (kv.1, .str (pyStr env kv.2)))

/-- The flags inside a class: `skip_empty` of the class configuration wins. -/
def ModelSer.flagsIn (m : ModelSer) (fl : Flags) : Flags := { fl with skipEmpty := m.skipEmpty.getD fl.skipEmpty }

/-- `None` is not written. -/
def Flags.NoneSkipped (fl : Flags) : Prop := fl.excludeNone = true ∨ fl.skipEmpty = true

instance (fl : Flags) : Decidable fl.NoneSkipped := inferInstanceAs (Decidable (_ ∨ _))

/-- What pydantic is handed when something written is read. There are two further flags. `wh` says whether everything written is also
read: it is `false` if there may be computed fields, which are written but never read. `so` says whether something that is not empty is
written for sure: with `skip_empty` elements without it are not written, and items of lists and tuples must have it. -/
inductive Handed (env : Env) (eas : Bool) : Flags → Bool → Bool → Thing → Prop
  /-- a text: its string form -/
  | text {fl : Flags} {wh so : Bool} {nillable : Bool} {v enc : Val} : v ≠ .none → (so = true → encodePrimitive env enc ≠ "") →
      Handed env eas fl wh so (.field (.text false nillable) (some (v, enc)) (textMeans eas (encodePrimitive env enc)))
  /-- no text: with `exclude_none` or `skip_empty`, or without them an empty text, or a nillable one -/
  | textNone {fl : Flags} {wh so : Bool} {nillable : Bool} {enc : Val} : enc = .none → (so = true → ¬fl.NoneSkipped ∧ nillable = true) →
      Handed env eas fl wh so (.field (.text false nillable) (some (.none, enc))
        (if ¬fl.NoneSkipped ∧ nillable = true then .none else textMeans eas ""))
  /-- an attribute: its string form -/
  | attr {fl : Flags} {wh so : Bool} {name : String} {v enc : Val} : v ≠ .none → Handed env eas fl wh so
      (.field (.attr name false) (some (v, enc)) (.str (encodePrimitive env enc)))
  /-- no attribute, or an empty one without `exclude_none` and `skip_empty` -/
  | attrNone {fl : Flags} {wh so : Bool} {name : String} {enc : Val} : enc = .none → (so = true → ¬fl.NoneSkipped) →
      Handed env eas fl wh so (.field (.attr name false) (some (.none, enc)) (if fl.NoneSkipped then .none else .str ""))
  /-- an element: the string form of its text; with `skip_empty` nothing if that is empty -/
  | elem {fl : Flags} {wh so : Bool} {name : String} {nsmap : Option NsMap} {mode : Mode} {nillable : Bool} {v enc : Val} : v ≠ .none →
      (so = true → fl.skipEmpty = true → encodePrimitive env enc ≠ "") → Handed env eas fl wh so
      (.field (.elem name nsmap mode false nillable) (some (v, enc))
        (if fl.skipEmpty = true ∧ encodePrimitive env enc = "" then .none else textMeans eas (encodePrimitive env enc)))
  | elemNone {fl : Flags} {wh so : Bool} {name : String} {nsmap : Option NsMap} {mode : Mode} {nillable : Bool} {enc : Val} : enc = .none →
      (so = true → ¬fl.NoneSkipped) → Handed env eas fl wh so
      (.field (.elem name nsmap mode false nillable) (some (.none, enc))
        (if fl.NoneSkipped ∨ nillable = true then .none else textMeans eas ""))
  /-- all attributes -/
  | attrs {fl : Flags} {wh so : Bool} {a : AttrsSer} {v : Val} {d : Dict String Val} : a.computed = false → v ≠ .none → a.Readable d →
      (so = true → d ≠ []) → Handed env eas fl wh so (.field (.attrs a) (some (v, .dict d)) (asStrings env d))
  /-- a mapping element; with `skip_empty` nothing if the dictionary is empty -/
  | mapElem {fl : Flags} {wh so : Bool} {a : AttrsSer} {name : String} {mode : Mode} {v : Val} {d : Dict String Val} : a.computed = false →
      v ≠ .none → a.Readable d → (fl.skipEmpty = true → v.len? = some d.length) → (so = true → fl.skipEmpty = true → d ≠ []) →
      Handed env eas fl wh so (.field (.mapElem a name mode) (some (v, .dict d))
        (if fl.skipEmpty = true ∧ d = [] then .none else asStrings env d))
  /-- a raw element: the same without comments, prefix declarations and line numbers; with `skip_empty` it must not be empty -/
  | raw {fl : Flags} {wh so : Bool} {name : String} {mode : Mode} {node : Node} {enc : Val} : node.tag = name → node.NoPIs →
      node.isComment = false → (fl.skipEmpty = true → ¬node.plain.Empty name) →
      Handed env eas fl wh so (.field (.raw name mode false) (some (.raw node, enc)) (.raw node.plain))
  | rawNone {fl : Flags} {wh : Bool} {name : String} {mode : Mode} {enc : Val} :
      Handed env eas fl wh false (.field (.raw name mode false) (some (.none, enc)) .none)
  /-- a sub-model: the instance; the class has no field for `xsi:nil`, which marks missing sub-models; with `skip_empty` it must not
  be empty -/
  | proxy {fl : Flags} {wh so : Bool} {p : Proxy} {m : ModelSer} {v enc v' : Val} : p.computed = false → v ≠ .none →
      env.model p.cls = some m →
      (∀ fs, m.body = .fields fs → ∀ f ∈ fs, Slot.attr Elem.nilAttr ∉ f.ser.slots) →
      (∀ s, m.body = .root s → Slot.attr Elem.nilAttr ∉ s.slots) →
      Handed env eas fl wh fl.skipEmpty (.model p.cls v enc v') → Handed env eas fl wh so (.field (.proxy p) (some (v, enc)) v')
  | proxyNone {fl : Flags} {wh so : Bool} {p : Proxy} {enc : Val} : p.computed = false →
      (so = true → fl.excludeNone = false ∧ p.nillable = true) →
      Handed env eas fl wh so (.field (.proxy p) (some (.none, enc)) .none)
  | primUnion {fl : Flags} {wh so : Bool} {inner : Ser} {val : Val × Val} {d : Val} : inner.Leaf →
      Handed env eas fl wh so (.field inner (some val) d) →
      Handed env eas fl wh so (.field (.primUnion false inner) (some val) d)
  /-- a union of models: the alternative of the class of the instance; earlier alternatives have other names -/
  | modelUnion {fl : Flags} {wh so : Bool} {title : Title} {cls : String} {pre post : List Proxy} {p : Proxy} {fields : List (String × Val)}
      {set : List String} {enc v' : Val} : p.cls = cls → (∀ q ∈ pre, q.cls ≠ cls ∧ q.name ≠ p.name) →
      Handed env eas fl wh true (.field (.proxy p) (some (.model cls fields set, enc)) v') →
      Handed env eas fl wh so (.field (.modelUnion title false (pre ++ p :: post)) (some (.model cls fields set, enc)) v')
  | modelUnionNone {fl : Flags} {wh : Bool} {title : Title} {alts : List Proxy} {enc : Val} :
      Handed env eas fl wh false (.field (.modelUnion title false alts) (some (.none, enc)) .none)
  /-- a tagged union: the alternative whose tag is the discriminator, which the class writes as an attribute -/
  | tagged {fl : Flags} {wh so : Bool} {discr attrName tag : String} {mode : Mode} {pre post : List (String × Proxy)} {p : Proxy}
      {m : ModelSer} {fs : List Field} {f : Field} {cls : String} {fields d : List (String × Val)} {set : List String} {x v' : Val} :
      tag ≠ "" → (∀ q ∈ pre, q.1 ≠ tag) → Dict.get? d discr = some (.str tag) →
      env.model p.cls = some m → m.body = .fields fs → f ∈ fs → f.ser = .attr attrName false → f.name = discr →
      f.Writes fl fields set d (some (x, .str tag)) → x ≠ .none →
      Handed env eas fl wh true (.field (.proxy p) (some (.model cls fields set, .dict d)) v') →
      Handed env eas fl wh so
        (.field (.tagged false discr attrName mode (pre ++ (tag, p) :: post)) (some (.model cls fields set, .dict d)) v')
  /-- a wrapped field; with `skip_empty` nothing if the value has no length -/
  | wrap {fl : Flags} {wh so so' : Bool} {t : String} {ts : List String} {nsmap : Option NsMap} {mode : Mode} {inner : Ser} {v enc d : Val} :
      v ≠ .none → (fl.skipEmpty = true → v.len? ≠ some 0) → Handed env eas fl wh so' (.field inner (some (v, enc)) d) →
      Handed env eas fl wh so (.field (.wrap (t :: ts) nsmap mode false inner) (some (v, enc)) d)
  | wrapNone {fl : Flags} {wh : Bool} {t : String} {ts : List String} {nsmap : Option NsMap} {mode : Mode} {inner : Ser} {v enc : Val} :
      v = .none ∨ (fl.skipEmpty = true ∧ v.len? = some 0) → inner.Silent eas →
      Handed env eas fl wh false (.field (.wrap (t :: ts) nsmap mode false inner) (some (v, enc)) .none)
  /-- a list: the items, none of which reads as `None`; an empty list is handed over as nothing -/
  | homog {fl : Flags} {wh so : Bool} {title : Title} {inner : Ser} {rows : List ((Val × Val) × Val)} : inner.Item →
      (∀ r ∈ rows, r.1.1 ≠ .none ∧ r.2 ≠ .none) → (so = true → rows ≠ []) →
      (∀ r ∈ rows, Handed env eas fl wh fl.skipEmpty (.field inner (some r.1) r.2)) →
      Handed env eas fl wh so (.field (.homog title false inner)
        (some (.list (rows.map fun r => r.1.1), .list (rows.map fun r => r.1.2)))
        (if rows = [] then .none else .list (rows.map fun r => r.2)))
  | homogNone {fl : Flags} {wh : Bool} {title : Title} {inner : Ser} {enc : Val} : inner.Item →
      Handed env eas fl wh false (.field (.homog title false inner) (some (.none, enc)) .none)
  /-- a tuple: the items, all of which are there -/
  | hetero {fl : Flags} {wh so : Bool} {title : Title} {rows : List (Ser × (Val × Val) × Val)} : rows ≠ [] → (∀ r ∈ rows, r.1.Item) →
      (∀ r ∈ rows, r.2.1.1 ≠ .none) → (∀ r ∈ rows, Handed env eas fl wh fl.skipEmpty (.field r.1 (some r.2.1) r.2.2)) →
      Handed env eas fl wh so (.field (.hetero title false (rows.map fun r => r.1))
        (some (.list (rows.map fun r => r.2.1.1), .list (rows.map fun r => r.2.1.2)))
        (if rows.all (fun r => r.2.2.isNone) then .none else .list (rows.map fun r => r.2.2)))
  | heteroNone {fl : Flags} {wh : Bool} {title : Title} {inners : List Ser} {enc : Val} : inners ≠ [] → (∀ s ∈ inners, s.Item) →
      Handed env eas fl wh false (.field (.hetero title false inners) (some (.none, enc)) .none)
  /-- nothing is written -/
  | silent {fl : Flags} {wh : Bool} {s : Ser} : s.Silent eas → Handed env eas fl wh false (.field s none .none)
  /-- an instance: the result of validating the field data -/
  | fields {fl : Flags} {wh so : Bool} {cls c : String} {m : ModelSer} {rows : List (Field × Option (Val × Val) × Val)}
      (solid : Field × Option (Val × Val) × Val → Bool) {fields enc fields' : List (String × Val)} {set set' : List String} :
      env.model cls = some m → m.body = .fields (rows.map fun r => r.1) →
      (wh = false → m.extraForbid = false) → Tidy (rows.map fun r => r.1.ser) → (∀ r ∈ rows, r.1.validator = none ∧ r.1.serializer = none) →
      (∀ r ∈ rows, r.1.Writes fl fields set enc r.2.1) → (so = true → ∃ r ∈ rows, solid r = true) →
      (∀ r ∈ rows, Handed env eas (m.flagsIn fl) wh (solid r) (.field r.1.ser r.2.1 r.2.2)) →
      env.validate cls (.dict (handedData rows)) = .ok (fields', set') →
      Handed env eas fl wh so (.model cls (.model c fields set) (.dict enc) (.model cls fields' set'))
  | root {fl : Flags} {wh so : Bool} {cls c : String} {m : ModelSer} {s : Ser} {val : Option (Val × Val)} {x d enc : Val}
      {fields fields' : List (String × Val)} {set set' : List String} : env.model cls = some m → m.body = .root s →
      (wh = false → m.extraForbid = false) → Tidy [s] →
      Dict.get? fields "root" = some x →
      val = (if fl.excludeUnset = true ∧ "root" ∉ set then none else some (x, enc)) →
      Handed env eas (m.flagsIn fl) wh so (.field s val d) → env.validate cls (if d.isNone then .undef else d) = .ok (fields', set') →
      Handed env eas fl wh so (.model cls (.model c fields set) enc (.model cls fields' set'))
  /-- an instance of a class with computed fields, which come last and compete neither with each other nor with the other fields: they
  are written like other fields, and not handed to pydantic -/
  | computed {fl : Flags} {so : Bool} {cls c : String} {m : ModelSer} {rows : List (Field × Option (Val × Val) × Val)}
      {more : List (Field × Option (Val × Val) × Val)} (solid : Field × Option (Val × Val) × Val → Bool)
      {fields enc fields' : List (String × Val)} {set set' : List String} :
      env.model cls = some m → m.body = .fields (rows.map (fun r => r.1) ++ more.map fun r => r.1) →
      m.extraForbid = false → Tidy (rows.map fun r => r.1.ser) → Tidy (more.map fun r => r.1.ser.stored) →
      (∀ r ∈ rows, ∀ a ∈ r.1.ser.slots, ∀ u ∈ more, ∀ b ∈ u.1.ser.slots, ¬ a.Competes b) →
      (∀ u ∈ more, u.1.ser.computed = true) → (∀ r ∈ rows ++ more, r.1.validator = none ∧ r.1.serializer = none) →
      (∀ r ∈ rows ++ more, r.1.Writes fl fields set enc r.2.1) → (so = true → ∃ r ∈ rows ++ more, solid r = true) →
      (∀ r ∈ rows, Handed env eas (m.flagsIn fl) false (solid r) (.field r.1.ser r.2.1 r.2.2)) →
      (∀ u ∈ more, Handed env eas (m.flagsIn fl) false (solid u) (.field u.1.ser.stored u.2.1 u.2.2)) →
      env.validate cls (.dict (handedData rows)) = .ok (fields', set') →
      Handed env eas fl false so (.model cls (.model c fields set) (.dict enc) (.model cls fields' set'))
  /-- something without computed fields inside something with computed fields -/
  | whole {fl : Flags} {so : Bool} {t : Thing} : Handed env eas fl true so t → Handed env eas fl false so t

end PXml
