import Verif.Heap

/-!
# Writing with object identity

`serialize` and `to_xml_tree` in the store of mutable objects of `Verif/Heap.lean`: the element that is written to, the elements
created on the way, the model instance with its lists, dictionaries and sub-models, and the native trees held by raw fields
are objects in the store.  (The JSON-able copy made by pydantic is a value.)
-/

namespace PXml
namespace Heap

/-- `value is None` -/
def HVal.isNone : HVal → Bool
  | .none => true
  | _ => false

/-- A value that is not an object. -/
def HVal.imm? : HVal → Option Val
  | .none => some .none
  | .str s => some (.str s)
  | .bool b => some (.bool b)
  | .int i => some (.int i)
  | .opaque r l => some (.opaque r l)
  | .undef => some .undef
  | .ref _ => Option.none

namespace Store

/-- Runs a reading function over a list of objects. -/
def nodesAll (f : Addr → Option Node) : List Addr → Option (List Node)
  | [] => some []
  | a :: as =>
    match f a with
    | none => none
    | some t =>
      match nodesAll f as with
      | none => none
      | some ts => some (t :: ts)

/-- Reads the native tree at an address (bounded by the first argument). -/
def nodes : Nat → Store → Addr → Option Node
  | 0, _, _ => none
  | n + 1, h, a =>
    match h.node? a with
    | none => none
    | some (.elem tag attrib nsmap text tail children line) =>
      match nodesAll (nodes n h) children with
      | none => none
      | some ts => some (.elem tag ((h.dict? attrib).getD []) nsmap text tail ts line)
    | some (.comment text tail) => some (.comment text tail)
    | some (.pi text tail) => some (.pi text tail)

/-- The object a value refers to. -/
def cell? (h : Store) : HVal → Option Cell
  | .ref a => h[a]?
  | _ => none

/-- The items of a list. -/
def items? (h : Store) (v : HVal) : Option (List HVal) := match h.cell? v with | some (.pyList vs) => some vs | _ => none

/-- The class, the fields and the set fields of a model instance. -/
def inst? (h : Store) (v : HVal) : Option (String × List (String × HVal) × List String) :=
  match h.cell? v with
  | some (.inst cls fields set) => some (cls, fields, set)
  | _ => none

/-- `len(value)` if `isinstance(value, Sized)`. -/
def len? (h : Store) (v : HVal) : Option Nat :=
  match v with
  | .str s => some s.length
  | .opaque _ l => l
  | v =>
    match h.cell? v with
    | some (.pyList vs) => some vs.length
    | some (.pyDict d) => some d.length
    | some (.node (.elem _ _ _ _ _ cs _)) => some cs.length
    | some (.node _) => some 0
    | _ => none

/-- Runs a reading function over a list of values. -/
def valuesAll (f : HVal → Option Val) : List HVal → Option (List Val)
  | [] => some []
  | v :: vs =>
    match f v with
    | none => none
    | some w =>
      match valuesAll f vs with
      | none => none
      | some ws => some (w :: ws)

/-- Reads the fields of an instance or the items of a dictionary. -/
def fieldsAll (f : HVal → Option Val) (d : List (String × HVal)) : Option (List (String × Val)) :=
  (valuesAll f (d.map Prod.snd)).map fun ws => (d.map Prod.fst).zip ws

/-- The value an object stands for, as handed to `pydantic_core.to_jsonable_python` and to custom serializers (bounded by the
first argument). -/
def deref : Nat → Store → HVal → Option Val
  | 0, _, v => v.imm?
  | n + 1, h, v =>
    match v with
    | .ref a =>
      match h[a]? with
      | some (.pyList vs) => (valuesAll (deref n h) vs).map .list
      | some (.pyDict d) => (fieldsAll (deref n h) d).map .dict
      | some (.inst cls fields set) => (fieldsAll (deref n h) fields).map fun fs => .model cls fs set
      | some (.node _) => (nodes h.length h a).map .raw
      | _ => none
    | v => v.imm?

/-- The value of an object. -/
def value? (h : Store) (v : HVal) : Option Val := deref h.length h v

/-- `is_empty`, element.py:362-366. -/
def isEmpty (h : Store) (a : Addr) : Bool :=
  match h.obj? a with
  | some o => !Elem.truthy o.text && !Elem.truthy o.tail && !truthyMap (o.attrib.map fun da => (h.dict? da).getD []) && (h.kids o).isEmpty
  | none => true

/-- `set_text`, element.py:368-369. -/
def setText (h : Store) (a : Addr) (t : String) : Store := h.modify a fun o => { o with text := some t }

/-- `set_attribute`, element.py:371-375: the dictionary is mutated; it is created if there is none. -/
def setAttribute (h : Store) (a : Addr) (k v : String) : Store :=
  match (h.obj? a).bind Obj.attrib with
  | some da => h.set da (.dict (Dict.set ((h.dict? da).getD []) k v))
  | none =>
    match h.alloc (.dict (Dict.set [] k v)) with
    | (da, h) => h.modify a fun o => { o with attrib := some da }

/-- `set_attributes`, element.py:377-378: a new dictionary. -/
def setAttributes (h : Store) (a : Addr) (d : Dict String String) : Store :=
  match h.alloc (.dict d) with
  | (da, h) => h.modify a fun o => { o with attrib := some da }

/-- `append_element`, element.py:380-382 (and 453-454): the list is mutated. -/
def append (h : Store) (a b : Addr) : Store :=
  match h.obj? a with
  | some o =>
    let h' : Store := h.set o.elements (.list (h.kids o ++ [b]))
    h'.modify a fun o => { o with next := o.next + 1 }
  | none => h

/-- `make_element`, lxml.py:50-51, std.py:39-40. -/
def makeElement (h : Store) (b : Backend) (tag : String) (nsmap : Option NsMap) : Addr × Store :=
  h.init tag (match b with | .lxml => nsmap | .std => none) none none none [] 0 (-1)

/-- `make_element_nill`, element/utils.py:13-14. -/
def makeNil (h : Store) (a : Addr) : Store := h.setAttribute a Elem.nilAttr "true"

mutual
/-- `to_native`, lxml.py:37-48, std.py:31-37: a new native tree. -/
def putNode (h : Store) : Node → Addr × Store
  | .elem tag attrib nsmap text tail children line =>
    match h.alloc (.dict attrib) with
    | (da, h) =>
      match putNodes h children with
      | (bs, h) => h.alloc (.node (.elem tag da nsmap text tail bs line))
  | .comment text tail => h.alloc (.node (.comment text tail))
  | .pi text tail => h.alloc (.node (.pi text tail))
def putNodes (h : Store) : List Node → List Addr × Store
  | [] => ([], h)
  | t :: ts =>
    match putNode h t with
    | (b, h) =>
      match putNodes h ts with
      | (bs, h) => (b :: bs, h)
end

/-- Replaces the element by another value (only used for custom serializers, which are functions on values). -/
def assign (h : Store) (a : Addr) (e : Elem) : Store :=
  match h.put e with
  | (b, h) => h.modify a fun o => (h.obj? b).getD o

end Store

/-! ## `serialize` -/

/-- Goes on if there was no exception. -/
def andThen (r : Out Unit × Store) (f : Store → Out Unit × Store) : Out Unit × Store :=
  match r with
  | (.ok _, h) => f h
  | (o, h) => (o, h)

/-- `TextSerializer.serialize`, factories/primitive.py:43-60. -/
def serText (env : Env) (nillable : Bool) (fl : Flags) (a : Addr) (v : HVal) (enc : Val) (h : Store) : Store :=
  if v.isNone && (fl.skipEmpty || fl.excludeNone) then h
  else (if nillable && v.isNone then h.makeNil a else h).setText a (encodePrimitive env enc)

/-- `AttributesSerializer.serialize`, factories/mapping.py:28-47. -/
def serAttrs (env : Env) (s : AttrsSer) (a : Addr) (v : HVal) (enc : Val) (h : Store) : Out Unit × Store :=
  if v.isNone then (.ok (), h)
  else
    let ns := if s.namespaced && Elem.truthy s.ns && truthyMap s.nsmap
      then (s.nsmap.getD []).get? (s.ns.getD "") else none
    match enc with
    | .dict d => (.ok (), h.setAttributes a (Dict.ofItems (d.map fun kv => (QName.uri ⟨kv.1, ns⟩, pyStr env kv.2))))
    | _ => (.crash .attributeError, h)

/-- factories/primitive.py:194-198, mapping.py:116-120, model.py:435-439, raw.py:46-50. -/
def appendUnlessEmpty (fl : Flags) (a sub : Addr) (h : Store) : Store :=
  if fl.skipEmpty && h.isEmpty sub then h else h.append a sub

/-- `find_element_or_create` along the path, element.py:445-456, factories/wrapper.py:58-63: a new element is appended first
and written to afterwards. -/
def ascend (b : Backend) (mode : Mode) (nsmap : Option NsMap) (f : Addr → Store → Out Unit × Store) :
    List String → Addr → Store → Out Unit × Store
  | [], a, h => f a h
  | t :: ts, a, h =>
    match h.findElement a t mode with
    | .error e => (.crash e, h)
    | .ok (some c, h) => ascend b mode nsmap f ts c h
    | .ok (none, h) =>
      match h.makeElement b t nsmap with
      | (c, h) => ascend b mode nsmap f ts c (h.append a c)

/-- The loop factories/homogeneous.py:57-63. -/
def serItems (rec : HVal → Val → Store → Out Unit × Store) (fl : Flags) : List HVal → List Val → Store → Out Unit × Store
  | v :: vs, enc :: encs, h =>
    if fl.skipEmpty && v.isNone then serItems rec fl vs encs h
    else andThen (rec v enc h) (serItems rec fl vs encs)
  | _, _, h => (.ok (), h)

/-- The loop factories/heterogeneous.py:54-57. -/
def serTuple (rec : Ser → HVal → Val → Store → Out Unit × Store) : List Ser → List HVal → List Val → Store → Out Unit × Store
  | s :: ss, v :: vs, enc :: encs, h => andThen (rec s v enc h) (serTuple rec ss vs encs)
  | _, _, _, h => (.ok (), h)

/-- A custom serializer: a function on values. -/
def runSerializer (g : Val → Elem → Val → Out Elem) (self : HVal) (a : Addr) (v : HVal) (h : Store) : Out Unit × Store :=
  match h.tree? a, h.value? self, h.value? v with
  | some e, some self, some v =>
    match g self e v with
    | .ok e' => (.ok (), h.assign a e')
    | .verr x => (.verr x, h)
    | .crash x => (.crash x, h)
    | .diverge => (.diverge, h)
  | _, _, _ => (.crash .attributeError, h)

/-- The loop of `ModelSerializer.serialize`, factories/model.py:180-194. -/
def serFields (rec : Ser → HVal → Val → Store → Out Unit × Store) (fl : Flags) (self : HVal) (fields : Dict String HVal)
    (fieldsSet : List String) (enc : Val) (a : Addr) : List Field → Store → Out Unit × Store
  | [], h => (.ok (), h)
  | f :: fs, h =>
    if f.exclude then serFields rec fl self fields fieldsSet enc a fs h
    else if fl.excludeUnset && !fieldsSet.contains f.name then serFields rec fl self fields fieldsSet enc a fs h
    else
      andThen
        (match fields.get? f.name with
         | none => (.crash .attributeError, h)
         | some v =>
           match f.serializer with
           | some g => runSerializer g self a v h
           | none =>
             match getItem enc f.name with
             | .ok e => rec f.ser v e h
             | .verr x => (.verr x, h)
             | .crash x => (.crash x, h)
             | .diverge => (.diverge, h))
        (serFields rec fl self fields fieldsSet enc a fs)

/-- `ModelSerializer.serialize` and `RootModelSerializer.serialize`, factories/model.py:164-196, 297-323. -/
def serModel (rec : Flags → Ser → Addr → HVal → Val → Store → Out Unit × Store) (m : ModelSer) (fl : Flags) (a : Addr)
    (v : HVal) (enc : Val) (h : Store) : Out Unit × Store :=
  if v.isNone then (.ok (), h)
  else
    match h.inst? v with
    | none => (.crash .attributeError, h)
    | some (_, fields, fieldsSet) =>
      let fl' := { fl with skipEmpty := m.skipEmpty.getD fl.skipEmpty }
      match m.body with
      | .fields fs => serFields (fun s v enc h => rec fl' s a v enc h) fl' v fields fieldsSet enc a fs h
      | .root s =>
        if fl.excludeUnset && !fieldsSet.contains "root" then (.ok (), h)
        else
          match Dict.get? fields "root" with
          | none => (.crash .attributeError, h)
          | some rv => rec fl' s a rv enc h

/-- `Serializer.serialize` of every serializer kind; the lines are those of `PXml.serStep`. -/
def serStep (env : Env) (rec : Flags → Ser → Addr → HVal → Val → Store → Out Unit × Store) (fl : Flags) (s : Ser) (a : Addr)
    (v : HVal) (enc : Val) (h : Store) : Out Unit × Store :=
  match s with
  | .text _ nillable => (.ok (), serText env nillable fl a v enc h)
  | .attr name _ =>
    if v.isNone && (fl.skipEmpty || fl.excludeNone) then (.ok (), h)
    else (.ok (), h.setAttribute a name (encodePrimitive env enc))
  | .elem name nsmap _ _ nillable =>
    if v.isNone && (fl.skipEmpty || fl.excludeNone) then (.ok (), h)
    else
      match h.makeElement env.backend name nsmap with
      | (b, h) => (.ok (), appendUnlessEmpty fl a b (serText env nillable fl b v enc h))
  | .attrs s => serAttrs env s a v enc h
  | .mapElem s name _ =>
    if fl.skipEmpty then
      match h.len? v with
      | none => (.crash .typeError, h)
      | some 0 => (.ok (), h)
      | some _ =>
        match h.makeElement env.backend name s.nsmap with
        | (b, h) => andThen (serAttrs env s b v enc h) fun h => (.ok (), appendUnlessEmpty fl a b h)
    else
      match h.makeElement env.backend name s.nsmap with
      | (b, h) => andThen (serAttrs env s b v enc h) fun h => (.ok (), h.append a b)
  | .raw _ _ _ =>
    match v with
    | .none => (.ok (), h)
    | .ref r =>
      match h.fromNative env.backend h.length r with
      | none => (.crash .attributeError, h)
      | some (b, h) => (.ok (), appendUnlessEmpty fl a b h)
    | _ => (.crash .attributeError, h)
  | .proxy p =>
    match env.model p.cls with
    | none => (.crash .assertionError, h)
    | some m =>
      if fl.excludeNone && v.isNone then (.ok (), h)
      else if p.nillable && v.isNone then
        match h.makeElement env.backend p.name p.nsmap with
        | (b, h) =>
          let h' : Store := h.makeNil b
          (.ok (), h'.append a b)
      else if v.isNone then (.ok (), h)
      else
        match h.makeElement env.backend p.name p.nsmap with
        | (b, h) => andThen (serModel rec m fl b v enc h) fun h => (.ok (), appendUnlessEmpty fl a b h)
  | .primUnion _ inner => rec fl inner a v enc h
  | .modelUnion _ _ alts =>
    match h.inst? v with
    | some (cls, _, _) =>
      match alts.find? (fun p => p.cls = cls) with
      | some p => rec fl (.proxy p) a v enc h
      | none => (.ok (), h)
    | none => (.ok (), h)
  | .tagged _ discr _ _ alts =>
    match enc with
    | .dict d =>
      match Dict.get? d discr with
      | some (.str tag) =>
        if tag = "" then (.ok (), h)
        else match Dict.get? alts tag with
          | some p => rec fl (.proxy p) a v enc h
          | none => (.crash .keyError, h)
      | some .none => (.ok (), h)
      | none => (.ok (), h)
      | some _ => (.crash .keyError, h)
    | _ => (.crash .attributeError, h)
  | .wrap path nsmap mode _ inner =>
    if v.isNone then (.ok (), h)
    else if fl.skipEmpty && h.len? v = some 0 then (.ok (), h)
    else ascend env.backend mode nsmap (fun c h => rec fl inner c v enc h) path a h
  | .homog _ _ inner =>
    if v.isNone then (.ok (), h)
    else match h.items? v, enc with
      | some vs, .list encs => serItems (fun v enc h => rec fl inner a v enc h) fl vs encs h
      | _, _ => (.crash .typeError, h)
  | .hetero _ _ inners =>
    if v.isNone then (.ok (), h)
    else match h.items? v, enc with
      | some vs, .list encs =>
        if fl.skipEmpty && vs.isEmpty then (.ok (), h)
        else if vs.length ≠ inners.length then (.crash .serializationError, h)
        else serTuple (fun s v enc h => rec fl s a v enc h) inners vs encs h
      | _, _ => (.crash .typeError, h)

/-- `Serializer.serialize`, tied up by fuel. -/
def ser (env : Env) : Nat → Flags → Ser → Addr → HVal → Val → Store → Out Unit × Store
  | 0, _, _, _, _, _, h => (.diverge, h)
  | n + 1, fl, s, a, v, enc, h => serStep env (ser env n) fl s a v enc h

/-- `BaseXmlModel.to_xml_tree`, model.py:307-333: the address of the new native tree. -/
def toXmlTree (env : Env) (n : Nat) (fl : Flags) (cls : String) (v : HVal) (h : Store) : Out Addr × Store :=
  match env.model cls with
  | none => (.crash .assertionError, h)
  | some m =>
    match h.init m.elementName m.nsmap none none none [] 0 (-1) with
    | (a, h) =>
      match h.value? v with
      | none => (.crash .attributeError, h)
      | some w =>
        match serModel (ser env n) m fl a v (env.toJsonable w) h with
        | (.ok _, h) =>
          match h.tree? a with
          | none => (.crash .attributeError, h)
          | some e =>
            match h.putNode (toNative env.backend e) with
            | (r, h) => (.ok r, h)
        | (.verr x, h) => (.verr x, h)
        | (.crash x, h) => (.crash x, h)
        | (.diverge, h) => (.diverge, h)

end Heap
end PXml
