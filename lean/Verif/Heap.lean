import Verif.Serializer

/-!
# Reading with object identity

`Verif/Element.lean` and `Verif/Serializer.lean` treat elements as values.  Here the same code is modelled once more with
Python's object identity: a store of mutable objects, in which native trees, `XmlElement` objects, their attribute
dictionaries and their lists of children are separate cells that refer to each other by address.  An operation that mutates a
cell is seen by everyone who holds its address; where the code copies (`dict(...)`, `list(...)`, `create_snapshot`,
`from_native`) a new cell is allocated.

The `State` of an `XmlElement` is created with it and never replaced or handed out (element.py:313-322), so its attributes
are attributes of the object here.  Namespace maps and strings are never mutated and are values.
-/

namespace PXml
namespace Heap

/-- The identity of an object. -/
abbrev Addr := Nat

/-- An `XmlElement` object, element.py:300-322. -/
structure Obj where
  tag : String
  nsmap : Option NsMap
  text : Option String
  tail : Option String
  /-- `_state.attrib`: a dictionary object -/
  attrib : Option Addr
  /-- `_state.elements`: a list object -/
  elements : Addr
  next : Nat
  line : Int

/-- A node of an lxml or ElementTree tree. -/
inductive NodeObj where
  | elem (tag : String) (attrib : Addr) (nsmap : NsMap) (text tail : Option String) (children : List Addr) (line : Option Int)
  | comment (text tail : Option String)
  | pi (text tail : Option String)

/-- A Python value: an immutable one, or a reference to an object. -/
inductive HVal where
  | none
  | str (s : String)
  | bool (b : Bool)
  | int (i : Int)
  | opaque (repr : String) (len : Option Nat)
  | undef
  | ref (a : Addr)

/-- What a cell of the store holds: an `XmlElement`, its dictionary or its list of children; a node of a native tree; or one of
the mutable objects a model instance consists of: a list (or tuple), a dictionary, an instance (with its `__dict__` and its
set of set fields). -/
inductive Cell where
  | obj (o : Obj)
  | dict (d : Dict String String)
  | list (as : List Addr)
  | node (n : NodeObj)
  | pyList (items : List HVal)
  | pyDict (items : List (String × HVal))
  | inst (cls : String) (fields : List (String × HVal)) (fieldsSet : List String)

/-- The objects in existence; the address of an object is its position.  Objects are never freed. -/
abbrev Store := List Cell

namespace Store

def obj? (h : Store) (a : Addr) : Option Obj := match h[a]? with | some (.obj o) => some o | _ => none
def dict? (h : Store) (a : Addr) : Option (Dict String String) := match h[a]? with | some (.dict d) => some d | _ => none
def list? (h : Store) (a : Addr) : Option (List Addr) := match h[a]? with | some (.list as) => some as | _ => none
def node? (h : Store) (a : Addr) : Option NodeObj := match h[a]? with | some (.node n) => some n | _ => none

/-- A new object. -/
def alloc (h : Store) (c : Cell) : Addr × Store := (h.length, h ++ [c])

/-- `.tag` -/
def tag? (h : Store) (a : Addr) : Option String := (h.obj? a).map Obj.tag

/-- The children of an element; empty for anything but an element. -/
def kids (h : Store) (o : Obj) : List Addr := (h.list? o.elements).getD []

/-- `_sourceline` -/
def line (h : Store) (a : Addr) : Int := ((h.obj? a).map Obj.line).getD (-1)

/-- Assigns attributes of the object. -/
def modify (h : Store) (a : Addr) (f : Obj → Obj) : Store :=
  match h.obj? a with
  | some o => h.set a (.obj (f o))
  | none => h

/-- `XmlElement.__init__`, element.py:300-322: the attributes and the list of children are copied. -/
def init (h : Store) (tag : String) (nsmap : Option NsMap) (text tail : Option String) (attrib : Option (Dict String String))
    (elements : List Addr) (next : Nat) (line : Int) : Addr × Store :=
  match attrib with
  | some d =>
    match h.alloc (.dict d) with
    | (da, h) =>
      match h.alloc (.list elements) with
      | (la, h) => h.alloc (.obj ⟨tag, nsmap, text, tail, some da, la, next, line⟩)
  | none =>
    match h.alloc (.list elements) with
    | (la, h) => h.alloc (.obj ⟨tag, nsmap, text, tail, none, la, next, line⟩)

/-- `get_attrib`, element.py:384-385. -/
def getAttrib (h : Store) (a : Addr) (k : String) : Option String :=
  match (h.obj? a).bind Obj.attrib with
  | some da => ((h.dict? da).getD []).get? k
  | none => none

/-- `pop_text`, element.py:387-390. -/
def popText (h : Store) (a : Addr) : Option String × Store :=
  ((h.obj? a).bind Obj.text, h.modify a fun o => { o with text := none })

/-- `pop_tail`, element.py:392-395. -/
def popTail (h : Store) (a : Addr) : Option String × Store :=
  ((h.obj? a).bind Obj.tail, h.modify a fun o => { o with tail := none })

/-- `pop_attrib`, element.py:397-398: the dictionary is mutated. -/
def popAttrib (h : Store) (a : Addr) (k : String) : Option String × Store :=
  match (h.obj? a).bind Obj.attrib with
  | some da =>
    match h.dict? da with
    | some d => if truthyMap (some d) then (d.get? k, h.set da (.dict (d.erase k))) else (none, h)
    | none => (none, h)
  | none => (none, h)

/-- `pop_attributes`, element.py:400-403: the dictionary is given away. -/
def popAttributes (h : Store) (a : Addr) : Option Addr × Store :=
  ((h.obj? a).bind Obj.attrib, h.modify a fun o => { o with attrib := none })

/-- `pop_elements`, element.py:405-409: the list is given away (as a tuple), the element gets a new one. -/
def popElements (h : Store) (a : Addr) : List Addr × Store :=
  match h.obj? a with
  | some o =>
    match h.alloc (.list []) with
    | (la, h') => (h.kids o, h'.modify a fun o => { o with elements := la, next := 0 })
  | none => ([], h)

/-- `step_forward`, element.py:359-360. -/
def stepForward (h : Store) (a : Addr) : Store := h.modify a fun o => { o with next := o.next + 1 }

/-- Runs a copying function over a list of objects: the comprehensions of element.py:342, lxml.py:29-33, std.py:24-28. -/
def copyAll (f : Store → Addr → Option (Addr × Store)) : List Addr → Store → Option (List Addr × Store)
  | [], h => some ([], h)
  | a :: as, h =>
    match f h a with
    | none => none
    | some (b, h) =>
      match copyAll f as h with
      | none => none
      | some (bs, h) => some (b :: bs, h)

/-- `create_snapshot`, element.py:336-348: new objects for the element and all its descendants, with the same cursors.  The
recursion is bounded by the first argument; the number of objects in existence is enough for a tree. -/
def copy : Nat → Store → Addr → Option (Addr × Store)
  | 0, _, _ => none
  | n + 1, h, a =>
    match h.obj? a with
    | none => none
    | some o =>
      match copyAll (copy n) (h.kids o) h with
      | none => none
      | some (bs, h') => some (h'.init o.tag o.nsmap o.text o.tail (o.attrib.map fun da => (h.dict? da).getD []) bs o.next o.line)

def createSnapshot (h : Store) (a : Addr) : Option (Addr × Store) := copy h.length h a

/-- `apply_snapshot`, element.py:350-357: the dictionary and the list of the snapshot are shared from now on. -/
def applySnapshot (h : Store) (a s : Addr) : Store :=
  match h.obj? s with
  | some o => h.modify a fun p => { o with line := p.line }
  | none => h

/-- `_look_behind`, element.py:620-626. -/
def lookBehind (h : Store) (a : Addr) (tag : String) : Except PyErr (Option Addr) :=
  match h.obj? a with
  | none => .ok none
  | some o =>
    if o.next = 0 then .ok none
    else match (h.kids o)[o.next - 1]? with
      | some b => .ok (if h.tag? b = some tag then some b else none)
      | none => .error .indexError

/-- Position (counted from `k`) of the first object with the tag, element.py:570-579, 605-615. -/
def firstFrom (h : Store) (tag : String) : List Addr → Nat → Option Nat
  | [], _ => none
  | b :: bs, k => if h.tag? b = some tag then some k else firstFrom h tag bs (k + 1)

/-- `a[i], a[j] = a[j], a[i]`, element.py:608-609. -/
def swap (l : List Addr) (i j : Nat) : List Addr :=
  match l[i]?, l[j]? with
  | some a, some b => (l.set i b).set j a
  | _, _ => l

/-- `get_searcher(mode)(state, tag, False, step)`, element.py:508-617: unordered search mutates the list. -/
def search (h : Store) (a : Addr) (tag : String) (mode : Mode) (step : Bool) : Option Addr × Store :=
  match h.obj? a with
  | none => (none, h)
  | some o =>
    match mode with
    | .strict =>
      match (h.kids o)[o.next]? with
      | some b =>
        if h.tag? b = some tag then (some b, if step then h.modify a fun o => { o with next := o.next + 1 } else h)
        else (none, h)
      | none => (none, h)
    | .ordered =>
      match firstFrom h tag ((h.kids o).drop o.next) o.next with
      | some i => ((h.kids o)[i]?, if step then h.modify a fun o => { o with next := i + 1 } else h)
      | none => (none, h)
    | .unordered =>
      match firstFrom h tag ((h.kids o).drop o.next) o.next with
      | some i =>
        let h' : Store := h.set o.elements (.list (swap (h.kids o) o.next i))
        ((h.kids o)[i]?, if step then h'.modify a fun o => { o with next := o.next + 1 } else h')
      | none => (none, h)

/-- `find_element`, element.py:458-467. -/
def findElement (h : Store) (a : Addr) (tag : String) (mode : Mode) : Except PyErr (Option Addr × Store) :=
  match lookBehind h a tag with
  | .error e => .error e
  | .ok (some b) => .ok (some b, h)
  | .ok none => .ok (search h a tag mode true)

/-- `pop_element(tag, mode, remove=True)`, element.py:411-431: a new element takes over the content of the found one. -/
def popElementRemove (h : Store) (a : Addr) (tag : String) (mode : Mode) : Option Addr × Store :=
  match h.search a tag mode true with
  | (none, h) => (none, h)
  | (some b, h) =>
    match h.obj? b with
    | none => (none, h)
    | some o =>
      match h.popText b with
      | (text, h) =>
        match h.popTail b with
        | (tail, h) =>
          match h.popAttributes b with
          | (da, h) =>
            match h.popElements b with
            | (bs, h) =>
              match h.init o.tag o.nsmap text tail (da.map fun da => (h.dict? da).getD []) bs 0 o.line with
              | (c, h) => (some c, h)

/-- `is_element_nill`, element/utils.py:6-10. -/
def isNil (h : Store) (a : Addr) : Bool × Store :=
  match h.popAttrib a Elem.nilAttr with
  | (v, h) => (v = some "true", h)

/-- Runs a reading function over a list of objects. -/
def readAll (f : Addr → Option Elem) : List Addr → Option (List Elem)
  | [] => some []
  | a :: as =>
    match f a with
    | none => none
    | some e =>
      match readAll f as with
      | none => none
      | some es => some (e :: es)

/-- Reads the tree at an address, as `to_native` and `get_unbound` do, lxml.py:37-48, std.py:31-37, element.py:469-488. -/
def read : Nat → Store → Addr → Option Elem
  | 0, _, _ => none
  | n + 1, h, a =>
    match h.obj? a with
    | none => none
    | some o =>
      match readAll (read n h) (h.kids o) with
      | none => none
      | some es => some ⟨o.tag, o.nsmap, o.text, o.tail, o.attrib.map fun da => (h.dict? da).getD [], es, o.next, o.line⟩

/-- The tree at an address. -/
def tree? (h : Store) (a : Addr) : Option Elem := read h.length h a

mutual
/-- New objects for a tree given as a value (only used for custom validators, which are functions on values). -/
def put (h : Store) : Elem → Addr × Store
  | ⟨tag, nsmap, text, tail, attrib, elements, next, line⟩ =>
    match putAll h elements with
    | (bs, h) => h.init tag nsmap text tail attrib bs next line
def putAll (h : Store) : List Elem → List Addr × Store
  | [] => ([], h)
  | e :: es =>
    match put h e with
    | (b, h) =>
      match putAll h es with
      | (bs, h) => (b :: bs, h)
end

/-- The line and the attributes of a native node as `from_native` takes them over; comments are skipped as children,
lxml.py:19-35, std.py:17-29. -/
def isComment (h : Store) (a : Addr) : Bool := match h.node? a with | some (.comment _ _) => true | _ => false

/-- `XmlElement.from_native`, lxml.py:19-35, std.py:17-29.  The temporary dictionary and list that are passed to `__init__`,
which copies them once more, are left out. -/
def fromNative (b : Backend) : Nat → Store → Addr → Option (Addr × Store)
  | 0, _, _ => none
  | n + 1, h, a =>
    match h.node? a with
    | none => none
    | some (.elem tag attrib _ text tail children line) =>
      match copyAll (fromNative b n) (children.filter fun c => !h.isComment c) h with
      | none => none
      | some (bs, h') => some (h'.init tag none text tail (some ((h.dict? attrib).getD [])) bs 0 (sourceLine b line))
    | some (.comment text tail) => some (h.init "<!---->" none text tail (some []) [] 0 (-1))
    | some (.pi text tail) => some (h.init "<??>" none text tail (some []) [] 0 (-1))

/-- `.tag` of a native node. -/
def nodeTag (h : Store) (a : Addr) : String :=
  match h.node? a with
  | some (.elem t _ _ _ _ _ _) => t
  | some (.comment _ _) => "<!---->"
  | _ => "<??>"

end Store

/-! ## `deserialize` -/

/-- The objects and the source map. -/
structure HSt where
  h : Store
  sm : SMap

/-- `TextSerializer.deserialize`, factories/primitive.py:62-81. -/
def deserText (eas computed nillable : Bool) (a : Addr) (st : HSt) : Out Val × HSt :=
  if computed then (.ok .none, st)
  else
    match (if nillable then st.h.isNil a else (false, st.h)) with
    | (true, h) => (.ok .none, { st with h := h })
    | (false, h) =>
      match h.popText a with
      | (t, h) => (.ok (textVal eas t), { st with h := h })

/-- `AttributesSerializer.deserialize`, factories/mapping.py:49-67. -/
def deserAttrs (s : AttrsSer) (a : Addr) (st : HSt) : Out Val × HSt :=
  if s.computed then (.ok .none, st)
  else
    match st.h.popAttributes a with
    | (none, h) => (.ok .none, { st with h := h })
    | (some da, h) =>
      (.ok (.dict (Dict.ofItems (((h.dict? da).getD []).map fun kv =>
        (if s.namespaced then (QName.fromUri kv.1).tag else kv.1, Val.str kv.2)))), { st with h := h })

/-- `find_sub_element`, element.py:433-443, and factories/wrapper.py:82-92. -/
def descend (mode : Mode) (f : Addr → HSt → Out Val × HSt) : List String → Addr → HSt → Out Val × HSt
  | [], a, st => f a st
  | t :: ts, a, st =>
    match st.h.findElement a t mode with
    | .error e => (.crash e, st)
    | .ok (none, h) => (.ok .none, { st with h := h })
    | .ok (some b, h) => descend mode f ts b { st with h := h }

/-- The loop factories/homogeneous.py:83-95. -/
def homogLoop (rec : Loc → HSt → Out Val × HSt) (loc : Loc) :
    Nat → Nat → List Val → Dict ErrKey VErr → HSt → Out (List Val × Dict ErrKey VErr) × HSt
  | 0, _, _, _, st => (.diverge, st)
  | n + 1, idx, acc, errs, st =>
    match rec (loc ++ [.idx idx]) st with
    | (.ok v, st') =>
      if v.isNone then (.ok (acc, errs), st') else homogLoop rec loc n (idx + 1) (acc ++ [v]) errs st'
    | (.verr e, st') => homogLoop rec loc n (idx + 1) acc (errs ++ [(some (.idx idx), e)]) st'
    | (.crash e, st') => (.crash e, st')
    | (.diverge, st') => (.diverge, st')

/-- The loop factories/heterogeneous.py:76-87. -/
def heteroLoop (rec : Ser → Loc → HSt → Out Val × HSt) (loc : Loc) :
    List Ser → Nat → List Val → Dict ErrKey VErr → HSt → Out (List Val × Dict ErrKey VErr) × HSt
  | [], _, acc, errs, st => (.ok (acc, errs), st)
  | s :: ss, idx, acc, errs, st =>
    match rec s (loc ++ [.idx idx]) st with
    | (.ok v, st') => heteroLoop rec loc ss (idx + 1) (acc ++ [v]) errs st'
    | (.verr e, st') => heteroLoop rec loc ss (idx + 1) acc (errs ++ [(some (.idx idx), e)]) st'
    | (.crash e, st') => (.crash e, st')
    | (.diverge, st') => (.diverge, st')

/-- `union.ModelSerializer.deserialize`, factories/union.py:135-158: every alternative works on a snapshot, which replaces the
content of the element if the alternative succeeds. -/
def unionLoop (rec : Proxy → Addr → HSt → Out Val × HSt) (title : Title) (a : Addr) :
    List Proxy → Dict ErrKey VErr → HSt → Out Val × HSt
  | [], errs, st =>
    if errs.isEmpty then (.ok .none, st)
    else (.verr (intoValidationError title errs), { st with h := st.h.stepForward a })
  | p :: ps, errs, st =>
    match st.h.createSnapshot a with
    | none => (.crash .attributeError, st)
    | some (s, h) =>
      match rec p s { st with h := h } with
      | (.ok v, st') =>
        if v.isNone then unionLoop rec title a ps errs st'
        else (.ok v, { st' with h := st'.h.applySnapshot a s })
      | (.verr e, st') => unionLoop rec title a ps (errs.set (some (.name e.title.text)) e) st'
      | (.crash e, st') => (.crash e, st')
      | (.diverge, st') => (.diverge, st')

/-- `tagged_union.ModelSerializer.deserialize`, factories/tagged_union.py:101-114. -/
def taggedLoop (rec : Proxy → HSt → Out Val × HSt) (loc : Loc) (attrName : String) (mode : Mode) (a : Addr) :
    List (String × Proxy) → HSt → Out Val × HSt
  | [], st => (.ok .none, st)
  | (tag, p) :: alts, st =>
    match st.h.search a p.name mode false with
    | (some b, h) =>
      if h.getAttrib b attrName = some tag then rec p ⟨h, st.sm.set loc (h.line b)⟩
      else taggedLoop rec loc attrName mode a alts { st with h := h }
    | (none, h) => taggedLoop rec loc attrName mode a alts { st with h := h }

/-- A custom validator: a function on the element (see `Field.validator`). -/
def runValidator (v : Elem → Out Val × Elem) (a : Addr) (st : HSt) : Out Val × HSt :=
  match st.h.tree? a with
  | none => (.crash .attributeError, st)
  | some e =>
    match v e with
    | (o, e') =>
      match st.h.put e' with
      | (b, h) => (o, { st with h := h.modify a fun _ => (h.obj? b).getD ⟨"", none, none, none, none, 0, 0, -1⟩ })

/-- The loop of `ModelSerializer.deserialize`, factories/model.py:210-227. -/
def deserFields (rec : Ser → Loc → HSt → Out Val × HSt) (a : Addr) :
    List Field → Dict String Val → Dict ErrKey VErr → HSt → Out (Dict String Val × Dict ErrKey VErr) × HSt
  | [], res, errs, st => (.ok (res, errs), st)
  | f :: fs, res, errs, st =>
    let loc : Loc := [.name f.name]
    let st : HSt := { st with sm := st.sm.set loc (st.h.line a) }
    let r := match f.validator with
      | some v => runValidator v a st
      | none => rec f.ser loc st
    match r with
    | (.ok v, st') => deserFields rec a fs (if v.isNone then res else res.set (f.alias.getD f.name) v) errs st'
    | (.verr e, st') => deserFields rec a fs res (errs.set (some (.name f.name)) e) st'
    | (.crash e, st') => (.crash e, st')
    | (.diverge, st') => (.diverge, st')

/-- factories/model.py:236-242, 350-356. -/
def validateModel (env : Env) (cls : String) (m : ModelSer) (data : Val) (a : Addr) (st : HSt) : Out Val :=
  match st.h.tree? a with
  | none => .crash .attributeError
  | some e => PXml.validateModel env cls m data ⟨e, st.sm⟩

/-- `ModelSerializer.deserialize` and `RootModelSerializer.deserialize`, factories/model.py:198-242, 325-356. -/
def deserModel (env : Env) (rec : Ser → Loc → HSt → Out Val × HSt) (cls : String) (m : ModelSer) (loc : Loc)
    (a : Addr) (st : HSt) : Out Val × HSt :=
  match m.body with
  | .fields fs =>
    match deserFields rec a fs [] [] st with
    | (.ok (res, errs), st') =>
      if errs.isEmpty then (validateModel env cls m (.dict res) a st', st')
      else (.verr (intoValidationError m.title errs), st')
    | (.verr e, st') => (.verr e, st')
    | (.crash e, st') => (.crash e, st')
    | (.diverge, st') => (.diverge, st')
  | .root s =>
    match rec s loc st with
    | (.ok v, st') => (validateModel env cls m (if v.isNone then .undef else v) a st', st')
    | (.verr e, st') => (.verr (intoValidationError m.title [(none, e)]), st')
    | (.crash e, st') => (.crash e, st')
    | (.diverge, st') => (.diverge, st')

/-- `Serializer.deserialize` of every serializer kind; the lines are those of `PXml.deserStep`. -/
def deserStep (env : Env) (eas : Bool) (rec : Ser → Loc → Addr → HSt → Out Val × HSt) (fuel : Nat) (s : Ser) (loc : Loc)
    (a : Addr) (st : HSt) : Out Val × HSt :=
  match s with
  | .text computed nillable => deserText eas computed nillable a st
  | .attr name computed =>
    if computed then (.ok .none, st)
    else match st.h.popAttrib a name with
      | (some v, h) => (.ok (.str v), { st with h := h })
      | (none, h) => (.ok .none, { st with h := h })
  | .elem name _ mode computed nillable =>
    if computed then (.ok .none, st)
    else match st.h.search a name mode true with
      | (none, h) => (.ok .none, { st with h := h })
      | (some b, h) => deserText eas computed nillable b ⟨h, st.sm.set loc (h.line b)⟩
  | .attrs s => deserAttrs s a st
  | .mapElem s name mode =>
    if s.computed then (.ok .none, st)
    else match st.h.search a name mode true with
      | (none, h) => (.ok .none, { st with h := h })
      | (some b, h) => deserAttrs s b ⟨h, st.sm.set loc (h.line b)⟩
  | .raw name mode computed =>
    if computed then (.ok .none, st)
    else match st.h.popElementRemove a name mode with
      | (none, h) => (.ok .none, { st with h := h })
      | (some c, h) =>
        match h.tree? c with
        | none => (.crash .attributeError, { st with h := h })
        | some e => (.ok (.raw (toNative env.backend e)), ⟨h, st.sm.set loc (h.line c)⟩)
  | .proxy p =>
    match env.model p.cls with
    | none => (.crash .assertionError, st)
    | some m =>
      if p.computed then (.ok .none, st)
      else match st.h.search a p.name p.mode true with
        | (none, h) => (.ok .none, { st with h := h })
        | (some b, h) =>
          let sm := st.sm.set loc (h.line b)
          match h.isNil b with
          | (true, h) => (.ok .none, ⟨h, sm⟩)
          | (false, h) => deserModel env (fun s loc st => rec s loc b st) p.cls m loc b ⟨h, sm⟩
  | .primUnion computed inner => if computed then (.ok .none, st) else rec inner loc a st
  | .modelUnion title computed alts =>
    if computed then (.ok .none, st) else unionLoop (fun p b st => rec (.proxy p) loc b st) title a alts [] st
  | .tagged computed _ attrName mode alts =>
    if computed then (.ok .none, st) else taggedLoop (fun p st => rec (.proxy p) loc a st) loc attrName mode a alts st
  | .wrap path _ mode computed inner =>
    if computed then (.ok .none, st)
    else descend mode (fun b st => rec inner loc b { st with sm := st.sm.set loc (st.h.line b) }) path a st
  | .homog title computed inner =>
    if computed then (.ok .none, st)
    else match homogLoop (fun loc st => rec inner loc a st) loc fuel 0 [] [] st with
      | (.ok r, st') => (homogFinish title r, st')
      | (.verr e, st') => (.verr e, st')
      | (.crash e, st') => (.crash e, st')
      | (.diverge, st') => (.diverge, st')
  | .hetero title computed inners =>
    if computed then (.ok .none, st)
    else match heteroLoop (fun s loc st => rec s loc a st) loc inners 0 [] [] st with
      | (.ok r, st') => (heteroFinish title r, st')
      | (.verr e, st') => (.verr e, st')
      | (.crash e, st') => (.crash e, st')
      | (.diverge, st') => (.diverge, st')

/-- `Serializer.deserialize`, tied up by fuel. -/
def deser (env : Env) (eas : Bool) : Nat → Ser → Loc → Addr → HSt → Out Val × HSt
  | 0, _, _, _, st => (.diverge, st)
  | n + 1, s, loc, a, st => deserStep env eas (deser env eas n) n s loc a st

/-- `BaseXmlModel.from_xml_tree`, model.py:249-281, for the native tree at the address `root`. -/
def fromXmlTree (env : Env) (eas : Bool) (n : Nat) (cls : String) (root : Addr) (h : Store) : Out Val × Store :=
  match env.model cls with
  | none => (.crash .assertionError, h)
  | some m =>
    if h.nodeTag root = m.elementName then
      match h.fromNative env.backend h.length root with
      | none => (.crash .attributeError, h)
      | some (a, h) =>
        match deserModel env (fun s loc st => deser env eas n s loc a st) cls m [] a ⟨h, []⟩ with
        | (o, st) => (o, st.h)
    else (.crash .parsingError, h)

end Heap
end PXml
