import Verif.Conc

/-!
# Concurrent calls: writing

`Verif/HeapWrite.lean` as programs that access one object at a time.
-/

namespace PXml
namespace Conc

open Heap (Addr Obj NodeObj HVal Cell Store)

/-- `Store.cell?` -/
def cell? : HVal → Prog (Option Cell)
  | .ref a => load a
  | _ => return none

/-- `Store.items?` -/
def items? (v : HVal) : Prog (Option (List HVal)) := do
  match ← cell? v with
  | some (.pyList vs) => return some vs
  | _ => return none

/-- `Store.inst?` -/
def inst? (v : HVal) : Prog (Option (String × List (String × HVal) × List String)) := do
  match ← cell? v with
  | some (.inst cls fields set) => return some (cls, fields, set)
  | _ => return none

/-- `Store.len?` -/
def len? (v : HVal) : Prog (Option Nat) :=
  match v with
  | .str s => return some s.length
  | .opaque _ l => return l
  | v => do
    match ← cell? v with
    | some (.pyList vs) => return some vs.length
    | some (.pyDict d) => return some d.length
    | some (.node (.elem _ _ _ _ _ cs _)) => return some cs.length
    | some (.node _) => return some 0
    | _ => return none

/-- `Store.nodesAll`, `Store.valuesAll` -/
def mapAll {α β : Type} (f : α → Prog (Option β)) : List α → Prog (Option (List β))
  | [] => return some []
  | a :: as => do
    match ← f a with
    | none => return none
    | some t =>
      match ← mapAll f as with
      | none => return none
      | some ts => return some (t :: ts)

/-- `Store.nodes` -/
def nodes : Nat → Addr → Prog (Option Node)
  | 0, _ => return none
  | n + 1, a => do
    match asNode (← load a) with
    | none => return none
    | some (.elem tag attrib nsmap text tail children line) =>
      match ← mapAll (nodes n) children with
      | none => return none
      | some ts => return some (.elem tag ((asDict (← load attrib)).getD []) nsmap text tail ts line)
    | some (.comment text tail) => return some (.comment text tail)
    | some (.pi text tail) => return some (.pi text tail)

/-- `Store.fieldsAll` -/
def fieldsAll (f : HVal → Prog (Option Val)) (d : List (String × HVal)) : Prog (Option (List (String × Val))) := do
  return (← mapAll f (d.map Prod.snd)).map fun ws => (d.map Prod.fst).zip ws

/-- `Store.value?` -/
def deref (k : Nat) : Nat → HVal → Prog (Option Val)
  | 0, v => return v.imm?
  | n + 1, v =>
    match v with
    | .ref a => do
      match ← load a with
      | some (.pyList vs) => return (← mapAll (deref k n) vs).map .list
      | some (.pyDict d) => return (← fieldsAll (deref k n) d).map .dict
      | some (.inst cls fields set) => return (← fieldsAll (deref k n) fields).map fun fs => .model cls fs set
      | some (.node _) => return (← nodes k a).map .raw
      | _ => return none
    | v => return v.imm?

/-- `Store.isEmpty` -/
def isEmpty (a : Addr) : Prog Bool := do
  match ← obj? a with
  | some o =>
    let d ← dictAt o.attrib
    let as ← kids o
    return !Elem.truthy o.text && !Elem.truthy o.tail && !truthyMap d && as.isEmpty
  | none => return true

/-- `Store.setText` -/
def setText (a : Addr) (t : String) : Prog Unit := modify a fun o => { o with text := some t }

/-- `Store.setAttribute` -/
def setAttribute (a : Addr) (k v : String) : Prog Unit := do
  match (← obj? a).bind Obj.attrib with
  | some da =>
    let d := (asDict (← load da)).getD []
    store da (.dict (Dict.set d k v))
  | none =>
    let da ← alloc (.dict (Dict.set [] k v))
    modify a fun o => { o with attrib := some da }

/-- `Store.setAttributes` -/
def setAttributes (a : Addr) (d : Dict String String) : Prog Unit := do
  let da ← alloc (.dict d)
  modify a fun o => { o with attrib := some da }

/-- `Store.append` -/
def append (a b : Addr) : Prog Unit := do
  match ← obj? a with
  | some o =>
    let as ← kids o
    store o.elements (.list (as ++ [b]))
    modify a fun o => { o with next := o.next + 1 }
  | none => return ()

/-- `Store.makeElement` -/
def makeElement (b : Backend) (tag : String) (nsmap : Option NsMap) : Prog Addr :=
  init tag (match b with | .lxml => nsmap | .std => none) none none none [] 0 (-1)

/-- `Store.makeNil` -/
def makeNil (a : Addr) : Prog Unit := setAttribute a Elem.nilAttr "true"

mutual
/-- `Store.putNode` -/
def putNode : Node → Prog Addr
  | .elem tag attrib nsmap text tail children line => do
    let da ← alloc (.dict attrib)
    let bs ← putNodes children
    alloc (.node (.elem tag da nsmap text tail bs line))
  | .comment text tail => alloc (.node (.comment text tail))
  | .pi text tail => alloc (.node (.pi text tail))
def putNodes : List Node → Prog (List Addr)
  | [] => return []
  | t :: ts => do
    let b ← putNode t
    let bs ← putNodes ts
    return b :: bs
end

/-- `Store.assign` -/
def assign (a : Addr) (e : Elem) : Prog Unit := do
  let b ← put e
  let ob ← obj? b
  modify a fun o => ob.getD o

/-! ## `serialize` -/

/-- `Heap.andThen` -/
def andThen (r : Prog (Out Unit)) (f : Prog (Out Unit)) : Prog (Out Unit) := do
  match ← r with
  | .ok _ => f
  | o => return o

/-- `Heap.serText` -/
def serText (env : Env) (nillable : Bool) (fl : Flags) (a : Addr) (v : HVal) (enc : Val) : Prog Unit :=
  if v.isNone && (fl.skipEmpty || fl.excludeNone) then return ()
  else do
    if nillable && v.isNone then makeNil a
    setText a (encodePrimitive env enc)

/-- `Heap.serAttrs` -/
def serAttrs (env : Env) (s : AttrsSer) (a : Addr) (v : HVal) (enc : Val) : Prog (Out Unit) :=
  if v.isNone then return .ok ()
  else
    let ns := if s.namespaced && Elem.truthy s.ns && truthyMap s.nsmap
      then (s.nsmap.getD []).get? (s.ns.getD "") else none
    match enc with
    | .dict d => do
      setAttributes a (Dict.ofItems (d.map fun kv => (QName.uri ⟨kv.1, ns⟩, pyStr env kv.2)))
      return .ok ()
    | _ => return .crash .attributeError

/-- `Heap.appendUnlessEmpty` -/
def appendUnlessEmpty (fl : Flags) (a sub : Addr) : Prog Unit := do
  let e ← isEmpty sub
  if fl.skipEmpty && e then return () else append a sub

/-- `Heap.ascend` -/
def ascend (b : Backend) (mode : Mode) (nsmap : Option NsMap) (f : Addr → Prog (Out Unit)) : List String → Addr → Prog (Out Unit)
  | [], a => f a
  | t :: ts, a => do
    match ← findElement a t mode with
    | .error e => return .crash e
    | .ok (some c) => ascend b mode nsmap f ts c
    | .ok none =>
      let c ← makeElement b t nsmap
      append a c
      ascend b mode nsmap f ts c

/-- `Heap.serItems` -/
def serItems (rec : HVal → Val → Prog (Out Unit)) (fl : Flags) : List HVal → List Val → Prog (Out Unit)
  | v :: vs, enc :: encs =>
    if fl.skipEmpty && v.isNone then serItems rec fl vs encs
    else andThen (rec v enc) (serItems rec fl vs encs)
  | _, _ => return .ok ()

/-- `Heap.serTuple` -/
def serTuple (rec : Ser → HVal → Val → Prog (Out Unit)) : List Ser → List HVal → List Val → Prog (Out Unit)
  | s :: ss, v :: vs, enc :: encs => andThen (rec s v enc) (serTuple rec ss vs encs)
  | _, _, _ => return .ok ()

/-- `Heap.runSerializer` -/
def runSerializer (k : Nat) (g : Val → Elem → Val → Out Elem) (self : HVal) (a : Addr) (v : HVal) : Prog (Out Unit) := do
  let e ← tree? k a
  let self ← deref k k self
  let v ← deref k k v
  match e, self, v with
  | some e, some self, some v =>
    match g self e v with
    | .ok e' => do
      assign a e'
      return .ok ()
    | .verr x => return .verr x
    | .crash x => return .crash x
    | .diverge => return .diverge
  | _, _, _ => return .crash .attributeError

/-- `Heap.serFields` -/
def serFields (k : Nat) (rec : Ser → HVal → Val → Prog (Out Unit)) (fl : Flags) (self : HVal) (fields : Dict String HVal)
    (fieldsSet : List String) (enc : Val) (a : Addr) : List Field → Prog (Out Unit)
  | [] => return .ok ()
  | f :: fs =>
    if f.exclude then serFields k rec fl self fields fieldsSet enc a fs
    else if fl.excludeUnset && !fieldsSet.contains f.name then serFields k rec fl self fields fieldsSet enc a fs
    else
      andThen
        (match fields.get? f.name with
         | none => return .crash .attributeError
         | some v =>
           match f.serializer with
           | some g => runSerializer k g self a v
           | none =>
             match getItem enc f.name with
             | .ok e => rec f.ser v e
             | .verr x => return .verr x
             | .crash x => return .crash x
             | .diverge => return .diverge)
        (serFields k rec fl self fields fieldsSet enc a fs)

/-- `Heap.serModel` -/
def serModel (k : Nat) (rec : Flags → Ser → Addr → HVal → Val → Prog (Out Unit)) (m : ModelSer) (fl : Flags) (a : Addr)
    (v : HVal) (enc : Val) : Prog (Out Unit) :=
  if v.isNone then return .ok ()
  else do
    match ← inst? v with
    | none => return .crash .attributeError
    | some (_, fields, fieldsSet) =>
      let fl' := { fl with skipEmpty := m.skipEmpty.getD fl.skipEmpty }
      match m.body with
      | .fields fs => serFields k (fun s v enc => rec fl' s a v enc) fl' v fields fieldsSet enc a fs
      | .root s =>
        if fl.excludeUnset && !fieldsSet.contains "root" then return .ok ()
        else
          match Dict.get? fields "root" with
          | none => return .crash .attributeError
          | some rv => rec fl' s a rv enc

/-- `Heap.serStep` -/
def serStep (k : Nat) (env : Env) (rec : Flags → Ser → Addr → HVal → Val → Prog (Out Unit)) (fl : Flags) (s : Ser) (a : Addr)
    (v : HVal) (enc : Val) : Prog (Out Unit) :=
  match s with
  | .text _ nillable => do
    serText env nillable fl a v enc
    return .ok ()
  | .attr name _ =>
    if v.isNone && (fl.skipEmpty || fl.excludeNone) then return .ok ()
    else do
      setAttribute a name (encodePrimitive env enc)
      return .ok ()
  | .elem name nsmap _ _ nillable =>
    if v.isNone && (fl.skipEmpty || fl.excludeNone) then return .ok ()
    else do
      let b ← makeElement env.backend name nsmap
      serText env nillable fl b v enc
      appendUnlessEmpty fl a b
      return .ok ()
  | .attrs s => serAttrs env s a v enc
  | .mapElem s name _ =>
    if fl.skipEmpty then do
      match ← len? v with
      | none => return .crash .typeError
      | some 0 => return .ok ()
      | some _ =>
        let b ← makeElement env.backend name s.nsmap
        andThen (serAttrs env s b v enc) do
          appendUnlessEmpty fl a b
          return .ok ()
    else do
      let b ← makeElement env.backend name s.nsmap
      andThen (serAttrs env s b v enc) do
        append a b
        return .ok ()
  | .raw _ _ _ =>
    match v with
    | .none => return .ok ()
    | .ref r => do
      match ← fromNative env.backend k r with
      | none => return .crash .attributeError
      | some b =>
        appendUnlessEmpty fl a b
        return .ok ()
    | _ => return .crash .attributeError
  | .proxy p =>
    match env.model p.cls with
    | none => return .crash .assertionError
    | some m =>
      if fl.excludeNone && v.isNone then return .ok ()
      else if p.nillable && v.isNone then do
        let b ← makeElement env.backend p.name p.nsmap
        makeNil b
        append a b
        return .ok ()
      else if v.isNone then return .ok ()
      else do
        let b ← makeElement env.backend p.name p.nsmap
        andThen (serModel k rec m fl b v enc) do
          appendUnlessEmpty fl a b
          return .ok ()
  | .primUnion _ inner => rec fl inner a v enc
  | .modelUnion _ _ alts => do
    match ← inst? v with
    | some (cls, _, _) =>
      match alts.find? (fun p => p.cls = cls) with
      | some p => rec fl (.proxy p) a v enc
      | none => return .ok ()
    | none => return .ok ()
  | .tagged _ discr _ _ alts =>
    match enc with
    | .dict d =>
      match Dict.get? d discr with
      | some (.str tag) =>
        if tag = "" then return .ok ()
        else match Dict.get? alts tag with
          | some p => rec fl (.proxy p) a v enc
          | none => return .crash .keyError
      | some .none => return .ok ()
      | none => return .ok ()
      | some _ => return .crash .keyError
    | _ => return .crash .attributeError
  | .wrap path nsmap mode _ inner =>
    if v.isNone then return .ok ()
    else do
      let l ← len? v
      if fl.skipEmpty && l = some 0 then return .ok ()
      else ascend env.backend mode nsmap (fun c => rec fl inner c v enc) path a
  | .homog _ _ inner =>
    if v.isNone then return .ok ()
    else do
      match ← items? v, enc with
      | some vs, .list encs => serItems (fun v enc => rec fl inner a v enc) fl vs encs
      | _, _ => return .crash .typeError
  | .hetero _ _ inners =>
    if v.isNone then return .ok ()
    else do
      match ← items? v, enc with
      | some vs, .list encs =>
        if fl.skipEmpty && vs.isEmpty then return .ok ()
        else if vs.length ≠ inners.length then return .crash .serializationError
        else serTuple (fun s v enc => rec fl s a v enc) inners vs encs
      | _, _ => return .crash .typeError

/-- `Heap.ser` -/
def ser (k : Nat) (env : Env) : Nat → Flags → Ser → Addr → HVal → Val → Prog (Out Unit)
  | 0, _, _, _, _, _ => return .diverge
  | n + 1, fl, s, a, v, enc => serStep k env (ser k env n) fl s a v enc

/-- `Heap.toXmlTree` -/
def toXmlTree (k : Nat) (env : Env) (n : Nat) (fl : Flags) (cls : String) (v : HVal) : Prog (Out Addr) :=
  match env.model cls with
  | none => return .crash .assertionError
  | some m => do
    let a ← init m.elementName m.nsmap none none none [] 0 (-1)
    match ← deref k k v with
    | none => return .crash .attributeError
    | some w =>
      match ← serModel k (ser k env n) m fl a v (env.toJsonable w) with
      | .ok _ =>
        match ← tree? k a with
        | none => return .crash .attributeError
        | some e => return .ok (← putNode (toNative env.backend e))
      | .verr x => return .verr x
      | .crash x => return .crash x
      | .diverge => return .diverge

/-! ## Calls -/

/-- A call of `from_xml_tree` or `to_xml_tree`. -/
inductive Call where
  | read (env : Env) (eas : Bool) (n : Nat) (cls : String) (root : Addr)
  | write (env : Env) (n : Nat) (fl : Flags) (cls : String) (v : HVal)

/-- What a call returns: an instance (or an exception), or the root of a new tree. -/
inductive Result where
  | read (o : Out Val)
  | wrote (o : Out Addr)

/-- The program of a call. -/
def Call.prog (k : Nat) : Call → Prog Result
  | .read env eas n cls root => do return .read (← fromXmlTree k env eas n cls root)
  | .write env n fl cls v => do return .wrote (← toXmlTree k env n fl cls v)

end Conc
end PXml
