import Verif.HeapWrite

/-!
# Concurrent calls

`Verif/Heap.lean` and `Verif/HeapWrite.lean` run a call from beginning to end.  Here the same code is modelled as a program that
accesses the store one object at a time: each step reads one object, replaces one object, or creates one object.  Several calls,
in threads that share the store, are run under an arbitrary schedule, which decides after each step which thread makes the next
one.

The code that runs is that of `Verif/Heap.lean` and `Verif/HeapWrite.lean`, and the comments there give the lines; classes and
their serializers are not changed by reading and writing and are values.  Recursion over trees of objects is bounded by the
number `k`.
-/

namespace PXml
namespace Conc

open Heap (Addr Obj NodeObj HVal Cell Store)

/-! ## Programs -/

/-- A program of one thread.  Simplified: the access to one object (an element, a dictionary, a list) is one step, as it is in
CPython with a global interpreter lock. -/
inductive Prog (α : Type) : Type where
  | ret (x : α)
  /-- reads an object -/
  | load (a : Addr) (k : Option Cell → Prog α)
  /-- replaces the content of an object -/
  | store (a : Addr) (c : Cell) (k : Prog α)
  /-- creates an object -/
  | alloc (c : Cell) (k : Addr → Prog α)

def Prog.bind {α β : Type} : Prog α → (α → Prog β) → Prog β
  | .ret x, f => f x
  | .load a k, f => .load a fun c => (k c).bind f
  | .store a c k, f => .store a c (k.bind f)
  | .alloc c k, f => .alloc c fun a => (k a).bind f

instance : Monad Prog where
  pure := .ret
  bind := Prog.bind

/-- One step of a thread. -/
def Prog.step {α : Type} : Prog α → Store → Prog α × Store
  | .ret x, h => (.ret x, h)
  | .load a k, h => (k h[a]?, h)
  | .store a c k, h => (k, h.set a c)
  | .alloc c k, h => (k h.length, h ++ [c])

/-- The thread runs alone until it ends. -/
def Prog.run {α : Type} : Prog α → Store → α × Store
  | .ret x, h => (x, h)
  | .load a k, h => (k h[a]?).run h
  | .store a c k, h => k.run (h.set a c)
  | .alloc c k, h => (k h.length).run (h ++ [c])

/-- The number of steps of a thread that runs alone. -/
def Prog.steps {α : Type} : Prog α → Store → Nat
  | .ret _, _ => 0
  | .load a k, h => (k h[a]?).steps h + 1
  | .store a c k, h => k.steps (h.set a c) + 1
  | .alloc c k, h => (k h.length).steps (h ++ [c]) + 1

/-- Several threads and the objects they share. -/
structure Config (α : Type) where
  threads : List (Prog α)
  h : Store

/-- Thread `i` makes a step. -/
def Config.step {α : Type} (c : Config α) (i : Nat) : Config α :=
  match c.threads[i]? with
  | none => c
  | some p => match p.step c.h with | (p', h') => ⟨c.threads.set i p', h'⟩

/-- The threads make steps in the given order. -/
def Config.runs {α : Type} (c : Config α) (schedule : List Nat) : Config α := schedule.foldl Config.step c

/-! ## Access to objects -/

def load (a : Addr) : Prog (Option Cell) := .load a .ret
def store (a : Addr) (c : Cell) : Prog Unit := .store a c (.ret ())
def alloc (c : Cell) : Prog Addr := .alloc c .ret

def asObj : Option Cell → Option Obj | some (.obj o) => some o | _ => none
def asDict : Option Cell → Option (Dict String String) | some (.dict d) => some d | _ => none
def asList : Option Cell → Option (List Addr) | some (.list as) => some as | _ => none
def asNode : Option Cell → Option NodeObj | some (.node n) => some n | _ => none

def obj? (a : Addr) : Prog (Option Obj) := do return asObj (← load a)

/-- The content of the attribute dictionary. -/
def dictAt : Option Addr → Prog (Option (Dict String String))
  | none => return none
  | some da => do return some ((asDict (← load da)).getD [])

def kids (o : Obj) : Prog (List Addr) := do return (asList (← load o.elements)).getD []

def tag? (a : Addr) : Prog (Option String) := do return (← obj? a).map Obj.tag

def line (a : Addr) : Prog Int := do return ((← obj? a).map Obj.line).getD (-1)

def modify (a : Addr) (f : Obj → Obj) : Prog Unit := do
  match ← obj? a with
  | some o => store a (.obj (f o))
  | none => return ()

/-- `Store.init` -/
def init (tag : String) (nsmap : Option NsMap) (text tail : Option String) (attrib : Option (Dict String String))
    (elements : List Addr) (next : Nat) (line : Int) : Prog Addr :=
  match attrib with
  | some d => do
    let da ← alloc (.dict d)
    let la ← alloc (.list elements)
    alloc (.obj ⟨tag, nsmap, text, tail, some da, la, next, line⟩)
  | none => do
    let la ← alloc (.list elements)
    alloc (.obj ⟨tag, nsmap, text, tail, none, la, next, line⟩)

/-- `Store.getAttrib` -/
def getAttrib (a : Addr) (k : String) : Prog (Option String) := do
  match (← obj? a).bind Obj.attrib with
  | some da => return ((asDict (← load da)).getD []).get? k
  | none => return none

/-- `Store.popText` -/
def popText (a : Addr) : Prog (Option String) := do
  let o ← obj? a
  modify a fun o => { o with text := none }
  return o.bind Obj.text

/-- `Store.popTail` -/
def popTail (a : Addr) : Prog (Option String) := do
  let o ← obj? a
  modify a fun o => { o with tail := none }
  return o.bind Obj.tail

/-- `Store.popAttrib` -/
def popAttrib (a : Addr) (k : String) : Prog (Option String) := do
  match (← obj? a).bind Obj.attrib with
  | some da =>
    match asDict (← load da) with
    | some d =>
      if truthyMap (some d) then do
        store da (.dict (d.erase k))
        return d.get? k
      else return none
    | none => return none
  | none => return none

/-- `Store.popAttributes` -/
def popAttributes (a : Addr) : Prog (Option Addr) := do
  let o ← obj? a
  modify a fun o => { o with attrib := none }
  return o.bind Obj.attrib

/-- `Store.popElements` -/
def popElements (a : Addr) : Prog (List Addr) := do
  match ← obj? a with
  | some o => do
    let bs ← kids o
    let la ← alloc (.list [])
    modify a fun o => { o with elements := la, next := 0 }
    return bs
  | none => return []

/-- `Store.stepForward` -/
def stepForward (a : Addr) : Prog Unit := modify a fun o => { o with next := o.next + 1 }

/-- `Store.copyAll` -/
def copyAll (f : Addr → Prog (Option Addr)) : List Addr → Prog (Option (List Addr))
  | [] => return some []
  | a :: as => do
    match ← f a with
    | none => return none
    | some b =>
      match ← copyAll f as with
      | none => return none
      | some bs => return some (b :: bs)

/-- `Store.createSnapshot` -/
def copy : Nat → Addr → Prog (Option Addr)
  | 0, _ => return none
  | n + 1, a => do
    match ← obj? a with
    | none => return none
    | some o =>
      let d ← dictAt o.attrib
      let as ← kids o
      match ← copyAll (copy n) as with
      | none => return none
      | some bs => return some (← init o.tag o.nsmap o.text o.tail d bs o.next o.line)

/-- `Store.applySnapshot` -/
def applySnapshot (a s : Addr) : Prog Unit := do
  match ← obj? s with
  | some o => modify a fun p => { o with line := p.line }
  | none => return ()

/-- `Store.lookBehind` -/
def lookBehind (a : Addr) (tag : String) : Prog (Except PyErr (Option Addr)) := do
  match ← obj? a with
  | none => return .ok none
  | some o =>
    if o.next = 0 then return .ok none
    else
      match (← kids o)[o.next - 1]? with
      | some b => return .ok (if (← tag? b) = some tag then some b else none)
      | none => return .error .indexError

/-- `Store.firstFrom` -/
def firstFrom (tag : String) : List Addr → Nat → Prog (Option Nat)
  | [], _ => return none
  | b :: bs, k => do if (← tag? b) = some tag then return some k else firstFrom tag bs (k + 1)

/-- `Store.search` -/
def search (a : Addr) (tag : String) (mode : Mode) (step : Bool) : Prog (Option Addr) := do
  match ← obj? a with
  | none => return none
  | some o =>
    let as ← kids o
    match mode with
    | .strict =>
      match as[o.next]? with
      | some b =>
        if (← tag? b) = some tag then do
          if step then modify a fun o => { o with next := o.next + 1 }
          return some b
        else return none
      | none => return none
    | .ordered =>
      match ← firstFrom tag (as.drop o.next) o.next with
      | some i => do
        if step then modify a fun o => { o with next := i + 1 }
        return as[i]?
      | none => return none
    | .unordered =>
      match ← firstFrom tag (as.drop o.next) o.next with
      | some i => do
        store o.elements (.list (Store.swap as o.next i))
        if step then modify a fun o => { o with next := o.next + 1 }
        return as[i]?
      | none => return none

/-- `Store.findElement` -/
def findElement (a : Addr) (tag : String) (mode : Mode) : Prog (Except PyErr (Option Addr)) := do
  match ← lookBehind a tag with
  | .error e => return .error e
  | .ok (some b) => return .ok (some b)
  | .ok none => return .ok (← search a tag mode true)

/-- `Store.popElementRemove` -/
def popElementRemove (a : Addr) (tag : String) (mode : Mode) : Prog (Option Addr) := do
  match ← search a tag mode true with
  | none => return none
  | some b =>
    match ← obj? b with
    | none => return none
    | some o =>
      let text ← popText b
      let tail ← popTail b
      let da ← popAttributes b
      let bs ← popElements b
      let d ← dictAt da
      return some (← init o.tag o.nsmap text tail d bs 0 o.line)

/-- `Store.isNil` -/
def isNil (a : Addr) : Prog Bool := do return (← popAttrib a Elem.nilAttr) = some "true"

/-- `Store.readAll` -/
def readAll (f : Addr → Prog (Option Elem)) : List Addr → Prog (Option (List Elem))
  | [] => return some []
  | a :: as => do
    match ← f a with
    | none => return none
    | some e =>
      match ← readAll f as with
      | none => return none
      | some es => return some (e :: es)

/-- `Store.tree?` -/
def tree? : Nat → Addr → Prog (Option Elem)
  | 0, _ => return none
  | n + 1, a => do
    match ← obj? a with
    | none => return none
    | some o =>
      let as ← kids o
      match ← readAll (tree? n) as with
      | none => return none
      | some es =>
        let d ← dictAt o.attrib
        return some ⟨o.tag, o.nsmap, o.text, o.tail, d, es, o.next, o.line⟩

mutual
/-- `Store.put` -/
def put : Elem → Prog Addr
  | ⟨tag, nsmap, text, tail, attrib, elements, next, line⟩ => do
    let bs ← putAll elements
    init tag nsmap text tail attrib bs next line
def putAll : List Elem → Prog (List Addr)
  | [] => return []
  | e :: es => do
    let b ← put e
    let bs ← putAll es
    return b :: bs
end

/-- The children that are not comments, `Store.isComment`. -/
def noComments : List Addr → Prog (List Addr)
  | [] => return []
  | a :: as => do
    match asNode (← load a) with
    | some (.comment _ _) => noComments as
    | _ => return a :: (← noComments as)

/-- `Store.fromNative` -/
def fromNative (b : Backend) : Nat → Addr → Prog (Option Addr)
  | 0, _ => return none
  | n + 1, a => do
    match asNode (← load a) with
    | none => return none
    | some (.elem tag attrib _ text tail children line) =>
      let cs ← noComments children
      let d ← load attrib
      match ← copyAll (fromNative b n) cs with
      | none => return none
      | some bs => return some (← init tag none text tail (some ((asDict d).getD [])) bs 0 (sourceLine b line))
    | some (.comment text tail) => return some (← init "<!---->" none text tail (some []) [] 0 (-1))
    | some (.pi text tail) => return some (← init "<??>" none text tail (some []) [] 0 (-1))

/-- `Store.nodeTag` -/
def nodeTag (a : Addr) : Prog String := do
  match asNode (← load a) with
  | some (.elem t _ _ _ _ _ _) => return t
  | some (.comment _ _) => return "<!---->"
  | _ => return "<??>"

/-! ## `deserialize` -/

/-- What a reader returns: the outcome and the source map, which no other thread can reach. -/
abbrev Reads := SMap → Prog (Out Val × SMap)

/-- `Heap.deserText` -/
def deserText (eas computed nillable : Bool) (a : Addr) : Reads := fun sm =>
  if computed then return (.ok .none, sm)
  else do
    match ← (if nillable then isNil a else pure false) with
    | true => return (.ok .none, sm)
    | false => return (.ok (textVal eas (← popText a)), sm)

/-- `Heap.deserAttrs` -/
def deserAttrs (s : AttrsSer) (a : Addr) : Reads := fun sm =>
  if s.computed then return (.ok .none, sm)
  else do
    match ← popAttributes a with
    | none => return (.ok .none, sm)
    | some da =>
      let d := (asDict (← load da)).getD []
      return (.ok (.dict (Dict.ofItems (d.map fun kv =>
        (if s.namespaced then (QName.fromUri kv.1).tag else kv.1, Val.str kv.2)))), sm)

/-- `Heap.descend` -/
def descend (mode : Mode) (f : Addr → Reads) : List String → Addr → Reads
  | [], a, sm => f a sm
  | t :: ts, a, sm => do
    match ← findElement a t mode with
    | .error e => return (.crash e, sm)
    | .ok none => return (.ok .none, sm)
    | .ok (some b) => descend mode f ts b sm

/-- `Heap.homogLoop` -/
def homogLoop (rec : Loc → Reads) (loc : Loc) :
    Nat → Nat → List Val → Dict ErrKey VErr → SMap → Prog (Out (List Val × Dict ErrKey VErr) × SMap)
  | 0, _, _, _, sm => return (.diverge, sm)
  | n + 1, idx, acc, errs, sm => do
    match ← rec (loc ++ [.idx idx]) sm with
    | (.ok v, sm) => if v.isNone then return (.ok (acc, errs), sm) else homogLoop rec loc n (idx + 1) (acc ++ [v]) errs sm
    | (.verr e, sm) => homogLoop rec loc n (idx + 1) acc (errs ++ [(some (.idx idx), e)]) sm
    | (.crash e, sm) => return (.crash e, sm)
    | (.diverge, sm) => return (.diverge, sm)

/-- `Heap.heteroLoop` -/
def heteroLoop (rec : Ser → Loc → Reads) (loc : Loc) :
    List Ser → Nat → List Val → Dict ErrKey VErr → SMap → Prog (Out (List Val × Dict ErrKey VErr) × SMap)
  | [], _, acc, errs, sm => return (.ok (acc, errs), sm)
  | s :: ss, idx, acc, errs, sm => do
    match ← rec s (loc ++ [.idx idx]) sm with
    | (.ok v, sm) => heteroLoop rec loc ss (idx + 1) (acc ++ [v]) errs sm
    | (.verr e, sm) => heteroLoop rec loc ss (idx + 1) acc (errs ++ [(some (.idx idx), e)]) sm
    | (.crash e, sm) => return (.crash e, sm)
    | (.diverge, sm) => return (.diverge, sm)

/-- `Heap.unionLoop` -/
def unionLoop (k : Nat) (rec : Proxy → Addr → Reads) (title : Title) (a : Addr) : List Proxy → Dict ErrKey VErr → Reads
  | [], errs, sm =>
    if errs.isEmpty then return (.ok .none, sm)
    else do
      stepForward a
      return (.verr (intoValidationError title errs), sm)
  | p :: ps, errs, sm => do
    match ← copy k a with
    | none => return (.crash .attributeError, sm)
    | some s =>
      match ← rec p s sm with
      | (.ok v, sm) =>
        if v.isNone then unionLoop k rec title a ps errs sm
        else do
          applySnapshot a s
          return (.ok v, sm)
      | (.verr e, sm) => unionLoop k rec title a ps (errs.set (some (.name e.title.text)) e) sm
      | (.crash e, sm) => return (.crash e, sm)
      | (.diverge, sm) => return (.diverge, sm)

/-- `Heap.taggedLoop` -/
def taggedLoop (rec : Proxy → Reads) (loc : Loc) (attrName : String) (mode : Mode) (a : Addr) : List (String × Proxy) → Reads
  | [], sm => return (.ok .none, sm)
  | (tag, p) :: alts, sm => do
    match ← search a p.name mode false with
    | some b =>
      if (← getAttrib b attrName) = some tag then rec p (sm.set loc (← line b))
      else taggedLoop rec loc attrName mode a alts sm
    | none => taggedLoop rec loc attrName mode a alts sm

/-- `Heap.runValidator` -/
def runValidator (k : Nat) (v : Elem → Out Val × Elem) (a : Addr) : Reads := fun sm => do
  match ← tree? k a with
  | none => return (.crash .attributeError, sm)
  | some e =>
    let b ← put (v e).2
    let o ← obj? b
    modify a fun x => o.getD x
    return ((v e).1, sm)

/-- `Heap.deserFields` -/
def deserFields (k : Nat) (rec : Ser → Loc → Reads) (a : Addr) :
    List Field → Dict String Val → Dict ErrKey VErr → SMap → Prog (Out (Dict String Val × Dict ErrKey VErr) × SMap)
  | [], res, errs, sm => return (.ok (res, errs), sm)
  | f :: fs, res, errs, sm => do
    let l ← line a
    match ← (match f.validator with
      | some v => runValidator k v a (sm.set [.name f.name] l)
      | none => rec f.ser [.name f.name] (sm.set [.name f.name] l)) with
    | (.ok v, sm) => deserFields k rec a fs (if v.isNone then res else res.set (f.alias.getD f.name) v) errs sm
    | (.verr e, sm) => deserFields k rec a fs res (errs.set (some (.name f.name)) e) sm
    | (.crash e, sm) => return (.crash e, sm)
    | (.diverge, sm) => return (.diverge, sm)

/-- `Heap.validateModel` -/
def validateModel (k : Nat) (env : Env) (cls : String) (m : ModelSer) (data : Val) (a : Addr) : Reads := fun sm => do
  match ← tree? k a with
  | none => return (.crash .attributeError, sm)
  | some e => return (PXml.validateModel env cls m data ⟨e, sm⟩, sm)

/-- `Heap.deserModel` -/
def deserModel (k : Nat) (env : Env) (rec : Ser → Loc → Reads) (cls : String) (m : ModelSer) (loc : Loc) (a : Addr) : Reads :=
  fun sm =>
    match m.body with
    | .fields fs => do
      match ← deserFields k rec a fs [] [] sm with
      | (.ok (res, errs), sm) =>
        if errs.isEmpty then validateModel k env cls m (.dict res) a sm
        else return (.verr (intoValidationError m.title errs), sm)
      | (.verr e, sm) => return (.verr e, sm)
      | (.crash e, sm) => return (.crash e, sm)
      | (.diverge, sm) => return (.diverge, sm)
    | .root s => do
      match ← rec s loc sm with
      | (.ok v, sm) => validateModel k env cls m (if v.isNone then .undef else v) a sm
      | (.verr e, sm) => return (.verr (intoValidationError m.title [(none, e)]), sm)
      | (.crash e, sm) => return (.crash e, sm)
      | (.diverge, sm) => return (.diverge, sm)

/-- `Heap.deserStep` -/
def deserStep (k : Nat) (env : Env) (eas : Bool) (rec : Ser → Loc → Addr → Reads) (fuel : Nat) (s : Ser) (loc : Loc)
    (a : Addr) : Reads := fun sm =>
  match s with
  | .text computed nillable => deserText eas computed nillable a sm
  | .attr name computed =>
    if computed then return (.ok .none, sm)
    else do
      match ← popAttrib a name with
      | some v => return (.ok (.str v), sm)
      | none => return (.ok .none, sm)
  | .elem name _ mode computed nillable =>
    if computed then return (.ok .none, sm)
    else do
      match ← search a name mode true with
      | none => return (.ok .none, sm)
      | some b => deserText eas computed nillable b (sm.set loc (← line b))
  | .attrs s => deserAttrs s a sm
  | .mapElem s name mode =>
    if s.computed then return (.ok .none, sm)
    else do
      match ← search a name mode true with
      | none => return (.ok .none, sm)
      | some b => deserAttrs s b (sm.set loc (← line b))
  | .raw name mode computed =>
    if computed then return (.ok .none, sm)
    else do
      match ← popElementRemove a name mode with
      | none => return (.ok .none, sm)
      | some c =>
        match ← tree? k c with
        | none => return (.crash .attributeError, sm)
        | some e => return (.ok (.raw (toNative env.backend e)), sm.set loc (← line c))
  | .proxy p =>
    match env.model p.cls with
    | none => return (.crash .assertionError, sm)
    | some m =>
      if p.computed then return (.ok .none, sm)
      else do
        match ← search a p.name p.mode true with
        | none => return (.ok .none, sm)
        | some b =>
          let l ← line b
          match ← isNil b with
          | true => return (.ok .none, sm.set loc l)
          | false => deserModel k env (fun s loc sm => rec s loc b sm) p.cls m loc b (sm.set loc l)
  | .primUnion computed inner => if computed then return (.ok .none, sm) else rec inner loc a sm
  | .modelUnion title computed alts =>
    if computed then return (.ok .none, sm) else unionLoop k (fun p b sm => rec (.proxy p) loc b sm) title a alts [] sm
  | .tagged computed _ attrName mode alts =>
    if computed then return (.ok .none, sm) else taggedLoop (fun p sm => rec (.proxy p) loc a sm) loc attrName mode a alts sm
  | .wrap path _ mode computed inner =>
    if computed then return (.ok .none, sm)
    else descend mode (fun b sm => do rec inner loc b (sm.set loc (← line b))) path a sm
  | .homog title computed inner =>
    if computed then return (.ok .none, sm)
    else do
      match ← homogLoop (fun loc sm => rec inner loc a sm) loc fuel 0 [] [] sm with
      | (.ok r, sm) => return (homogFinish title r, sm)
      | (.verr e, sm) => return (.verr e, sm)
      | (.crash e, sm) => return (.crash e, sm)
      | (.diverge, sm) => return (.diverge, sm)
  | .hetero title computed inners =>
    if computed then return (.ok .none, sm)
    else do
      match ← heteroLoop (fun s loc sm => rec s loc a sm) loc inners 0 [] [] sm with
      | (.ok r, sm) => return (heteroFinish title r, sm)
      | (.verr e, sm) => return (.verr e, sm)
      | (.crash e, sm) => return (.crash e, sm)
      | (.diverge, sm) => return (.diverge, sm)

/-- `Heap.deser` -/
def deser (k : Nat) (env : Env) (eas : Bool) : Nat → Ser → Loc → Addr → Reads
  | 0, _, _, _, sm => return (.diverge, sm)
  | n + 1, s, loc, a, sm => deserStep k env eas (deser k env eas n) n s loc a sm

/-- `Heap.fromXmlTree` -/
def fromXmlTree (k : Nat) (env : Env) (eas : Bool) (n : Nat) (cls : String) (root : Addr) : Prog (Out Val) :=
  match env.model cls with
  | none => return .crash .assertionError
  | some m => do
    if (← nodeTag root) = m.elementName then
      match ← fromNative env.backend k root with
      | none => return .crash .attributeError
      | some a => return (← deserModel k env (fun s loc sm => deser k env eas n s loc a sm) cls m [] a []).1
    else return .crash .parsingError

end Conc
end PXml
