import Verif.Names

/-!
# XML elements

Models `pydantic_xml/element/element.py` (class `XmlElement` with its `State`, and the three search functions) and
`pydantic_xml/element/utils.py`.

Elements are values.  A Python method that mutates `self` becomes a function returning the new element; a method that
returns a reference to a child returns the index of the child, and the caller writes the mutated child back with
`setChild`.  (References to one child never coexist with a mutation of the list they came from: each serializer
finishes with the child before it touches the parent again.)
-/

namespace PXml

/-- Python exceptions other than pydantic's `ValidationError`. -/
inductive PyErr where
  | typeError | attributeError | keyError | indexError | assertionError | serializationError | parsingError
deriving DecidableEq, Repr

/-- `XmlElement`, element.py:259-322, together with its `State`: `next` is `next_element_idx`, `line` is
`_sourceline`. -/
structure Elem where
  tag : String
  nsmap : Option NsMap := none
  text : Option String := none
  tail : Option String := none
  attrib : Option (Dict String String) := none
  elements : List Elem := []
  next : Nat := 0
  line : Int := -1
deriving Repr, Inhabited

namespace Elem

/-- The child at position `i` replaced (mutation through a reference to the child). -/
def setChild (e : Elem) (i : Nat) (c : Elem) : Elem := { e with elements := e.elements.set i c }

/-- Truthiness of an optional string. -/
def truthy : Option String → Bool
  | none => false
  | some s => s ≠ ""

/-- `is_empty`, element.py:362-366. -/
def isEmpty (e : Elem) : Bool :=
  !truthy e.text && !truthy e.tail && !truthyMap e.attrib && e.elements.isEmpty

/-- `set_text`, element.py:368-369. -/
def setText (e : Elem) (t : String) : Elem := { e with text := some t }

/-- `set_attribute`, element.py:371-375. -/
def setAttribute (e : Elem) (k v : String) : Elem := { e with attrib := some ((e.attrib.getD []).set k v) }

/-- `set_attributes`, element.py:377-378: replaces all attributes. -/
def setAttributes (e : Elem) (d : Dict String String) : Elem := { e with attrib := some d }

/-- `append_element`, element.py:380-382. -/
def append (e c : Elem) : Elem := { e with elements := e.elements ++ [c], next := e.next + 1 }

/-- `get_attrib`, element.py:384-385. -/
def getAttrib (e : Elem) (k : String) : Option String := (e.attrib.getD []).get? k

/-- `pop_text`, element.py:387-390. -/
def popText (e : Elem) : Option String × Elem := (e.text, { e with text := none })

/-- `pop_attrib`, element.py:397-398. -/
def popAttrib (e : Elem) (k : String) : Option String × Elem :=
  if truthyMap e.attrib then ((e.attrib.getD []).get? k, { e with attrib := some ((e.attrib.getD []).erase k) })
  else (none, e)

/-- `pop_attributes`, element.py:400-403. -/
def popAttributes (e : Elem) : Option (Dict String String) × Elem := (e.attrib, { e with attrib := none })

/-- `pop_elements`, element.py:405-409. -/
def popElements (e : Elem) : List Elem × Elem := (e.elements, { e with elements := [], next := 0 })

/-- `step_forward`, element.py:359-360. -/
def stepForward (e : Elem) : Elem := { e with next := e.next + 1 }

/-- `create_snapshot`, element.py:336-348: a deep copy; elements are values here, so it is the same value. -/
def createSnapshot (e : Elem) : Elem := e

/-- `apply_snapshot`, element.py:350-357: everything but the source line is taken over. -/
def applySnapshot (e s : Elem) : Elem := { s with line := e.line }

/-- `_look_behind`, element.py:620-626: `some true` if the child before the cursor has the tag; an index error if
the cursor is beyond the end. -/
def lookBehind (e : Elem) (tag : String) : Except PyErr Bool :=
  if e.next = 0 then .ok false
  else match e.elements[e.next - 1]? with
    | some c => .ok (c.tag = tag)
    | none => .error .indexError

/-- Position (counted from `k`) of the first element with the tag: the loops of element.py:570-579, 605-615. -/
def firstFrom (tag : String) : List Elem → Nat → Option Nat
  | [], _ => none
  | c :: cs, k => if c.tag = tag then some k else firstFrom tag cs (k + 1)

/-- Position of the first child with the tag at or after the cursor. -/
def firstMatch (e : Elem) (tag : String) : Option Nat := firstFrom tag (e.elements.drop e.next) e.next

/-- `a[i], a[j] = a[j], a[i]` for valid indices, element.py:608-609. -/
def swap (l : List Elem) (i j : Nat) : List Elem :=
  match l[i]?, l[j]? with
  | some a, some b => (l.set i b).set j a
  | _, _ => l

/-- `strict_search` without look-behind, element.py:540-545.  The result is the index of the found child in the new
element. -/
def strictSearch (e : Elem) (tag : String) (step : Bool) : Option Nat × Elem :=
  match e.elements[e.next]? with
  | some c => if c.tag = tag then (some e.next, if step then { e with next := e.next + 1 } else e) else (none, e)
  | none => (none, e)

/-- `ordered_search` without look-behind, element.py:569-581. -/
def orderedSearch (e : Elem) (tag : String) (step : Bool) : Option Nat × Elem :=
  match e.firstMatch tag with
  | some i => (some i, if step then { e with next := i + 1 } else e)
  | none => (none, e)

/-- `unordered_search` without look-behind, element.py:605-617: the found child is swapped to the cursor position
(also when `step` is false). -/
def unorderedSearch (e : Elem) (tag : String) (step : Bool) : Option Nat × Elem :=
  match e.firstMatch tag with
  | some i => (some e.next, { e with elements := swap e.elements e.next i, next := if step then e.next + 1 else e.next })
  | none => (none, e)

/-- `get_searcher`, element.py:508-516, applied with `look_behind=False`. -/
def search (e : Elem) (tag : String) : Mode → Bool → Option Nat × Elem
  | .strict, step => strictSearch e tag step
  | .ordered, step => orderedSearch e tag step
  | .unordered, step => unorderedSearch e tag step

/-- `find_element`, element.py:458-467 with `look_behind=True, step_forward=True`: element.py:537-538, 566-567,
602-603 first, then the search proper. -/
def findElement (e : Elem) (tag : String) (mode : Mode) : Except PyErr (Option Nat × Elem) := do
  if ← lookBehind e tag then .ok (some (e.next - 1), e)
  else .ok (search e tag mode true)

/-- `pop_element(tag, mode)`, element.py:411-431 with `remove=False`. -/
def popElement (e : Elem) (tag : String) (mode : Mode) : Option Nat × Elem := search e tag mode true

/-- The fresh element built by `pop_element(..., remove=True)` out of the found child, element.py:421-429. -/
def detached (c : Elem) : Elem :=
  { tag := c.tag, nsmap := c.nsmap, text := c.text, tail := c.tail, attrib := c.attrib, elements := c.elements,
    next := 0, line := c.line }

/-- What `pop_element(..., remove=True)` leaves of the found child, element.py:424-427. -/
def hollow (c : Elem) : Elem := { c with text := none, tail := none, attrib := none, elements := [], next := 0 }

/-- `pop_element(tag, mode, remove=True)`, element.py:411-431. -/
def popElementRemove (e : Elem) (tag : String) (mode : Mode) : Option Elem × Elem :=
  match popElement e tag mode with
  | (some i, e') =>
    match e'.elements[i]? with
    | some c => (some (detached c), e'.setChild i (hollow c))
    | none => (none, e')
  | (none, e') => (none, e')

/-- Python's `str.isspace` for one character: the characters `str.strip()` removes. -/
def isSpace (c : Char) : Bool :=
  let n := c.toNat
  (9 ≤ n && n ≤ 13) || (28 ≤ n && n ≤ 32) || n = 0x85 || n = 0xA0 || n = 0x1680 || (0x2000 ≤ n && n ≤ 0x200A)
    || n = 0x2028 || n = 0x2029 || n = 0x202F || n = 0x205F || n = 0x3000

/-- `str.strip()` -/
def strip (s : String) : String :=
  String.ofList ((s.toList.dropWhile isSpace).reverse.dropWhile isSpace).reverse

/-- One entry of `get_unbound`: the path from the element to the carrier (tag and line of each step), the attribute
name if any, the value. -/
structure Unbound where
  path : List (String × Int)
  attr : Option String
  value : String
deriving DecidableEq, Repr

/-- The text or tail entry of `get_unbound`, element.py:475-479. -/
def unboundText (path : List (String × Int)) : Option String → List Unbound
  | none => []
  | some t => if strip t = "" then [] else [⟨path, none, strip t⟩]

mutual
/-- `get_unbound`, element.py:469-488. -/
def getUnbound (path : List (String × Int)) : Elem → List Unbound
  | ⟨_, _, text, tail, attrib, elements, _, _⟩ =>
    unboundText path text ++ unboundText path tail
      ++ (attrib.getD []).map (fun kv => ⟨path, some kv.1, kv.2⟩)
      ++ getUnboundList path elements
/-- The loop over the children, element.py:485-486. -/
def getUnboundList (path : List (String × Int)) : List Elem → List Unbound
  | [] => []
  | c :: cs => getUnbound (path ++ [(c.tag, c.line)]) c ++ getUnboundList path cs
end

/-- `'{%s}nil' % XSI_NS`, element/utils.py:3-7. -/
def nilAttr : String := "{http://www.w3.org/2001/XMLSchema-instance}nil"

/-- `is_element_nill`, element/utils.py:6-10: pops the attribute. -/
def isNil (e : Elem) : Bool × Elem :=
  match e.popAttrib nilAttr with
  | (v, e') => (v = some "true", e')

/-- `make_element_nill`, element/utils.py:13-14. -/
def makeNil (e : Elem) : Elem := e.setAttribute nilAttr "true"

end Elem
end PXml
