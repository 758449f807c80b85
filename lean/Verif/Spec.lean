import Verif.Serializer

/-!
# Specification vocabulary

Small notions used to state the properties, independent of the implementation helpers.
-/

namespace PXml

/-- The children the reader has already passed. -/
def Elem.seen (e : Elem) : List Elem := e.elements.take e.next

/-- The children the reader has not passed yet. -/
def Elem.unread (e : Elem) : List Elem := e.elements.drop e.next

/-- The element a lookup would take: the next unread child in strict mode if it has the tag, else the first unread one with
the tag. -/
def Elem.candidate (e : Elem) (tag : String) : Mode → Option Elem
  | .strict => (e.unread.head?).filter fun c => c.tag = tag
  | _ => e.unread.find? fun c => c.tag = tag

/-- The children a list of elements is read from: the run of children with the tag that comes next in strict mode, all
unread children with the tag otherwise. -/
def Elem.matching (e : Elem) (tag : String) : Mode → List Elem
  | .strict => e.unread.takeWhile fun c => c.tag = tag
  | _ => e.unread.filter fun c => c.tag = tag

/-- A lookup made while reading: the child taken, if any, and the element afterwards. -/
def Elem.lookup (e : Elem) (tag : String) (mode : Mode) : Option Elem × Elem :=
  match e.popElement tag mode with
  | (some i, e') => (e'.elements[i]?, e')
  | (none, e') => (none, e')

/-- A history of lookups: the children taken, in order, and the final element. -/
def Elem.lookups : List (String × Mode) → Elem → List Elem × Elem
  | [], e => ([], e)
  | (tag, mode) :: ls, e =>
    match e.lookup tag mode with
    | (c, e') => match lookups ls e' with | (cs, e'') => (c.toList ++ cs, e'')

/-- A piece of content of a document. -/
inductive Piece where
  | text (s : String)
  | tail (s : String)
  | attr (name value : String)
deriving DecidableEq, Repr

/-- The content an element carries itself. -/
def Elem.own (e : Elem) : List Piece :=
  e.text.toList.map .text ++ e.tail.toList.map .tail ++ (e.attrib.getD []).map fun kv => .attr kv.1 kv.2

mutual
/-- All content of a tree, in document order (as a multiset: the pieces of content the document consists of). -/
def Elem.content : Elem → List Piece
  | ⟨tag, nsmap, text, tail, attrib, elements, next, line⟩ =>
    Elem.own ⟨tag, nsmap, text, tail, attrib, [], next, line⟩ ++ Elem.contentList elements
def Elem.contentList : List Elem → List Piece
  | [] => []
  | c :: cs => c.content ++ Elem.contentList cs
end

mutual
/-- The strings of a document: texts, tails and attribute values of all elements (comments are not content). -/
def Node.strings : Node → List String
  | .elem _ attrib _ text tail children _ =>
    text.toList ++ tail.toList ++ attrib.map Prod.snd ++ Node.stringsList children
  | .comment _ _ => []
  | .pi text tail => text.toList ++ tail.toList
def Node.stringsList : List Node → List String
  | [] => []
  | n :: ns => n.strings ++ Node.stringsList ns
end

mutual
/-- The strings an element still holds. -/
def Elem.strings : Elem → List String
  | ⟨_, _, text, tail, attrib, elements, _, _⟩ =>
    text.toList ++ tail.toList ++ (attrib.getD []).map Prod.snd ++ Elem.stringsList elements
def Elem.stringsList : List Elem → List String
  | [] => []
  | c :: cs => c.strings ++ Elem.stringsList cs
end

mutual
/-- The strings contained in a value, at any depth. -/
def Val.strings : Val → List String
  | .str s => [s]
  | .list vs => Val.stringsList vs
  | .dict d => Val.stringsItems d
  | .model _ fs _ => Val.stringsItems fs
  | .raw n => n.strings
  | _ => []
def Val.stringsList : List Val → List String
  | [] => []
  | v :: vs => v.strings ++ Val.stringsList vs
def Val.stringsItems : List (String × Val) → List String
  | [] => []
  | (_, v) :: d => v.strings ++ Val.stringsItems d
end

/-- The cursor of every element of the tree lies within the children. -/
inductive Elem.Good : Elem → Prop
  | mk {e : Elem} : e.next ≤ e.elements.length → (∀ c ∈ e.elements, c.Good) → e.Good

/-- The serializers a serializer delegates to directly (without following sub-model classes). -/
def Ser.subs : Ser → List Ser
  | .primUnion _ inner => [inner]
  | .modelUnion _ _ alts => alts.map .proxy
  | .tagged _ _ _ _ alts => alts.map fun a => .proxy a.2
  | .wrap _ _ _ _ inner => [inner]
  | .homog _ _ inner => [inner]
  | .hetero _ _ inners => inners
  | _ => []

/-- A condition holds of a serializer and of everything it delegates to. -/
inductive Ser.Everywhere (P : Ser → Prop) : Ser → Prop
  | mk {s : Ser} : P s → (∀ t ∈ s.subs, t.Everywhere P) → s.Everywhere P

/-- A condition holds of all field serializers of a model class. -/
def ModelSer.Everywhere (P : Ser → Prop) (m : ModelSer) : Prop :=
  match m.body with
  | .fields fs => ∀ f ∈ fs, f.ser.Everywhere P
  | .root s => s.Everywhere P

/-- A condition holds of all field serializers of all model classes. -/
def Env.Everywhere (env : Env) (P : Ser → Prop) : Prop := ∀ cls m, env.model cls = some m → m.Everywhere P

/-- The model class a sub-model field refers to is completely defined. -/
def Ser.Resolved (env : Env) : Ser → Prop
  | .proxy p => (env.model p.cls).isSome = true
  | _ => True

/-- `o` is an exception other than a validation error. -/
def Out.isCrash {α : Type} : Out α → Bool
  | .crash _ => true
  | _ => false

/-- The custom validators raise nothing but validation errors and leave the cursors within the children. -/
def Env.ValidatorsSafe (env : Env) : Prop :=
  ∀ cls m fs, env.model cls = some m → m.body = .fields fs → ∀ f ∈ fs, ∀ v, f.validator = some v →
    ∀ e : Elem, e.Good → (v e).1.isCrash = false ∧ (v e).2.Good

/-! ## Custom validators -/

/-- What code that only uses the reader interface of an element (`pop_text`, `pop_attrib`, `pop_attributes`,
`pop_element`, `find_element`, snapshots, on the element or on its children) can do to it. -/
inductive Elem.Reads : Elem → Elem → Prop
  | refl (e : Elem) : Reads e e
  | trans {a b c : Elem} : Reads a b → Reads b c → Reads a c
  | popText (e : Elem) : Reads e e.popText.2
  | popAttrib (e : Elem) (k : String) : Reads e (e.popAttrib k).2
  | popAttributes (e : Elem) : Reads e e.popAttributes.2
  | search (e : Elem) (tag : String) (mode : Mode) (step : Bool) : Reads e (e.search tag mode step).2
  | child (e : Elem) (i : Nat) (c c' : Elem) : e.elements[i]? = some c → Reads c c' → Reads e (e.setChild i c')
  | stepForward (e : Elem) : e.next < e.elements.length → Reads e e.stepForward
  | applySnapshot (e s : Elem) : Reads e s → Reads e (e.applySnapshot s)
  | remove (e : Elem) (i : Nat) (c : Elem) : e.elements[i]? = some c → Reads e (e.setChild i c.hollow)

/-- The places of an element a field may occupy: its text, an attribute, all attributes, child elements with a tag. -/
inductive Slot where
  | text
  | attr (name : String)
  | attrs
  | child (tag : String)
deriving DecidableEq, Repr

/-- The places a field occupies: the path of wrapper elements and the place in the innermost one. -/
inductive Ser.Claims : Ser → List String → Slot → Prop
  | text {c nillable : Bool} : Claims (.text c nillable) [] .text
  | nil {c : Bool} : Claims (.text c true) [] (.attr Elem.nilAttr)
  | attr {name : String} {c : Bool} : Claims (.attr name c) [] (.attr name)
  | elem {name : String} {nsmap : Option NsMap} {mode : Mode} {c nillable : Bool} :
      Claims (.elem name nsmap mode c nillable) [] (.child name)
  | attrs {a : AttrsSer} : Claims (.attrs a) [] .attrs
  | mapElem {a : AttrsSer} {name : String} {mode : Mode} : Claims (.mapElem a name mode) [] (.child name)
  | raw {name : String} {mode : Mode} {c : Bool} : Claims (.raw name mode c) [] (.child name)
  | proxy {p : Proxy} : Claims (.proxy p) [] (.child p.name)
  | primUnion {c : Bool} {inner : Ser} {path : List String} {slot : Slot} : Claims inner path slot →
      Claims (.primUnion c inner) path slot
  | modelUnion {title : Title} {c : Bool} {alts : List Proxy} {p : Proxy} : p ∈ alts →
      Claims (.modelUnion title c alts) [] (.child p.name)
  | tagged {c : Bool} {discr attrName : String} {mode : Mode} {alts : List (String × Proxy)} {tp : String × Proxy} :
      tp ∈ alts → Claims (.tagged c discr attrName mode alts) [] (.child tp.2.name)
  | wrap {steps : List String} {nsmap : Option NsMap} {mode : Mode} {c : Bool} {inner : Ser} {path : List String} {slot : Slot} :
      Claims inner path slot → Claims (.wrap steps nsmap mode c inner) (steps ++ path) slot
  | homog {title : Title} {c : Bool} {inner : Ser} {path : List String} {slot : Slot} : Claims inner path slot →
      Claims (.homog title c inner) path slot
  | hetero {title : Title} {c : Bool} {inners : List Ser} {s : Ser} {path : List String} {slot : Slot} : s ∈ inners →
      Claims s path slot → Claims (.hetero title c inners) path slot

/-- What code that only uses the writer interface of an element (`set_text`, `set_attribute`, `set_attributes`,
`append_element`, `find_element_or_create`, on the element or on the wrapper element it was given) can do to it, when it sets
texts and attributes only where `P` allows. -/
inductive Elem.Writes : (P : List String → Slot → Prop) → Elem → Elem → Prop
  | refl {P} (e : Elem) : Writes P e e
  | trans {P} {a b c : Elem} : Writes P a b → Writes P b c → Writes P a c
  | setText {P} (e : Elem) (t : String) : P [] .text → Writes P e (e.setText t)
  | setAttribute {P} (e : Elem) (k v : String) : P [] (.attr k) → Writes P e (e.setAttribute k v)
  | setAttributes {P} (e : Elem) (d : Dict String String) : P [] .attrs → Writes P e (e.setAttributes d)
  | append {P} (e c : Elem) : c.Good → Writes P e (e.append c)
  | find {P} (e : Elem) (tag : String) (mode : Mode) (o : Option Nat) (e' : Elem) : e.findElement tag mode = .ok (o, e') →
      Writes P e e'
  | child {P} (e : Elem) (i : Nat) (c c' : Elem) : e.elements[i]? = some c → i + 1 = e.next →
      Writes (fun path slot => P (c.tag :: path) slot) c c' → Writes P e (e.setChild i c')

/-- Any use of the writer interface. -/
def anywhere : List String → Slot → Prop := fun _ _ => True

/-- The writer's position is behind the last child. -/
def Elem.AtEnd (e : Elem) : Prop := e.next = e.elements.length

/-- The wrapper element a wrapped field reuses: the last child, if it has the tag. -/
def Elem.lastNamed (e : Elem) (tag : String) : Option Elem := e.elements.getLast?.filter fun c => c.tag = tag

/-- The place at the end of a path of wrapper elements: on each step the last child is entered if it has the tag, otherwise a
new child is added; everything else stays as it is. -/
def Elem.inside (fresh : String → Elem) (write : Elem → Out Elem) : List String → Elem → Out Elem
  | [], e => write e
  | t :: ts, e =>
    match e.lastNamed t with
    | some c => (Elem.inside fresh write ts c).bind fun c' => .ok { e with elements := e.elements.dropLast ++ [c'] }
    | none => (Elem.inside fresh write ts (fresh t)).bind fun c' => .ok (e.append c')

/-- The writer's position is behind the last child at every step of the path that is already there. -/
def Elem.OpenAlong : List String → Elem → Prop
  | [], _ => True
  | t :: ts, e => e.AtEnd ∧ ∀ c, e.lastNamed t = some c → c.OpenAlong ts

/-- The writer's position is behind the last child in the element and all its descendants. -/
inductive Elem.Open : Elem → Prop
  | mk {e : Elem} : e.AtEnd → (∀ c ∈ e.elements, c.Open) → e.Open

/-- Custom serializers keep the writer's position behind the last child, in the element and all its descendants. -/
def Env.SerializersOpen (env : Env) : Prop :=
  ∀ cls m fs, env.model cls = some m → m.body = .fields fs → ∀ f ∈ fs, ∀ g, f.serializer = some g →
    ∀ (self : Val) (e : Elem) (v : Val) (e' : Elem), e.Open → g self e v = .ok e' → e'.Open

/-- Two readers at the end of the same path: the path is looked up once, and on the innermost element the first is run, then the
second.  If the path is not there both deliver nothing. -/
def readBoth (mode : Mode) (f g : St → Out Val × St) : List String → St → Out Val × Out Val × St
  | [], st => ((f st).1, (g (f st).2).1, (g (f st).2).2)
  | t :: ts, st =>
    match st.el.findElement t mode with
    | .error e => (.crash e, .crash e, st)
    | .ok (none, el) => (.ok .none, .ok .none, { st with el := el })
    | .ok (some i, el) =>
      match el.elements[i]? with
      | none => (.crash .indexError, .crash .indexError, { st with el := el })
      | some c =>
        match readBoth mode f g ts ⟨c, st.sm⟩ with
        | (o1, o2, st') => (o1, o2, ⟨el.setChild i st'.el, st'.sm⟩)

/-- The child elements a field writes: what it appends to an element without children. -/
def Ser.children (env : Env) (n : Nat) (fl : Flags) (s : Ser) (v enc : Val) : List Elem :=
  match ser env n fl s { tag := "" } v enc with
  | .ok e => e.elements
  | _ => []

/-- The field is not inside a wrapper. -/
def Ser.NotWrapped : Ser → Prop
  | .wrap _ _ _ _ _ => False
  | _ => True

/-- Custom serializers only use the writer interface. -/
def Env.SerializersWrite (env : Env) : Prop :=
  ∀ cls m fs, env.model cls = some m → m.body = .fields fs → ∀ f ∈ fs, ∀ g, f.serializer = some g →
    ∀ (self : Val) (e : Elem) (v : Val) (e' : Elem), g self e v = .ok e' → Elem.Writes anywhere e e'

/-- No model class has custom serializers. -/
def Env.NoSerializers (env : Env) : Prop :=
  ∀ cls m fs, env.model cls = some m → m.body = .fields fs → ∀ f ∈ fs, f.serializer = none

/-- Custom validators only use the reader interface. -/
def Env.ValidatorsRead (env : Env) : Prop :=
  ∀ cls m fs, env.model cls = some m → m.body = .fields fs → ∀ f ∈ fs, ∀ v, f.validator = some v →
    ∀ e : Elem, e.Reads (v e).2

/-- Custom validators terminate. -/
def Env.ValidatorsTerminate (env : Env) : Prop :=
  ∀ cls m fs, env.model cls = some m → m.body = .fields fs → ∀ f ∈ fs, ∀ v, f.validator = some v →
    ∀ e : Elem, (v e).1 ≠ .diverge

/-- Custom validators raise nothing but validation errors. -/
def Env.ValidatorsRaise (env : Env) : Prop :=
  ∀ cls m fs, env.model cls = some m → m.body = .fields fs → ∀ f ∈ fs, ∀ v, f.validator = some v →
    ∀ e : Elem, (v e).1.isCrash = false

/-- No model class has custom validators. -/
def Env.NoValidators (env : Env) : Prop :=
  ∀ cls m fs, env.model cls = some m → m.body = .fields fs → ∀ f ∈ fs, f.validator = none

/-- The strings of a value that is delivered; an error or exception delivers none. -/
def Out.strings : Out Val → List String
  | .ok v => v.strings
  | _ => []

/-- A custom validator does not deliver more copies of a string than it takes out of the element. -/
def Env.ValidatorsDeliver (env : Env) : Prop :=
  ∀ cls m fs, env.model cls = some m → m.body = .fields fs → ∀ f ∈ fs, ∀ v, f.validator = some v →
    ∀ (e : Elem) (a : String), a ≠ "" → (v e).1.strings.count a + (v e).2.strings.count a ≤ e.strings.count a

/-- Validation does not multiply the strings of its input. -/
def Env.NoCopies (env : Env) : Prop :=
  ∀ cls d fs set, env.validate cls d = .ok (fs, set) → ∀ a, a ≠ "" →
    (Val.model cls fs set).strings.count a ≤ d.strings.count a

/-! ## Documents -/

mutual
/-- The pieces of content of a document: texts, tails and attributes of all elements (comments are no content). -/
def Node.pieces : Node → List Piece
  | .elem _ attrib _ text tail children _ =>
    text.toList.map .text ++ tail.toList.map .tail ++ attrib.map (fun kv => .attr kv.1 kv.2) ++ Node.piecesList children
  | .comment _ _ => []
  | .pi text tail => text.toList.map .text ++ tail.toList.map .tail
def Node.piecesList : List Node → List Piece
  | [] => []
  | n :: ns => n.pieces ++ Node.piecesList ns
end

/-- A list or tuple field whose items are not plain text of the element. -/
def Ser.NoTextItems : Ser → Prop
  | .homog _ _ inner => inner.Everywhere fun s => match s with | .text _ _ => False | _ => True
  | _ => True

/-! ## Where values come from -/

mutual
/-- A value built from pieces of a document only: each string is a text or an attribute value of the document (or empty,
if empty text counts as a string), each dictionary maps (qualified or local) attribute names to the values of these
attributes, each raw element consists of content of the document.  Instances of sub-models are results of validation
and left open. -/
def Val.MadeOf (doc : List Piece) (eas : Bool) : Val → Prop
  | .none => True
  | .str s => .text s ∈ doc ∨ (∃ name, .attr name s ∈ doc) ∨ (eas = true ∧ s = "")
  | .list vs => Val.MadeOfList doc eas vs
  | .dict d => ∀ kv ∈ d, ∃ name value, Piece.attr name value ∈ doc ∧ (kv.1 = name ∨ kv.1 = (QName.fromUri name).tag) ∧
      kv.2 = .str value
  | .raw n => ∀ p ∈ n.pieces, p ∈ doc
  | .model _ _ _ => True
  | _ => False
def Val.MadeOfList (doc : List Piece) (eas : Bool) : List Val → Prop
  | [] => True
  | v :: vs => v.MadeOf doc eas ∧ Val.MadeOfList doc eas vs
end

/-- The data handed to the validation of a class satisfies `P`: each field value (the keys are names or aliases of
fields), or the root value. -/
def ModelSer.DataOf (P : Val → Prop) (m : ModelSer) (d : Val) : Prop :=
  match m.body with
  | .fields fs => ∃ res, d = .dict res ∧ ∀ kv ∈ res, P kv.2 ∧ ∃ f ∈ fs, kv.1 = f.alias.getD f.name
  | .root _ => d = .undef ∨ P d

/-! ## Transformations of documents -/

mutual
/-- The document without comments, where the text directly following a comment (its tail) disappears with it. -/
def Node.dropComments : Node → Node
  | .elem tag attrib nsmap text tail children line => .elem tag attrib nsmap text tail (Node.dropCommentsList children) line
  | n => n
def Node.dropCommentsList : List Node → List Node
  | [] => []
  | n :: ns => if n.isComment then Node.dropCommentsList ns else n.dropComments :: Node.dropCommentsList ns
end

/-- Joins two adjacent stretches of text. -/
def joinText : Option String → Option String → Option String
  | none, t => t
  | some s, none => some s
  | some s, some t => some (s ++ t)

/-- The node followed by more text. -/
def Node.addTail : Node → Option String → Node
  | .elem tag attrib nsmap text tail children line, t => .elem tag attrib nsmap text (joinText tail t) children line
  | .comment text tail, t => .comment text (joinText tail t)
  | .pi text tail, t => .pi text (joinText tail t)

mutual
/-- The document with the comments taken out of the text: what follows a comment is joined to what precedes it. -/
def Node.removeComments : Node → Node
  | .elem tag attrib nsmap text tail children line =>
    .elem tag attrib nsmap (joinText text (Node.removeCommentsList children).1) tail
      (Node.removeCommentsList children).2 line
  | n => n
/-- The text before the first remaining node, and the remaining nodes. -/
def Node.removeCommentsList : List Node → Option String × List Node
  | [] => (none, [])
  | .comment _ tail :: ns => (joinText tail (Node.removeCommentsList ns).1, (Node.removeCommentsList ns).2)
  | n :: ns => (none, n.removeComments.addTail (Node.removeCommentsList ns).1 :: (Node.removeCommentsList ns).2)
end

mutual
/-- No comment of the document is directly followed by text. -/
def Node.NoTextAfterComments : Node → Prop
  | .elem _ _ _ _ _ children _ => Node.NoTextAfterCommentsList children
  | _ => True
def Node.NoTextAfterCommentsList : List Node → Prop
  | [] => True
  | .comment _ tail :: ns => tail = none ∧ Node.NoTextAfterCommentsList ns
  | n :: ns => n.NoTextAfterComments ∧ Node.NoTextAfterCommentsList ns
end

mutual
/-- The document with all tails (text following an element) transformed. -/
def Node.mapTails (f : Option String → Option String) : Node → Node
  | .elem tag attrib nsmap text tail children line => .elem tag attrib nsmap text (f tail) (Node.mapTailsList f children) line
  | .comment text tail => .comment text (f tail)
  | .pi text tail => .pi text (f tail)
def Node.mapTailsList (f : Option String → Option String) : List Node → List Node
  | [] => []
  | n :: ns => n.mapTails f :: Node.mapTailsList f ns
end

/-- Forgets blank text. -/
def dropBlank : Option String → Option String
  | none => none
  | some t => if Elem.strip t = "" then none else some t

mutual
/-- The document without its namespace prefix declarations. -/
def Node.dropPrefixes : Node → Node
  | .elem tag attrib _ text tail children line => .elem tag attrib [] text tail (Node.dropPrefixesList children) line
  | n => n
def Node.dropPrefixesList : List Node → List Node
  | [] => []
  | n :: ns => n.dropPrefixes :: Node.dropPrefixesList ns
end

mutual
/-- The document without its line numbers. -/
def Node.dropLines : Node → Node
  | .elem tag attrib nsmap text tail children _ => .elem tag attrib nsmap text tail (Node.dropLinesList children) none
  | n => n
def Node.dropLinesList : List Node → List Node
  | [] => []
  | n :: ns => n.dropLines :: Node.dropLinesList ns
end

mutual
/-- The document contains elements and comments only. -/
def Node.NoPIs : Node → Prop
  | .elem _ _ _ _ _ children _ => Node.NoPIsList children
  | .comment _ _ => True
  | .pi _ _ => False
def Node.NoPIsList : List Node → Prop
  | [] => True
  | n :: ns => n.NoPIs ∧ Node.NoPIsList ns
end

/-- What there is to a document besides comments, prefix declarations and line numbers: tags, attributes, texts, tails and
children of all elements. -/
def Node.plain (n : Node) : Node := n.dropComments.dropPrefixes.dropLines

mutual
/-- The known line numbers of the elements of a document. -/
def Node.lines : Node → List Int
  | .elem _ _ _ _ _ children line => line.toList ++ Node.linesList children
  | _ => []
def Node.linesList : List Node → List Int
  | [] => []
  | n :: ns => n.lines ++ Node.linesList ns
end

mutual
/-- Every element of the document has a line number, and there are no processing instructions. -/
def Node.AllLines : Node → Prop
  | .elem _ _ _ _ _ children line => (∃ l, line = some l) ∧ Node.AllLinesList children
  | .comment _ _ => True
  | .pi _ _ => False
def Node.AllLinesList : List Node → Prop
  | [] => True
  | n :: ns => n.AllLines ∧ Node.AllLinesList ns
end

/-- Pydantic only reports errors of classes that are not root models, and locates each of them at or below a field (not at
an alias, not at the class as a whole). -/
def Env.ErrorsAtFields (env : Env) : Prop :=
  ∀ cls m e, env.model cls = some m →
    match m.body with
    | .fields fs => ∀ d, env.validate cls (.dict d) = .error e → ∀ l ∈ e.errs, ∃ f ∈ fs, ∃ rest, l.loc = .name f.name :: rest
    | .root _ => ∀ v, env.validate cls v ≠ .error e

mutual
/-- The documents agree in tags, texts, tails, lines, comments and processing instructions, and in the values (or absence)
of the attributes named in `K`; other attributes, the order of the attributes and prefix declarations may differ. -/
def Node.AgreeIn (K : List String) : Node → Node → Prop
  | .elem tag attrib _ text tail children line, .elem tag' attrib' _ text' tail' children' line' =>
    tag = tag' ∧ text = text' ∧ tail = tail' ∧ line = line' ∧ (∀ k ∈ K, attrib.get? k = attrib'.get? k) ∧
      Node.AgreeInList K children children'
  | .comment text tail, .comment text' tail' => text = text' ∧ tail = tail'
  | .pi text tail, .pi text' tail' => text = text' ∧ tail = tail'
  | _, _ => False
def Node.AgreeInList (K : List String) : List Node → List Node → Prop
  | [], [] => True
  | n :: ns, n' :: ns' => n.AgreeIn K n' ∧ Node.AgreeInList K ns ns'
  | _, _ => False
end

mutual
/-- No element has two attributes of the same name, as XML demands. -/
def Node.AttrsOnce : Node → Prop
  | .elem _ attrib _ _ _ children _ => (attrib.map (·.1)).Nodup ∧ Node.AttrsOnceList children
  | _ => True
def Node.AttrsOnceList : List Node → Prop
  | [] => True
  | n :: ns => n.AttrsOnce ∧ Node.AttrsOnceList ns
end

/-- The attributes the field looks for are named in `K`; in particular it is not a dictionary, which takes all attributes
of an element. -/
def Ser.ReadsAttrs (K : List String) : Ser → Prop
  | .attr name _ => name ∈ K
  | .tagged _ _ name _ _ => name ∈ K
  | .attrs _ => False
  | .mapElem _ _ _ => False
  | _ => True

/-- An element of the given tag without text, attributes and children. -/
def Node.Empty (t : String) : Node → Prop
  | .elem tag attrib _ text _ children _ => tag = t ∧ (text = none ∨ text = some "") ∧ attrib = [] ∧ children = []
  | _ => False

mutual
/-- All empty elements strictly below the node have a tag in `W`. -/
def Node.EmptyBelow (W : String → Prop) : Node → Prop
  | .elem _ _ _ _ _ children _ => Node.EmptyBelowList W children
  | _ => True
def Node.EmptyBelowList (W : String → Prop) : List Node → Prop
  | [] => True
  | n :: ns => (∀ t, n.Empty t → W t) ∧ n.EmptyBelow W ∧ Node.EmptyBelowList W ns
end

/-- The names of the wrapper elements around a field are in `W`. -/
def Ser.WrappersIn (W : String → Prop) : Ser → Prop
  | .wrap path _ _ _ _ => ∀ t ∈ path, W t
  | _ => True

/-- The child elements of a node. -/
def Node.children : Node → List Node
  | .elem _ _ _ _ _ cs _ => cs
  | _ => []

mutual
/-- The document without the elements, at any depth, whose tags are not in `K`. -/
def Node.dropForeign (K : List String) : Node → Node
  | .elem tag attrib nsmap text tail children line =>
    .elem tag attrib nsmap text tail (Node.dropForeignList K children) line
  | n => n
def Node.dropForeignList (K : List String) : List Node → List Node
  | [] => []
  | n :: ns => if n.tag ∈ K then n.dropForeign K :: Node.dropForeignList K ns else Node.dropForeignList K ns
end

/-- The documents differ in the order of children only, at every depth. -/
inductive Node.Shuffled : Node → Node → Prop
  | refl (n : Node) : Shuffled n n
  | elem {tag : String} {attrib : Dict String String} {nsmap : NsMap} {text tail : Option String} {line : Option Int}
      {l1 l l2 : List Node} : l1.length = l.length →
      (∀ (i : Nat) (c1 c2 : Node), l1[i]? = some c1 → l[i]? = some c2 → Shuffled c1 c2) → l.Perm l2 →
      Shuffled (.elem tag attrib nsmap text tail l1 line) (.elem tag attrib nsmap text tail l2 line)

mutual
/-- Each tag in `K` occurs at most once among the children of any element of the document. -/
def Node.UniqueTags (K : List String) : Node → Prop
  | .elem _ _ _ _ _ children _ =>
    (∀ t ∈ K, (children.map Node.tag).count t ≤ 1) ∧ Node.UniqueTagsList K children
  | _ => True
def Node.UniqueTagsList (K : List String) : List Node → Prop
  | [] => True
  | n :: ns => n.UniqueTags K ∧ Node.UniqueTagsList K ns
end

/-- The tags a field looks for itself, with the search mode. -/
def Ser.searches : Ser → List (String × Mode)
  | .elem name _ mode _ _ => [(name, mode)]
  | .mapElem _ name mode => [(name, mode)]
  | .raw name mode _ => [(name, mode)]
  | .proxy p => [(p.name, p.mode)]
  | .tagged _ _ _ mode alts => alts.map fun a => (a.2.name, mode)
  | .wrap path _ mode _ _ => path.map fun t => (t, mode)
  | _ => []

/-- The field only looks for tags in `K`, in the given mode. -/
def Ser.LooksFor (K : List String) (mode : Mode) (s : Ser) : Prop := ∀ tm ∈ s.searches, tm.1 ∈ K ∧ tm.2 = mode

/-- The field is not a (plain) union of models. -/
def Ser.NotUnion : Ser → Prop
  | .modelUnion _ _ _ => False
  | _ => True

/-- No field of any class is a raw element. -/
def Ser.NotRaw : Ser → Prop
  | .raw _ _ _ => False
  | _ => True

/-- No class has `extra='forbid'`. -/
def Env.NoForbid (env : Env) : Prop := ∀ cls m, env.model cls = some m → m.extraForbid = false

/-! ## Outcomes -/

/-- The error with its line numbers normalised. -/
def VErr.lines (norm : Int → Int) (e : VErr) : VErr :=
  { e with errs := e.errs.map fun l => { l with line := l.line.map norm } }

/-- The outcome with the line numbers of its error normalised. -/
def Out.lines {α : Type} (norm : Int → Int) : Out α → Out α
  | .verr e => .verr (e.lines norm)
  | o => o

/-- The outcome without line numbers. -/
def Out.noLines {α : Type} (o : Out α) : Out α := o.lines fun _ => -1

/-- The errors among the outcomes. -/
def failures (outs : List (Out Val)) : List VErr := outs.filterMap fun o => match o with | .verr e => some e | _ => none

/-- The errors below a name. -/
def VErr.under (e : VErr) (k : LocPart) : List LineErr := e.errs.map fun l => { l with loc := k :: l.loc }

/-- The outcome is a value or a validation error. -/
def Out.IsItem (o : Out Val) : Prop := (∃ v, o = .ok v ∧ v ≠ .none) ∨ ∃ e, o = .verr e

/-- The values among the outcomes. -/
def values (outs : List (Out Val)) : List Val := outs.filterMap fun o => match o with | .ok v => some v | _ => none

/-- What is reported of failed items: their errors in order, each below the position of its item. -/
def itemErrors (outs : List (Out Val)) : List LineErr :=
  outs.zipIdx.flatMap fun oi => match oi.1 with | .verr e => e.under (.idx oi.2) | _ => []

/-- The outcome is a value, possibly `None`, or a validation error. -/
def Out.Returns (o : Out Val) : Prop := (∃ v, o = .ok v) ∨ ∃ e, o = .verr e

/-! ## Data nobody has read -/

mutual
/-- The elements of a tree in document order, each with the path that leads to it. -/
def Elem.subtree (path : List String) : Elem → List (List String × Elem)
  | ⟨tag, nsmap, text, tail, attrib, elements, next, line⟩ =>
    (path, ⟨tag, nsmap, text, tail, attrib, elements, next, line⟩) :: Elem.subtreeList path elements
def Elem.subtreeList (path : List String) : List Elem → List (List String × Elem)
  | [] => []
  | c :: cs => Elem.subtree (path ++ [c.tag]) c ++ Elem.subtreeList path cs
end

/-- The text or tail, stripped, if it is not blank. -/
def nonBlank : Option String → List String
  | none => []
  | some t => if Elem.strip t = "" then [] else [Elem.strip t]

/-- The error for a piece of data at a path of a document that no field has read. -/
def forbidden (path : List String) (line : Int) (attr : Option String) (value : String) : LineErr :=
  { ty := "extra_forbidden", msg := "Extra inputs are not permitted",
    loc := path.map .name ++ (attr.toList.filter (· ≠ "")).map (fun a => .name ("@" ++ a)),
    input := .str value, line := some line }

/-- The errors for everything in the tree that no field has read: non-blank text, non-blank tails, attributes. -/
def Elem.leftovers (e : Elem) : List LineErr :=
  (e.subtree []).flatMap fun pd =>
    (nonBlank pd.2.text).map (forbidden pd.1 pd.2.line none) ++ (nonBlank pd.2.tail).map (forbidden pd.1 pd.2.line none)
      ++ (pd.2.attrib.getD []).map fun kv => forbidden pd.1 pd.2.line (some kv.1) kv.2

/-! ## Reading the fields of a model -/

/-- Reading one field of a model: the line of the element is noted for the field, then the custom validator or the
serializer of the field is run. -/
def readField (read : Ser → Loc → St → Out Val × St) (f : Field) (st : St) : Out Val × St :=
  let st : St := { st with sm := st.sm.set [.name f.name] st.el.line }
  match f.validator with
  | some v => ((v st.el).1, { st with el := (v st.el).2 })
  | none => read f.ser [.name f.name] st

/-- The fields of a model read one after the other, all of them, whether they fail or not: the outcomes and the final state. -/
def runFields (read : Ser → Loc → St → Out Val × St) : List Field → St → List (Out Val) × St
  | [], st => ([], st)
  | f :: fs, st =>
    ((readField read f st).1 :: (runFields read fs (readField read f st).2).1, (runFields read fs (readField read f st).2).2)

/-- The errors of the failing fields, in field order, each below the name of its field. -/
def fieldErrors (fs : List Field) (outs : List (Out Val)) : List LineErr :=
  (fs.zip outs).flatMap fun fo => match fo.2 with | .verr e => e.under (.name fo.1.name) | _ => []

/-- The values that were found, by alias or name of the field. -/
def fieldData (fs : List Field) (outs : List (Out Val)) : Dict String Val :=
  Dict.ofItems ((fs.zip outs).filterMap fun fo =>
    match fo.2 with | .ok v => if v.isNone then none else some (fo.1.alias.getD fo.1.name, v) | _ => none)

/-- The tag and search mode of a field that reads a single child element. -/
def Ser.item? : Ser → Option (String × Mode)
  | .elem name _ mode false _ => some (name, mode)
  | .mapElem a name mode => if a.computed then none else some (name, mode)
  | .raw name mode false => some (name, mode)
  | .proxy p => if p.computed then none else some (p.name, p.mode)
  | _ => none

/-- The element such a field is read from: the child it would take, if there is one; the enclosing element for all other
fields. -/
def Ser.source (s : Ser) (e : Elem) : Elem :=
  match s.item? with
  | some (tag, mode) => (e.candidate tag mode).getD e
  | none => e

/-- The child that a wrapped field goes into: the child read last if it has the tag, else the one a lookup takes. -/
def Elem.wrapper? (e : Elem) (tag : String) (mode : Mode) : Option Elem :=
  match e.seen.getLast? with
  | some c => if c.tag = tag then some c else e.candidate tag mode
  | none => e.candidate tag mode

/-- The element at the end of the path of a wrapped field, if it is there. -/
def Elem.wrapperAt (mode : Mode) : List String → Elem → Option Elem
  | [], e => some e
  | t :: ts, e =>
    match e.wrapper? t mode with
    | some c => Elem.wrapperAt mode ts c
    | none => none

/-- Where a field is read: the field inside the wrappers with the innermost wrapper, or, if a wrapper is missing, nothing with
the element that should enclose it. -/
inductive Ser.ReadAt : Ser → Elem → Option Ser → Elem → Prop
  | wrap {path : List String} {nsmap : Option NsMap} {mode : Mode} {inner : Ser} {e w e' : Elem} {s : Option Ser} :
      e.wrapperAt mode path = some w → ReadAt inner w s e' → ReadAt (.wrap path nsmap mode false inner) e s e'
  | missing {path : List String} {nsmap : Option NsMap} {mode : Mode} {inner : Ser} {e : Elem} :
      e.wrapperAt mode path = none → ReadAt (.wrap path nsmap mode false inner) e none e
  | union {inner : Ser} {e e' : Elem} {s : Option Ser} : ReadAt inner e s e' → ReadAt (.primUnion false inner) e s e'
  | here {s : Ser} {e : Elem} : ReadAt s e (some s) e

/-- The element that a field placed there is read from. -/
def Elem.sourceOf (e : Elem) : Option Ser → Elem
  | some s => s.source e
  | none => e

/-- The element after the first items of a tuple were read from it, one after the other, starting with the item at position
`k`. -/
def afterItems (read : Ser → Loc → St → Out Val × St) (loc : Loc) : Nat → List Ser → Elem → Elem
  | _, [], e => e
  | k, s :: ss, e => afterItems read loc (k + 1) ss (read s (loc ++ [.idx k]) ⟨e, []⟩).2.el

/-- The field is a computed field. -/
def Ser.computed : Ser → Bool
  | .text c _ | .attr _ c | .elem _ _ _ c _ | .raw _ _ c | .primUnion c _ | .modelUnion _ c _ | .tagged c _ _ _ _
  | .wrap _ _ _ c _ | .homog _ c _ | .hetero _ c _ => c
  | .attrs a | .mapElem a _ _ => a.computed
  | .proxy p => p.computed

/-- The class without the fields in `K`. -/
def ModelSer.without (K : Field → Bool) (m : ModelSer) : ModelSer :=
  match m.body with
  | .fields fs => { m with body := .fields (fs.filter fun f => !K f) }
  | .root _ => m

/-- The same classes without the fields in `K`. -/
def Env.without (env : Env) (K : String → Field → Bool) : Env :=
  { env with model := fun cls => (env.model cls).map (ModelSer.without (K cls)) }

/-- Nothing in the element is for the field: no text, no such attribute, no unread child with the tag (for a wrapped field:
neither such an unread child nor a wrapper just read). -/
inductive Ser.Absent (eas : Bool) (e : Elem) : Ser → Prop
  | text {c nillable : Bool} : eas = false → e.text = none → (nillable = true → e.getAttrib Elem.nilAttr = none) →
      Absent eas e (.text c nillable)
  | attr {name : String} {c : Bool} : e.getAttrib name = none → Absent eas e (.attr name c)
  | elem {name : String} {nsmap : Option NsMap} {mode : Mode} {c nillable : Bool} : e.candidate name mode = none →
      Absent eas e (.elem name nsmap mode c nillable)
  | attrs {a : AttrsSer} : e.attrib = none → Absent eas e (.attrs a)
  | mapElem {a : AttrsSer} {name : String} {mode : Mode} : e.candidate name mode = none → Absent eas e (.mapElem a name mode)
  | raw {name : String} {mode : Mode} {c : Bool} : e.candidate name mode = none → Absent eas e (.raw name mode c)
  | proxy {p : Proxy} : e.candidate p.name p.mode = none → Absent eas e (.proxy p)
  | primUnion {c : Bool} {inner : Ser} : Absent eas e inner → Absent eas e (.primUnion c inner)
  | modelUnion {title : Title} {c : Bool} {alts : List Proxy} : (∀ p ∈ alts, e.candidate p.name p.mode = none) →
      Absent eas e (.modelUnion title c alts)
  | tagged {c : Bool} {discr attrName : String} {mode : Mode} {alts : List (String × Proxy)} :
      (∀ tp ∈ alts, e.candidate tp.2.name mode = none) → Absent eas e (.tagged c discr attrName mode alts)
  | wrap {t : String} {ts : List String} {nsmap : Option NsMap} {mode : Mode} {c : Bool} {inner : Ser} :
      e.next ≤ e.elements.length → (∀ w, e.seen.getLast? = some w → w.tag ≠ t) → e.candidate t mode = none →
      Absent eas e (.wrap (t :: ts) nsmap mode c inner)
  | homog {title : Title} {c : Bool} {inner : Ser} : Absent eas e inner → Absent eas e (.homog title c inner)
  | hetero {title : Title} {c : Bool} {inners : List Ser} : (∀ s ∈ inners, Absent eas e s) →
      Absent eas e (.hetero title c inners)

/-- Text, attributes, elements with text, mappings, raw elements: fields without an inner structure. -/
def Ser.Leaf : Ser → Prop
  | .text _ _ | .attr _ _ | .elem _ _ _ _ _ | .attrs _ | .mapElem _ _ _ | .raw _ _ _ => True
  | _ => False

/-! ## Mappings -/

/-- The namespace of the entries of a mapping: that of the declared alias, if entries are namespaced. -/
def AttrsSer.space (a : AttrsSer) : Option String :=
  if a.namespaced then a.nsmap.bind fun m => a.ns.bind fun x => if x = "" then none else Dict.get? m x else none

/-- A name without braces and line breaks. -/
def PlainName (k : String) : Prop := '{' ∉ k.toList ∧ '}' ∉ k.toList ∧ '\n' ∉ k.toList

/-! ## Namespace declarations -/

/-- Every pair of a name and a namespace map the field can write an element with is in `D`.  (The elements of a raw field
have arbitrary names and no map.) -/
def Ser.Makes (D : String → Option NsMap → Prop) : Ser → Prop
  | .elem name nsmap _ _ _ => D name nsmap
  | .mapElem a name _ => D name a.nsmap
  | .raw _ _ _ => ∀ t, D t none
  | .proxy p => D p.name p.nsmap
  | .wrap path nsmap _ _ _ => ∀ t ∈ path, D t nsmap
  | _ => True

/-- The namespaces an element declares. -/
def Node.declared : Node → NsMap
  | .elem _ _ nsmap _ _ _ _ => nsmap
  | _ => []

mutual
/-- All elements strictly below the node have a tag and namespace declarations in `D`. -/
def Node.DeclaresBelow (D : String → NsMap → Prop) : Node → Prop
  | .elem _ _ _ _ _ children _ => Node.DeclaresBelowList D children
  | _ => True
def Node.DeclaresBelowList (D : String → NsMap → Prop) : List Node → Prop
  | [] => True
  | n :: ns => D n.tag n.declared ∧ n.DeclaresBelow D ∧ Node.DeclaresBelowList D ns
end

/-- White space: the code points Unicode classes as separators (tab to carriage return, file to unit separator, space, next line, no-break
space, ogham space mark, en quad to hair space, line and paragraph separator, narrow no-break space, medium mathematical space,
ideographic space). -/
def WhiteSpace (c : Char) : Prop :=
  c.toNat ∈ [9, 10, 11, 12, 13, 28, 29, 30, 31, 32, 0x85, 0xA0, 0x1680, 0x2000, 0x2001, 0x2002, 0x2003, 0x2004, 0x2005, 0x2006, 0x2007,
    0x2008, 0x2009, 0x200A, 0x2028, 0x2029, 0x202F, 0x205F, 0x3000]

/-- `t` is `s` without the white space at its ends. -/
def Stripped (s t : String) : Prop :=
  ∃ pre post, s = pre ++ t ++ post ∧ (∀ c ∈ pre.toList ++ post.toList, WhiteSpace c) ∧
    (∀ c, t.toList.head? = some c ∨ t.toList.getLast? = some c → ¬WhiteSpace c)

end PXml
