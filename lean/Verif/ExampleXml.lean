import Verif.SpecText

/-!
# A small XML printer and parser

Not a model of code in the repository: a printer and a parser for documents without namespaces, comments, processing instructions, CDATA
sections and declarations, which show that the hypothesis of C68 about the XML library can be met, for all documents with plain names.
Texts and attribute values are arbitrary strings.
-/

namespace PXml
namespace Xml

/-- Escaping of texts and attribute values; line breaks are left as they are in texts. -/
def escapeChar (attr : Bool) : Char → List Char
  | '&' => "&amp;".toList
  | '<' => "&lt;".toList
  | '>' => "&gt;".toList
  | '"' => "&quot;".toList
  | '\n' => if attr then "&#10;".toList else ['\n']
  | '\r' => "&#13;".toList
  | '\t' => "&#9;".toList
  | c => [c]

def escape (attr : Bool) (s : List Char) : List Char := s.flatMap (escapeChar attr)

/-- Entities and character references; carriage returns that are not written as a reference become line feeds. -/
def unescape : List Char → List Char
  | '&' :: 'a' :: 'm' :: 'p' :: ';' :: cs => '&' :: unescape cs
  | '&' :: 'l' :: 't' :: ';' :: cs => '<' :: unescape cs
  | '&' :: 'g' :: 't' :: ';' :: cs => '>' :: unescape cs
  | '&' :: 'q' :: 'u' :: 'o' :: 't' :: ';' :: cs => '"' :: unescape cs
  | '&' :: '#' :: '1' :: '0' :: ';' :: cs => '\n' :: unescape cs
  | '&' :: '#' :: '1' :: '3' :: ';' :: cs => '\r' :: unescape cs
  | '&' :: '#' :: '9' :: ';' :: cs => '\t' :: unescape cs
  | '\r' :: '\n' :: cs => '\n' :: unescape cs
  | '\r' :: cs => '\n' :: unescape cs
  | c :: cs => c :: unescape cs
  | [] => []

def isNameChar (c : Char) : Bool := c.isAlphanum || c = '_' || c = '-' || c = '.'

/-- A name: not empty, made of letters, digits and `_-.`. -/
def IsName (s : String) : Prop := s.toList ≠ [] ∧ ∀ c ∈ s.toList, isNameChar c = true

def printAttrs : Dict String String → List Char
  | [] => []
  | (k, v) :: kvs => ' ' :: (k.toList ++ '=' :: '"' :: (escape true v.toList ++ '"' :: printAttrs kvs))

def printText : Option String → List Char
  | none => []
  | some s => escape false s.toList

mutual
def printNode : Node → List Char
  | .elem tag attrib _ text tail children _ =>
    '<' :: (tag.toList ++ (printAttrs attrib ++ '>' :: (printText text ++ (printNodes children ++
      '<' :: '/' :: (tag.toList ++ '>' :: printText tail)))))
  | _ => []
def printNodes : List Node → List Char
  | [] => []
  | n :: ns => printNode n ++ printNodes ns
end

/-- A line break with two spaces for each level. -/
def lineBreak (level : Nat) : String := String.ofList ('\n' :: List.replicate (2 * level) ' ')

mutual
/-- Line breaks are put after every element, and as the text of elements that have children and no text. -/
def indented (level : Nat) : Node → Node
  | .elem tag attrib nsmap text _ children line =>
    .elem tag attrib nsmap (if children.isEmpty || text.isSome then text else some (lineBreak (level + 1))) (some (lineBreak level))
      (indentedList (level + 1) children) line
  | n => n
def indentedList (level : Nat) : List Node → List Node
  | [] => []
  | n :: ns => indented level n :: indentedList level ns
end

/-- A text as the parser gives it: none if there are no characters. -/
def textOf (cs : List Char) : Option String := if cs.isEmpty then none else some (String.ofList (unescape cs))

/-- Attributes up to `>`. -/
def parseAttrs : Nat → List Char → Option (Dict String String × List Char)
  | 0, _ => none
  | _ + 1, '>' :: cs => some ([], cs)
  | n + 1, ' ' :: cs =>
    match cs.dropWhile isNameChar with
    | '=' :: '"' :: r =>
      match r.dropWhile (· ≠ '"') with
      | '"' :: r' =>
        (parseAttrs n r').map fun x =>
          ((String.ofList (cs.takeWhile isNameChar), String.ofList (unescape (r.takeWhile (· ≠ '"')))) :: x.1, x.2)
      | _ => none
    | _ => none
  | _, _ => none

mutual
/-- An element with its tail. -/
def parseNode : Nat → List Char → Option (Node × List Char)
  | 0, _ => none
  | n + 1, '<' :: cs =>
    match parseAttrs n (cs.dropWhile isNameChar) with
    | none => none
    | some (attrib, r) =>
      match parseNodes n (r.dropWhile (· ≠ '<')) with
      | some (children, '<' :: '/' :: r') =>
        if r'.takeWhile isNameChar = cs.takeWhile isNameChar then
          match r'.dropWhile isNameChar with
          | '>' :: r'' =>
            some (.elem (String.ofList (cs.takeWhile isNameChar)) attrib [] (textOf (r.takeWhile (· ≠ '<')))
              (textOf (r''.takeWhile (· ≠ '<'))) children (some 1), r''.dropWhile (· ≠ '<'))
          | _ => none
        else none
      | _ => none
  | _, _ => none
/-- Elements up to the end tag of the parent. -/
def parseNodes : Nat → List Char → Option (List Node × List Char)
  | 0, _ => none
  | _ + 1, '<' :: '/' :: cs => some ([], '<' :: '/' :: cs)
  | n + 1, cs =>
    match parseNode n cs with
    | none => none
    | some (c, r) => (parseNodes n r).map fun x => (c :: x.1, x.2)
end

def print (n : Node) : Except PyErr String := .ok (String.ofList (printNode n))

/-- Printing with indentation. -/
def pretty (n : Node) : Except PyErr String := print (indented 0 n)

def parse (s : String) : Except PyErr Node :=
  match parseNode (2 * s.toList.length + 1) s.toList with
  | some (n, []) => .ok n
  | _ => .error .parsingError

end Xml
end PXml
