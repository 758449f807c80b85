import Verif.Element

/-!
# Native trees

Models `pydantic_xml/element/native/lxml.py` and `pydantic_xml/element/native/std.py`: conversion between the trees
of the XML libraries and `XmlElement`.
-/

namespace PXml

/-- Which of the two native modules is in use (`config.FORCE_STD_XML` / lxml installed). -/
inductive Backend where
  | lxml | std
deriving DecidableEq, Repr

/-- A node of an `lxml.etree` / `xml.etree.ElementTree` tree.  `attrib` always is a mapping, `nsmap` is only
meaningful for lxml, `line` is `sourceline` (`none` when lxml does not know it).  Comments and processing
instructions are children that carry a tail.  Simplified: lxml gives a processing instruction a source line and the
pseudo-attributes it finds in its text; here it has neither. -/
inductive Node where
  | elem (tag : String) (attrib : Dict String String) (nsmap : NsMap) (text tail : Option String)
      (children : List Node) (line : Option Int)
  | comment (text tail : Option String)
  | pi (text tail : Option String)
deriving Repr, Inhabited

namespace Node

/-- `is_xml_comment`, lxml.py:64-65, std.py:46-47. -/
def isComment : Node → Bool
  | comment _ _ => true
  | _ => false

/-- `.tag` (the tag of a comment or processing instruction is a function object, unequal to every string; it is
represented by a string that is not an XML name). -/
def tag : Node → String
  | elem t _ _ _ _ _ _ => t
  | comment _ _ => "<!---->"
  | pi _ _ => "<??>"

end Node

/-- `sourceline`, lxml.py:34; std.py passes none and `get_sourceline` is -1, std.py:42-43. -/
def sourceLine : Backend → Option Int → Int
  | .lxml, some l => l
  | .lxml, none => -1
  | .std, _ => -1

mutual
/-- `XmlElement.from_native`, lxml.py:19-35, std.py:17-29: comments are skipped, processing instructions are not,
the namespace map is not kept, the tail text of a skipped comment is lost.  (`force_str`, lxml.py:57-61, is the
identity: strings are values here.) -/
def fromNative (b : Backend) : Node → Elem
  | .elem tag attrib _ text tail children line =>
    { tag := tag, text := text, tail := tail, attrib := some attrib,
      elements := fromNativeList b children, line := sourceLine b line }
  | .comment text tail => { tag := "<!---->", text := text, tail := tail, attrib := some [], line := -1 }
  | .pi text tail => { tag := "<??>", text := text, tail := tail, attrib := some [], line := -1 }
/-- The comprehension lxml.py:29-33, std.py:24-28. -/
def fromNativeList (b : Backend) : List Node → List Elem
  | [] => []
  | n :: ns => if n.isComment then fromNativeList b ns else fromNative b n :: fromNativeList b ns
end

/-- The `nsmap` argument of `etree.Element`, lxml.py:42; std.py:32 passes none. -/
def nativeNsmap : Backend → Option NsMap → NsMap
  | .lxml, some m => m
  | .lxml, none => []
  | .std, _ => []

mutual
/-- `XmlElement.to_native`, lxml.py:37-48, std.py:31-37.  (lxml names the default namespace `None` instead of `''`;
a new lxml element has no source line.)  Simplified: lxml refuses strings that XML does not allow (ValueError) and processing
instructions, whose tag is no string (TypeError); here they are copied like everything else. -/
def toNative (b : Backend) : Elem → Node
  | ⟨tag, nsmap, text, tail, attrib, elements, _, _⟩ =>
    .elem tag (attrib.getD []) (nativeNsmap b nsmap) text tail (toNativeList b elements) none
def toNativeList (b : Backend) : List Elem → List Node
  | [] => []
  | e :: es => toNative b e :: toNativeList b es
end

/-- `make_element`, lxml.py:50-51, std.py:39-40 (std drops the namespace map). -/
def makeElement (b : Backend) (tag : String) (nsmap : Option NsMap) : Elem :=
  { tag := tag, nsmap := match b with | .lxml => nsmap | .std => none }

end PXml
