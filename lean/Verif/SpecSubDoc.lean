import Verif.Spec

/-! # Vocabulary of C90: the document of a sub-model in the document of the model -/

namespace PXml

/-- The document with another name and other namespace declarations for its root element. -/
def Node.renamed (tag : String) (nsmap : NsMap) : Node → Node
  | .elem _ attrib _ text tail children line => .elem tag attrib nsmap text tail children line
  | n => n

/-- The document has no text, no attributes and no children. -/
def Node.Bare : Node → Prop
  | .elem _ attrib _ text _ children _ => attrib = [] ∧ (text = none ∨ text = some "") ∧ children = []
  | _ => False

/-- `HasSub s v enc p w e`: writing the value `v`, with the encoded form `enc`, with the serializer `s` means to write the sub-model `w`, with
the encoded form `e`, as the proxy `p` describes, directly into the element: as the value itself, as an item of a list or tuple or as a
member of a union. -/
inductive Ser.HasSub : Ser → Val → Val → Proxy → Val → Val → Prop
  | proxy {p : Proxy} {v enc : Val} : HasSub (.proxy p) v enc p v enc
  | item {title : Title} {c : Bool} {s : Ser} {vs encs : List Val} {i : Nat} {v enc : Val} {p : Proxy} {w e : Val} : vs[i]? = some v →
      encs[i]? = some enc → HasSub s v enc p w e → HasSub (.homog title c s) (.list vs) (.list encs) p w e
  | part {title : Title} {c : Bool} {ss : List Ser} {vs encs : List Val} {i : Nat} {s : Ser} {v enc : Val} {p : Proxy} {w e : Val} :
      ss[i]? = some s → vs[i]? = some v → encs[i]? = some enc → HasSub s v enc p w e →
      HasSub (.hetero title c ss) (.list vs) (.list encs) p w e
  | member {title : Title} {c : Bool} {alts : List Proxy} {p : Proxy} {cls : String} {fields : Dict String Val} {set : List String} {enc : Val} :
      alts.find? (fun q => q.cls = cls) = some p →
      HasSub (.modelUnion title c alts) (.model cls fields set) enc p (.model cls fields set) enc
  | tagged {c : Bool} {d a tag : String} {mode : Mode} {alts : Dict String Proxy} {p : Proxy} {v : Val} {enc : Dict String Val} :
      Dict.get? enc d = some (.str tag) → tag ≠ "" → alts.get? tag = some p → HasSub (.tagged c d a mode alts) v (.dict enc) p v (.dict enc)

/-- The serializer may write into children with the tag that are there already: a wrapped field. -/
inductive Ser.Through (t : String) : Ser → Prop
  | wrap {path : List String} {ns : Option NsMap} {mode : Mode} {c : Bool} {s : Ser} : Through t (.wrap (t :: path) ns mode c s)
  | inner {ns : Option NsMap} {mode : Mode} {c : Bool} {s : Ser} : Through t s → Through t (.wrap [] ns mode c s)
  | union {c : Bool} {s : Ser} : Through t s → Through t (.primUnion c s)
  | item {title : Title} {c : Bool} {s : Ser} : Through t s → Through t (.homog title c s)
  | part {title : Title} {c : Bool} {ss : List Ser} {s : Ser} : s ∈ ss → Through t s → Through t (.hetero title c ss)

end PXml
