import Verif.Spec

/-!
# Data that no field reads

What the fields of a class may take from an element, and which data of a document is out of their reach.  Used in the statements of C13
and C45.
-/

namespace PXml

/-- A part of an element. -/
inductive Target where
  /-- its text -/
  | text
  /-- one of its attributes -/
  | attr (name : String)
  /-- the children with the tag, of which only what the serializers take is read -/
  | child (tag : String) (next : List Ser)
  /-- the children with the tag and everything in them -/
  | whole (tag : String)

/-- The serializers of the fields of a class. -/
def ModelSer.sers (m : ModelSer) : List Ser :=
  match m.body with
  | .fields fs => fs.map Field.ser
  | .root s => [s]

/-- What a field may take from the element it is read from.  Computed fields take nothing.  The attribute `xsi:nil` is taken from the
elements of sub-models and of nillable fields. -/
inductive Ser.Takes (env : Env) : Ser → Target → Prop
  | text {nl : Bool} : Takes env (.text false nl) .text
  | nil : Takes env (.text false true) (.attr Elem.nilAttr)
  | attr {name : String} : Takes env (.attr name false) (.attr name)
  | attrs {a : AttrsSer} {name : String} : a.computed = false → Takes env (.attrs a) (.attr name)
  | elem {name : String} {ns : Option NsMap} {mode : Mode} {nl : Bool} :
      Takes env (.elem name ns mode false nl) (.child name [.text false nl])
  | mapElem {a : AttrsSer} {name : String} {mode : Mode} : a.computed = false →
      Takes env (.mapElem a name mode) (.child name [.attrs a])
  | raw {name : String} {mode : Mode} : Takes env (.raw name mode false) (.whole name)
  | proxy {p : Proxy} {m : ModelSer} : p.computed = false → env.model p.cls = some m →
      Takes env (.proxy p) (.child p.name (.attr Elem.nilAttr false :: m.sers))
  | wrap {t : String} {ts : List String} {ns : Option NsMap} {mode : Mode} {inner : Ser} :
      Takes env (.wrap (t :: ts) ns mode false inner) (.child t [.wrap ts ns mode false inner])
  | wrapped {ns : Option NsMap} {mode : Mode} {inner : Ser} {x : Target} : Takes env inner x →
      Takes env (.wrap [] ns mode false inner) x
  | primUnion {inner : Ser} {x : Target} : Takes env inner x → Takes env (.primUnion false inner) x
  | modelUnion {title : Title} {alts : List Proxy} {p : Proxy} {x : Target} : p ∈ alts → Takes env (.proxy p) x →
      Takes env (.modelUnion title false alts) x
  | tagged {d a : String} {mode : Mode} {alts : List (String × Proxy)} {p : String × Proxy} {x : Target} : p ∈ alts →
      Takes env (.proxy p.2) x → Takes env (.tagged false d a mode alts) x
  | homog {title : Title} {inner : Ser} {x : Target} : Takes env inner x → Takes env (.homog title false inner) x
  | hetero {title : Title} {inners : List Ser} {s : Ser} {x : Target} : s ∈ inners → Takes env s x →
      Takes env (.hetero title false inners) x

/-- The piece of data is somewhere in the node, out of reach of fields with the serializers `ss` that are read from the node: none of them
takes the text, or the attribute, or goes to the child where the piece is in order to take it there.  Tail texts are taken only together
with the whole element. -/
inductive Node.Unread (env : Env) : List Ser → Node → Piece → Prop
  | text {ss : List Ser} {tag : String} {attrib : Dict String String} {nsmap : NsMap} {t : String} {tail : Option String}
      {children : List Node} {line : Option Int} : (∀ s ∈ ss, ¬ s.Takes env .text) →
      Unread env ss (.elem tag attrib nsmap (some t) tail children line) (.text t)
  | tail {ss : List Ser} {tag : String} {attrib : Dict String String} {nsmap : NsMap} {text : Option String} {t : String}
      {children : List Node} {line : Option Int} :
      Unread env ss (.elem tag attrib nsmap text (some t) children line) (.tail t)
  | attr {ss : List Ser} {tag : String} {attrib : Dict String String} {nsmap : NsMap} {text tail : Option String}
      {children : List Node} {line : Option Int} {k v : String} : (k, v) ∈ attrib → (∀ s ∈ ss, ¬ s.Takes env (.attr k)) →
      Unread env ss (.elem tag attrib nsmap text tail children line) (.attr k v)
  | child {ss ss' : List Ser} {tag : String} {attrib : Dict String String} {nsmap : NsMap} {text tail : Option String}
      {children : List Node} {line : Option Int} {c : Node} {p : Piece} : c ∈ children →
      (∀ s ∈ ss, ¬ s.Takes env (.whole c.tag)) →
      (∀ s ∈ ss, ∀ next, s.Takes env (.child c.tag next) → ∀ s' ∈ next, s' ∈ ss') →
      Unread env ss' c p → Unread env ss (.elem tag attrib nsmap text tail children line) p
  | piText {ss : List Ser} {t : String} {tail : Option String} : (∀ s ∈ ss, ¬ s.Takes env .text) →
      Unread env ss (.pi (some t) tail) (.text t)
  | piTail {ss : List Ser} {text : Option String} {t : String} : Unread env ss (.pi text (some t)) (.tail t)

/-- The piece is a text or tail of white space. -/
def Piece.Blank : Piece → Prop
  | .text s => Elem.strip s = ""
  | .tail s => Elem.strip s = ""
  | .attr _ _ => False

/-- The element is somewhere below the node, and no field with one of the serializers `ss` goes to it. -/
inductive Node.Stranger (env : Env) : List Ser → Node → Node → Prop
  | here {ss : List Ser} {n c : Node} : c ∈ n.children → (∀ s ∈ ss, ¬ s.Takes env (.whole c.tag)) →
      (∀ s ∈ ss, ∀ next, ¬ s.Takes env (.child c.tag next)) → Stranger env ss n c
  | inside {ss ss' : List Ser} {n c x : Node} : c ∈ n.children → (∀ s ∈ ss, ¬ s.Takes env (.whole c.tag)) →
      (∀ s ∈ ss, ∀ next, s.Takes env (.child c.tag next) → ∀ s' ∈ next, s' ∈ ss') → Stranger env ss' c x →
      Stranger env ss n x

end PXml
