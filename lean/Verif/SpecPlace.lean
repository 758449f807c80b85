import Verif.SpecFieldOrder

/-! # Vocabulary of C89: the places that values come from -/

namespace PXml

/-- The node as the root of a document of a class: with the tag of the class and without the attribute `xsi:nil`. -/
def Node.asRoot (tag : String) : Node → Node
  | .elem _ attrib nsmap text tail children line => .elem tag (Dict.erase attrib Elem.nilAttr) nsmap text tail children line
  | .comment text tail => .elem tag [] [] text tail [] none
  | .pi text tail => .elem tag [] [] text tail [] none

/-- The value may be what a field, declared with the serializer, reads from the node: `None`, or
data at the place that the declaration names (only `None` for a computed field).
A sub-model is what its class reads from the child, taken as a document of its own. -/
inductive Ser.Gives (env : Env) (eas : Bool) : Ser → Node → Val → Prop
  | absent {s : Ser} {node : Node} : Gives env eas s node .none
  | text {nl : Bool} {node : Node} {t : String} : node.rootText = some t → Gives env eas (.text false nl) node (.str t)
  | emptyText {nl : Bool} {node : Node} : eas = true → Gives env eas (.text false nl) node (.str "")
  | attr {name : String} {node : Node} {v : String} : (name, v) ∈ node.rootAttrs → Gives env eas (.attr name false) node (.str v)
  | attrs {a : AttrsSer} {node : Node} {d : Dict String Val} : a.computed = false →
      (∀ kv ∈ d, ∃ k v, (k, v) ∈ node.rootAttrs ∧ kv.1 = (if a.namespaced then (QName.fromUri k).tag else k) ∧ kv.2 = .str v) →
      Gives env eas (.attrs a) node (.dict d)
  | elem {name : String} {ns : Option NsMap} {mode : Mode} {nl : Bool} {node k : Node} {v : Val} : k ∈ node.children →
      k.isComment = false → k.tag = name → Gives env eas (.text false nl) k v → Gives env eas (.elem name ns mode false nl) node v
  | mapElem {a : AttrsSer} {name : String} {mode : Mode} {node k : Node} {v : Val} : k ∈ node.children →
      k.isComment = false → k.tag = name → Gives env eas (.attrs a) k v → Gives env eas (.mapElem a name mode) node v
  | raw {name : String} {mode : Mode} {node k : Node} : k ∈ node.children → k.isComment = false → k.tag = name →
      Gives env eas (.raw name mode false) node (.raw (toNative env.backend (fromNative env.backend k)))
  | proxy {p : Proxy} {m : ModelSer} {n : Nat} {node k : Node} {v : Val} : p.computed = false → env.model p.cls = some m → k ∈ node.children →
      k.isComment = false → k.tag = p.name → (fromXmlTree env eas n p.cls (k.asRoot m.elementName)).1 = .ok v →
      Gives env eas (.proxy p) node v
  | primUnion {s : Ser} {node : Node} {v : Val} : Gives env eas s node v → Gives env eas (.primUnion false s) node v
  | modelUnion {title : Title} {alts : List Proxy} {p : Proxy} {node : Node} {v : Val} : p ∈ alts →
      Gives env eas (.proxy p) node v → Gives env eas (.modelUnion title false alts) node v
  | tagged {d a tag : String} {mode : Mode} {alts : List (String × Proxy)} {p : Proxy} {node : Node} {v : Val} : (tag, p) ∈ alts →
      Gives env eas (.proxy p) node v → Gives env eas (.tagged false d a mode alts) node v
  | wrapped {ns : Option NsMap} {mode : Mode} {s : Ser} {node : Node} {v : Val} : Gives env eas s node v →
      Gives env eas (.wrap [] ns mode false s) node v
  | wrap {t : String} {path : List String} {ns : Option NsMap} {mode : Mode} {s : Ser} {node k : Node} {v : Val} :
      k ∈ node.children → k.isComment = false → k.tag = t → Gives env eas (.wrap path ns mode false s) k v →
      Gives env eas (.wrap (t :: path) ns mode false s) node v
  | homog {title : Title} {s : Ser} {node : Node} {vs : List Val} : (∀ v ∈ vs, Gives env eas s node v) →
      Gives env eas (.homog title false s) node (.list vs)
  | hetero {title : Title} {ss : List Ser} {node : Node} {vs : List Val} : vs.length = ss.length →
      (∀ (i : Nat) (s : Ser) (v : Val), ss[i]? = some s → vs[i]? = some v → Gives env eas s node v) → Gives env eas (.hetero title false ss) node (.list vs)

end PXml
