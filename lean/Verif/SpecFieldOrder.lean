import Verif.SpecUnread

/-! # Vocabulary of C87: fields that do not get into each other's way -/

namespace PXml

/-- The field goes to the children with the tag of the element it is read from. -/
def Ser.GoesTo (env : Env) (s : Ser) (t : String) : Prop :=
  s.Takes env (.whole t) ∨ ∃ next, s.Takes env (.child t next)

/-- The fields have nothing in common: they do not both take the text, or the same attribute, or go to children with the same tag. -/
def Ser.Unrelated (env : Env) (s s' : Ser) : Prop :=
  ¬ (s.Takes env .text ∧ s'.Takes env .text) ∧ (∀ k, ¬ (s.Takes env (.attr k) ∧ s'.Takes env (.attr k))) ∧
    ∀ t, ¬ (s.GoesTo env t ∧ s'.GoesTo env t)

/-- The field looks for children of its element in unordered mode.  (Models it contains may use other modes.)  Unions of models are left out:
if none of the alternatives is valid they pass over an element.  The classes of a discriminated union are complete. -/
inductive Ser.Unordered (env : Env) : Ser → Prop
  | text {c nl : Bool} : Unordered env (.text c nl)
  | attr {name : String} {c : Bool} : Unordered env (.attr name c)
  | attrs {a : AttrsSer} : Unordered env (.attrs a)
  | elem {name : String} {ns : Option NsMap} {c nl : Bool} : Unordered env (.elem name ns .unordered c nl)
  | mapElem {a : AttrsSer} {name : String} : Unordered env (.mapElem a name .unordered)
  | raw {name : String} {c : Bool} : Unordered env (.raw name .unordered c)
  | proxy {p : Proxy} : p.mode = .unordered → Unordered env (.proxy p)
  | primUnion {c : Bool} {s : Ser} : Unordered env s → Unordered env (.primUnion c s)
  | tagged {c : Bool} {d a : String} {alts : List (String × Proxy)} :
      (∀ p ∈ alts, p.2.mode = .unordered ∧ p.2.computed = false ∧ (env.model p.2.cls).isSome) →
      Unordered env (.tagged c d a .unordered alts)
  | wrap {t : String} {path : List String} {ns : Option NsMap} {c : Bool} {s : Ser} : Unordered env (.wrap (t :: path) ns .unordered c s)
  | homog {title : Title} {c : Bool} {s : Ser} : Unordered env s → Unordered env (.homog title c s)
  | hetero {title : Title} {c : Bool} {ss : List Ser} : (∀ s ∈ ss, Unordered env s) → Unordered env (.hetero title c ss)

/-- Of the children with a tag that the field goes to there is at most one. -/
def Node.SingleFor (env : Env) (root : Node) (s : Ser) : Prop :=
  ∀ t, s.GoesTo env t → ((root.children.filter fun c => !c.isComment).filter fun c => c.tag = t).length ≤ 1

/-- The text of the node itself. -/
def Node.rootText : Node → Option String
  | .elem _ _ _ text _ _ _ => text
  | .comment text _ => text
  | .pi text _ => text

/-- The attributes of the node itself. -/
def Node.rootAttrs : Node → Dict String String
  | .elem _ attrib _ _ _ _ _ => attrib
  | _ => []

/-- The documents agree on everything that a field with one of the serializers may take from the root element: on the text, on the attributes
that it takes, and on the children with the tags that it goes to, of which there is at most one of each tag. -/
structure Node.AgreeFor (env : Env) (ss : List Ser) (root root' : Node) : Prop where
  tag : root.tag = root'.tag
  text : (∃ s ∈ ss, s.Takes env .text) → root.rootText = root'.rootText
  attr : ∀ k, (∃ s ∈ ss, s.Takes env (.attr k)) → root.rootAttrs.filter (fun kv => kv.1 = k) = root'.rootAttrs.filter (fun kv => kv.1 = k)
  attrs : (∀ k, ∃ s ∈ ss, s.Takes env (.attr k)) → root.rootAttrs = root'.rootAttrs
  children : ∀ t, (∃ s ∈ ss, s.GoesTo env t) →
    (root.children.filter fun c => !c.isComment && c.tag = t) = root'.children.filter fun c => !c.isComment && c.tag = t
  single : ∀ s ∈ ss, root.SingleFor env s

/-- The name under which a field is handed to validation. -/
def Field.key (f : Field) : String := f.alias.getD f.name

/-- The fields of a class do not get into each other's way: they have no custom validators, are read in unordered mode, have nothing in
common, and have different names. -/
structure Independent (env : Env) (fs : List Field) : Prop where
  validator : ∀ f ∈ fs, f.validator = none
  unordered : ∀ f ∈ fs, f.ser.Unordered env
  apart : fs.Pairwise fun f g => f.ser.Unrelated env g.ser
  names : (fs.map Field.name).Nodup
  keys : (fs.map Field.key).Nodup

/-- The same errors (kind, message and location), whatever their order and line numbers.  (The input that an error shows may be the data of
the class, with its items in another order.) -/
def VErr.SameErrors (e e' : VErr) : Prop :=
  (e.errs.map fun l => (l.ty, l.msg, l.loc)).Perm (e'.errs.map fun l => (l.ty, l.msg, l.loc))

/-- pydantic validates the two classes alike, and the order of the data plays no part in it. -/
def ValidatesAlike (env : Env) (A B : String) : Prop :=
  ∀ d d' : Dict String Val, d.Perm d' →
    match env.validate A (.dict d), env.validate B (.dict d') with
    | .ok (x, s), .ok (y, s') => x.Perm y ∧ s.Perm s'
    | .error e, .error e' => e.SameErrors e'
    | _, _ => False

/-- The same instance of the class `A` and of the class `B` up to the order of its fields, the same errors up to order and lines, or both
times another exception (or no end). -/
inductive SameUpToOrder (A B : String) : Out Val → Out Val → Prop
  | ok {x y : List (String × Val)} {s s' : List String} : x.Perm y → s.Perm s' →
      SameUpToOrder A B (.ok (.model A x s)) (.ok (.model B y s'))
  | verr {e e' : VErr} : e.SameErrors e' → SameUpToOrder A B (.verr e) (.verr e')
  | raised {o o' : Out Val} : (∀ v, o ≠ .ok v) → (∀ e, o ≠ .verr e) → (∀ v, o' ≠ .ok v) → (∀ e, o' ≠ .verr e) → SameUpToOrder A B o o'

end PXml
