import Verif.Spec

/-!
# Newer versions of the declarations

Specification for C81: what it means that a program declares more than an older version of it did, that a document uses
none of the additions, and that an instance is the newer version of an older one.
-/

namespace PXml

/-- The names that only the newer version uses: tags of elements and names of attributes. -/
structure Additions where
  tags : List String
  attrs : List String

mutual
/-- No element below the node has a new tag, no element (the node included) has a new attribute. -/
def Node.Lacks (A : Additions) : Node → Prop
  | .elem _ attrib _ _ _ children _ => (∀ k ∈ A.attrs, k ∉ attrib.map Prod.fst) ∧ Node.LacksList A children
  | _ => True
def Node.LacksList (A : Additions) : List Node → Prop
  | [] => True
  | n :: ns => (n.tag ∉ A.tags ∧ n.Lacks A) ∧ Node.LacksList A ns
end

/-- A field for new elements and attributes only: a new attribute; an element with a new tag holding text, a dictionary, a raw
element or a sub-model; a union or tagged union of sub-models with new tags; something wrapped in a new element; a list or
tuple of such; a computed field. -/
inductive Ser.New (A : Additions) : Ser → Prop
  | attr {name : String} {c : Bool} : name ∈ A.attrs → New A (.attr name c)
  | elem {name : String} {nsmap : Option NsMap} {mode : Mode} {c nillable : Bool} : name ∈ A.tags →
      New A (.elem name nsmap mode c nillable)
  | mapElem {a : AttrsSer} {name : String} {mode : Mode} : name ∈ A.tags → New A (.mapElem a name mode)
  | raw {name : String} {mode : Mode} {c : Bool} : name ∈ A.tags → New A (.raw name mode c)
  | proxy {p : Proxy} : p.name ∈ A.tags → New A (.proxy p)
  | primUnion {c : Bool} {inner : Ser} : New A inner → New A (.primUnion c inner)
  | modelUnion {title : Title} {c : Bool} {alts : List Proxy} : (∀ p ∈ alts, p.name ∈ A.tags) → New A (.modelUnion title c alts)
  | tagged {c : Bool} {discr attrName : String} {mode : Mode} {alts : List (String × Proxy)} :
      (∀ tp ∈ alts, tp.2.name ∈ A.tags) → New A (.tagged c discr attrName mode alts)
  | wrap {t : String} {ts : List String} {nsmap : Option NsMap} {mode : Mode} {c : Bool} {inner : Ser} : t ∈ A.tags →
      New A (.wrap (t :: ts) nsmap mode c inner)
  | homog {title : Title} {c : Bool} {inner : Ser} : New A inner → New A (.homog title c inner)
  | hetero {title : Title} {c : Bool} {inners : List Ser} : (∀ s ∈ inners, New A s) → New A (.hetero title c inners)
  | computed {s : Ser} : s.computed = true → New A s

/-- `ys` has a counterpart for each member of `xs`, in the same order, and anywhere in between members satisfying `P`. -/
inductive Inserted {α : Type} (R : α → α → Prop) (P : α → Prop) : List α → List α → Prop
  | nil : Inserted R P [] []
  | keep {x y : α} {xs ys : List α} : R x y → Inserted R P xs ys → Inserted R P (x :: xs) (y :: ys)
  | new {y : α} {xs ys : List α} : P y → Inserted R P xs ys → Inserted R P xs (y :: ys)

/-- The newer version of a field: the same, except that unions and tagged unions (also inside of lists, tuples and wrappers) may
have additional alternatives with new tags. -/
inductive Ser.Grows (A : Additions) (env : Env) : Ser → Ser → Prop
  | same {s : Ser} : Grows A env s s
  | primUnion {c : Bool} {s s' : Ser} : Grows A env s s' → Grows A env (.primUnion c s) (.primUnion c s')
  | modelUnion {title : Title} {c : Bool} {alts alts' : List Proxy} :
      Inserted Eq (fun p => p.name ∈ A.tags ∧ (env.model p.cls).isSome) alts alts' →
      Grows A env (.modelUnion title c alts) (.modelUnion title c alts')
  | tagged {c : Bool} {discr attrName : String} {mode : Mode} {alts alts' : List (String × Proxy)} :
      Inserted Eq (fun tp => tp.2.name ∈ A.tags) alts alts' →
      Grows A env (.tagged c discr attrName mode alts) (.tagged c discr attrName mode alts')
  | wrap {path : List String} {nsmap : Option NsMap} {mode : Mode} {c : Bool} {s s' : Ser} : Grows A env s s' →
      Grows A env (.wrap path nsmap mode c s) (.wrap path nsmap mode c s')
  | homog {title : Title} {c : Bool} {s s' : Ser} : Grows A env s s' → Grows A env (.homog title c s) (.homog title c s')
  | hetero {title : Title} {c : Bool} {ss ss' : List Ser} : ss.length = ss'.length → (∀ p ∈ ss.zip ss', Grows A env p.1 p.2) →
      Grows A env (.hetero title c ss) (.hetero title c ss')

/-- What is put into an instance of a class when it gets new fields: from the fields of the older version, the fields of the
newer version. -/
abbrev Filling := String → List (String × Val) → List (String × Val)

mutual
/-- The value with all instances in it, at any depth, brought to the newer version. -/
def Val.upgrade (fill : Filling) : Val → Val
  | .list vs => .list (Val.upgradeList fill vs)
  | .dict d => .dict (Val.upgradePairs fill d)
  | .model cls fs set => .model cls (fill cls (Val.upgradePairs fill fs)) set
  | v => v
def Val.upgradeList (fill : Filling) : List Val → List Val
  | [] => []
  | v :: vs => v.upgrade fill :: Val.upgradeList fill vs
def Val.upgradePairs (fill : Filling) : List (String × Val) → List (String × Val)
  | [] => []
  | (k, v) :: d => (k, v.upgrade fill) :: Val.upgradePairs fill d
end

/-- The same errors about the upgraded inputs. -/
def VErr.upgrade (fill : Filling) (e : VErr) : VErr :=
  { e with errs := e.errs.map fun l => { l with input := l.input.upgrade fill } }

/-- The outcome with the value or the inputs of the errors brought to the newer version. -/
def Out.upgrade (fill : Filling) : Out Val → Out Val
  | .ok v => .ok (v.upgrade fill)
  | .verr e => .verr (e.upgrade fill)
  | .crash e => .crash e
  | .diverge => .diverge

mutual
/-- How deeply lists, tuples, unions and wrappers are nested in the declaration of a field. -/
def Ser.nesting : Ser → Nat
  | .primUnion _ s | .wrap _ _ _ _ s | .homog _ _ s => s.nesting + 1
  | .hetero _ _ ss => Ser.nestingList ss + 1
  | .modelUnion _ _ _ | .tagged _ _ _ _ _ => 2
  | _ => 1
def Ser.nestingList : List Ser → Nat
  | [] => 0
  | s :: ss => max s.nesting (Ser.nestingList ss)
end

/-- A field that the older version does not have. -/
def Field.New (A : Additions) (K : Nat) (env : Env) (f : Field) : Prop :=
  f.validator = none ∧ f.ser.New A ∧ f.ser.Everywhere (Ser.Resolved env) ∧ f.ser.nesting ≤ K

/-- The newer version of a field: the same name, alias and custom validator (which is handed to instances of the newer
version). -/
def Field.Grows (A : Additions) (fill : Filling) (env : Env) (f f' : Field) : Prop :=
  f'.name = f.name ∧ f'.alias = f.alias ∧ f.ser.Grows A env f'.ser ∧
    f'.validator = f.validator.map fun v e => ((v e).1.upgrade fill, (v e).2)

/-- The newer version of a class: the same settings; new fields at any place, or a grown root. -/
def ModelSer.Grows (A : Additions) (K : Nat) (fill : Filling) (env : Env) (m m' : ModelSer) : Prop :=
  m'.name = m.name ∧ m'.elementName = m.elementName ∧ m'.extraForbid = m.extraForbid ∧ m'.hideInput = m.hideInput ∧
    match m.body, m'.body with
    | .fields fs, .fields fs' => Inserted (Field.Grows A fill env) (Field.New A K env) fs fs'
    | .root s, .root s' => s.Grows A env s'
    | _, _ => False

/-- The newer version of a program: all classes are still there, in a newer version (and there may be more of them); pydantic
accepts the same data as before and adds the values of the new fields to the instance. -/
structure Env.Grows (A : Additions) (K : Nat) (fill : Filling) (env env' : Env) : Prop where
  backend : env'.backend = env.backend
  models : ∀ cls m, env.model cls = some m → ∃ m', env'.model cls = some m' ∧ m.Grows A K fill env' m'
  validate : ∀ cls m d, env.model cls = some m → m.DataOf (fun _ => True) d →
    env'.validate cls (d.upgrade fill) = match env.validate cls d with
      | .ok (fs, set) => .ok (fill cls (Val.upgradePairs fill fs), set)
      | .error e => .error (e.upgrade fill)

end PXml
