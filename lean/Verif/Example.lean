import Verif.Lemmas.Everywhere
import Verif.Tactic

/-!
# A concrete set of model classes

Used beside the theorems to show that their hypotheses are met by non-trivial cases, and as the setting of the
counterexamples.  `validate` and `json` are a miniature of pydantic: presence of required fields, defaults, and the
field-wise encoding of instances.
-/

namespace PXml.Ex

mutual
/-- Encoding of instances as dictionaries, of root models as the encoding of their root. -/
def json : Val → Val
  | .model _ fs _ =>
    match fs with
    | [("root", v)] => json v
    | fs => .dict (jsonItems fs)
  | .list vs => .list (jsonList vs)
  | .dict d => .dict (jsonItems d)
  | v => v
def jsonList : List Val → List Val
  | [] => []
  | v :: vs => json v :: jsonList vs
def jsonItems : List (String × Val) → List (String × Val)
  | [] => []
  | (k, v) :: d => (k, json v) :: jsonItems d
end

/-- Declared fields of a class with their requiredness: missing required fields are errors, other missing fields take
the default `None`; the set fields are the given ones. -/
def check (title : Title) (decl : List (String × Bool)) (d : Dict String Val) :
    Except VErr (List (String × Val) × List String) :=
  let missing := decl.filter fun f => f.2 && (d.get? f.1).isNone
  if missing.isEmpty then
    .ok (decl.map (fun f => (f.1, (d.get? f.1).getD .none)), (decl.map Prod.fst).filter fun f => (d.get? f).isSome)
  else .error ⟨title, missing.map fun f => ⟨"missing", "Field required", [.name f.1], .dict d, none⟩⟩

/-- Declared fields of the example classes. -/
def decl : String → List (String × Bool)
  | "Address" => [("zip", true), ("street", false)]
  | "Person" => [("id", true), ("name", true), ("nick", false), ("mails", false), ("phone", false), ("home", false),
      ("extra", false)]
  | "Tree" => [("id", true), ("kids", false)]
  | "Dog" => [("kind", true), ("name", true)]
  | "Cat" => [("kind", true), ("lives", true)]
  | "Owner" => [("pet", false), ("any", false)]
  | _ => []

def validate (cls : String) (d : Val) : Except VErr (List (String × Val) × List String) :=
  match d with
  | .dict fs => check cls (decl cls) fs
  | .undef => .error ⟨cls, [⟨"missing", "Field required", [], .none, none⟩]⟩
  | v => .ok ([("root", v)], ["root"])

/-- `class Address(BaseXmlModel): zip: str = attr(); street: Optional[str]` -/
def address : ModelSer where
  name := "Address"
  elementName := "Address"
  body := .fields [
    { name := "zip", ser := .attr "zip" false },
    { name := "street", ser := .text false false }]

/-- A class with an attribute, element fields, a nillable one, a list, a wrapped field, a sub-model and a dictionary,
reading in the given mode. -/
def person (mode : Mode) : ModelSer where
  name := "Person"
  elementName := "person"
  body := .fields [
    { name := "id", ser := .attr "id" false },
    { name := "name", ser := .elem "name" none mode false false },
    { name := "nick", ser := .elem "nick" none mode false true },
    { name := "mails", ser := .homog "Person" false (.elem "mail" none mode false false) },
    { name := "phone", ser := .wrap ["contact", "phones"] none mode false (.elem "phone" none mode false false) },
    { name := "home", ser := .proxy { cls := "Address", name := "home", mode := mode } },
    { name := "extra", ser := .mapElem {} "extra" mode }]

/-- A self-referential class: `class Tree: id: str = attr(); kids: Optional[List['Tree']] = element('tree')`. -/
def tree : ModelSer where
  name := "Tree"
  elementName := "tree"
  body := .fields [
    { name := "id", ser := .attr "id" false },
    { name := "kids", ser := .homog "Tree" false (.proxy { cls := "Tree", name := "tree" }) }]

/-- Two alternatives of a union, told apart by the attribute `kind`. -/
def dog : ModelSer where
  name := "Dog"
  elementName := "pet"
  body := .fields [
    { name := "kind", ser := .attr "kind" false },
    { name := "name", ser := .elem "name" none .strict false false }]

def cat : ModelSer where
  name := "Cat"
  elementName := "pet"
  body := .fields [
    { name := "kind", ser := .attr "kind" false },
    { name := "lives", ser := .elem "lives" none .strict false false }]

/-- A tagged union, then a plain union of the same classes. -/
def owner : ModelSer where
  name := "Owner"
  elementName := "owner"
  body := .fields [
    { name := "pet", ser := .tagged false "kind" "kind" .strict
        [("dog", { cls := "Dog", name := "pet" }), ("cat", { cls := "Cat", name := "pet" })] },
    { name := "any", ser := .modelUnion "Owner" false [{ cls := "Dog", name := "pet" }, { cls := "Cat", name := "pet" }] }]

def model (mode : Mode) : String → Option ModelSer
  | "Address" => some address
  | "Person" => some (person mode)
  | "Tree" => some tree
  | "Dog" => some dog
  | "Cat" => some cat
  | "Owner" => some owner
  | _ => none

def env (mode : Mode := .strict) (b : Backend := .lxml) : Env where
  backend := b
  model := model mode
  validate := validate
  toJsonable := json
  reprOf _ := "..."

/-- The example classes, one by one. -/
theorem model_cases {mode : Mode} {b : Backend} {P : String → ModelSer → Prop} (h1 : P "Address" address)
    (h2 : P "Person" (person mode)) (h3 : P "Tree" tree) (h4 : P "Dog" dog) (h5 : P "Cat" cat) (h6 : P "Owner" owner) :
    ∀ cls m, (env mode b).model cls = some m → P cls m := by
  intro cls m h
  simp only [env, model] at h
  split at h <;> first | (injection h with h; subst h; assumption) | exact absurd h (by simp)

/-- The serializers of the example satisfy a condition as soon as the listed ones do. -/
theorem everywhere {mode : Mode} {b : Backend} {P : Ser → Prop}
    (h : ∀ s ∈ [Ser.attr "zip" false, .text false false, .attr "id" false, .elem "name" none mode false false,
      .elem "nick" none mode false true, .homog "Person" false (.elem "mail" none mode false false),
      .elem "mail" none mode false false,
      .wrap ["contact", "phones"] none mode false (.elem "phone" none mode false false),
      .elem "phone" none mode false false, .proxy { cls := "Address", name := "home", mode := mode },
      .mapElem {} "extra" mode, .homog "Tree" false (.proxy { cls := "Tree", name := "tree" }),
      .proxy { cls := "Tree", name := "tree" }, .attr "kind" false, .elem "name" none .strict false false,
      .elem "lives" none .strict false false,
      .tagged false "kind" "kind" .strict
        [("dog", { cls := "Dog", name := "pet" }), ("cat", { cls := "Cat", name := "pet" })],
      .modelUnion "Owner" false [{ cls := "Dog", name := "pet" }, { cls := "Cat", name := "pet" }],
      .proxy { cls := "Dog", name := "pet" }, .proxy { cls := "Cat", name := "pet" }], P s) :
    (env mode b).Everywhere P := by
  simp only [List.forall_mem_cons] at h
  apply model_cases <;>
    simp only [ModelSer.Everywhere, address, person, tree, dog, cat, owner, List.forall_mem_cons,
      Ser.everywhere_text, Ser.everywhere_attr, Ser.everywhere_elem, Ser.everywhere_homog, Ser.everywhere_wrap,
      Ser.everywhere_proxy, Ser.everywhere_mapElem, Ser.everywhere_tagged, Ser.everywhere_modelUnion] <;>
    simp [h]

theorem noValidators {mode : Mode} {b : Backend} :
    ∀ cls m fs, (env mode b).model cls = some m → m.body = .fields fs → ∀ f ∈ fs, f.validator = none := by
  intro cls m fs h
  revert h fs
  suffices h : ∀ cls m, (env mode b).model cls = some m → ∀ fs, m.body = .fields fs → ∀ f ∈ fs, f.validator = none from
    fun fs h' hb => h cls m h' fs hb
  apply model_cases <;> (intro fs hb; injection hb with hb; subst hb; simp)

/-- An element without attributes. -/
def el (tag : String) (text : Option String := none) (children : List Node := [])
    (attrib : Dict String String := []) (line : Option Int := none) : Node :=
  .elem tag attrib [] text none children line

/-- A complete person document. -/
def personDoc : Node :=
  el "person" none [
    el "name" (some "Ann") [] [] (some 2),
    el "nick" none [] [("{http://www.w3.org/2001/XMLSchema-instance}nil", "true")] (some 3),
    el "mail" (some "a@x") [] [] (some 4),
    el "mail" (some "b@x") [] [] (some 5),
    el "contact" none [el "phones" none [el "phone" (some "123")]] [] (some 6),
    el "home" (some "Main St") [] [("zip", "0815")] (some 7),
    el "extra" none [] [("k", "v"), ("l", "w")] (some 8)]
    [("id", "7")] (some 1)

/-- A document with a nested tree. -/
def treeDoc : Node :=
  el "tree" none [el "tree" none [el "tree" none [] [("id", "3")]] [("id", "2")], el "tree" none [] [("id", "4")]]
    [("id", "1")]

/-- A document for `Owner`. -/
def ownerDoc : Node :=
  el "owner" none [
    el "pet" none [el "lives" (some "9")] [("kind", "cat")],
    el "pet" none [el "lives" (some "7")] [("kind", "cat")]]

/-- The instance read from `personDoc`. -/
def ann : Val :=
  .model "Person"
    [("id", .str "7"), ("name", .str "Ann"), ("nick", .none), ("mails", .list [.str "a@x", .str "b@x"]),
     ("phone", .str "123"),
     ("home", .model "Address" [("zip", .str "0815"), ("street", .str "Main St")] ["zip", "street"]),
     ("extra", .dict [("k", .str "v"), ("l", .str "w")])]
    ["id", "name", "mails", "phone", "home", "extra"]

/-- Reading the document gives the instance (a check of the example itself). -/
example : (fromXmlTree (env) false 9 "Person" personDoc).1 = .ok ann := by rfl

example : (fromXmlTree (env .unordered .std) false 9 "Person" personDoc).1 = .ok ann := by rfl

/-- Writing the instance (a check of the example itself): the nillable field is written as nil. -/
example : ((toXmlTree (env) 9 {} "Person" ann).bind fun t => (fromXmlTree (env) false 9 "Person" t).1) = .ok ann := by
  rfl

example : (fromXmlTree (env) false 9 "Tree" treeDoc).1 =
    .ok (.model "Tree" [("id", .str "1"), ("kids", .list [
      .model "Tree" [("id", .str "2"), ("kids", .list [
        .model "Tree" [("id", .str "3"), ("kids", .none)] ["id"]])] ["id", "kids"],
      .model "Tree" [("id", .str "4"), ("kids", .none)] ["id"]])] ["id", "kids"]) := by rfl

example : (fromXmlTree (env) false 9 "Owner" ownerDoc).1 =
    .ok (.model "Owner" [("pet", .model "Cat" [("kind", .str "cat"), ("lives", .str "9")] ["kind", "lives"]),
      ("any", .model "Cat" [("kind", .str "cat"), ("lives", .str "7")] ["kind", "lives"])] ["pet", "any"]) := by rfl

end PXml.Ex
