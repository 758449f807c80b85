import Verif.Lemmas.Effort
import Verif.Example

/-!
# The effort of reading (C64)
-/

namespace PXml
namespace Threaded

variable {C W : Type}

/-- C64: if no field is a union of model classes without discriminator, then whatever the classes, the document and the
validators, `from_xml_tree` calls `model_validate` at most once for each element of the document. -/
theorem C64_once_per_element (E : TEnv C W) (hU : E.NoUnions) (hR : E.ValidatorsRead) (n : Nat) (cls : String) (root : Node)
    (hroot : root.isComment = false) (context : Option C) (emptyAsString : Bool) (w : W) :
    (fromXmlTree E.noted n cls root context emptyAsString (w, [])).2.2.length ≤ root.elementCount := by
  have := fromXmlTree_costs (E := E.noted) (o := ⟨context, emptyAsString⟩) (κ := fun w => w.2.length)
    (by intro cls v w; simp [TEnv.noted]) hU hR n cls root (w, [])
  have h2 := (fromNative_unpopped E.backend root).2 hroot
  simp only [List.length_nil, Nat.zero_add] at this
  exact Nat.le_trans this (Nat.le_of_eq h2)

/-! ## Unions of model classes -/

namespace Ex

/-- ```python
class A(BaseXmlModel, tag='n'):
    x: int = attr()
    kid: Optional[Union['A', 'B']] = None
class B(BaseXmlModel, tag='n'):
    kid: Optional[Union[A, 'B']] = None
```
-/
def kidSer (title : Title) : Ser := .modelUnion title false [{ cls := "A", name := "n" }, { cls := "B", name := "n" }]

def aSer : ModelSer :=
  { name := "A", elementName := "n"
    body := .fields [{ name := "x", ser := .attr "x" false }, { name := "kid", ser := kidSer "A" }] }

def bSer : ModelSer := { name := "B", elementName := "n", body := .fields [{ name := "kid", ser := kidSer "B" }] }

/-- `x` is required in `A`; the state of the world counts the calls. -/
def nestEnv : TEnv Unit Nat :=
  { backend := .lxml, model := fun c => if c = "A" then some aSer else if c = "B" then some bSer else none
    validate := fun _ cls v w =>
      match v with
      | .dict d =>
        if cls = "A" && !(d.any fun kv => kv.1 = "x") then (.error ⟨"A", [⟨"missing", "Field required", [.name "x"], v, none⟩]⟩, w + 1)
        else (.ok (d, d.map Prod.fst), w + 1)
      | _ => (.error ⟨cls, []⟩, w + 1) }

/-- `<n><n>…<n/>…</n></n>`, with `d + 1` elements. -/
def chain : Nat → Node
  | 0 => .elem "n" [] [] none none [] none
  | d + 1 => .elem "n" [] [] none none [chain d] none

/-- The instance of `B` it stands for. -/
def chainVal : Nat → Val
  | 0 => .model "B" [] []
  | d + 1 => .model "B" [("kid", chainVal d)] ["kid"]

theorem chain_count (d : Nat) : (chain d).elementCount = d + 1 := by
  induction d with
  | zero => rfl
  | succ d ih => simp [chain, Node.elementCount, Node.elementCountList, ih]

theorem chain_succ (d : Nat) : fromNative .lxml (chain (d + 1)) =
    { tag := "n", attrib := some [], elements := [fromNative .lxml (chain d)], line := -1 } := by
  have : (chain d).isComment = false := by cases d <;> rfl
  simp [chain, fromNative, fromNativeList, this, sourceLine]

theorem chain_tag (d : Nat) : (fromNative .lxml (chain d)).tag = "n" := by cases d <;> rfl

theorem chain_isNil (d : Nat) : (fromNative .lxml (chain d)).isNil = (false, fromNative .lxml (chain d)) := by cases d <;> rfl

theorem chainVal_some (d : Nat) : (chainVal d).isNone = false := by cases d <;> rfl

/-- Reading the children of an element of the chain as the union. -/
theorem chain_read (d k : Nat) (o : Opts Unit) (loc : Loc) (sm : SMap) (w : Nat) :
    (∃ e s, modelSer nestEnv (read nestEnv (2 * d + 2 + k)) o "A" aSer loc ⟨fromNative .lxml (chain d), sm, w⟩ = (.verr e, s) ∧
      s.w + 1 = w + 2 ^ (d + 1)) ∧
    (∃ s, modelSer nestEnv (read nestEnv (2 * d + 2 + k)) o "B" bSer loc ⟨fromNative .lxml (chain d), sm, w⟩ =
      (.ok (chainVal d), s) ∧ s.w + 1 = w + 2 ^ (d + 1)) := by
  induction d generalizing k loc sm w with
  | zero =>
    rw [show 2 * 0 + 2 + k = k + 1 + 1 by omega]
    exact ⟨⟨_, _, rfl, rfl⟩, _, rfl, rfl⟩
  | succ d ih =>
    have key : ∀ title loc sm w, ∃ s : TSt Nat, read nestEnv (2 * (d + 1) + 2 + k) (kidSer title) o loc
        ⟨{ tag := "n", attrib := some [], elements := [fromNative .lxml (chain d)], line := -1 }, sm, w⟩ = (.ok (chainVal d), s) ∧
        s.w + 2 = w + 2 ^ (d + 2) := by
      intro title loc sm w
      rw [show 2 * (d + 1) + 2 + k = 2 * d + 2 + k + 1 + 1 by omega]
      have hs : Elem.search { tag := "n", attrib := some [], elements := [fromNative .lxml (chain d)], line := -1 } "n" .strict true =
          (some 0, { tag := "n", attrib := some [], elements := [fromNative .lxml (chain d)], line := -1, next := 1 }) := by
        simp [Elem.search, Elem.strictSearch, chain_tag]
      obtain ⟨e, s1, h1, h2⟩ := (ih k loc (Dict.set sm loc (fromNative .lxml (chain d)).line) w).1
      obtain ⟨s2, h3, h4⟩ := (ih k loc (Dict.set s1.sm loc (fromNative .lxml (chain d)).line) s1.w).2
      have hA : nestEnv.model "A" = some aSer := rfl
      have hB : nestEnv.model "B" = some bSer := rfl
      simp only [read, step, kidSer, unionLoop, Bool.false_eq_true, if_false, hA, hB, Elem.popElement, Elem.createSnapshot, hs, onChild,
        List.getElem?_cons_zero, chain_isNil, h1, h3, chainVal_some]
      refine ⟨_, rfl, ?_⟩
      simp only
      have : 2 ^ (d + 2) = 2 * 2 ^ (d + 1) := by rw [Nat.pow_succ]; omega
      omega
    rw [chain_succ]
    have hp : ∀ kids : List Elem, Elem.popAttrib { tag := "n", attrib := some [], elements := kids, line := -1 } "x" =
      (none, { tag := "n", attrib := some [], elements := kids, line := -1 }) := fun _ => rfl
    constructor
    · obtain ⟨s, h1, h2⟩ := key "A" [.name "kid"] (((sm.set [.name "x"] (-1)) : SMap).set [.name "kid"] (-1)) w
      have hx : ∀ (loc : Loc) (sm : SMap) (w : Nat), read nestEnv (2 * (d + 1) + 2 + k) (.attr "x" false) o loc
          ⟨{ tag := "n", attrib := some [], elements := [fromNative .lxml (chain d)], line := -1 }, sm, w⟩ =
          (.ok .none, ⟨{ tag := "n", attrib := some [], elements := [fromNative .lxml (chain d)], line := -1 }, sm, w⟩) := by
        intro loc sm w
        rw [show 2 * (d + 1) + 2 + k = 2 * d + 2 + k + 1 + 1 by omega]
        simp only [read, step, Bool.false_eq_true, if_false, hp]
      have hn : Val.none.isNone = true := rfl
      simp only [modelSer, aSer, fields, hx, h1, hn, if_true, chainVal_some]
      refine ⟨_, { s with w := s.w + 1 }, rfl, ?_⟩
      simp only
      have : 2 ^ (d + 1 + 1) = 2 ^ (d + 2) := rfl
      omega
    · obtain ⟨s, h1, h2⟩ := key "B" [.name "kid"] (sm.set [.name "kid"] (-1)) w
      simp only [modelSer, bSer, fields, h1, chainVal_some]
      refine ⟨{ s with w := s.w + 1 }, rfl, ?_⟩
      simp only
      have : 2 ^ (d + 1 + 1) = 2 ^ (d + 2) := rfl
      omega

/-- C64: with unions of model classes it is different.  Reading a valid document with `d + 1` elements calls `model_validate`
`2 ^ (d + 1) - 1` times. -/
theorem C64_exponential_with_unions (d : Nat) (context : Option Unit) (emptyAsString : Bool) :
    (chain d).elementCount = d + 1 ∧
    ∃ n, fromXmlTree nestEnv n "B" (chain d) context emptyAsString 0 = (.ok (chainVal d), 2 ^ (d + 1) - 1) := by
  refine ⟨chain_count d, 2 * d + 2, ?_⟩
  obtain ⟨s, h1, h2⟩ := (chain_read d 0 ⟨context, emptyAsString⟩ [] [] 0).2
  have hB : nestEnv.model "B" = some bSer := rfl
  have ht : (chain d).tag = bSer.elementName := by cases d <;> rfl
  have hb : nestEnv.backend = .lxml := rfl
  simp only [fromXmlTree, hB, ht, if_true, hb]
  rw [show 2 * d + 2 = 2 * d + 2 + 0 from rfl, h1]
  simp only [Prod.mk.injEq, true_and]
  omega

/-! ## A concrete case -/

/-- ```python
class Dir(BaseXmlModel, tag='dir'):
    name: str = attr()
    dirs: list['Dir'] = element(tag='dir', default=[])
```
-/
def dirSer : ModelSer :=
  { name := "Dir", elementName := "dir"
    body := .fields [{ name := "name", ser := .attr "name" false },
      { name := "dirs", ser := .homog "Dir" false (.proxy { cls := "Dir", name := "dir" }) }] }

def dirEnv : TEnv Unit Unit :=
  { backend := .std, model := fun c => if c = "Dir" then some dirSer else none
    validate := fun _ cls v w =>
      match v with
      | .dict d => (.ok (d, d.map Prod.fst), w)
      | _ => (.error ⟨cls, []⟩, w) }

def dirDoc : Node :=
  .elem "dir" [("name", "/")] [] none none
    [.elem "dir" [("name", "usr")] [] none none [.elem "dir" [("name", "bin")] [] none none [] none] none,
     .comment (some "temporary") none,
     .elem "dir" [("name", "tmp")] [] none none [] none] none

/-- The hypotheses are met. -/
example : dirEnv.NoUnions ∧ dirEnv.ValidatorsRead ∧ dirDoc.isComment = false := by
  have hm : ∀ cls m, dirEnv.model cls = some m → m = dirSer := by
    intro cls m hm
    simp only [dirEnv] at hm
    split at hm <;> cases hm
    rfl
  refine ⟨?_, ?_, rfl⟩
  · intro cls m h
    rw [hm cls m h]
    simp [ModelSer.Everywhere, dirSer, Ser.NotUnion]
  · intro cls m fs h hb f hf v hv
    rw [hm cls m h] at hb
    simp only [dirSer, Body.fields.injEq] at hb
    subst hb
    simp only [List.mem_cons, List.not_mem_nil, or_false] at hf
    rcases hf with rfl | rfl <;> cases hv

/-- Four elements, four validations: the bound is attained. -/
example : dirDoc.elementCount = 4 ∧
    ((fromXmlTree dirEnv.noted 20 "Dir" dirDoc none false ((), [])).2.2.length = 4) := ⟨rfl, by kernel_rfl⟩

/-- A chain of 11 elements of the classes `A` and `B` takes 2047 validations. -/
example : ∃ n, (fromXmlTree nestEnv n "B" (chain 10) none false 0).2 = 2047 := by
  obtain ⟨n, h⟩ := (C64_exponential_with_unions 10 none false).2
  exact ⟨n, by rw [h]⟩

end Ex
end Threaded
end PXml
