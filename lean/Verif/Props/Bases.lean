import Verif.Props.Names

/-!
# Parameters of classes with several bases (C58)
-/

namespace PXml

/-- Single inheritance (up to classes that are not model classes): behind the class come its base and the mro of its base. -/
inductive Cls.Single : Cls → Prop
  | root {a} : Single (.mk a [])
  | sub {a c} : c.Single → Single (.mk a (c :: c.mro))

/-- The arguments of the class statements along the mro, the class itself first. -/
def Cls.statements (c : Cls) : List ClassArgs := c.args :: c.mro.map Cls.args

/-- The arguments of the class statements along the line of first bases: the class itself, the first model class behind it, the first
model class behind that one in its own mro, and so on. -/
def Cls.line : Cls → List ClassArgs
  | .mk a [] => [a]
  | .mk a (c :: _) => a :: c.line

theorem Cls.Single.line {c : Cls} (h : c.Single) : c.line = c.statements := by
  induction h with
  | root => rfl
  | @sub a c _ ih => show a :: c.line = _; rw [ih]; rfl

theorem Cls.chain : (c : Cls) → c.params = ClassParams.chain {} c.line.reverse
  | .mk _ [] => rfl
  | .mk a (c :: _) => by
    rw [Cls.line, List.reverse_cons, ClassParams.chain, List.foldl_append]
    show c.params.subclass a = _
    rw [Cls.chain c]
    rfl

theorem getLast_filterMap_reverse {α β : Type} (f : α → Option β) (l : List α) :
    ((l.reverse.filterMap f).getLast?) = l.findSome? f := by
  induction l with
  | nil => rfl
  | cons a l ih =>
    rw [List.reverse_cons, List.filterMap_append, List.findSome?_cons]
    cases h : f a with
    | none => simp [h]
    | some b => simp [h]

/-- C58 (partial): for every class, each parameter is the one of the first class in the line of first bases that declares it, and a
prefix has the uri given by the first class of that line that declares it.  With single inheritance this is the mro
(`C58_nearest_partial`).  Missing: the other bases, which do not count, see `C58_counterexample`. -/
theorem C58_first_base_partial (c : Cls) :
    c.params.tag = c.line.findSome? ClassArgs.tag ∧
    c.params.ns = c.line.findSome? ClassArgs.ns ∧
    c.params.nsAttrs = (c.line.findSome? ClassArgs.nsAttrs).getD false ∧
    c.params.skipEmpty = c.line.findSome? ClassArgs.skipEmpty ∧
    c.params.searchMode = (c.line.findSome? ClassArgs.searchMode).getD .strict ∧
    ((∀ a ∈ c.line, ∀ m, a.nsmap = some m → m.WF) → ∀ p,
      (c.params.nsmap.getD []).get? p = c.line.findSome? fun a => (a.nsmap.getD []).get? p) := by
  rw [c.chain]
  obtain ⟨h1, h2, h3, h4, h5⟩ := C26_nearest_wins {} c.line.reverse
  rw [getLast_filterMap_reverse] at h1 h2 h3 h4 h5
  refine ⟨by rw [h1]; simp, by rw [h2]; simp, h3, by rw [h4]; simp, h5, ?_⟩
  intro hw p
  rw [C26_nsmap_accumulates {} _ (fun m hm => by cases hm) (fun a ha => hw a (List.mem_reverse.1 ha)) p,
    getLast_filterMap_reverse]
  simp

/-- C58 (partial): with single inheritance, each parameter is the one of the first class of the mro that declares it, and a prefix has
the uri given by the first class of the mro that declares it.  Missing: classes with several bases, see
`C58_counterexample`. -/
theorem C58_nearest_partial (c : Cls) (h : c.Single) :
    c.params.tag = c.statements.findSome? ClassArgs.tag ∧
    c.params.ns = c.statements.findSome? ClassArgs.ns ∧
    c.params.nsAttrs = (c.statements.findSome? ClassArgs.nsAttrs).getD false ∧
    c.params.skipEmpty = c.statements.findSome? ClassArgs.skipEmpty ∧
    c.params.searchMode = (c.statements.findSome? ClassArgs.searchMode).getD .strict ∧
    ((∀ a ∈ c.statements, ∀ m, a.nsmap = some m → m.WF) → ∀ p,
      (c.params.nsmap.getD []).get? p = c.statements.findSome? fun a => (a.nsmap.getD []).get? p) := by
  have := C58_first_base_partial c
  rwa [h.line] at this

namespace Bases

/-- `class Common(BaseXmlModel, ns='c', nsmap={'c': 'urn:c'})` -/
def common : Cls := .mk { ns := some "c", nsmap := some [("c", "urn:c")] } []
/-- `class A(Common, search_mode=SearchMode.ORDERED)` -/
def a : Cls := .mk { searchMode := some .ordered } [common]
/-- `class B(Common, tag='b', nsmap={'x': 'urn:x'})` -/
def b : Cls := .mk { tag := some "b", nsmap := some [("x", "urn:x")] } [common]
/-- `class AB(A, B, skip_empty=True)` -/
def ab : Cls := .mk { skipEmpty := some true } [a, b, common]

/-- Non-vacuity of `C58_nearest_partial`. -/
example : b.Single ∧ b.params.tag = some "b" ∧ b.params.ns = some "c" ∧ (b.params.nsmap.getD []).get? "c" = some "urn:c" ∧
    (b.params.nsmap.getD []).get? "x" = some "urn:x" := ⟨.sub .root, by decide, by decide, by decide, by decide⟩

/-- Non-vacuity of `C58_first_base_partial`: a class with two bases, the first of which has a base of its own. -/
example : ab.line = [ab.args, a.args, common.args] ∧ ab.params.searchMode = .ordered ∧ ab.params.ns = some "c" ∧
    ab.params.skipEmpty = some true := by decide

/-- Negation witness for C58: `class AB(A, B)` has neither the tag nor the namespace declarations of `B`, although no other class of
its mro declares a tag or the prefix. -/
theorem C58_counterexample : ab.statements.findSome? ClassArgs.tag = some "b" ∧ ab.params.tag = none ∧
    (ab.statements.findSome? fun s => (s.nsmap.getD []).get? "x") = some "urn:x" ∧ (ab.params.nsmap.getD []).get? "x" = none := by
  decide

end Bases

end PXml
