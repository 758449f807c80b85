import Verif.Lemmas.Shaped
import Verif.Props.Writing

/-!
# Writing ends, and succeeds exactly for instances of the declared shape: C63
-/

namespace PXml

open Elem

theorem Env.SerializersSucceed.terminate {env : Env} (h : env.SerializersSucceed) : env.SerializersTerminate := by
  intro cls m fs hm hb f hf g hg self e v he
  obtain ⟨e', h⟩ := h cls m fs hm hb f hf g hg self e v
  rw [h] at he; cases he

theorem Env.NoSerializers.succeed {env : Env} (h : env.NoSerializers) : env.SerializersSucceed := by
  intro cls m fs hm hb f hf g hg
  rw [h cls m fs hm hb f hf] at hg; cases hg

/-- C63: writing ends, for every value whatsoever: there is an amount of fuel that is enough, and with it and any more writing yields
a document or an exception. Class definitions can be recursive; only the custom serializers have to end. -/
theorem C63_terminates (env : Env) (hs : env.SerializersTerminate) (fl : Flags) (cls : String) (v : Val) :
    ∃ N, ∀ n, N ≤ n → toXmlTree env n fl cls v ≠ .diverge := by
  unfold toXmlTree
  cases hm : env.model cls with
  | none => exact ⟨0, fun _ _ h => by cases h⟩
  | some m =>
    obtain ⟨N, hN⟩ := serModel_ends hs hm fl v (env.toJsonable v) fun fl s v' _ enc => ser_ends hs fl s v' enc
    exact ⟨N, fun n hn => WriteEnds.bind (hN n hn _) fun _ => .ok⟩

/-- C63: writing succeeds exactly for the values of the shape that the class prescribes. -/
theorem C63_succeeds_iff (env : Env) (hw : env.SerializersWrite) (hs : env.SerializersSucceed) (fl : Flags) (cls : String) (m : ModelSer)
    (hm : env.model cls = some m) (v : Val) :
    ∃ N, ∀ n, N ≤ n → ((∃ doc, toXmlTree env n fl cls v = .ok doc) ↔ Shaped env fl (.model m v (env.toJsonable v))) := by
  unfold toXmlTree
  simp only [hm]
  by_cases h : Shaped env fl (.model m v (env.toJsonable v))
  · obtain ⟨N, hN⟩ := h.succeeds hw hs ⟨cls, hm⟩
    refine ⟨N, fun n hn => ⟨fun _ => h, fun _ => ?_⟩⟩
    obtain ⟨e, he, _⟩ := hN n hn { tag := m.elementName, nsmap := m.nsmap } (by rw [good_iff]; simp)
    simp only at he
    rw [he]
    exact ⟨_, rfl⟩
  · refine ⟨0, fun n _ => ⟨?_, fun h' => absurd h' h⟩⟩
    rintro ⟨doc, hd⟩
    obtain ⟨e, he, _⟩ := bind_ok hd
    exact serModel_shaped (ser_shaped n) _ _ _ _ _ he

/-- C63: a value of another shape is never written, however long one waits. -/
theorem C63_other_shape_rejected (env : Env) (fl : Flags) (cls : String) (m : ModelSer) (hm : env.model cls = some m) (v : Val)
    (h : ¬ Shaped env fl (.model m v (env.toJsonable v))) (n : Nat) (doc : Node) : toXmlTree env n fl cls v ≠ .ok doc := by
  intro hd
  unfold toXmlTree at hd
  simp only [hm] at hd
  obtain ⟨e, he, _⟩ := bind_ok hd
  exact h (serModel_shaped (ser_shaped n) _ _ _ _ _ he)

/-! ### An example: lines with two ends, in a drawing -/

namespace Ex

/-- `class Line(BaseXmlModel): ends: Tuple[int, int] = element(tag='end')` -/
def lineSer : ModelSer where
  name := "Line"
  elementName := "line"
  body := .fields [
    { name := "ends", ser := .hetero "Line" false [.elem "end" none .strict false false, .elem "end" none .strict false false] }]

/-- `class Drawing(BaseXmlModel): lines: List[Line] = element(tag='line')` -/
def drawingSer : ModelSer where
  name := "Drawing"
  elementName := "drawing"
  body := .fields [{ name := "lines", ser := .homog "Drawing" false (.proxy { cls := "Line", name := "line" }) }]

def drawing : Env :=
  { env with model := fun cls => if cls = "Line" then some lineSer else if cls = "Drawing" then some drawingSer else none }

theorem drawing_noSerializers : drawing.NoSerializers := by
  intro cls m fs hm hb f hf
  simp only [drawing] at hm
  split at hm
  · cases hm; cases hb
    simp only [List.mem_singleton] at hf; subst hf; rfl
  · split at hm
    · cases hm; cases hb
      simp only [List.mem_singleton] at hf; subst hf; rfl
    · cases hm

def line (ends : List Val) : Val := .model "Line" [("ends", .list ends)] ["ends"]

/-- A drawing with a line of the given ends after a good one. -/
def sketch (ends : List Val) : Val :=
  .model "Drawing" [("lines", .list [line [.int 1, .int 2], line ends])] ["lines"]

/-- A line has the right shape exactly if it has two ends. -/
theorem line_shaped (a b : Val) (enc : List Val) :
    Shaped drawing {} (.model lineSer (line [a, b]) (.dict [("ends", .list enc)])) := by
  refine .fields (fun _ => .list [a, b]) (fun _ => .list enc) rfl ?_ ?_ ?_
  · intro f hf _; simp only [List.mem_singleton] at hf; subst hf; rfl
  · intro f hf _ _; simp only [List.mem_singleton] at hf; subst hf; rfl
  · intro f hf _ _
    simp only [List.mem_singleton] at hf
    subst hf
    refine .hetero rfl fun i s v enc h _ _ => ?_
    match i, h with
    | 0, h => cases h; exact .elem
    | 1, h => cases h; exact .elem

theorem line_not_shaped (ends : List Val) (h : ends.length ≠ 2) (enc : Val) : ¬ Shaped drawing {} (.model lineSer (line ends) enc) := by
  intro hs
  cases hs with
  | fields x y hb hx _ hr =>
    cases hb
    have h1 := hx _ (.head _) ⟨rfl, fun h => by cases h⟩
    have h2 := hr _ (.head _) ⟨rfl, fun h => by cases h⟩ rfl
    simp only [Dict.get?, if_true, Option.some.injEq] at h1
    rw [← h1] at h2
    generalize hv : Val.list ends = v at h2
    generalize y _ = z at h2
    cases h2 with
    | heteroNone => cases hv
    | heteroEmpty hsk => cases hsk
    | hetero hl _ => cases hv; exact h hl
  | rootUnset hb => cases hb
  | root hb => cases hb

end Ex

theorem noSerializers_write {env : Env} (h : env.NoSerializers) : env.SerializersWrite := by
  intro cls m fs hm hb f hf g hg
  rw [h cls m fs hm hb f hf] at hg; cases hg

/-- A line with two ends is written, a line with another number of ends is not. -/
example (a b : Val) : ∃ N, ∀ n, N ≤ n → ∃ doc, toXmlTree Ex.drawing n {} "Line" (Ex.line [a, b]) = .ok doc := by
  obtain ⟨N, hN⟩ := C63_succeeds_iff Ex.drawing (noSerializers_write Ex.drawing_noSerializers) Ex.drawing_noSerializers.succeed {} "Line"
    Ex.lineSer (by rfl) (Ex.line [a, b])
  exact ⟨N, fun n hn => (hN n hn).mpr (Ex.line_shaped a b _)⟩

example (ends : List Val) (h : ends.length ≠ 2) (n : Nat) (doc : Node) :
    toXmlTree Ex.drawing n {} "Line" (Ex.line ends) ≠ .ok doc :=
  C63_other_shape_rejected Ex.drawing {} "Line" Ex.lineSer (by rfl) (Ex.line ends) (Ex.line_not_shaped ends h _) n doc

example : toXmlTree Ex.drawing 9 {} "Drawing" (Ex.sketch [.int 3, .int 4]) = .ok (Ex.el "drawing" none
    [Ex.el "line" none [Ex.el "end" (some "1"), Ex.el "end" (some "2")], Ex.el "line" none [Ex.el "end" (some "3"), Ex.el "end" (some "4")]]) := by
  kernel_rfl

/-- A tuple of the wrong length anywhere in an instance is an error. -/
example : toXmlTree Ex.drawing 9 {} "Drawing" (Ex.sketch [.int 3]) = .crash .serializationError := by kernel_rfl
example : toXmlTree Ex.drawing 9 {} "Drawing" (Ex.sketch []) = .crash .serializationError := by kernel_rfl

end PXml
