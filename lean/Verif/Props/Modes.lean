import Verif.Lemmas.ModesCompile
import Verif.Props.TypedText

/-!
# C79: `search_mode` is about reading only

Specification: `SpecModes.lean`.
-/

namespace PXml

namespace Modes

theorem open_of_none {env : Env} (h : env.NoSerializers) : env.SerializersOpen := by
  intro cls m fs hm hb f hf g hg
  rw [h cls m fs hm hb f hf] at hg
  cases hg

theorem subs_strict (s : Ser) : s.strict.subs = s.subs.map Ser.strict := by
  cases s with
  | modelUnion t c alts => simp only [Ser.strict, Ser.subs, List.map_map, Function.comp_def]
  | tagged c d a m alts => simp only [Ser.strict, Ser.subs, List.map_map, Function.comp_def]
  | hetero t c inners => simp only [Ser.strict, Ser.subs, strictAll_eq]
  | _ => rfl

theorem notRaw_strict (s : Ser) : s.strict.NotRaw ↔ s.NotRaw := by cases s <;> exact Iff.rfl

theorem to_strict {s : Ser} (h : s.Everywhere Ser.NotRaw) : s.strict.Everywhere Ser.NotRaw := by
  induction h with
  | @mk s h1 _ ih =>
    refine .mk ((notRaw_strict s).2 h1) fun t ht => ?_
    rw [subs_strict] at ht
    obtain ⟨u, hu, rfl⟩ := List.mem_map.1 ht
    exact ih u hu

theorem of_strict {t : Ser} (h : t.Everywhere Ser.NotRaw) : ∀ s : Ser, s.strict = t → s.Everywhere Ser.NotRaw := by
  induction h with
  | @mk t h1 _ ih =>
    intro s e
    subst e
    refine .mk ((notRaw_strict s).1 h1) fun u hu => ?_
    exact ih u.strict (by rw [subs_strict]; exact List.mem_map.2 ⟨u, hu, rfl⟩) u rfl

section
variable {env env' : Env} (he : env.strict = env'.strict)
include he

theorem model_of {cls : String} {m : ModelSer} (hm : env.model cls = some m) : ∃ m', env'.model cls = some m' ∧ m'.strict = m.strict := by
  have := congrFun (congrArg Env.model he) cls
  simp only [Env.strict, hm, Option.map_some] at this
  cases h : env'.model cls with
  | none => rw [h] at this; cases this
  | some m' => rw [h] at this; injection this with this; exact ⟨m', rfl, this.symm⟩

theorem notRaw_of (h : env'.Everywhere Ser.NotRaw) : env.Everywhere Ser.NotRaw := by
  intro cls m hm
  obtain ⟨m', h1, h2⟩ := model_of he hm
  have h3 := h _ _ h1
  unfold ModelSer.Everywhere at h3 ⊢
  have hb : m'.body.strict = m.body.strict := congrArg ModelSer.body h2
  cases hm : m.body with
  | fields fs =>
    cases hm' : m'.body with
    | fields fs' =>
      rw [hm, hm'] at hb
      rw [hm'] at h3
      simp only [Body.strict, Body.fields.injEq] at hb
      intro f hf
      have : f.strict ∈ fs'.map Field.strict := by rw [hb]; exact List.mem_map.2 ⟨f, hf, rfl⟩
      obtain ⟨f', hf', e⟩ := List.mem_map.1 this
      exact of_strict (to_strict (h3 f' hf')) f.ser (congrArg Field.ser e).symm
    | root s => rw [hm, hm'] at hb; cases hb
  | root s =>
    cases hm' : m'.body with
    | fields fs' => rw [hm, hm'] at hb; cases hb
    | root s' =>
      rw [hm, hm'] at hb
      rw [hm'] at h3
      simp only [Body.strict, Body.root.injEq] at hb
      exact of_strict (to_strict h3) s hb.symm

theorem open_of (h : env'.SerializersOpen) : env.SerializersOpen := by
  intro cls m fs hm hb f hf g hg
  obtain ⟨m', h1, h2⟩ := model_of he hm
  have hb' : m'.body.strict = m.body.strict := congrArg ModelSer.body h2
  rw [hb] at hb'
  cases hm' : m'.body with
  | fields fs' =>
    rw [hm'] at hb'
    simp only [Body.strict, Body.fields.injEq] at hb'
    have : f.strict ∈ fs'.map Field.strict := by rw [hb']; exact List.mem_map.2 ⟨f, hf, rfl⟩
    obtain ⟨f', hf', e⟩ := List.mem_map.1 this
    exact h cls m' fs' h1 hm' f' hf' g ((show f'.strict.serializer = f.strict.serializer from congrArg (fun x : Field => x.serializer) e).trans hg)
  | root s => rw [hm'] at hb'; cases hb'

end
end Modes

/-- C79: what is written does not depend on the search modes: classes that are the same but for them write the same tree, or fail
with the same exception — for every instance and all flags, if no field is a raw element and the custom serializers leave the position
of the writer behind the last child. -/
theorem C79_write (env env' : Env) (he : env.strict = env'.strict) (hso : env'.SerializersOpen) (hraw : env'.Everywhere Ser.NotRaw)
    (n : Nat) (fl : Flags) (cls : String) (v : Val) : toXmlTree env n fl cls v = toXmlTree env' n fl cls v := by
  rw [Modes.toXmlTree_strict hso hraw, Modes.toXmlTree_strict (Modes.open_of he hso) (Modes.notRaw_of he hraw), he]

/-- C79: so a document is read back by a class with other search modes than the one that wrote it. -/
theorem C79_read (env env' : Env) (he : env.strict = env'.strict) (hso : env'.SerializersOpen) (hraw : env'.Everywhere Ser.NotRaw)
    (henv : env'.Everywhere (Ser.Resolved env')) (eas wh so : Bool) (fl : Flags) (cls : String) (v v' : Val)
    (h : Handed env' eas fl wh so (.model cls v (env'.toJsonable v) v')) :
    ∃ tree N, ∀ n ≥ N, toXmlTree env n fl cls v = .ok tree ∧ (fromXmlTree env' eas n cls tree).1 = .ok v' := by
  obtain ⟨tree, N, h⟩ := C01_round_trip env' henv eas fl cls v v' h
  exact ⟨tree, N, fun n hn => by rw [C79_write env env' he hso hraw]; exact h n hn⟩

/-- C79: the search modes of the classes of a program make no other difference: every class statement and every `model_rebuild` is
accepted or fails as it did, and the same classes are complete and the same but for the search modes. -/
theorem C79_definitions (classes : Classes) (mode : String → Mode) (k : Nat) (es : List Event) (cls : String) :
    (history (classes.searching mode) k es .empty cls).map ModelSer.strict = (history classes k es .empty cls).map ModelSer.strict :=
  congrFun (Modes.history_searching classes mode k es) cls

/-- C79: the same of a statement that fails: the exception is the same. -/
theorem C79_rejected (classes : Classes) (mode : String → Mode) (k : Nat) (es : List Event) (e : Event) (err : DefErr) :
    e.run (classes.searching mode) k (history (classes.searching mode) k es .empty) = .error err ↔
      e.run classes k (history classes k es .empty) = .error err := by
  have := Modes.run_searching classes mode k es e
  revert this
  generalize e.run classes k (history classes k es .empty) = x
  generalize e.run (classes.searching mode) k (history (classes.searching mode) k es .empty) = y
  intro h
  cases x <;> cases y
  · injection h with h; rw [h]
  · cases h
  · cases h
  · exact ⟨nofun, nofun⟩

/-- C79: writing after a program does not depend on the search modes of its classes. -/
theorem C79_program (classes : Classes) (mode : String → Mode) (k : Nat) (es : List Event) (env env' : Env)
    (h1 : env.model = history (classes.searching mode) k es .empty) (h2 : env'.model = history classes k es .empty)
    (hsame : env = { env' with model := env.model }) (hso : env'.SerializersOpen) (hraw : env'.Everywhere Ser.NotRaw)
    (n : Nat) (fl : Flags) (cls : String) (v : Val) : toXmlTree env n fl cls v = toXmlTree env' n fl cls v := by
  refine C79_write env env' ?_ hso hraw n fl cls v
  rw [hsame]
  unfold Env.strict
  have : (fun cls => Option.map ModelSer.strict (env.model cls)) = fun cls => Option.map ModelSer.strict (env'.model cls) := by
    funext cls
    rw [h1, h2]
    exact C79_definitions classes mode k es cls
  simp only [this]

/-! ## Where the conditions are needed -/

namespace ModeEx

/-- `raw: Element = element('w'); x: str = wrapped('w/y', element())` -/
def rawFirst (mode : Mode) : ModelSer where
  name := "M"
  elementName := "m"
  body := .fields [
    { name := "raw", ser := .raw "w" mode false },
    { name := "x", ser := .wrap ["w", "y"] none mode false (.elem "x" none mode false false) }]

def rawEnv (mode : Mode) : Env := { Ex.env mode with model := fun _ => some (rawFirst mode), toJsonable := Ex.json }

/-- The raw element `<w><z/><y/></w>`. -/
def rawVal : Val := .model "M" [("raw", .raw (.elem "w" [] [] none none [.elem "z" [] [] none none [] none, .elem "y" [] [] none none [] none] none)),
  ("x", .str "1")] ["raw", "x"]

/-- An element with the tag, text and children. -/
def el (t : String) (text : Option String := none) (cs : List Node := []) : Node := .elem t [] [] text none cs none

end ModeEx

/-- C79: raw elements have to be excluded: a wrapped field can be written into a raw element that was written before it, and there the
position of the writer is in front of the children.  With `search_mode='strict'` the path is added behind what is there, else it is
found there. -/
theorem C79_counterexample_raw :
    toXmlTree (ModeEx.rawEnv .strict) 9 {} "M" ModeEx.rawVal = .ok (ModeEx.el "m" none [ModeEx.el "w" none
      [ModeEx.el "z", ModeEx.el "y", ModeEx.el "y" none [ModeEx.el "x" (some "1")]]]) ∧
    toXmlTree (ModeEx.rawEnv .ordered) 9 {} "M" ModeEx.rawVal = .ok (ModeEx.el "m" none [ModeEx.el "w" none
      [ModeEx.el "z", ModeEx.el "y" none [ModeEx.el "x" (some "1")]]]) := by
  refine ⟨?_, ?_⟩ <;> kernel_rfl

/-! ## Non-vacuity -/

namespace TypedEx

/-- The classes of the example with another search mode. -/
noncomputable def otherEnv (mode : Mode) : Env := { docEnv with model := history (docs.searching fun _ => mode) 9 program .empty }

/-- Documents of all widths and depths are written by the class with one search mode as by the class with another one, and read back
by the other. -/
example (mode : Mode) (skip : Bool) (x : Doc) (h : x.Noted) : ∃ tree v' N, v'.bare = x.val.bare ∧
    ∀ n ≥ N, toXmlTree (otherEnv mode) n { excludeNone := true, skipEmpty := skip } "Doc" x.val = .ok tree ∧
      (fromXmlTree docEnv false n "Doc" tree).1 = .ok v' := by
  obtain ⟨tree, v', N, hb, h⟩ := C74_program docs_standard 9 program docEnv rfl docs_all scalars behind docs_follow false _ true true "Doc" x.val
    (worth skip true h)
  obtain ⟨-, hns, hraw, -⟩ := docEnv_plain
  refine ⟨tree, v', N, hb, fun n hn => ?_⟩
  rw [C79_program docs (fun _ => mode) 9 program (otherEnv mode) docEnv rfl rfl rfl (Modes.open_of_none hns) hraw]
  exact h n hn

end TypedEx

end PXml
