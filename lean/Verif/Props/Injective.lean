import Verif.Props.TypedText

/-!
# C78: different instances are written as different documents
-/

namespace PXml

/-- The instance is written to this tree. -/
def Env.Yields (env : Env) (fl : Flags) (cls : String) (v : Val) (tree : Node) : Prop :=
  ∃ N, ∀ n ≥ N, toXmlTree env n fl cls v = .ok tree

/-- C78: two instances of a class that are written to the same tree are equal, even if they are written with different flags. -/
theorem C78_trees (env : Env) (henv : env.Everywhere (Ser.Resolved env)) (P : Prims) (types : String → Option Types)
    (hT : env.HasTypes types) (hF : env.Follows P types) (eas : Bool) (fl fl' : Flags) (wh wh' so so' : Bool) (cls : String) (v w : Val)
    (hv : Sound env P types eas fl wh so (.inst cls v)) (hw : Sound env P types eas fl' wh' so' (.inst cls w)) (tree : Node)
    (h1 : env.Yields fl cls v tree) (h2 : env.Yields fl' cls w tree) : v.bare = w.bare := by
  obtain ⟨t, v', N, hb, h⟩ := C74_round_trip env henv P types hT hF eas fl wh so cls v hv
  obtain ⟨t', w', N', hb', h'⟩ := C74_round_trip env henv P types hT hF eas fl' wh' so' cls w hw
  obtain ⟨K, hK⟩ := h1
  obtain ⟨K', hK'⟩ := h2
  have hk := hK (max (max N N') (max K K')) (by omega)
  have hk' := hK' (max (max N N') (max K K')) (by omega)
  obtain ⟨a1, a2⟩ := h (max (max N N') (max K K')) (by omega)
  obtain ⟨b1, b2⟩ := h' (max (max N N') (max K K')) (by omega)
  rw [hk] at a1
  rw [hk'] at b1
  cases a1
  cases b1
  rw [a2] at b2
  injection b2 with b2
  rw [← hb, b2, hb']

/-- C78: the same after a program, in terms of the declarations of the classes. -/
theorem C78_program {classes : Classes} (hst : classes.Standard) (n : Nat) (es : List Event) (env : Env)
    (henv : env.model = history classes n es .empty) (hall : ∀ c, (classes c).isSome = true → (history classes n es .empty c).isSome = true)
    (P : Prims) (B : Behind) (hF : env.FollowsDeclared P classes B) (eas : Bool) (fl fl' : Flags)
    (wh wh' so so' : Bool) (cls : String) (v w : Val) (hv : Worth env P classes B eas fl wh so (.inst cls v))
    (hw : Worth env P classes B eas fl' wh' so' (.inst cls w)) (tree : Node) (h1 : env.Yields fl cls v tree)
    (h2 : env.Yields fl' cls w tree) : v.bare = w.bare := by
  obtain ⟨types, t1, t2, t3, t4⟩ := program_sound hst n es env henv hall P B hF
  exact C78_trees env t1 P types t2 t3 eas fl fl' wh wh' so so' cls v w (t4 eas fl wh so cls v hv) (t4 eas fl' wh' so' cls w hw) tree h1 h2

/-- C78: the same of the text that is printed, if the library reads back what it prints for the instances. -/
theorem C78_text {classes : Classes} (hst : classes.Standard) (n : Nat) (es : List Event) (env : Env)
    (henv : env.model = history classes n es .empty) (hall : ∀ c, (classes c).isSome = true → (history classes n es .empty c).isSome = true)
    (hno : env.NoValidators) (hraw : env.Everywhere Ser.NotRaw)
    (P : Prims) (B : Behind) (hF : env.FollowsDeclared P classes B)
    (print : Node → Except PyErr String) (parse : String → Except PyErr Node) (eas : Bool) (fl fl' : Flags)
    (wh wh' so so' : Bool) (cls : String) (v w : Val) (hv : Worth env P classes B eas fl wh so (.inst cls v))
    (hw : Worth env P classes B eas fl' wh' so' (.inst cls w))
    (hlib : ∀ tree, env.Yields fl cls v tree → Reparses print parse tree) (hlib' : ∀ tree, env.Yields fl' cls w tree → Reparses print parse tree)
    (text : String) (h1 : ∃ N, ∀ k ≥ N, toXml env print k fl cls v = .ok text) (h2 : ∃ N, ∀ k ≥ N, toXml env print k fl' cls w = .ok text) :
    v.bare = w.bare := by
  obtain ⟨t, v', N, hb, h⟩ := C74_program_text hst n es env henv hall hno hraw P B hF print parse eas fl wh so cls v hv hlib
  obtain ⟨t', w', N', hb', h'⟩ := C74_program_text hst n es env henv hall hno hraw P B hF print parse eas fl' wh' so' cls w hw hlib'
  obtain ⟨K, hK⟩ := h1
  obtain ⟨K', hK'⟩ := h2
  have hk := hK (max (max N N') (max K K')) (by omega)
  have hk' := hK' (max (max N N') (max K K')) (by omega)
  obtain ⟨a1, a2⟩ := h (max (max N N') (max K K')) (by omega)
  obtain ⟨b1, b2⟩ := h' (max (max N N') (max K K')) (by omega)
  rw [hk] at a1
  rw [hk'] at b1
  cases a1
  cases b1
  rw [a2] at b2
  injection b2 with b2
  rw [← hb, b2, hb']

/-! ## Non-vacuity -/

namespace TypedEx

/-- Documents with different notes are written differently, whatever else is in them and whether empty entities are skipped or not. -/
example (b : Bool) (ks ks' : List Doc) (n n' : String) (hn : n ≠ n') (skip skip' : Bool) (h : (Doc.mk b (some n) ks).Noted)
    (h' : (Doc.mk b (some n') ks').Noted) (tree : Node)
    (h1 : docEnv.Yields { excludeNone := true, skipEmpty := skip } "Doc" (Doc.mk b (some n) ks).val tree) :
    ¬docEnv.Yields { excludeNone := true, skipEmpty := skip' } "Doc" (Doc.mk b (some n') ks').val tree := by
  intro h2
  have := C78_program docs_standard 9 program docEnv rfl docs_all scalars behind docs_follow false _ _ true true true true "Doc" _ _
    (worth skip true h) (worth skip' true h') tree h1 h2
  simp only [Doc.val, Val.bare, Val.bareItems, Option.elim] at this
  injection this with _ this _
  simp only [List.cons.injEq, Prod.mk.injEq, Val.str.injEq] at this
  exact hn this.2.1.2

/-- They are written: the hypothesis can be met. -/
example (skip : Bool) (x : Doc) (h : x.Noted) : ∃ tree, docEnv.Yields { excludeNone := true, skipEmpty := skip } "Doc" x.val tree := by
  obtain ⟨tree, v', N, -, h'⟩ := C74_program docs_standard 9 program docEnv rfl docs_all scalars behind docs_follow false _ true true "Doc" x.val
    (worth skip true h)
  exact ⟨tree, N, fun n hn => (h' n hn).1⟩

end TypedEx

end PXml
