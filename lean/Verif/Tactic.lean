import Lean.Elab.Tactic.Basic
import Lean.Meta.AppBuilder

/-!
# A tactic for concrete computations

`kernel_rfl` closes a goal `a = b` with `Eq.refl a` and leaves the comparison of `a` and `b` to the kernel.  (The
elaborator's own comparison, which `rfl` runs first, is slow on large concrete terms.)  It adds nothing to the trusted
base: the kernel checks the term as any other.
-/

open Lean Meta Elab Tactic in
/-- Closes `a = b` by `Eq.refl a`, checked by the kernel only. -/
elab "kernel_rfl" : tactic => liftMetaTactic fun g => do
  let t ← instantiateMVars (← g.getType)
  let some (_, a, _) := t.eq? | throwError "not an equation"
  g.assign (← mkEqRefl a)
  return []
