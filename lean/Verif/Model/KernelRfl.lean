import Lean.Elab.Tactic.Basic
/-
`kernel_rfl` closes `a = b` with `Eq.refl a` and leaves the check that both sides compute to the same thing to the kernel
(the elaborator's own evaluator is too slow on the decoder). Used only for concrete examples.
-/

open Lean Elab Tactic Meta in
elab "kernel_rfl" : tactic => do
  let g ← getMainGoal
  let t ← instantiateMVars (← g.getType)
  let t ← if t.isEq then pure t else whnf t
  let some (_, a, _) := t.eq? | throwError "not an equation"
  g.assign (← mkEqRefl a)
