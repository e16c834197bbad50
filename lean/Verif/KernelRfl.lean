import Lean.Elab.Tactic.ElabTerm

/-!
# Two tactics that leave a computation to the kernel

Running the parser on concrete tokens is slow in the elaborator, and fast in the kernel.  The tactics build a proof without
looking at the computation; the kernel checks it as it checks every proof.
-/

open Lean Elab Tactic Meta in
/-- Closes a goal with a term whose type only the kernel compares with the goal. -/
elab "kernel_exact " e:term : tactic => do
  let g ← getMainGoal
  g.withContext do
    let t ← Tactic.elabTerm e none
    g.assign (← instantiateMVars t)

open Lean Elab Tactic Meta in
/-- `rfl`, checked by the kernel only. -/
elab "kernel_rfl" : tactic => do
  let g ← getMainGoal
  g.withContext do
    let ty ← instantiateMVars (← g.getType)
    let some (α, a, _) := ty.eq? | throwError "kernel_rfl: not an equation"
    let u ← getLevel α
    g.assign (mkApp2 (mkConst ``Eq.refl [u]) α a)
