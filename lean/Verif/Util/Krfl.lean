import Lean
/-
`krfl` closes `a = b` by `rfl`, leaving the check to the kernel alone (the elaborator does
not try to reduce).  It adds nothing to what is trusted: if the kernel cannot verify the
proof, the theorem is rejected.
-/
open Lean Elab Tactic Meta in
elab "krfl" : tactic => do
  let g ← getMainGoal
  g.withContext do
    let t ← instantiateMVars (← g.getType)
    let some (α, a, _) := t.eq? | throwError "krfl: not an equation"
    let u ← getLevel α
    g.assign (mkApp2 (.const ``Eq.refl [u]) α a)
