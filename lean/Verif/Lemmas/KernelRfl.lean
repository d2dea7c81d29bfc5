import Lean.Elab.Tactic.Basic
import Lean.Meta.AppBuilder
/-
`krfl` closes a goal `a = b` with the proof term `Eq.refl b`, leaving the whole
conversion check to the kernel. It is `rfl` without the elaborator's own attempt
at evaluating both sides, which needs far too much memory when `a` is a run of the
parser. It is used for concrete cases only.
-/

namespace Kdl

open Lean Elab Tactic Meta in
/-- `rfl`, checked by the kernel only. -/
elab "krfl" : tactic => do
  let g ← getMainGoal
  let some (_, _, rhs) := (← g.getType').eq? | throwError "krfl: not an equation"
  g.assign (← mkEqRefl rhs)

end Kdl
