import Verif.Props.C01_Twice
import Verif.Props.C06_Complementarity

/-!
# C49: runs in which an assertion of the code fails

Assertions are `assert` in the code: a debug build stops there, a release build goes on.  See also
`C01_fails`, `C01_emptied_fails` and `C01_simple_fails`, where the run completes without a verdict and
the wrong offset is returned.
-/

namespace Verif

/-- An empty column with cost -1 and no upper bound, beside two rows that no reduction touches. -/
def lpRay : LP where
  m := 2
  n := 4
  A := ofList [[(1, 1), (2, 1), (3, 1)], [(1, 1), (2, 2), (3, 4)]] []
  lhs := ofList [.fin 0, .fin 0] .ninf
  rhs := ofList [.pinf, .fin 100] .pinf
  lb := ofList [.fin 0, .ninf, .ninf, .ninf] .ninf
  ub := ofList [.pinf, .pinf, .pinf, .pinf] .pinf
  c := ofList [-1, 1, 2, 4] 0

/-- **Negation of C49, unbounded problem.**  `remove_empty_cols` finds that the column has no best
value and returns UNBNDORINFEAS with the column still listed; the driver goes on with
`simple_dual_fix`, which asserts that no empty column is listed. -/
theorem C49_unbounded_fails :
    (runPresolver envEx stgsExact 10 lpRay).2.1 = UNBNDORINFEAS ∧
    (runPresolver envEx stgsExact 10 lpRay).1.asrt = false := by
  decide +kernel

/-- `x0/2 + x1 + 2 x3 = -1`, `- x0 ≤ -1`, `- x1 + 3 x2 + x3/2 ≤ 0`, `0 ≤ -2 x1 ≤ 1`. -/
def lpVoid : LP where
  m := 4
  n := 4
  A := ofList [[(0, 1/2), (1, 1), (3, 2)], [(0, -1)], [(1, -1), (2, 3), (3, 1/2)], [(1, -2)]] []
  lhs := ofList [.fin (-1), .ninf, .ninf, .fin 0] .ninf
  rhs := ofList [.fin (-1), .fin (-1), .fin 0, .fin 1] .pinf
  lb := ofList [.fin 1, .ninf, .fin 0, .fin 0] .ninf
  ub := ofList [.pinf, .fin 1, .pinf, .pinf] .pinf
  c := ofList [0, 0, 0, -1] 0

/-- **Negation of C49, infeasible problem**, simple reductions only. -/
theorem C49_infeasible_fails :
    (runPresolver envEx stgsSimple 10 lpVoid).2.1 = INFEASIBLE ∧
    (runPresolver envEx stgsSimple 10 lpVoid).1.asrt = false := by
  decide +kernel

end Verif
