import Verif.Props.Counterexamples
import Verif.Props.C02_Feasibility

/-!
# C01: a column emptied during the run is counted twice as well

In `C01_fails` the empty column is in the input.  Here no column of the input is empty and no column
has equal bounds: a singleton row makes the bounds of a column equal without fixing it, another
reduction takes away its last entry, and the next cycle fixes it (its bounds are equal) and then
removes it once more (it is empty).
-/

namespace Verif

/-- `x0 - 2 x1 = 3`, `- x1 ≥ 1` with `x1 ≥ -1`, beside two rows that no reduction touches. -/
def lpTwiceDton : LP where
  m := 4
  n := 5
  A := ofList [[(0, 1), (1, -2)], [(1, -1)], [(2, 1), (3, 1), (4, 1)], [(2, 1), (3, 2), (4, 4)]] []
  lhs := ofList [.fin 3, .fin 1, .fin 0, .fin 0] .ninf
  rhs := ofList [.fin 3, .pinf, .pinf, .fin 100] .pinf
  lb := ofList [.fin 0, .fin (-1), .ninf, .ninf, .ninf] .ninf
  ub := ofList [.pinf, .pinf, .pinf, .pinf, .pinf] .pinf
  c := ofList [1, 0, 1, 2, 4] 0

/-- **Negation of C01, no empty column and no equal bounds in the input.**  The column `x1` is recorded
as fixed twice; the offset is -1, the objective of the postsolved point is 1. -/
theorem C01_emptied_fails :
    (List.range 5).map (fun k => ((colCells 4 lpTwiceDton.A k).isEmpty, decide (lpTwiceDton.lb k = lpTwiceDton.ub k))) =
      List.replicate 5 (false, false) ∧
    (fullRun lpTwiceDton).2 = (UNCHANGED, true) ∧ (fullRun lpTwiceDton).1.undef = false ∧
    (fullRun lpTwiceDton).1.asrt = false ∧ (fullRun lpTwiceDton).1.off = .fin (-1) ∧
    (List.range 5).map (idxMapOf (fullRun lpTwiceDton).1.colSize) = [none, none, some 0, some 1, some 2] ∧
    [2, 3, 4].map (fullRun lpTwiceDton).1.c = [1, 2, 4] ∧
    (postsolve (fullRun lpTwiceDton).1 (fun _ => .fin 0) (fun _ => .fin 0) (fun _ => .fin 0)).map
      (fun σ => (List.range 5).map σ.x) = some [.fin 1, .fin (-1), .fin 0, .fin 0, .fin 0] ∧
    lpTwiceDton.obj (ofList [1, -1, 0, 0, 0] 0) = 1 := by
  decide +kernel

/-- `- x0 ≥ 1` with `x0 ≥ -1`, `- x0 - x1 ≥ 2` with `x1 ≥ -1`, and four rows around `x2 … x5`. -/
def lpTwiceSimple : LP where
  m := 5
  n := 6
  A := ofList [[(0, -1)], [(0, -1), (1, -1)], [(1, 1), (2, 1)], [(2, 1), (3, 1), (4, 1), (5, 1)],
    [(2, 1), (3, 1), (4, 2), (5, 4)]] []
  lhs := ofList [.fin 1, .fin 2, .ninf, .fin 0, .fin 0] .ninf
  rhs := ofList [.pinf, .pinf, .fin 100, .pinf, .fin 100] .pinf
  lb := ofList [.fin (-1), .fin (-1), .fin 0, .ninf, .ninf, .ninf] .ninf
  ub := ofList [.pinf, .pinf, .fin 1, .pinf, .pinf, .pinf] .pinf
  c := ofList [-1, -2, 1, 1, 2, 4] 0

/-- **Negation of C01 with only the simple reductions switched on** (no substitution, no parallel rows
or columns): offset 5, objective of the postsolved point 3. -/
theorem C01_simple_fails :
    (List.range 6).map (fun k => ((colCells 5 lpTwiceSimple.A k).isEmpty, decide (lpTwiceSimple.lb k = lpTwiceSimple.ub k))) =
      List.replicate 6 (false, false) ∧
    (runPresolver envEx stgsSimple 10 lpTwiceSimple).2 = (UNCHANGED, true) ∧
    (runPresolver envEx stgsSimple 10 lpTwiceSimple).1.undef = false ∧
    (runPresolver envEx stgsSimple 10 lpTwiceSimple).1.asrt = false ∧
    (runPresolver envEx stgsSimple 10 lpTwiceSimple).1.off = .fin 5 ∧
    (List.range 6).map (fun k => (idxMapOf (runPresolver envEx stgsSimple 10 lpTwiceSimple).1.colSize k,
      (runPresolver envEx stgsSimple 10 lpTwiceSimple).1.c k)) =
      [(none, -1), (none, -2), (some 0, 1), (some 1, 1), (some 2, 2), (some 3, 4)] ∧
    (postsolve (runPresolver envEx stgsSimple 10 lpTwiceSimple).1 (fun _ => .fin 0) (fun _ => .fin 0)
      (fun _ => .fin 0)).map
      (fun σ => (List.range 6).map σ.x) = some [.fin (-1), .fin (-1), .fin 0, .fin 0, .fin 0, .fin 0] ∧
    lpTwiceSimple.obj (ofList [-1, -1, 0, 0, 0, 0] 0) = 3 := by
  decide +kernel

end Verif
