import Verif.Lemmas.EnvEx
import Verif.Spec.Problem
import Mathlib.Tactic.Linarith
import Mathlib.Tactic.NormNum
import Mathlib.Tactic.IntervalCases

/-!
# Whole runs in which the end-to-end properties fail

Each theorem is about one complete run of the driver with all reductions switched on, followed by
postsolve.  The environment (`envEx`) never runs out of space and never stops on the clock.
See also `C29_order_fails`, `C32_dton_fails`, `C33_order_fails`, `C34_split_fails` (each a negation
of C02) and `C33_boundary_fails` (C03).
-/

namespace Verif

/-- The run used here. -/
abbrev fullRun (P : LP) : St × Status × Bool := runPresolver envEx stgsAll 10 P

/-! ### C01 -/

/-- An empty column `x0` with `lb = ub = 1` and cost 1, beside two rows in three free variables
that no reduction touches. -/
def lpEmptyFixed : LP where
  m := 2
  n := 4
  A := ofList [[(1, 1), (2, 1), (3, 1)], [(1, 1), (2, 2), (3, 4)]] []
  lhs := ofList [.fin 0, .fin 0] .ninf
  rhs := ofList [.pinf, .fin 100] .pinf
  lb := ofList [.fin 1, .ninf, .ninf, .ninf] .ninf
  ub := ofList [.fin 1, .pinf, .pinf, .pinf] .pinf
  c := ofList [1, 1, 2, 4] 0

/-- **Negation of C01.** The column is fixed because its bounds are equal and removed a second
time because it is empty: its cost is counted twice.  The offset is 2, the reduced costs of the
three remaining columns are the original ones; for `x' = 0` postsolve returns `x = (1, 0, 0, 0)`,
whose objective is 1, not 2.  (A debug build stops at an assertion: `asrt = false`.) -/
theorem C01_fails :
    (fullRun lpEmptyFixed).2 = (UNCHANGED, true) ∧ (fullRun lpEmptyFixed).1.undef = false ∧
    (fullRun lpEmptyFixed).1.asrt = false ∧ (fullRun lpEmptyFixed).1.off = .fin 2 ∧
    (List.range 4).map (fun k => (idxMapOf (fullRun lpEmptyFixed).1.colSize k, (fullRun lpEmptyFixed).1.c k)) =
      [(none, 1), (some 0, 1), (some 1, 2), (some 2, 4)] ∧
    (postsolve (fullRun lpEmptyFixed).1 (fun _ => .fin 0) (fun _ => .fin 0) (fun _ => .fin 0)).map
      (fun σ => (List.range 4).map σ.x) = some [.fin 1, .fin 0, .fin 0, .fin 0] ∧
    lpEmptyFixed.obj (ofList [1, 0, 0, 0] 0) ≠ 2 := by
  decide +kernel

/-! ### C02 -/

/-- `x0 + x1 = 4`, `x1 + x2 + x3 ≤ 5`, `x0 + 2 x2 + 4 x3 ≤ 20`, `0 ≤ x0, x2, x3 ≤ 10`, `x1` free,
cost `- x1 - x2 - x3`. -/
def lpStale : LP where
  m := 3
  n := 4
  A := ofList [[(0, 1), (1, 1)], [(1, 1), (2, 1), (3, 1)], [(0, 1), (2, 2), (3, 4)]] []
  lhs := ofList [.fin 4, .ninf, .ninf] .ninf
  rhs := ofList [.fin 4, .fin 5, .fin 20] .pinf
  lb := ofList [.fin 0, .ninf, .fin 0, .fin 0] .ninf
  ub := ofList [.fin 10, .pinf, .fin 10, .fin 10] .pinf
  c := ofList [0, -1, -1, -1] 0

/-- **Negation of C02 (and of C23).** The doubleton elimination of `x1` makes both activities of the
second row finite at once, but only the minimal activity is recomputed (`C22_coeff_change_fails`).
The stored maximal activity stays 0, the row is dropped as redundant and never comes back.  The
reduced problem is empty; postsolve returns `(0, 4, 10, 0)`, which violates the row by 9.  No
assertion fires. -/
theorem C02_stale_activity_fails :
    (fullRun lpStale).2 = (UNCHANGED, true) ∧ (fullRun lpStale).1.undef = false ∧
    (fullRun lpStale).1.asrt = true ∧
    (List.range 4).map (idxMapOf (fullRun lpStale).1.colSize) = [none, none, none, none] ∧
    (List.range 3).map (idxMapOf (fullRun lpStale).1.rowSize) = [none, none, none] ∧
    (postsolve (fullRun lpStale).1 (fun _ => .nan) (fun _ => .nan) (fun _ => .nan)).map
      (fun σ => (List.range 4).map σ.x) = some [.fin 0, .fin 4, .fin 10, .fin 0] ∧
    (∀ x : ℕ → ℚ, lpStale.Feasible x → x 1 + x 2 + x 3 ≤ 5) ∧
    dot (lpStale.A 1) (ofList [0, 4, 10, 0] 0) = 14 := by
  refine ⟨by decide +kernel, by decide +kernel, by decide +kernel, by decide +kernel, by decide +kernel,
    by decide +kernel, fun x hx => ?_, by decide +kernel⟩
  have h := (hx.row 1 (by decide)).2
  simp [lpStale, ofList] at h
  linarith

/-! ### C03 -/

/-- `4 ≤ 1e7 x0 ≤ 5`, `0 ≤ x0 ≤ 5e-7`. -/
def lpClose : LP where
  m := 1
  n := 1
  A := ofList [[(0, 10000000)]] []
  lhs := ofList [.fin 4] .ninf
  rhs := ofList [.fin 5] .pinf
  lb := ofList [.fin 0] .ninf
  ub := ofList [.fin (1 / 2000000)] .pinf
  c := ofList [1] 0

/-- **Negation of C03.** Bounds closer than the tolerance are taken as equal and the variable is
fixed at the lower one; with a large coefficient the row is then violated by 4 and INFEASIBLE is
returned for a feasible problem. -/
theorem C03_fails :
    (fullRun lpClose).2 = (INFEASIBLE, true) ∧ (fullRun lpClose).1.undef = false ∧
    (fullRun lpClose).1.asrt = true ∧ lpClose.Feasible (fun _ => 1 / 2000000) := by
  refine ⟨by decide +kernel, by decide +kernel, by decide +kernel, ⟨fun i hi => ?_, fun k hk => ?_⟩⟩
  · have : i = 0 := by simp only [lpClose] at hi; omega
    subst this
    simp [lpClose, ofList]; norm_num
  · have : k = 0 := by simp only [lpClose] at hk; omega
    subst this
    simp [lpClose, ofList]

/-! ### C04 -/

/-- `x0 + x1 = 0`, `(1 + 5e-11) x0 + x1 ≤ 1`, free variables, cost `- x0`. -/
def lpTiny : LP where
  m := 2
  n := 2
  A := ofList [[(0, 1), (1, 1)], [(0, 1 + 1 / 20000000000), (1, 1)]] []
  lhs := ofList [.fin 0, .ninf] .ninf
  rhs := ofList [.fin 0, .fin 1] .pinf
  lb := fun _ => .ninf
  ub := fun _ => .pinf
  c := ofList [-1, 0] 0

/-- **Negation of C04.** The problem has the optimal solution `(2e10, -2e10)`.  The doubleton
elimination of `x1` leaves the coefficient `5e-11` in the second row, which is dropped because it
is not larger than `ZERO_TOL`; `x0` is then an empty column with negative cost and no upper bound,
and UNBNDORINFEAS is returned. -/
theorem C04_fails :
    (fullRun lpTiny).2 = (UNBNDORINFEAS, true) ∧ (fullRun lpTiny).1.undef = false ∧
    lpTiny.Optimal (ofList [20000000000, -20000000000] 0) := by
  refine ⟨by decide +kernel, by decide +kernel, ⟨fun i hi => ?_, fun k hk => ?_⟩, fun x hx => ?_⟩
  · have : i = 0 ∨ i = 1 := by simp only [lpTiny] at hi; omega
    rcases this with rfl | rfl <;> simp [lpTiny, ofList]
    norm_num
  · simp [lpTiny]
  · have h0 := (hx.row 0 (by decide)).2
    have h0' := (hx.row 0 (by decide)).1
    have h1 := (hx.row 1 (by decide)).2
    simp [lpTiny, ofList] at h0 h0' h1
    simp [LP.obj, lpTiny, ofList, List.range_succ]
    linarith

/-! ### C05, C06 -/

/-- `1 ≤ v ≤ 1 + 1e-7`, `-5 ≤ v ≤ 5` for `v = x0 + x1 + x2`, `x0 + 2 x1 + 4 x2 ≤ 100`, free
variables, cost `3 v`. -/
def lpDualLost : LP where
  m := 3
  n := 3
  A := ofList [[(0, 1), (1, 1), (2, 1)], [(0, 1), (1, 1), (2, 1)], [(0, 1), (1, 2), (2, 4)]] []
  lhs := ofList [.fin 1, .fin (-5), .ninf] .ninf
  rhs := ofList [.fin (1 + 1 / 10000000), .fin 5, .fin 100] .pinf
  lb := fun _ => .ninf
  ub := fun _ => .pinf
  c := ofList [3, 3, 3] 0

/-- **Negation of C05 and of C06.** The parallel rows are merged into the equality `v = 1 + 1e-7`
with one record for each side, both naming the first row.  `x' = (1 + 1e-7, 0, 0)`, `y' = (3, 0)`,
`z' = 0` is a KKT point of the reduced problem.  On the way back the record of the left side moves
the dual 3 to the first row and the record of the right side overwrites it with 0: postsolve
returns `y = 0`, `z = 0` although the cost is not zero. -/
theorem C05_fails :
    (fullRun lpDualLost).2 = (UNCHANGED, true) ∧ (fullRun lpDualLost).1.undef = false ∧
    (fullRun lpDualLost).1.asrt = true ∧ (fullRun lpDualLost).1.tiny = false ∧
    (List.range 3).map (fun i => (idxMapOf (fullRun lpDualLost).1.rowSize i, (fullRun lpDualLost).1.A i)) =
      [(none, []), (some 0, [(0, 1), (1, 1), (2, 1)]), (some 1, [(0, 1), (1, 2), (2, 4)])] ∧
    (List.range 3).map (fun k => (idxMapOf (fullRun lpDualLost).1.colSize k, (fullRun lpDualLost).1.c k,
      (fullRun lpDualLost).1.lb k, (fullRun lpDualLost).1.ub k)) =
      [(some 0, 3, .ninf, .pinf), (some 1, 3, .ninf, .pinf), (some 2, 3, .ninf, .pinf)] ∧
    (postsolve (fullRun lpDualLost).1 (ofList [.fin (1 + 1 / 10000000), .fin 0, .fin 0] .nan)
      (ofList [.fin 3, .fin 0] .nan) (fun _ => .fin 0)).map
        (fun σ => ((List.range 3).map σ.y, (List.range 3).map σ.z)) =
      some ([.fin 0, .fin 0, .fin 0], [.fin 0, .fin 0, .fin 0]) := by
  decide +kernel

end Verif
