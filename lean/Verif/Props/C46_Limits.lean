import Verif.Props.Counterexamples
import Verif.Props.C02_Feasibility

/-!
# C03 and C46 and their limits: verdicts and bounds from a stale activity

The problems below are far from every tolerance; what goes wrong is the stored maximal activity of
`C22_coeff_change_fails`.
-/

namespace Verif

/-- `x0 + x1 = 4`, `lhs ≤ x1 + x2 + x3`, `x0 + 2 x2 + 4 x3 ≤ rhs`, `0 ≤ x0, x2, x3 ≤ 10`, `x1` free, cost
`x1 + x2 + x3`. -/
def lpStaleLhs (lhs rhs : ℚ) : LP where
  m := 3
  n := 4
  A := ofList [[(0, 1), (1, 1)], [(1, 1), (2, 1), (3, 1)], [(0, 1), (2, 2), (3, 4)]] []
  lhs := ofList [.fin 4, .fin lhs, .ninf] .ninf
  rhs := ofList [.fin 4, .pinf, .fin rhs] .pinf
  lb := ofList [.fin 0, .ninf, .fin 0, .fin 0] .ninf
  ub := ofList [.fin 10, .pinf, .fin 10, .fin 10] .pinf
  c := ofList [0, 1, 1, 1] 0

/-- **Negation of C03 without any tolerance.**  After the elimination of the free column `x1` the second row reads
`1 ≤ - x0 + x2 + x3`; its stored maximal activity is still 0 (the true one is 20), so `run_presolver` returns
INFEASIBLE.  The point `(2, 2, 5, 1)` satisfies every bound and every inequality with a margin of 1 at least.  No
assertion fires. -/
theorem C03_stale_activity_fails :
    (fullRun (lpStaleLhs 5 20)).2 = (INFEASIBLE, true) ∧ (fullRun (lpStaleLhs 5 20)).1.undef = false ∧
    (fullRun (lpStaleLhs 5 20)).1.asrt = true ∧ (fullRun (lpStaleLhs 5 20)).1.near = false ∧
    (lpStaleLhs 5 20).Feasible (ofList [2, 2, 5, 1] 0) ∧
    dot ((lpStaleLhs 5 20).A 1) (ofList [2, 2, 5, 1] 0) = 5 + 3 ∧
    dot ((lpStaleLhs 5 20).A 2) (ofList [2, 2, 5, 1] 0) = 20 - 4 := by
  refine ⟨by decide +kernel, by decide +kernel, by decide +kernel, by decide +kernel, ⟨?_, ?_⟩, by decide +kernel,
    by decide +kernel⟩
  · show ∀ i < 3, _
    decide +kernel
  · show ∀ k < 4, _
    decide +kernel

/-- **Negation of C46.**  With left side 3 and right side 60 the stale activity makes primal propagation derive
`x2 ≥ 9` and `x3 ≥ 9`.  The run returns the empty problem, for which the postsolved point is `(1, 3, 9, 9)` with
objective 21.  The point `(1, 3, 0, 0)` is feasible and has objective 3.  No assertion fires and nothing was rounded. -/
theorem C46_stale_activity_fails :
    (fullRun (lpStaleLhs 3 60)).2 = (UNCHANGED, true) ∧ (fullRun (lpStaleLhs 3 60)).1.undef = false ∧
    (fullRun (lpStaleLhs 3 60)).1.asrt = true ∧ (fullRun (lpStaleLhs 3 60)).1.near = false ∧
    (reducedLP (fullRun (lpStaleLhs 3 60)).1).m = 0 ∧ (reducedLP (fullRun (lpStaleLhs 3 60)).1).n = 0 ∧
    (postsolve (fullRun (lpStaleLhs 3 60)).1 (fun _ => .nan) (fun _ => .nan) (fun _ => .nan)).map
      (fun σ => (List.range 4).map σ.x) = some [.fin 1, .fin 3, .fin 9, .fin 9] ∧
    (lpStaleLhs 3 60).Feasible (ofList [1, 3, 9, 9] 0) ∧ (lpStaleLhs 3 60).obj (ofList [1, 3, 9, 9] 0) = 21 ∧
    (lpStaleLhs 3 60).Feasible (ofList [1, 3, 0, 0] 0) ∧ (lpStaleLhs 3 60).obj (ofList [1, 3, 0, 0] 0) = 3 := by
  refine ⟨by decide +kernel, by decide +kernel, by decide +kernel, by decide +kernel, by decide +kernel,
    by decide +kernel, by decide +kernel, ⟨?_, ?_⟩, by decide +kernel, ⟨?_, ?_⟩, by decide +kernel⟩
  · show ∀ i < 3, _
    decide +kernel
  · show ∀ k < 4, _
    decide +kernel
  · show ∀ i < 3, _
    decide +kernel
  · show ∀ k < 4, _
    decide +kernel

/-- `x0 + x1 = 4`, `-1 ≤ x1 + x2 + x3`, `x0 + 2 x2 ≤ 20`, `0 ≤ x0, x2, x3 ≤ 10`, `x1` free, cost
`- x0 - x2 + 2 x3`. -/
def lpStaleSton : LP where
  m := 3
  n := 4
  A := ofList [[(0, 1), (1, 1)], [(1, 1), (2, 1), (3, 1)], [(0, 1), (2, 2)]] []
  lhs := ofList [.fin 4, .fin (-1), .ninf] .ninf
  rhs := ofList [.fin 4, .pinf, .fin 20] .pinf
  lb := ofList [.fin 0, .ninf, .fin 0, .fin 0] .ninf
  ub := ofList [.fin 10, .pinf, .fin 10, .fin 10] .pinf
  c := ofList [-1, 0, -1, 2] 0

/-- Doubleton equalities and singleton columns, no primal propagation, no parallel rows and columns. -/
def stgsDtonSton : Settings :=
  { stgsAll with primalPropagation := false, parallelRows := false, parallelCols := false }

/-- **Negation of C02 and C46 without primal propagation.**  After the elimination of the free column `x1` the second
row reads `-5 ≤ - x0 + x2 + x3`; because of its stale activity the singleton column `x3` counts as free and is substituted
out with the row, and its lower bound 0 is lost.  The reduced problem is empty with optimal value -40; postsolve returns
`(0, 4, 10, -15)`.  Every feasible point has an objective of at least -20.  No assertion fires, nothing was rounded and
no column was fixed by tolerance.  So the settings of `C03_doubletons_partial` and its companions cannot be extended by
singleton columns. -/
theorem C46_stale_singleton_fails :
    (runPresolver envEx stgsDtonSton 10 lpStaleSton).2 = (UNCHANGED, true) ∧
    (runPresolver envEx stgsDtonSton 10 lpStaleSton).1.undef = false ∧
    (runPresolver envEx stgsDtonSton 10 lpStaleSton).1.asrt = true ∧
    (runPresolver envEx stgsDtonSton 10 lpStaleSton).1.tiny = false ∧
    (runPresolver envEx stgsDtonSton 10 lpStaleSton).1.near = false ∧
    (reducedLP (runPresolver envEx stgsDtonSton 10 lpStaleSton).1).m = 0 ∧
    (reducedLP (runPresolver envEx stgsDtonSton 10 lpStaleSton).1).n = 0 ∧
    (runPresolver envEx stgsDtonSton 10 lpStaleSton).1.off = .fin (-40) ∧
    (postsolve (runPresolver envEx stgsDtonSton 10 lpStaleSton).1 (fun _ => .nan) (fun _ => .nan) (fun _ => .nan)).map
      (fun σ => (List.range 4).map σ.x) = some [.fin 0, .fin 4, .fin 10, .fin (-15)] ∧
    lpStaleSton.lb 3 = .fin 0 ∧
    lpStaleSton.Feasible (ofList [10, -6, 5, 0] 0) ∧ lpStaleSton.obj (ofList [10, -6, 5, 0] 0) = -15 ∧
    ∀ x, lpStaleSton.Feasible x → -20 ≤ lpStaleSton.obj x := by
  refine ⟨by decide +kernel, by decide +kernel, by decide +kernel, by decide +kernel, by decide +kernel,
    by decide +kernel, by decide +kernel, by decide +kernel, by decide +kernel, rfl, ⟨?_, ?_⟩, by decide +kernel,
    fun x hx => ?_⟩
  · show ∀ i < 3, _
    decide +kernel
  · show ∀ k < 4, _
    decide +kernel
  · have h0 := (hx.2 0 (by decide)).2
    have h2 := (hx.2 2 (by decide)).2
    have h3 := (hx.2 3 (by decide)).1
    simp [lpStaleSton, ofList] at h0 h2 h3
    simp [LP.obj, lpStaleSton, ofList, List.range_succ]
    linarith

end Verif
