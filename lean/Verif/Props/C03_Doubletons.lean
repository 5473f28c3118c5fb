import Verif.Inv.FwMain
import Verif.Props.C01_Objective
import Verif.Props.C03_Verdicts
import Verif.Props.C54_Numbers

/-!
# C03, C04, C46: verdicts and optimal solutions, whole runs with doubleton equalities

The three theorems are about the same runs: any valid and regular problem, any environment, empty rows and columns,
columns with equal bounds, singleton rows, dual fixing and doubleton equalities in any order and number, but no
reductions of singleton columns, parallel rows and parallel columns and no primal propagation.  `tiny = false` says that
no coefficient other than zero was dropped, `near = false` that no column was fixed because its bounds are equal up to
the tolerance but not equal, and none to an infinite value (the flags are not part of the code, see DESIGN.md).
-/

namespace Verif

/-- **C03, whole runs with doubleton equalities.**  `INFEASIBLE` is only returned for problems without feasible points.

Missing from C03: the other reductions (primal propagation without doubleton equalities is covered by
`C03_run_partial`; with them it is false, see `C03_stale_activity_fails`), runs in which a column is fixed because its bounds are
equal up to the tolerance (`C03_fails`), a coefficient is dropped or an assertion fails. -/
theorem C03_doubletons_partial {P : LP} (hP : P.Valid) (hR : P.Regular) {env : Env} {stgs : Settings}
    (h1 : stgs.stonCols = false) (h3 : stgs.parallelRows = false)
    (h4 : stgs.parallelCols = false) (h5 : stgs.primalPropagation = false) {fuel : ℕ}
    (ho : (runPresolver env stgs fuel P).1.asrt = true)
    (ht : (runPresolver env stgs fuel P).1.tiny = false)
    (hn : (runPresolver env stgs fuel P).1.near = false)
    (hs : (runPresolver env stgs fuel P).2.1 = INFEASIBLE) : ∀ w, ¬ P.Feasible w := by
  intro w hw
  rcases (runPresolver_fwd hP hR hw h1 h3 h4 h5 ho ht hn).1 with h | h
  · rw [hs] at h; exact not_fine_infeasible h
  · rw [hs] at h; exact absurd h.1 (by decide)

/-- **C04, whole runs with doubleton equalities.**  If anything but `UNCHANGED` or `REDUCED` is returned then the problem
has no feasible point or its objective has no lower bound.

Missing from C04: as for C03. -/
theorem C04_doubletons_partial {P : LP} (hP : P.Valid) (hR : P.Regular) {env : Env} {stgs : Settings}
    (h1 : stgs.stonCols = false) (h3 : stgs.parallelRows = false)
    (h4 : stgs.parallelCols = false) (h5 : stgs.primalPropagation = false) {fuel : ℕ}
    (ho : (runPresolver env stgs fuel P).1.asrt = true)
    (ht : (runPresolver env stgs fuel P).1.tiny = false)
    (hn : (runPresolver env stgs fuel P).1.near = false)
    (hs : hasStatus (runPresolver env stgs fuel P).2.1 UNBNDORINFEAS = true) :
    (∀ w, ¬ P.Feasible w) ∨ P.Unbounded := by
  by_cases hw : ∃ w, P.Feasible w
  · right
    obtain ⟨w, hw⟩ := hw
    rcases (runPresolver_fwd hP hR hw h1 h3 h4 h5 ho ht hn).1 with hf | ⟨-, hu⟩
    · rw [fine, hs] at hf; cases hf
    · exact hu
  · left
    intro w h
    exact hw ⟨w, h⟩

/-- **C46, whole runs with doubleton equalities.**  If the original problem is feasible then so is the reduced problem,
and an optimal solution of the reduced problem is postsolved to numbers whose objective is at most that of every feasible
point of the original problem.  Duals play no role: `y` and `z` are arbitrary, and the reduced solution need not come with
any. -/
theorem C46_doubletons_partial {P : LP} (hP : P.Valid) (hR : P.Regular) {env : Env} (hE : env.SortOK) {stgs : Settings}
    (h1 : stgs.stonCols = false) (h3 : stgs.parallelRows = false)
    (h4 : stgs.parallelCols = false) (h5 : stgs.primalPropagation = false) {fuel : ℕ}
    (ho : (runPresolver env stgs fuel P).1.asrt = true)
    (ht : (runPresolver env stgs fuel P).1.tiny = false)
    (hn : (runPresolver env stgs fuel P).1.near = false)
    (hs : (runPresolver env stgs fuel P).2.1 = UNCHANGED) {w : ℕ → ℚ} (hw : P.Feasible w) :
    (∃ r, (reducedLP (runPresolver env stgs fuel P).1).Feasible r) ∧
    ∀ x, (reducedLP (runPresolver env stgs fuel P).1).Optimal x → ∀ (y z : ℕ → D) (σ : Sol),
      postsolve (runPresolver env stgs fuel P).1 (fun t => .fin (x t)) y z = some σ →
      (∀ k < P.n, ∃ q, σ.x k = .fin q) ∧ P.obj (fun k => (σ.x k).toQ) ≤ P.obj w := by
  obtain ⟨r, o, eo, hr, hc⟩ := (runPresolver_fwd hP hR hw h1 h3 h4 h5 ho ht hn).2 (by rw [hs]; exact fine_unchanged)
  refine ⟨⟨r, hr⟩, fun x hx y z σ hpost => ?_⟩
  have hfin := C54_numbers_partial hP hE h1 h4 hs ho hn ⟨o, eo⟩ x y z hpost
  obtain ⟨o', eo', h⟩ := C01_run_partial hP hE hs ho ht _ y z hpost hfin
  rw [eo] at eo'
  have e : o = o' := D.fin.inj eo'
  have h2 := hx.2 r hr
  refine ⟨hfin, ?_⟩
  rw [h, ← e]
  exact le_trans (by simpa [D.toQ] using h2) hc

/-- The hypotheses of `C46_doubletons_partial` hold on `lpDtonRun`: row 0 replaces `x1` by `x0`, row 3 becomes a bound,
and the optimal point of the reduced problem is postsolved to five numbers. -/
example : lpDtonRun.Valid ∧ lpDtonRun.Regular ∧ envEx.SortOK ∧ (runPresolver envEx stgsDton 10 lpDtonRun).1.asrt = true ∧
    (runPresolver envEx stgsDton 10 lpDtonRun).1.tiny = false ∧
    (runPresolver envEx stgsDton 10 lpDtonRun).1.near = false ∧
    (runPresolver envEx stgsDton 10 lpDtonRun).2.1 = UNCHANGED ∧
    lpDtonRun.Feasible (ofList [1, -1, 3, 2, 1] 0) ∧
    (reducedLP (runPresolver envEx stgsDton 10 lpDtonRun).1).Optimal (ofList [1 / 2, 2, 1, 0] 0) ∧
    (postsolve (runPresolver envEx stgsDton 10 lpDtonRun).1 (fun t => .fin (ofList [1 / 2, 2, 1, 0] 0 t))
      (fun _ => .fin 1) (fun _ => .fin 2)).map (fun σ => (List.range 5).map σ.x) =
      some [.fin (1 / 2), .fin (-2), .fin 2, .fin 1, .fin 0] := by
  have hk : (reducedLP (runPresolver envEx stgsDton 10 lpDtonRun).1).Kkt (ofList [1 / 2, 2, 1, 0] 0) (ofList [0, 1, 0] 0)
      (ofList [5, 0, 2, 1] 0) := by decide +kernel
  have hm : (reducedLP (runPresolver envEx stgsDton 10 lpDtonRun).1).m = 3 := by decide +kernel
  have hn : (reducedLP (runPresolver envEx stgsDton 10 lpDtonRun).1).n = 4 := by decide +kernel
  refine ⟨lpDtonRun_valid, lpDtonRun_regular, envEx_sortOK, by decide +kernel, by decide +kernel, by decide +kernel,
    by decide +kernel, ⟨by decide +kernel, by decide +kernel⟩, ⟨⟨?_, ?_⟩, fun y hy => hk.le ?_ hy⟩, by decide +kernel⟩
  · rw [hm]; decide +kernel
  · rw [hn]; decide +kernel
  · rw [hm, hn]; decide +kernel

/-- `x0 - x1 = 1`, `x0 - x1 + x2 ≥ 5`, `x0 + x2 + x3 ≤ 40`, `x1 + x3 ≥ 1`, `x2 ≤ 3`: the first two rows give `x2 ≥ 4`. -/
def lpDtonNone : LP where
  m := 4
  n := 4
  A := ofList [[(0, 1), (1, -1)], [(0, 1), (1, -1), (2, 1)], [(0, 1), (2, 1), (3, 1)], [(1, 1), (3, 1)]] []
  lhs := ofList [.fin 1, .fin 5, .ninf, .fin 1] .ninf
  rhs := ofList [.fin 1, .pinf, .fin 40, .pinf] .pinf
  lb := ofList [.fin 0, .fin 0, .fin 0, .fin 0] .ninf
  ub := ofList [.fin 10, .fin 10, .fin 3, .fin 10] .pinf
  c := ofList [1, 1, -1, 1] 0

/-- The hypotheses of `C03_doubletons_partial` hold on `lpDtonNone`: the verdict is found in the singleton row that is
left of row 1 after `x1` has been replaced. -/
example : lpDtonNone.Valid ∧ lpDtonNone.Regular ∧ (runPresolver envEx stgsDton 10 lpDtonNone).1.asrt = true ∧
    (runPresolver envEx stgsDton 10 lpDtonNone).1.tiny = false ∧
    (runPresolver envEx stgsDton 10 lpDtonNone).1.near = false ∧
    (runPresolver envEx stgsDton 10 lpDtonNone).2.1 = INFEASIBLE ∧
    (runPresolver envEx stgsDton 10 lpDtonNone).1.log.length = 6 := by
  refine ⟨LP.valid_ofList _ rfl rfl (by decide +kernel), ⟨fun i hi => lowCases _ ?_, fun i hi => highCases _ ?_,
    fun i hi => lowCases _ ?_, fun i hi => highCases _ ?_⟩, by decide +kernel, by decide +kernel, by decide +kernel,
    by decide +kernel, by decide +kernel⟩ <;> revert i <;> decide +kernel

/-- `x0 - x1 = 1`, `x0 + x1 + x2 ≥ 2`, `x1 + x2 + x3 ≥ 1`, cost `x0 - 2 x1 + x2 + x3`, `x0` and `x1` without upper
bounds. -/
def lpDtonDown : LP where
  m := 3
  n := 4
  A := ofList [[(0, 1), (1, -1)], [(0, 1), (1, 1), (2, 1)], [(1, 1), (2, 1), (3, 1)]] []
  lhs := ofList [.fin 1, .fin 2, .fin 1] .ninf
  rhs := ofList [.fin 1, .pinf, .pinf] .pinf
  lb := ofList [.fin 0, .fin 0, .fin 0, .fin 0] .ninf
  ub := ofList [.pinf, .pinf, .fin 3, .fin 10] .pinf
  c := ofList [1, -2, 1, 1] 0

/-- The hypotheses of `C04_doubletons_partial` hold on `lpDtonDown`: after `x1` has been replaced the cost of `x0` is
negative and no row limits it. -/
example : lpDtonDown.Valid ∧ lpDtonDown.Regular ∧
    (runPresolver envEx { stgsDton with dualFix := true } 10 lpDtonDown).1.asrt = true ∧
    (runPresolver envEx { stgsDton with dualFix := true } 10 lpDtonDown).1.tiny = false ∧
    (runPresolver envEx { stgsDton with dualFix := true } 10 lpDtonDown).1.near = false ∧
    (runPresolver envEx { stgsDton with dualFix := true } 10 lpDtonDown).2.1 = UNBNDORINFEAS ∧
    (runPresolver envEx { stgsDton with dualFix := true } 10 lpDtonDown).1.log.length = 3 := by
  refine ⟨LP.valid_ofList _ rfl rfl (by decide +kernel), ⟨fun i hi => lowCases _ ?_, fun i hi => highCases _ ?_,
    fun i hi => lowCases _ ?_, fun i hi => highCases _ ?_⟩, by decide +kernel, by decide +kernel, by decide +kernel,
    by decide +kernel, by decide +kernel⟩ <;> revert i <;> decide +kernel

end Verif
