import Verif.Inv.CompMedium
import Verif.Props.C06_Complementarity

/-!
# C06 with primal propagation: duals of propagated bounds are handed to the rows that imply them
-/

namespace Verif

/-- **C06, whole runs with primal propagation.**  For every valid and regular problem, every environment and all settings
that switch off singleton columns, doubleton rows, parallel rows and parallel columns (so empty rows and columns,
columns with equal bounds, singleton rows, dual fixing, bounds implied by rows, forcing rows and redundant rows and
sides are left): if the run completes, its assertions held and no value was rounded or fixed to infinity, then for every
`x`, `y`, `z` that meet the optimality conditions of the reduced problem and whose postsolved `x` is feasible in the
original problem, the postsolved `x`, `y`, `z` are numbers and meet the optimality conditions of the original problem,
exactly and without any tolerance.

The feasibility of the postsolved `x` is a hypothesis because rows are dropped as redundant up to `FEAS_TOL` and bounds
are installed with a margin, so that it holds only up to a tolerance in general (`C02_feasible_partial`).

Missing from C06: the other reductions (it is false with singleton columns, see `C06_sign_fails`, and with parallel
rows, see `C05_fails`). -/
theorem C06_propagation_partial {P : LP} (hP : P.Valid) (hR : P.Regular) {env : Env} {stgs : Settings}
    (h1 : stgs.stonCols = false) (h2 : stgs.dtonEq = false) (h3 : stgs.parallelRows = false)
    (h4 : stgs.parallelCols = false) {fuel : ℕ}
    (hf : (runPresolver env stgs fuel P).2.1 = UNCHANGED)
    (ho : (runPresolver env stgs fuel P).1.asrt = true)
    (hn : (runPresolver env stgs fuel P).1.near = false) {x y z : ℕ → ℚ}
    (hk : (reducedLP (runPresolver env stgs fuel P).1).Kkt x y z) {σ : Sol}
    (hpost : postsolve (runPresolver env stgs fuel P).1 (fun j => .fin (x j)) (fun j => .fin (y j))
      (fun j => .fin (z j)) = some σ) (hx : P.Feasible (fun k => (σ.x k).toQ)) :
    (∀ k < P.n, (∃ q, σ.x k = .fin q) ∧ ∃ q, σ.z k = .fin q) ∧ (∀ i < P.m, ∃ q, σ.y i = .fin q) ∧
      P.Kkt (fun k => (σ.x k).toQ) (fun i => (σ.y i).toQ) (fun k => (σ.z k).toQ) := by
  have hm : (runPresolver env stgs fuel P).2.1 = (mainLoop env stgs fuel (initSt P) .fast (initSt P).nnz (initSt P).nnz).2.1 ∧
      SameResult (mainLoop env stgs fuel (initSt P) .fast (initSt P).nnz (initSt P).nnz).1
        (runPresolver env stgs fuel P).1 ∧
      (runPresolver env stgs fuel P).1.near = (mainLoop env stgs fuel (initSt P) .fast (initSt P).nnz (initSt P).nnz).1.near := by
    unfold runPresolver
    simp only
    split
    · exact ⟨rfl, .refl _, rfl⟩
    · refine ⟨rfl, ?_⟩
      simp only
      split
      · exact ⟨removeRedundantBounds_out _, removeRedundantBounds_near _⟩
      · exact ⟨.refl _, rfl⟩
  obtain ⟨e, so, en⟩ := hm
  rw [so.asrt] at ho
  rw [en] at hn
  rw [so.reduced] at hk
  rw [so.postsolve] at hpost
  have hu := e.symm.trans hf
  have gap : ∀ k < P.n, ∀ l u, P.lb k = .fin l → P.ub k = .fin u → l ≤ u + FEAS_TOL := fun k hk l u el eu => by
    obtain ⟨a, b⟩ := hx.col k hk
    rw [el, LoD_fin] at a
    rw [eu, HiD_fin] at b
    have := FEAS_TOL_pos
    linarith
  have K := mainLoop_kkt (μ := ⟨true, true, true, false, true⟩) (β := true) rfl P env stgs h1 h2
    (fun s => runMedium_kkt rfl P env stgs h3 h4 s) fuel (initSt P) .fast (initSt P).nnz (initSt P).nnz
  have B0 : Base P (initSt P) := ⟨fun r hr => (by cases hr), initSt_inv hP, initSt_feas hP hR gap, initSt_inRng hP⟩
  have hfin : fine (mainLoop env stgs fuel (initSt P) .fast (initSt P).nnz (initSt P).nnz).2.1 := by
    rw [hu]; exact fine_unchanged
  have ok : Ok ⟨true, true, true, false, true⟩ (mainLoop env stgs fuel (initSt P) .fast (initSt P).nnz (initSt P).nnz).1 :=
    ⟨ho, (fun h => nomatch h), fun _ => hn⟩
  obtain ⟨B, c⟩ := K.base hfin ok B0 (initSt_ce P).1
  obtain ⟨-, hb⟩ := K.back hfin ok B0 (initSt_ce P).1
  have C := comp_reduced B.feas B.inv.gi B.rng c B.plain hk hpost
  have bx : Boxed σ.x (initSt P) := (initSt_feasPt hP hR hx).boxed B0.feas B0.inv.gi
  obtain ⟨σ1, e1, C1⟩ := hb.back _ _ (fun _ => ⟨hx, bx⟩) C
  have e2 : some σ = some σ1 := hpost.symm.trans e1
  cases e2
  exact initSt_comp C1

/-- **C06, corollary.**  Under the hypotheses of `C06_propagation_partial` no feasible point of the original problem is
better than the postsolved point, which is feasible itself: it is optimal. -/
theorem C06_propagation_optimal_partial {P : LP} (hP : P.Valid) (hR : P.Regular) {env : Env} {stgs : Settings}
    (h1 : stgs.stonCols = false) (h2 : stgs.dtonEq = false) (h3 : stgs.parallelRows = false)
    (h4 : stgs.parallelCols = false) {fuel : ℕ}
    (hf : (runPresolver env stgs fuel P).2.1 = UNCHANGED)
    (ho : (runPresolver env stgs fuel P).1.asrt = true)
    (hn : (runPresolver env stgs fuel P).1.near = false) {x y z : ℕ → ℚ}
    (hk : (reducedLP (runPresolver env stgs fuel P).1).Kkt x y z) {σ : Sol}
    (hpost : postsolve (runPresolver env stgs fuel P).1 (fun j => .fin (x j)) (fun j => .fin (y j))
      (fun j => .fin (z j)) = some σ) (hx : P.Feasible (fun k => (σ.x k).toQ)) {w : ℕ → ℚ} (hw : P.Feasible w) :
    P.obj (fun k => (σ.x k).toQ) ≤ P.obj w :=
  (C06_propagation_partial hP hR h1 h2 h3 h4 hf ho hn hk hpost hx).2.2.le (fun i _ p hp => (hP.range i p hp).2.1) hw

/-- A singleton row, and a row that implies the bound `2` of a column that has no upper bound. -/
def exImplied : LP where
  m := 3
  n := 4
  A := ofList [[(0, 1), (1, 1)], [(0, 1), (2, 1)], [(3, 1)]] []
  lhs := ofList [.ninf, .fin 1, .fin 1] .ninf
  rhs := ofList [.fin 2, .pinf, .pinf] .pinf
  lb := ofList [.fin 0, .fin 0, .fin 0, .fin 0] .ninf
  ub := ofList [.fin 1, .pinf, .fin 4, .pinf] .pinf
  c := ofList [2, -3, 1, 1] 0

theorem exImplied_valid : exImplied.Valid := by
  refine ⟨fun i => ?_, fun i p hp => ?_⟩
  · rcases lt_or_ge i 3 with h | h
    · have : i = 0 ∨ i = 1 ∨ i = 2 := by omega
      rcases this with rfl | rfl | rfl <;> (show List.Pairwise _ _; simp [exImplied, ofList])
    · have e : exImplied.A i = [] := by
        show (_ : List (List Cell)).getD i [] = []
        rw [List.getD_eq_getElem?_getD, List.getElem?_eq_none (by simpa using h)]; rfl
      rw [e]; exact List.Pairwise.nil
  · rcases lt_or_ge i 3 with h | h
    · have : i = 0 ∨ i = 1 ∨ i = 2 := by omega
      rcases this with rfl | rfl | rfl <;> revert p <;> decide +kernel
    · have e : exImplied.A i = [] := by
        show (_ : List (List Cell)).getD i [] = []
        rw [List.getD_eq_getElem?_getD, List.getElem?_eq_none (by simpa using h)]; rfl
      rw [e] at hp; cases hp

theorem exImplied_regular : exImplied.Regular := by
  refine ⟨fun i hi => lowCases _ ?_, fun i hi => highCases _ ?_, fun i hi => lowCases _ ?_,
    fun i hi => highCases _ ?_⟩ <;> revert i <;> decide +kernel

/-- The hypotheses of `C06_propagation_partial` hold on `exImplied`: the bound `2` of column 1 is installed, the reduced
duals put `-3` on it, and postsolve hands it to row 0, which changes the reduced cost of column 0 from `1` to `4`. -/
example : exImplied.Valid ∧ exImplied.Regular ∧ (runPresolver envEx stgsSimple 10 exImplied).2.1 = UNCHANGED ∧
    (runPresolver envEx stgsSimple 10 exImplied).1.asrt = true ∧
    (runPresolver envEx stgsSimple 10 exImplied).1.near = false ∧
    (reducedLP (runPresolver envEx stgsSimple 10 exImplied).1).ub 1 = .fin 2 ∧
    (reducedLP (runPresolver envEx stgsSimple 10 exImplied).1).Kkt (ofList [0, 2, 1] 0) (ofList [0, 1] 0)
      (ofList [1, -3, 0] 0) ∧
    (postsolve (runPresolver envEx stgsSimple 10 exImplied).1 (fun t => .fin (ofList [0, 2, 1] 0 t))
      (fun t => .fin (ofList [0, 1] 0 t)) (fun t => .fin (ofList [1, -3, 0] 0 t))).map
        (fun σ => ((List.range 4).map σ.x, (List.range 3).map σ.y, (List.range 4).map σ.z)) = some
      ([.fin 0, .fin 2, .fin 1, .fin 1], [.fin (-3), .fin 1, .fin 1], [.fin 4, .fin 0, .fin 0, .fin 0]) ∧
    exImplied.Feasible (ofList [0, 2, 1, 1] 0) := by
  refine ⟨exImplied_valid, exImplied_regular, by decide +kernel, by decide +kernel, by decide +kernel,
    by decide +kernel, by decide +kernel, by decide +kernel, ⟨?_, ?_⟩⟩
  · show ∀ i < 3, _
    decide +kernel
  · show ∀ k < 4, _
    decide +kernel

end Verif
