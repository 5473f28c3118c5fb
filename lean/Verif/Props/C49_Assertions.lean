import Verif.Inv.AsrtMain
import Verif.Props.C01_Objective
import Verif.Props.C03_Verdicts
import Verif.Props.C49_Fails
import Verif.Props.C06_Propagation

/-!
# C49: the assertions hold in runs of the simple reductions that end without a verdict

The hypothesis that no assertion failed, which the theorems about whole runs carry, is discharged here
for these settings.
-/

namespace Verif

/-- **C49, whole runs of the simple reductions.**  If the run ends without a verdict, no column was moved to
infinity, and no column was fixed twice, then no assertion failed, whatever the problem, the environment and
the number of rounds.

Partial: without singleton columns, doubleton equations, parallel rows and parallel columns; the bounds of no
variable are exactly the tolerance apart in the wrong order.  In runs that end with a verdict, and in runs that fix a
column twice, assertions do fail: `C49_unbounded_fails`, `C49_infeasible_fails`, `C01_simple_fails`; with bounds
exactly the tolerance apart: `C49_tolerance_fails`. -/
theorem C49_partial {P : LP} (hP : P.Valid) (hR : P.Regular)
    (hg : ∀ k < P.n, ∀ l u, P.lb k = .fin l → P.ub k = .fin u → l ≠ u + FEAS_TOL) {env : Env} {stgs : Settings}
    (h1 : stgs.stonCols = false) (h2 : stgs.dtonEq = false)
    (h3 : stgs.parallelRows = false) (h4 : stgs.parallelCols = false) {fuel : ℕ}
    (hs : (runPresolver env stgs fuel P).2.1 = UNCHANGED)
    (hlog : ∀ r ∈ (runPresolver env stgs fuel P).1.log, r.plain = true)
    (hn : (fixedNames (runPresolver env stgs fuel P).1.log).Nodup) :
    (runPresolver env stgs fuel P).1.asrt = true :=
  runPresolver_asrt hP hR hg h1 h2 h3 h4 hs hlog hn

/-- An empty column with bounds `10⁻⁶` and `0`. -/
def lpTol : LP where
  m := 2
  n := 4
  A := ofList [[(1, 1), (2, 1), (3, 1)], [(1, 1), (2, 2), (3, 4)]] []
  lhs := ofList [.fin 0, .fin 0] .ninf
  rhs := ofList [.pinf, .fin 100] .pinf
  lb := ofList [.fin (1 / 1000000), .ninf, .ninf, .ninf] .ninf
  ub := ofList [.fin 0, .pinf, .pinf, .pinf] .pinf
  c := ofList [1, 1, 2, 4] 0

/-- **Negation of C49, bounds exactly the tolerance apart.**  `remove_variables_with_close_bounds` tries to fix the
empty column, `fix_col` asserts that it is not empty and then finds it infeasible; the caller ignores that, and the
column is fixed as an empty column.  No column is recorded twice and the run ends without a verdict. -/
theorem C49_tolerance_fails :
    (runPresolver envEx stgsSimple 10 lpTol).2 = (UNCHANGED, true) ∧
    (runPresolver envEx stgsSimple 10 lpTol).1.asrt = false ∧
    fixedNames (runPresolver envEx stgsSimple 10 lpTol).1.log = [0] ∧
    (∀ r ∈ (runPresolver envEx stgsSimple 10 lpTol).1.log, r.plain = true) := by
  decide +kernel

/-- The bounds of no column of `exSimple` are the tolerance apart in the wrong order. -/
theorem exSimple_gap : ∀ k < exSimple.n, ∀ l u, exSimple.lb k = .fin l → exSimple.ub k = .fin u → l ≠ u + FEAS_TOL := by
  intro k hk l u hl hu
  have : ∀ k < exSimple.n, ∀ l ∈ [0, 1], ∀ u ∈ [10, 1, 30], l ≠ u + FEAS_TOL := by decide +kernel
  have hk' : k < 6 := hk
  have hl' : ∀ k < 6, exSimple.lb k = .fin 0 ∨ exSimple.lb k = .fin 1 := by decide +kernel
  have hu' : ∀ k < 6, exSimple.ub k = .fin 10 ∨ exSimple.ub k = .fin 1 ∨ exSimple.ub k = .fin 30 ∨ exSimple.ub k = .pinf := by
    decide +kernel
  have e1 : l = 0 ∨ l = 1 := by
    rcases hl' k hk' with e | e <;> rw [hl] at e <;> cases e
    · exact .inl rfl
    · exact .inr rfl
  have e2 : u = 10 ∨ u = 1 ∨ u = 30 := by
    rcases hu' k hk' with e | e | e | e <;> rw [hu] at e <;> cases e
    · exact .inl rfl
    · exact .inr (.inl rfl)
    · exact .inr (.inr rfl)
  refine this k hk l ?_ u ?_
  · rcases e1 with rfl | rfl <;> simp
  · rcases e2 with rfl | rfl | rfl <;> simp

/-- The hypotheses of `C49_partial` hold on `exSimple`, on which five records are written. -/
example : exSimple.Valid ∧ exSimple.Regular ∧
    (∀ k < exSimple.n, ∀ l u, exSimple.lb k = .fin l → exSimple.ub k = .fin u → l ≠ u + FEAS_TOL) ∧
    (runPresolver envEx stgsSimple 10 exSimple).2.1 = UNCHANGED ∧
    (∀ r ∈ (runPresolver envEx stgsSimple 10 exSimple).1.log, r.plain = true) ∧
    (fixedNames (runPresolver envEx stgsSimple 10 exSimple).1.log).Nodup ∧
    5 ≤ (runPresolver envEx stgsSimple 10 exSimple).1.log.length :=
  ⟨exSimple_valid, exSimple_regular, exSimple_gap, by decide +kernel, by decide +kernel, by decide +kernel, by decide +kernel⟩

/-- `C01_run_partial` without the hypothesis on the assertions: the objective of the postsolved point is that of the
point of the reduced problem plus the offset. -/
theorem C01_simple_partial {P : LP} (hP : P.Valid) (hR : P.Regular)
    (hg : ∀ k < P.n, ∀ l u, P.lb k = .fin l → P.ub k = .fin u → l ≠ u + FEAS_TOL) {env : Env} (ho : env.SortOK)
    {stgs : Settings} (h1 : stgs.stonCols = false) (h2 : stgs.dtonEq = false)
    (h3 : stgs.parallelRows = false) (h4 : stgs.parallelCols = false) {fuel : ℕ}
    (hs : (runPresolver env stgs fuel P).2.1 = UNCHANGED)
    (hlog : ∀ r ∈ (runPresolver env stgs fuel P).1.log, r.plain = true)
    (hn : (fixedNames (runPresolver env stgs fuel P).1.log).Nodup)
    (ht : (runPresolver env stgs fuel P).1.tiny = false) (x y z : ℕ → D) {σ : Sol}
    (hpost : postsolve (runPresolver env stgs fuel P).1 x y z = some σ)
    (hfin : ∀ k < P.n, ∃ q, σ.x k = .fin q) :
    ∃ o, (runPresolver env stgs fuel P).1.off = .fin o ∧
      P.obj (fun k => (σ.x k).toQ) =
        (reducedLP (runPresolver env stgs fuel P).1).obj (fun k => (x k).toQ) + o :=
  C01_run_partial hP ho hs (C49_partial hP hR hg h1 h2 h3 h4 hs hlog hn) ht x y z hpost hfin

/-- `C02_run_partial` without the hypothesis on the assertions. -/
theorem C02_simple_partial {P : LP} (hP : P.Valid) (hR : P.Regular)
    (hg : ∀ k < P.n, ∀ l u, P.lb k = .fin l → P.ub k = .fin u → l ≠ u + FEAS_TOL) {env : Env} {stgs : Settings}
    (h1 : stgs.stonCols = false) (h2 : stgs.dtonEq = false)
    (h3 : stgs.parallelRows = false) (h4 : stgs.parallelCols = false) {fuel : ℕ}
    (hs : (runPresolver env stgs fuel P).2.1 = UNCHANGED)
    (hlog : ∀ r ∈ (runPresolver env stgs fuel P).1.log, r.plain = true)
    (hn : (fixedNames (runPresolver env stgs fuel P).1.log).Nodup) {x : ℕ → ℚ}
    (hx : (reducedLP (runPresolver env stgs fuel P).1).Feasible x) (y z : ℕ → D) {σ : Sol}
    (hpost : postsolve (runPresolver env stgs fuel P).1 (fun t => .fin (x t)) y z = some σ) :
    (∀ k < P.n, ∃ q, σ.x k = .fin q) ∧ P.NearFeasible (fun k => (σ.x k).toQ) :=
  C02_run_partial hP hR h1 h2 h3 h4 hs (C49_partial hP hR hg h1 h2 h3 h4 hs hlog hn) hlog hx y z hpost

/-- `C46_run_partial` without the hypothesis on the assertions. -/
theorem C46_simple_partial {P : LP} (hP : P.Valid) (hR : P.Regular)
    (hg : ∀ k < P.n, ∀ l u, P.lb k = .fin l → P.ub k = .fin u → l ≠ u + FEAS_TOL) {env : Env} {stgs : Settings}
    (h1 : stgs.stonCols = false) (h2 : stgs.dtonEq = false)
    (h3 : stgs.parallelRows = false) (h4 : stgs.parallelCols = false) {fuel : ℕ}
    (hs : (runPresolver env stgs fuel P).2.1 = UNCHANGED)
    (hlog : ∀ r ∈ (runPresolver env stgs fuel P).1.log, r.plain = true)
    (hn : (fixedNames (runPresolver env stgs fuel P).1.log).Nodup)
    (hr : (runPresolver env stgs fuel P).1.near = false) {w : ℕ → ℚ} (hw : P.Feasible w) :
    (∃ r, (reducedLP (runPresolver env stgs fuel P).1).Feasible r) ∧
    ∀ x, (reducedLP (runPresolver env stgs fuel P).1).Optimal x → ∀ (y z : ℕ → D) (σ : Sol),
      postsolve (runPresolver env stgs fuel P).1 (fun t => .fin (x t)) y z = some σ →
      P.obj (fun k => (σ.x k).toQ) ≤ P.obj w :=
  C46_run_partial hP hR h1 h2 h3 h4 (C49_partial hP hR hg h1 h2 h3 h4 hs hlog hn) hr hs hw

/-- `C06_run_partial` without the hypothesis on the assertions. -/
theorem C06_simple_partial {P : LP} (hP : P.Valid) (hR : P.Regular)
    (hg : ∀ k < P.n, ∀ l u, P.lb k = .fin l → P.ub k = .fin u → l ≠ u + FEAS_TOL) {env : Env} {stgs : Settings}
    (h1 : stgs.stonCols = false) (h2 : stgs.dtonEq = false) (h3 : stgs.parallelRows = false)
    (h4 : stgs.parallelCols = false) (h5 : stgs.primalPropagation = false) {fuel : ℕ}
    (hs : (runPresolver env stgs fuel P).2.1 = UNCHANGED)
    (hlog : ∀ r ∈ (runPresolver env stgs fuel P).1.log, r.plain = true)
    (hn : (fixedNames (runPresolver env stgs fuel P).1.log).Nodup)
    (hr : (runPresolver env stgs fuel P).1.near = false) {x y z : ℕ → ℚ}
    (hx : (reducedLP (runPresolver env stgs fuel P).1).Feasible x)
    (hk : (reducedLP (runPresolver env stgs fuel P).1).Kkt x y z) {σ : Sol}
    (hpost : postsolve (runPresolver env stgs fuel P).1 (fun j => .fin (x j)) (fun j => .fin (y j))
      (fun j => .fin (z j)) = some σ) :
    (∀ k < P.n, (∃ q, σ.x k = .fin q) ∧ ∃ q, σ.z k = .fin q) ∧ (∀ i < P.m, ∃ q, σ.y i = .fin q) ∧
      P.Kkt (fun k => (σ.x k).toQ) (fun i => (σ.y i).toQ) (fun k => (σ.z k).toQ) :=
  C06_run_partial hP hR h1 h2 h3 h4 h5 hs (C49_partial hP hR hg h1 h2 h3 h4 hs hlog hn) hr hx hk hpost

/-- `C06_propagation_partial` without the hypothesis on the assertions. -/
theorem C06_propagation_simple_partial {P : LP} (hP : P.Valid) (hR : P.Regular) {env : Env} {stgs : Settings}
    (h1 : stgs.stonCols = false) (h2 : stgs.dtonEq = false) (h3 : stgs.parallelRows = false)
    (h4 : stgs.parallelCols = false) {fuel : ℕ}
    (hs : (runPresolver env stgs fuel P).2.1 = UNCHANGED)
    (hlog : ∀ r ∈ (runPresolver env stgs fuel P).1.log, r.plain = true)
    (hn : (fixedNames (runPresolver env stgs fuel P).1.log).Nodup)
    (hr : (runPresolver env stgs fuel P).1.near = false) {x y z : ℕ → ℚ}
    (hk : (reducedLP (runPresolver env stgs fuel P).1).Kkt x y z) {σ : Sol}
    (hpost : postsolve (runPresolver env stgs fuel P).1 (fun j => .fin (x j)) (fun j => .fin (y j))
      (fun j => .fin (z j)) = some σ) (hx : P.Feasible (fun k => (σ.x k).toQ)) :
    (∀ k < P.n, (∃ q, σ.x k = .fin q) ∧ ∃ q, σ.z k = .fin q) ∧ (∀ i < P.m, ∃ q, σ.y i = .fin q) ∧
      P.Kkt (fun k => (σ.x k).toQ) (fun i => (σ.y i).toQ) (fun k => (σ.z k).toQ) := by
  have hg : ∀ k < P.n, ∀ l u, P.lb k = .fin l → P.ub k = .fin u → l ≠ u + FEAS_TOL := fun k hk l u el eu => by
    obtain ⟨a, b⟩ := hx.col k hk
    rw [el, LoD_fin] at a
    rw [eu, HiD_fin] at b
    have := FEAS_TOL_pos
    exact ne_of_lt (by linarith)
  exact C06_propagation_partial hP hR h1 h2 h3 h4 hs (C49_partial hP hR hg h1 h2 h3 h4 hs hlog hn) hr hk hpost hx

end Verif
