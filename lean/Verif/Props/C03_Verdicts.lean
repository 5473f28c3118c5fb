import Verif.Inv.LiveEnd
import Verif.Props.C02_Feasibility

/-!
# C03, C04, C46: verdicts and optimal solutions, whole runs

The three theorems are about the same runs: any valid problem, any environment, any choice of primal
propagation, dual fixing, bound tightening and relaxed bounds, but no reductions of singleton columns,
doubleton equations, parallel rows and parallel columns.  `near = false` says that no column was fixed
because its bounds are equal up to the tolerance but not equal, and none to an infinite value (the flag
is not part of the code, see DESIGN.md).
-/

namespace Verif

/-- **C03, whole runs.**  `INFEASIBLE` is only returned for problems without feasible points.

Missing from C03: the four other reductions, runs in which a column is fixed because its bounds are equal
up to the tolerance (`C03_fails`) or to an infinite value, runs in which an assertion fails. -/
theorem C03_run_partial {P : LP} (hP : P.Valid) (hR : P.Regular) {env : Env} {stgs : Settings}
    (h1 : stgs.stonCols = false) (h2 : stgs.dtonEq = false)
    (h3 : stgs.parallelRows = false) (h4 : stgs.parallelCols = false) {fuel : ℕ}
    (ho : (runPresolver env stgs fuel P).1.asrt = true) (hn : (runPresolver env stgs fuel P).1.near = false)
    (hs : (runPresolver env stgs fuel P).2.1 = INFEASIBLE) : ∀ w, ¬ P.Feasible w := by
  intro w hw
  have := (runPresolver_live hP hR hw h1 h2 h3 h4 ho hn).1
  rw [hs] at this
  exact not_verdict_infeasible this

/-- **C04, whole runs.**  A feasible problem for which anything but `UNCHANGED` or `REDUCED` is returned is
unbounded, and the answer is not `INFEASIBLE`.

Missing from C04: as for C03; `C04_fails` is a run with doubleton equations. -/
theorem C04_run_partial {P : LP} (hP : P.Valid) (hR : P.Regular) {env : Env} {stgs : Settings}
    (h1 : stgs.stonCols = false) (h2 : stgs.dtonEq = false)
    (h3 : stgs.parallelRows = false) (h4 : stgs.parallelCols = false) {fuel : ℕ}
    (ho : (runPresolver env stgs fuel P).1.asrt = true) (hn : (runPresolver env stgs fuel P).1.near = false)
    (hs : hasStatus (runPresolver env stgs fuel P).2.1 UNBNDORINFEAS = true) :
    (∀ w, ¬ P.Feasible w) ∨ P.Unbounded := by
  by_cases hw : ∃ w, P.Feasible w
  · right
    obtain ⟨w, hw⟩ := hw
    rcases (runPresolver_live hP hR hw h1 h2 h3 h4 ho hn).1 with hf | ⟨-, hu⟩
    · rw [fine, hs] at hf; cases hf
    · exact hu ⟨w, hw⟩
  · left
    intro w h
    exact hw ⟨w, h⟩

/-- **C46, whole runs.**  An optimal solution of the reduced problem is postsolved to a point whose objective
is at most that of every feasible point of the original problem.  (By `C02_run_partial` the point is
feasible up to the tolerance.)  If the original problem is feasible then so is the reduced problem. -/
theorem C46_run_partial {P : LP} (hP : P.Valid) (hR : P.Regular) {env : Env} {stgs : Settings}
    (h1 : stgs.stonCols = false) (h2 : stgs.dtonEq = false)
    (h3 : stgs.parallelRows = false) (h4 : stgs.parallelCols = false) {fuel : ℕ}
    (ho : (runPresolver env stgs fuel P).1.asrt = true) (hn : (runPresolver env stgs fuel P).1.near = false)
    (hs : (runPresolver env stgs fuel P).2.1 = UNCHANGED) {w : ℕ → ℚ} (hw : P.Feasible w) :
    (∃ r, (reducedLP (runPresolver env stgs fuel P).1).Feasible r) ∧
    ∀ x, (reducedLP (runPresolver env stgs fuel P).1).Optimal x → ∀ (y z : ℕ → D) (σ : Sol),
      postsolve (runPresolver env stgs fuel P).1 (fun t => .fin (x t)) y z = some σ →
      P.obj (fun k => (σ.x k).toQ) ≤ P.obj w := by
  obtain ⟨-, hf⟩ := runPresolver_live hP hR hw h1 h2 h3 h4 ho hn
  obtain ⟨t, so, cu, cl⟩ := hf (by rw [hs]; decide)
  refine ⟨?_, fun x hx y z σ hpost => ?_⟩
  · rw [so.reduced]
    obtain ⟨w', l, -⟩ := cu.live
    exact ⟨_, l.reduced cu.feas cu.inv.gi cl⟩
  · rw [so.reduced] at hx
    rw [so.postsolve] at hpost
    exact cu.best cl hx hpost

/-- The hypotheses of `C46_run_partial` hold on `exSimple`: the reduced problem has the optimal solution
`(3, 2, 2, 0)`, the original problem is feasible. -/
example : exSimple.Valid ∧ exSimple.Regular ∧ (runPresolver envEx stgsSimple 10 exSimple).1.asrt = true ∧
    (runPresolver envEx stgsSimple 10 exSimple).1.near = false ∧
    (runPresolver envEx stgsSimple 10 exSimple).2.1 = UNCHANGED ∧
    exSimple.Feasible (ofList [2, 3, 1, 1, 1, 1] 0) ∧
    (reducedLP (runPresolver envEx stgsSimple 10 exSimple).1).Optimal (ofList [3, 2, 2, 0] 0) ∧
    (postsolve (runPresolver envEx stgsSimple 10 exSimple).1 (fun t => .fin (ofList [3, 2, 2, 0] 0 t))
      (fun _ => .fin 1) (fun _ => .fin 2)).map (fun σ => (List.range 6).map σ.x) =
      some [.fin 2, .fin 3, .fin 1, .fin 2, .fin 2, .fin 0] := by
  have hm : (reducedLP (runPresolver envEx stgsSimple 10 exSimple).1).m = 3 := by decide +kernel
  have hn : (reducedLP (runPresolver envEx stgsSimple 10 exSimple).1).n = 4 := by decide +kernel
  refine ⟨exSimple_valid, exSimple_regular, by decide +kernel, by decide +kernel, by decide +kernel,
    ⟨by decide +kernel, by decide +kernel⟩, ⟨⟨?_, ?_⟩, fun y hy => ?_⟩, by decide +kernel⟩
  · rw [hm]; decide +kernel
  · rw [hn]; decide +kernel
  · have r := (hy.row 2 (by rw [hm]; decide)).2
    have e1 : (reducedLP (runPresolver envEx stgsSimple 10 exSimple).1).rhs 2 = .fin 2 := by decide +kernel
    have e1' : (reducedLP (runPresolver envEx stgsSimple 10 exSimple).1).lhs 2 = .fin 2 := by decide +kernel
    have e2 : (reducedLP (runPresolver envEx stgsSimple 10 exSimple).1).A 2 = [(1, 1), (3, 1)] := by decide +kernel
    have r' := (hy.row 2 (by rw [hm]; decide)).1
    rw [e1', e2, LoD_fin] at r'
    simp only [dot_cons, dot_nil] at r'
    have b : ∀ k < 3, (reducedLP (runPresolver envEx stgsSimple 10 exSimple).1).ub k = .fin (ofList [3, 2, 2] 0 k) := by
      decide +kernel
    have b0 := (hy.col 0 (by rw [hn]; decide)).2
    have b1 := (hy.col 1 (by rw [hn]; decide)).2
    have b2 := (hy.col 2 (by rw [hn]; decide)).2
    rw [b _ (by decide), HiD_fin] at b0 b1 b2
    have c : ∀ k < 4, (reducedLP (runPresolver envEx stgsSimple 10 exSimple).1).c k = ofList [-1, -1, -2, 1] 0 k := by
      decide +kernel
    unfold LP.obj
    rw [hn]
    simp only [List.range_succ, List.range_zero, List.nil_append, List.cons_append, List.map_cons, List.map_nil,
      List.sum_cons, List.sum_nil]
    rw [c 0 (by decide), c 1 (by decide), c 2 (by decide), c 3 (by decide)]
    simp only [ofList, List.getD_cons_zero, List.getD_cons_succ] at *
    linarith

/-- A problem given by a list of rows is valid if all of them are. -/
theorem LP.valid_ofList {P : LP} (L : List (List Cell)) (hA : P.A = ofList L []) (hm : P.m = L.length)
    (h : ∀ l ∈ L, (l.map Prod.fst).Pairwise (· < ·) ∧ ∀ p ∈ l, p.1 < P.n ∧ p.2 ≠ 0) : P.Valid := by
  have key : ∀ i, P.A i = [] ∨ (i < P.m ∧ P.A i ∈ L) := by
    intro i
    rw [hA, hm]
    unfold ofList
    rw [List.getD_eq_getElem?_getD]
    rcases lt_or_ge i L.length with hi | hi
    · rw [List.getElem?_eq_getElem hi]
      exact .inr ⟨hi, List.getElem_mem hi⟩
    · rw [List.getElem?_eq_none hi]; exact .inl rfl
  refine ⟨fun i => ?_, fun i p hp => ?_⟩
  · rcases key i with e | ⟨-, e⟩
    · rw [e]; exact List.Pairwise.nil
    · exact List.pairwise_map.mp (h _ e).1
  · rcases key i with e | ⟨hi, e⟩
    · rw [e] at hp; cases hp
    · exact ⟨hi, (h _ e).2 p hp⟩

/-- `2 x0 = 4`, `x0 + x1 ≥ 7`, `x1 + x2 + x3 ≤ 4`, `x2 - x3 ≤ 3`, all variables in `[0, 10]`: the first two rows
give `x1 ≥ 5`. -/
def exInf : LP where
  m := 4
  n := 4
  A := ofList [[(0, 2)], [(0, 1), (1, 1)], [(1, 1), (2, 1), (3, 1)], [(2, 1), (3, -1)]] []
  lhs := ofList [.fin 4, .fin 7, .ninf, .ninf] .ninf
  rhs := ofList [.fin 4, .pinf, .fin 4, .fin 3] .pinf
  lb := ofList [.fin 0, .fin 0, .fin 0, .fin 0] .ninf
  ub := ofList [.fin 10, .fin 10, .fin 10, .fin 10] .pinf
  c := ofList [1, 1, 1, 1] 0

/-- The hypotheses of `C03_run_partial` hold on `exInf`; there are ten records by the time the verdict is
found. -/
example : exInf.Valid ∧ exInf.Regular ∧ (runPresolver envEx stgsSimple 10 exInf).1.asrt = true ∧
    (runPresolver envEx stgsSimple 10 exInf).1.near = false ∧
    (runPresolver envEx stgsSimple 10 exInf).2.1 = INFEASIBLE ∧
    (runPresolver envEx stgsSimple 10 exInf).1.log.length = 10 := by
  refine ⟨LP.valid_ofList _ rfl rfl (by decide +kernel), ⟨fun i hi => lowCases _ ?_, fun i hi => highCases _ ?_,
    fun i hi => lowCases _ ?_, fun i hi => highCases _ ?_⟩, by decide +kernel, by decide +kernel, by decide +kernel,
    by decide +kernel⟩ <;> revert i <;> decide +kernel

/-- `2 x0 = 4`, `3 ≤ x0 + x1 + x3 ≤ 8`, `x1 - x2 + x3 ≤ 5`, where `x2` has cost -1 and no upper bound. -/
def exUnb : LP where
  m := 3
  n := 4
  A := ofList [[(0, 2)], [(0, 1), (1, 1), (3, 1)], [(1, 1), (2, -1), (3, 1)]] []
  lhs := ofList [.fin 4, .fin 3, .ninf] .ninf
  rhs := ofList [.fin 4, .fin 8, .fin 5] .pinf
  lb := ofList [.fin 0, .fin 0, .fin 0, .fin 0] .ninf
  ub := ofList [.fin 10, .fin 10, .pinf, .fin 10] .pinf
  c := ofList [1, 1, -1, -1] 0

/-- The hypotheses of `C04_run_partial` hold on `exUnb`. -/
example : exUnb.Valid ∧ exUnb.Regular ∧ (runPresolver envEx stgsSimple 10 exUnb).1.asrt = true ∧
    (runPresolver envEx stgsSimple 10 exUnb).1.near = false ∧
    (runPresolver envEx stgsSimple 10 exUnb).2.1 = UNBNDORINFEAS := by
  refine ⟨LP.valid_ofList _ rfl rfl (by decide +kernel), ⟨fun i hi => lowCases _ ?_, fun i hi => highCases _ ?_,
    fun i hi => lowCases _ ?_, fun i hi => highCases _ ?_⟩, by decide +kernel, by decide +kernel, by decide +kernel⟩
    <;> revert i <;> decide +kernel

end Verif
