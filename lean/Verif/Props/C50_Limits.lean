import Verif.Props.C05_Limits
import Verif.Props.C22_Run

/-!
# C50 and C22 and their limits: the counts of infinite contributions after a dropped coefficient
-/

namespace Verif

/-- **The activity check of the debugger can fail, and C22 is false for the counts as well.**  On `lpDrop` the
elimination of `x1` drops the coefficient `1e-11` of `x0` from the second row, but `update_activity_coeff_change` is given
`1e-11` instead of `0` (`/repo/src/explorers/DtonsEq.c:527-590`), so the row goes on counting `x0` as an infinite
contribution.  No assertion fails on the way, all other checks of the debugger succeed, and `verify_activities` fails in
the fourth call of the debugger: the row has no cell in an unbounded column and the count 1 for both activities. -/
theorem C50_activities_fails :
    (runPresolver envEx stgsDton 10 lpDrop).2.1 = UNCHANGED ∧
    ∃ p ∈ debugPoints envEx stgsDton 10 lpDrop, p.1.asrt = true ∧ p.1.undef = false ∧ runDebugger p.1 p.2 = true ∧
      verifyActivities p.1 = false ∧ (p.1.rtag 1).inactive = false ∧
      (p.1.A 1).map (fun c => (p.1.lb c.1, p.1.ub c.1)) = [(.fin 0, .fin 9), (.fin 0, .fin 9)] ∧
      (p.1.act 1).nInfMin = 1 ∧ (p.1.act 1).nInfMax = 1 := by
  refine ⟨by decide +kernel, ?_⟩
  have h : ((debugPoints envEx stgsDton 10 lpDrop).any (fun p => decide (p.1.asrt = true ∧ p.1.undef = false ∧
      runDebugger p.1 p.2 = true ∧ verifyActivities p.1 = false ∧ (p.1.rtag 1).inactive = false ∧
      (p.1.A 1).map (fun c => (p.1.lb c.1, p.1.ub c.1)) = [(.fin 0, .fin 9), (.fin 0, .fin 9)] ∧
      (p.1.act 1).nInfMin = 1 ∧ (p.1.act 1).nInfMax = 1))) = true := by decide +kernel
  obtain ⟨p, hp, h⟩ := List.any_eq_true.mp h
  exact ⟨p, hp, of_decide_eq_true h⟩

end Verif
