import Verif.Props.C06_Complementarity
import Verif.Props.Counterexamples

/-!
# C06: the sign of a dual is lost when an inequality row is turned into an equality
-/

namespace Verif

/-- Minimise `-x + 10 v` with `-1/2 ≤ x + v ≤ 1`, `0 ≤ x ≤ 2`, `-1 ≤ v ≤ 1`. -/
def lpSign : LP where
  m := 1
  n := 2
  A := ofList [[(0, 1), (1, 1)]] []
  lhs := ofList [.fin (-1 / 2)] .ninf
  rhs := ofList [.fin 1] .pinf
  lb := ofList [.fin 0, .fin (-1)] .ninf
  ub := ofList [.fin 2, .fin 1] .pinf
  c := ofList [-1, 10] 0

/-- **C06 is false for singleton columns.**  On `lpSign` the full run first turns the row into the equality
`x + v = 1`, because the cost of the singleton column `x` pushes it against the right side and the row implies its upper
bound.  No record says so.  Next `v` is a free singleton column of that equality and is eliminated; its record gives the
row the dual `10`.  Nothing is left of the problem, so every point of the reduced problem meets its optimality
conditions.  Postsolve returns the optimal `x = (2, -1)` together with `y = 10`: the sign of a row that is tight at its
left side, although the activity is `1` and the left side is `-1/2`.  The correct duals lie in `[-1, 0]`, for instance
`y = -1/2`. -/
theorem C06_sign_fails :
    (fullRun lpSign).2 = (UNCHANGED, true) ∧ (fullRun lpSign).1.undef = false ∧
    (fullRun lpSign).1.asrt = true ∧ (fullRun lpSign).1.tiny = false ∧ (fullRun lpSign).1.near = false ∧
    (reducedLP (fullRun lpSign).1).Feasible (fun _ => 0) ∧
    (reducedLP (fullRun lpSign).1).Kkt (fun _ => 0) (fun _ => 0) (fun _ => 0) ∧
    (postsolve (fullRun lpSign).1 (fun _ => .fin 0) (fun _ => .fin 0) (fun _ => .fin 0)).map
      (fun σ => ((List.range 2).map σ.x, (List.range 1).map σ.y, (List.range 2).map σ.z)) =
        some ([.fin 2, .fin (-1)], [.fin 10], [.fin (-11), .fin 0]) ∧
    lpSign.Feasible (ofList [2, -1] 0) ∧
    ¬ lpSign.Kkt (ofList [2, -1] 0) (ofList [10] 0) (ofList [-11, 0] 0) ∧
    lpSign.Kkt (ofList [2, -1] 0) (ofList [-1 / 2] 0) (ofList [-1 / 2, 21 / 2] 0) := by
  have hm : (reducedLP (fullRun lpSign).1).m = 0 := by decide +kernel
  have hn : (reducedLP (fullRun lpSign).1).n = 0 := by decide +kernel
  refine ⟨by decide +kernel, by decide +kernel, by decide +kernel, by decide +kernel, by decide +kernel, ⟨?_, ?_⟩,
    by decide +kernel, by decide +kernel, ⟨?_, ?_⟩, by decide +kernel, by decide +kernel⟩
  · rw [hm]; exact fun i hi => absurd hi (Nat.not_lt_zero i)
  · rw [hn]; exact fun i hi => absurd hi (Nat.not_lt_zero i)
  · decide +kernel
  · decide +kernel

end Verif
