import Verif.Props.C05_Stationarity
import Verif.Props.C02_Feasibility

/-!
# C05 and its limits: parallel columns, dropped coefficients

`C05_run_partial` leaves parallel rows, parallel columns and runs with dropped coefficients out.  `C05_fails` shows that it
must leave parallel rows out; the runs below show the same for the other two.
-/

namespace Verif

/-- Only parallel columns, besides what always runs. -/
def stgsParCols : Settings :=
  { stonCols := false, dtonEq := false, parallelRows := false, parallelCols := true, primalPropagation := false,
    dualFix := false, finiteBoundTightening := false, relaxBounds := false }

/-- `1 ≤ x0 + 2 x1 + x2 ≤ 5`, `x0 + 2 x1 - x2 ≤ 7`, `0 ≤ x ≤ 9`, cost `x0 + 2 x1 + x2`. -/
def lpParCol : LP where
  m := 2
  n := 3
  A := ofList [[(0, 1), (1, 2), (2, 1)], [(0, 1), (1, 2), (2, -1)]] []
  lhs := ofList [.fin 1, .ninf] .ninf
  rhs := ofList [.fin 5, .fin 7] .pinf
  lb := ofList [.fin 0, .fin 0, .fin 0] .ninf
  ub := ofList [.fin 9, .fin 9, .fin 9] .pinf
  c := ofList [1, 2, 1] 0

/-- **C05 is false with parallel columns.**  The first two columns are merged exactly and nothing is rounded.  The reduced
point `x' = (1, 1)`, `y' = 0`, `z' = c'` is feasible and stationary; postsolve splits the merged value into `x0 = 2` and
`x1 = 0`, sets `z0 = 0` because `x0` is at no bound, and loses stationarity: `c0 - (Aᵀ y)_0 = 1`.  (Stationarity is kept
when the reduced cost is complementary, `C34_dual`.) -/
theorem C05_parcols_fails :
    (runPresolver envEx stgsParCols 10 lpParCol).2 = (UNCHANGED, true) ∧
    (runPresolver envEx stgsParCols 10 lpParCol).1.undef = false ∧
    (runPresolver envEx stgsParCols 10 lpParCol).1.asrt = true ∧
    (runPresolver envEx stgsParCols 10 lpParCol).1.tiny = false ∧
    (reducedLP (runPresolver envEx stgsParCols 10 lpParCol).1).Feasible (ofList [1, 1] 0) ∧
    (reducedLP (runPresolver envEx stgsParCols 10 lpParCol).1).Stationary (fun _ => .fin 0) (ofList [.fin 2, .fin 1] .nan) ∧
    ∃ σ, postsolve (runPresolver envEx stgsParCols 10 lpParCol).1 (ofList [.fin 1, .fin 1] .nan) (fun _ => .fin 0)
      (ofList [.fin 2, .fin 1] .nan) = some σ ∧ ¬ lpParCol.Stationary σ.y σ.z := by
  have hm : (reducedLP (runPresolver envEx stgsParCols 10 lpParCol).1).m = 2 := by decide +kernel
  have hn : (reducedLP (runPresolver envEx stgsParCols 10 lpParCol).1).n = 2 := by decide +kernel
  refine ⟨by decide +kernel, by decide +kernel, by decide +kernel, by decide +kernel, ⟨?_, ?_⟩, ⟨fun _ _ => ⟨0, rfl⟩, ?_⟩, ?_⟩
  · rw [hm]; decide +kernel
  · rw [hn]; decide +kernel
  · rw [hn]; decide +kernel
  · have h : (postsolve (runPresolver envEx stgsParCols 10 lpParCol).1 (ofList [.fin 1, .fin 1] .nan) (fun _ => .fin 0)
      (ofList [.fin 2, .fin 1] .nan)).map (fun σ => (σ.z 0, lpParCol.c 0 - lpParCol.colDot (fun i => (σ.y i).toQ) 0)) =
        some (.fin 0, 1) := by decide +kernel
    cases e : postsolve (runPresolver envEx stgsParCols 10 lpParCol).1 (ofList [.fin 1, .fin 1] .nan) (fun _ => .fin 0)
      (ofList [.fin 2, .fin 1] .nan) with
    | none => rw [e] at h; cases h
    | some σ =>
      refine ⟨σ, rfl, fun hs => ?_⟩
      rw [e, Option.map_some, Option.some.injEq, Prod.mk.injEq] at h
      have := hs.cost 0 (by decide)
      rw [h.1, h.2] at this
      cases this

/-- Only doubleton equations, besides what always runs. -/
def stgsDton : Settings := { stgsParCols with dtonEq := true, parallelCols := false }

/-- `x0 + x1 = 0`, `(1e-6 + 1e-11) x0 + 1e-6 x1 + x2 + x3 ≤ 5`, `x0 + 3 x1 + x2 - x3 ≤ 7`, `x0` and `x1` free. -/
def lpDrop : LP where
  m := 3
  n := 4
  A := ofList [[(0, 1), (1, 1)], [(0, 1 / 1000000 + 1 / 100000000000), (1, 1 / 1000000), (2, 1), (3, 1)],
    [(0, 1), (1, 3), (2, 1), (3, -1)]] []
  lhs := ofList [.fin 0, .ninf, .ninf] .ninf
  rhs := ofList [.fin 0, .fin 5, .fin 7] .pinf
  lb := ofList [.ninf, .ninf, .fin 0, .fin 0] .ninf
  ub := ofList [.pinf, .pinf, .fin 9, .fin 9] .pinf
  c := ofList [1, 2, -1, -1] 0

/-- **C05 is false when a coefficient is dropped.**  The elimination of `x1` leaves `1e-11 x0` in the second row, which is
dropped without an assertion failing (the coefficient of `x1` is not larger than `1e-6`).  The duals `y' = (1, 0)` are
stationary in the reduced problem, and `z0` differs from `c0 - (Aᵀ y)_0` by `1e-11` after postsolve. -/
theorem C05_dropped_fails :
    (runPresolver envEx stgsDton 10 lpDrop).2 = (UNCHANGED, true) ∧
    (runPresolver envEx stgsDton 10 lpDrop).1.undef = false ∧ (runPresolver envEx stgsDton 10 lpDrop).1.asrt = true ∧
    (runPresolver envEx stgsDton 10 lpDrop).1.tiny = true ∧
    (reducedLP (runPresolver envEx stgsDton 10 lpDrop).1).Stationary (ofList [.fin 1, .fin 0] .nan)
      (ofList [.fin (-1), .fin (-2), .fin (-2)] .nan) ∧
    ∃ σ, postsolve (runPresolver envEx stgsDton 10 lpDrop).1 (fun _ => .fin 0) (ofList [.fin 1, .fin 0] .nan)
      (ofList [.fin (-1), .fin (-2), .fin (-2)] .nan) = some σ ∧
      σ.z 0 = .fin (lpDrop.c 0 - lpDrop.colDot (fun i => (σ.y i).toQ) 0 + 1 / 100000000000) := by
  have hm : (reducedLP (runPresolver envEx stgsDton 10 lpDrop).1).m = 2 := by decide +kernel
  have hn : (reducedLP (runPresolver envEx stgsDton 10 lpDrop).1).n = 3 := by decide +kernel
  refine ⟨by decide +kernel, by decide +kernel, by decide +kernel, by decide +kernel, ⟨?_, ?_⟩, ?_⟩
  · rw [hm]
    intro i hi
    have : i = 0 ∨ i = 1 := by omega
    rcases this with rfl | rfl <;> exact ⟨_, rfl⟩
  · rw [hn]; decide +kernel
  · have h : (postsolve (runPresolver envEx stgsDton 10 lpDrop).1 (fun _ => .fin 0) (ofList [.fin 1, .fin 0] .nan)
      (ofList [.fin (-1), .fin (-2), .fin (-2)] .nan)).map (fun σ => decide (σ.z 0 =
        .fin (lpDrop.c 0 - lpDrop.colDot (fun i => (σ.y i).toQ) 0 + 1 / 100000000000))) = some true := by decide +kernel
    cases e : postsolve (runPresolver envEx stgsDton 10 lpDrop).1 (fun _ => .fin 0) (ofList [.fin 1, .fin 0] .nan)
      (ofList [.fin (-1), .fin (-2), .fin (-2)] .nan) with
    | none => rw [e] at h; cases h
    | some σ =>
      refine ⟨σ, rfl, ?_⟩
      rw [e, Option.map_some, Option.some.injEq] at h
      exact of_decide_eq_true h

end Verif
