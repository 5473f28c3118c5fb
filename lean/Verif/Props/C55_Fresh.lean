import Verif.Props.C55_Round

/-!
# C55 fails in freshly built arrays
-/

namespace Verif

/-- `x0 + 2 x3 = 3`, `x1 + 2 x3 = 3`, `-10 <= x0 + x1 + x2 <= 10` and six rows `-10 <= x0 + x2 <= 10`.  Column 3 is the last one: it has two cells in a slot of
eight.  Replacing `x0` puts seven cells into it. -/
def lpOver : LP :=
  { m := 9, n := 4
    A := ofList [[(0, 1), (3, 2)], [(1, 1), (3, 2)], [(0, 1), (1, 1), (2, 1)], [(0, 1), (2, 1)], [(0, 1), (2, 1)],
      [(0, 1), (2, 1)], [(0, 1), (2, 1)], [(0, 1), (2, 1)], [(0, 1), (2, 1)]] []
    lhs := ofList [.fin 3, .fin 3] (.fin (-10))
    rhs := ofList [.fin 3, .fin 3] (.fin 10)
    lb := fun _ => .fin 0, ub := fun _ => .pinf, c := fun _ => 1 }

/-- The user's arrays for `lpOver`; `Ap` has one cell more than documented (`C16`). -/
def axiOver : Mat.UArr Cell :=
  ⟨fun c => [(0, 1), (3, 2), (1, 1), (3, 2), (0, 1), (1, 1), (2, 1)].getD c (if c % 2 = 1 then (0, 1) else (2, 1)), 19⟩

/-- See `axiOver`. -/
def apOver : Mat.UArr ℕ := ⟨fun i => min (if i < 3 then 2 * i else 2 * i + 1) 19, 11⟩

/-- `A` and `AT` as the presolver builds them (`/repo/src/core/Matrix.c:87-167`, `EXTRA_MEMORY_RATIO` 2, `EXTRA_ROW_SPACE` 4). -/
def builtOver : Option (Mat ℚ × Mat ℚ) := do
  let A ← Mat.newNoExtra axiOver apOver 9 4 19
  let AT ← A.transpose 2 4 (fun _ => (0, 0))
  some (A, AT)

theorem builtOver_some : builtOver.isSome = true := by decide +kernel

/-- `lpOver` in memory. -/
def arraysOver : Arrays := ⟨initSt lpOver, (builtOver.get builtOver_some).1, (builtOver.get builtOver_some).2⟩

theorem arraysOver_ok : arraysOver.OK :=
  ⟨by decide +kernel, by decide +kernel, ⟨by decide +kernel, by decide +kernel, by decide +kernel⟩,
    ⟨by decide +kernel, by decide +kernel, by decide +kernel⟩, by decide +kernel, by decide +kernel⟩

theorem arraysOver_view : arraysOver.view = initSt lpOver := by
  have e1 : arraysOver.A.m = 9 := by decide +kernel
  have e2 : arraysOver.AT.m = 4 := by decide +kernel
  have r1 : ∀ i < 9, arraysOver.A.rowOf i = lpOver.A i := by decide +kernel
  have r2 : ∀ k < 4, arraysOver.AT.rowOf k = colCells 9 lpOver.A k := by decide +kernel
  have r3 : ∀ i < 9, ∀ p ∈ lpOver.A i, p.1 < 4 := by decide +kernel
  have hA : arraysOver.A.lists = (initSt lpOver).A := by
    funext i
    show (if i < arraysOver.A.m then arraysOver.A.rowOf i else []) = lpOver.A i
    rw [e1]
    by_cases h : i < 9
    · rw [if_pos h, r1 i h]
    · rw [if_neg h]
      unfold lpOver ofList
      simp only
      rw [List.getD_eq_getElem?_getD, List.getElem?_eq_none (by simp; omega)]
      rfl
  have hT : arraysOver.AT.lists = (initSt lpOver).AT := by
    funext k
    show (if k < arraysOver.AT.m then arraysOver.AT.rowOf k else []) = colCells 9 lpOver.A k
    rw [e2]
    by_cases h : k < 4
    · rw [if_pos h, r2 k h]
    · rw [if_neg h]
      refine (List.flatMap_eq_nil_iff.mpr (fun i hi => ?_)).symm
      rw [List.map_eq_nil_iff, List.filter_eq_nil_iff]
      intro p hp
      have := r3 i (List.mem_range.mp hi) p hp
      simp only [decide_eq_true_eq]
      omega
  unfold Arrays.view
  rw [hA, hT]
  rfl

set_option maxRecDepth 10000 in
/-- With all reductions switched on, nothing changes before the first call of the elimination of doubletons. -/
theorem runTrivial_over : runTrivial stgsAll (initSt lpOver) = (initSt lpOver, UNCHANGED) := by
  rfl

set_option maxRecDepth 10000 in
/-- See `runTrivial_over`. -/
theorem removeStonCols_over : removeStonCols (initSt lpOver) = (initSt lpOver, UNCHANGED) := by
  rfl

/-- The fast phase of the first cycle starts with the elimination of doubletons in the unchanged problem. -/
theorem runFast_over (env : Env) : runFast env stgsAll (initSt lpOver) =
    runTrivial stgsAll (removeDtonRows env (initSt lpOver)) := by
  have hc : (initSt lpOver).check (decide ((initSt lpOver).emptyRows = [])) = initSt lpOver := rfl
  have h1 : stgsAll.stonCols = true := rfl
  have h2 : stgsAll.dtonEq = true := rfl
  unfold runFast
  simp only [h1, h2, if_true, removeStonCols_over, hc, runTrivial_over]
  generalize runTrivial stgsAll (removeDtonRows env (initSt lpOver)) = b
  show (b.1, (UNCHANGED ||| UNCHANGED) ||| b.2) = b
  rw [show (UNCHANGED ||| UNCHANGED : Status) = UNCHANGED from rfl, show (UNCHANGED ||| b.2 : Status) = b.2 from Nat.zero_or b.2]

set_option maxRecDepth 100000 in
/-- Nothing has to be shifted, so that neither the heuristics nor the limit matters. -/
theorem removeDtonRows_over (pref : ℕ → ℕ → ℕ → Bool) (maxShift : ℤ) : Arrays.removeDtonRows pref maxShift arraysOver = none := by
  with_unfolding_all rfl

/-- **C55 fails.**  For the valid problem `lpOver`, in the arrays that the presolver builds for it, the explorer reads behind
the end of the arrays: eliminating row 0 fills the slot of the last column up to the end of the allocation, and eliminating
row 1 removes a cell of that column with `remove_coeff` (`/repo/src/core/Matrix.c:511-529`), whose loop reads one cell behind it.
Every assertion of the code holds on the way, and with all settings switched on this is the first explorer of the run
that changes anything.  Nothing is shifted, so that this happens for every preference and every limit of `shift_row`. -/
theorem C55_fresh_fails : lpOver.Valid ∧ builtOver = some (arraysOver.A, arraysOver.AT) ∧ arraysOver.OK ∧
    arraysOver.view = initSt lpOver ∧ runTrivial stgsAll (initSt lpOver) = (initSt lpOver, UNCHANGED) ∧
    (∀ env, runFast env stgsAll (initSt lpOver) = runTrivial stgsAll (removeDtonRows env (initSt lpOver))) ∧
    (removeDtonRows envEx (initSt lpOver)).asrt = true ∧
    (∀ pref maxShift, Arrays.removeDtonRows pref maxShift arraysOver = none) ∧
    (Arrays.dtonStep (fun _ _ _ => false) 20 (arraysOver, [], false) 0).map (fun r => (r.1.AT.pe 3, r.1.AT.nAlloc, r.1.AT.rowOf 3)) =
      some (54, 54, [(1, 2), (2, -2), (3, -2), (4, -2), (5, -2), (6, -2), (7, -2), (8, -2)]) := by
  exact ⟨LP.valid_ofList _ rfl rfl (by decide +kernel), (Option.some_get builtOver_some).symm, arraysOver_ok, arraysOver_view,
    runTrivial_over, runFast_over, by decide +kernel, removeDtonRows_over, by decide +kernel⟩

end Verif
