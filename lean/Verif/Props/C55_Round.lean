import Verif.Lemmas.DtonRound
import Verif.Props.C03_Verdicts

/-!
# C55, the whole explorer: eliminating doubleton equalities in the arrays
-/

namespace Verif

/-- **C55, the explorer.**  For arrays of any size that hold a state with the invariants of a run and nothing pending,
whatever `shift_row` prefers and however far it may shift: there are answers of the space check such that, in every
environment which gives these answers and in which the assertions hold, `remove_dton_eq_rows` either stays inside the
arrays and leaves the state that the list version computes, in arrays with the same numbers of rows and columns that are again
well laid out; or it stops at a substitution whose staying column ends where the allocation ends.  Missing for the full
claim: in that case `remove_coeff` reads the cell behind the allocation (`C55_overread`). -/
theorem C55_explorer_partial (pref : ℕ → ℕ → ℕ → Bool) (maxShift : ℤ) {M : Arrays} (ok : M.OK) (inv : Inv M.view)
    (clean : Clean M.view) :
    ∃ ans : ℕ → Bool, ∀ env : Env, (∀ t, M.s.tick ≤ t → env.space t = ans t) → (removeDtonRows env M.view).asrt = true →
      (∃ M', Arrays.removeDtonRows pref maxShift M = some M' ∧ M'.OK ∧ M'.A.m = M.A.m ∧ M'.AT.m = M.AT.m ∧
        removeDtonRows env M.view = M'.view) ∨
      (Arrays.removeDtonRows pref maxShift M = none ∧ LoopOverreads pref maxShift
        ⟨((M.s.check (decide (M.s.stonRows = []))).check (decide (M.s.emptyRows = []))).check (decide (M.s.emptyCols = [])),
          M.A, M.AT⟩) :=
  Arrays.removeDtonRows_step pref maxShift ok inv clean

/-- **C55, the first explorer of a run.**  The same for arrays that hold a valid problem. -/
theorem C55_first_explorer_partial {P : LP} (hP : P.Valid) (pref : ℕ → ℕ → ℕ → Bool) (maxShift : ℤ) {M : Arrays} (ok : M.OK)
    (hM : M.view = initSt P) :
    ∃ ans : ℕ → Bool, ∀ env : Env, (∀ t, env.space t = ans t) → (removeDtonRows env (initSt P)).asrt = true →
      (∃ M', Arrays.removeDtonRows pref maxShift M = some M' ∧ M'.OK ∧ removeDtonRows env (initSt P) = M'.view) ∨
      (Arrays.removeDtonRows pref maxShift M = none ∧ LoopOverreads pref maxShift
        ⟨((M.s.check (decide (M.s.stonRows = []))).check (decide (M.s.emptyRows = []))).check (decide (M.s.emptyCols = [])),
          M.A, M.AT⟩) := by
  obtain ⟨ans, h⟩ := C55_explorer_partial pref maxShift ok (by rw [hM]; exact initSt_inv hP) (by rw [hM]; exact (initSt_ce P).1)
  refine ⟨ans, fun env he o => ?_⟩
  rcases h env (fun t _ => he t) (by rw [hM]; exact o) with ⟨M', h1, h2, -, -, h3⟩ | h1
  · exact .inl ⟨M', h1, h2, by rw [← hM]; exact h3⟩
  · exact .inr h1

theorem arraysFill_view : arraysFill.view = initSt lpFill := by
  have hA : arraysFill.A.lists = (initSt lpFill).A := by
    funext i
    by_cases h : i < 4
    · have : i = 0 ∨ i = 1 ∨ i = 2 ∨ i = 3 := by omega
      obtain rfl | rfl | rfl | rfl := this <;> decide +kernel
    · refine (if_neg (show ¬ i < arraysFill.A.m from h)).trans ?_
      show ([] : List Cell) = (lpFill.A i)
      unfold lpFill ofList
      simp only
      rw [List.getD_eq_getElem?_getD, List.getElem?_eq_none (by simp; omega)]
      rfl
  have hT : arraysFill.AT.lists = (initSt lpFill).AT := by
    funext k
    by_cases h : k < 3
    · have : k = 0 ∨ k = 1 ∨ k = 2 := by omega
      obtain rfl | rfl | rfl := this <;> decide +kernel
    · refine (if_neg (show ¬ k < arraysFill.AT.m from h)).trans ?_
      show ([] : List Cell) = colCells 4 lpFill.A k
      refine (List.flatMap_eq_nil_iff.mpr (fun i hi => ?_)).symm
      have : i = 0 ∨ i = 1 ∨ i = 2 ∨ i = 3 := by have := List.mem_range.mp hi; omega
      obtain rfl | rfl | rfl | rfl := this <;> simp [lpFill, ofList] <;> omega
  unfold Arrays.view
  rw [hA, hT]
  rfl

/-- The hypotheses hold in `arraysFill`: row 0 is eliminated inside the arrays, two cells are put into column 0, and
the list version has the same columns. -/
example : lpFill.Valid ∧ arraysFill.OK ∧ arraysFill.view = initSt lpFill ∧
    (removeDtonRows envEx (initSt lpFill)).asrt = true ∧
    (List.range 3).map (removeDtonRows envEx (initSt lpFill)).AT = [[(1, 8), (2, 3), (3, 2)], [], [(1, 1), (2, 1), (3, 1)]] ∧
    (Arrays.removeDtonRows (fun _ _ _ => false) 20 arraysFill).map (fun M => (List.range 3).map M.AT.rowOf) =
      some [[(1, 8), (2, 3), (3, 2)], [], [(1, 1), (2, 1), (3, 1)]] :=
  ⟨LP.valid_ofList _ rfl rfl (by decide +kernel), arraysFill_ok, arraysFill_view, by decide +kernel, by decide +kernel, by decide +kernel⟩

end Verif
