import Verif.Inv.NumbersAll
import Verif.Props.C01_Objective
import Verif.Props.C03_Verdicts
import Verif.Props.C29_FixInf

/-!
# C54: numbers are postsolved to numbers, whole runs
-/

namespace Verif

theorem initSt_numRel (P : LP) (σ : Sol) : NumRel P.n (initSt P) σ (some σ) := by
  intro h σ' ho k hk
  cases ho
  exact h.act k (by simp [initSt, hk, CTag.inactive, colTagOf])

/-- **C54, whole runs.**  For every valid problem and every environment, with singleton columns and parallel columns
switched off and all other settings arbitrary: if the run completes, its assertions held and no column was fixed although
its bounds are only equal up to the tolerance, or to an infinite value (`near = false`, the flag is not part of the code),
and the offset of the objective is a number, then every postsolved value is a number.  `x`, `y`, `z` need not be feasible
or optimal for anything, `y` and `z` need not be numbers, and coefficients may have been dropped.

Missing from C54: runs with singleton columns or parallel columns, and runs that fix a column to an infinite value, for
which it is false if the column meets a row without finite sides (`C54_free_row_fails`, where an assertion fails). -/
theorem C54_numbers_partial {P : LP} (hP : P.Valid) {env : Env} (hs : env.SortOK) {stgs : Settings}
    (h1 : stgs.stonCols = false) (h2 : stgs.parallelCols = false) {fuel : ℕ}
    (hf : (runPresolver env stgs fuel P).2.1 = UNCHANGED)
    (ho : (runPresolver env stgs fuel P).1.asrt = true)
    (hn : (runPresolver env stgs fuel P).1.near = false)
    (hoff : ∃ o, (runPresolver env stgs fuel P).1.off = .fin o) (x : ℕ → ℚ) (y z : ℕ → D) {σ : Sol}
    (hpost : postsolve (runPresolver env stgs fuel P).1 (fun t => .fin (x t)) y z = some σ) :
    ∀ k < P.n, ∃ q, σ.x k = .fin q := by
  obtain ⟨r, c, _⟩ := runPresolver_run ⟨false, true, true, false, false⟩ hs (fun _ => rfl)
    (fun h => by rw [h2] at h; cases h) (fun h => by rw [h1] at h; cases h) hP (by rw [hf]; rfl)
    ⟨ho, ⟨fun h => Bool.noConfusion h, fun _ => hn⟩⟩
  generalize (runPresolver env stgs fuel P).1 = t at *
  have i := initSt_inv hP
  refine r.steps.rel (numBackward P.n _ rfl rfl rfl) i.gi (initSt_inRng hP) (initSt_numRel P)
    (copyReduced (idxMapOf t.colSize) (idxMapOf t.rowSize) (fun t => .fin (x t)) y z)
    ⟨hoff, fun k hk => ?_, fun k hk => ?_⟩ σ ((solInterp_replay _ _ _).trans hpost)
  · rw [c.2.1] at hk; cases hk
  · have hk : t.colSize k ≠ -1 := (r.inv i).gi.colActive hk
    show ∃ q, (match idxMapOf t.colSize k with | none => .pinf | some k => D.fin (x k)) = D.fin q
    rw [idxMapOf_live hk]
    exact ⟨_, rfl⟩

/-- **C54, both directions.**  If moreover nothing was rounded then the postsolved values are numbers exactly if the
offset is one. -/
theorem C54_offset_iff_partial {P : LP} (hP : P.Valid) {env : Env} (hs : env.SortOK) {stgs : Settings}
    (h1 : stgs.stonCols = false) (h2 : stgs.parallelCols = false) {fuel : ℕ}
    (hf : (runPresolver env stgs fuel P).2.1 = UNCHANGED)
    (ho : (runPresolver env stgs fuel P).1.asrt = true)
    (ht : (runPresolver env stgs fuel P).1.tiny = false)
    (hn : (runPresolver env stgs fuel P).1.near = false) (x : ℕ → ℚ) (y z : ℕ → D) {σ : Sol}
    (hpost : postsolve (runPresolver env stgs fuel P).1 (fun t => .fin (x t)) y z = some σ) :
    (∃ o, (runPresolver env stgs fuel P).1.off = .fin o) ↔ ∀ k < P.n, ∃ q, σ.x k = .fin q :=
  ⟨fun h => C54_numbers_partial hP hs h1 h2 hf ho hn h x y z hpost, fun h =>
    (C01_run_partial hP hs hf ho ht _ y z hpost h).imp (fun _ h => h.1)⟩

/-- The hypotheses of both theorems hold on `exMix` with doubleton equalities, parallel rows, dual fixing and primal
propagation, at duals that are not numbers. -/
example : exMix.Valid ∧ envEx.SortOK ∧
    (runPresolver envEx { stgsAll with stonCols := false, parallelCols := false } 10 exMix).2.1 = UNCHANGED ∧
    (runPresolver envEx { stgsAll with stonCols := false, parallelCols := false } 10 exMix).1.asrt = true ∧
    (runPresolver envEx { stgsAll with stonCols := false, parallelCols := false } 10 exMix).1.tiny = false ∧
    (runPresolver envEx { stgsAll with stonCols := false, parallelCols := false } 10 exMix).1.near = false ∧
    (runPresolver envEx { stgsAll with stonCols := false, parallelCols := false } 10 exMix).1.off = .fin (-2) ∧
    (postsolve (runPresolver envEx { stgsAll with stonCols := false, parallelCols := false } 10 exMix).1
      (fun k => .fin (k + 1)) (fun _ => .nan) (fun _ => .pinf)).map (fun σ => (List.range 8).map σ.x) =
      some [.fin 2, .fin 1, .fin 3, .fin 2, .fin 3, .fin 4, .fin 5, .fin 6] :=
  ⟨exMix_valid, envEx_sortOK, by decide +kernel, by decide +kernel, by decide +kernel, by decide +kernel,
    by decide +kernel, by decide +kernel⟩

/-- **C54, all settings.**  For every valid problem, environment and setting: if the run completes, its assertions held,
no column was fixed although its bounds are only equal up to the tolerance, or to an infinite value (`near = false`), the
offset of the objective is a number and so are the sides and finite bounds in the records of substituted and merged columns
(`Rec.Numeric`), then every postsolved value is a number.

Missing from C54: runs that fix a column to an infinite value; and the condition on the records, which does not hold in
general (`C54_singleton_fails`). -/
theorem C54_records_partial {P : LP} (hP : P.Valid) {env : Env} (hs : env.SortOK) {stgs : Settings} {fuel : ℕ}
    (hf : (runPresolver env stgs fuel P).2.1 = UNCHANGED)
    (ho : (runPresolver env stgs fuel P).1.asrt = true)
    (hn : (runPresolver env stgs fuel P).1.near = false)
    (hoff : ∃ o, (runPresolver env stgs fuel P).1.off = .fin o)
    (hrec : ∀ r ∈ (runPresolver env stgs fuel P).1.log, r.Numeric) (x : ℕ → ℚ) (y z : ℕ → D) {σ : Sol}
    (hpost : postsolve (runPresolver env stgs fuel P).1 (fun t => .fin (x t)) y z = some σ) :
    ∀ k < P.n, ∃ q, σ.x k = .fin q := by
  obtain ⟨r, c, _⟩ := runPresolver_run ⟨true, true, true, false, true⟩ hs (fun _ => rfl) (fun _ => rfl) (fun _ => rfl)
    hP (by rw [hf]; rfl) ⟨ho, ⟨fun h => Bool.noConfusion h, fun _ => hn⟩⟩
  generalize (runPresolver env stgs fuel P).1 = t at *
  have i := initSt_inv hP
  refine r.steps.rel (finBackward P.n _ rfl) i.gi (initSt_inRng hP) (initSt_numRel P)
    (copyReduced (idxMapOf t.colSize) (idxMapOf t.rowSize) (fun t => .fin (x t)) y z)
    ⟨hoff, fun k hk => ?_, fun k hk => ?_⟩ σ ((finInterp_replay _ _ _ hrec).trans hpost)
  · rw [c.2.1] at hk; cases hk
  · have hk : t.colSize k ≠ -1 := (r.inv i).gi.colActive hk
    show ∃ q, (match idxMapOf t.colSize k with | none => .pinf | some k => D.fin (x k)) = D.fin q
    rw [idxMapOf_live hk]
    exact ⟨_, rfl⟩

/-- The hypotheses hold on `exMix` with all settings on; columns are substituted and merged. -/
example : exMix.Valid ∧ envEx.SortOK ∧
    (runPresolver envEx stgsAll 10 exMix).2.1 = UNCHANGED ∧
    (runPresolver envEx stgsAll 10 exMix).1.asrt = true ∧
    (runPresolver envEx stgsAll 10 exMix).1.near = false ∧
    D.isFin (runPresolver envEx stgsAll 10 exMix).1.off = true ∧
    (∀ r ∈ (runPresolver envEx stgsAll 10 exMix).1.log, r.Numeric) ∧
    (postsolve (runPresolver envEx stgsAll 10 exMix).1
      (fun k => .fin (k + 1)) (fun _ => .nan) (fun _ => .pinf)).isSome = true :=
  ⟨exMix_valid, envEx_sortOK, by decide +kernel, by decide +kernel, by decide +kernel, by decide +kernel,
    by decide +kernel, by decide +kernel⟩

/-- Singleton columns and the reductions that cannot be switched off. -/
def stgsSton : Settings :=
  { stgsAll with dtonEq := false, parallelRows := false, parallelCols := false, primalPropagation := false,
                 dualFix := false }

/-- **Negation of C54 for singleton columns.**  All assertions hold and the offset is a number, but the column is
substituted out of a row without any finite side: its record holds an infinite side, and it is postsolved to an infinite
value.  This also shows that singleton columns cannot be allowed in `C02_run_partial`. -/
theorem C54_singleton_fails : lpFree.Valid ∧ ∀ stgs ∈ [stgsSton, { stgsAll with dualFix := false }],
    (runPresolver envEx stgs 10 lpFree).2 = (UNCHANGED, true) ∧
    (runPresolver envEx stgs 10 lpFree).1.asrt = true ∧
    (runPresolver envEx stgs 10 lpFree).1.tiny = false ∧
    (runPresolver envEx stgs 10 lpFree).1.near = false ∧
    (runPresolver envEx stgs 10 lpFree).1.off = .fin 0 ∧
    (postsolve (runPresolver envEx stgs 10 lpFree).1 (fun _ => .fin 0) (fun _ => .fin 0) (fun _ => .fin 0)).map
      (fun σ => σ.x 0) = some .pinf :=
  ⟨LP.valid_ofList _ rfl rfl (by decide +kernel), by decide +kernel⟩

/-- **Negation of C54 in general.**  On a row without any finite side an assertion fails that release builds do not
check; the offset is a number, but the column that was fixed to an infinite value is postsolved to an infinite value. -/
theorem C54_free_row_fails :
    (runPresolver envEx { stgsAll with stonCols := false, parallelCols := false } 10 lpFree).2 = (UNCHANGED, true) ∧
    (runPresolver envEx { stgsAll with stonCols := false, parallelCols := false } 10 lpFree).1.tiny = false ∧
    (runPresolver envEx { stgsAll with stonCols := false, parallelCols := false } 10 lpFree).1.off = .fin 0 ∧
    (postsolve (runPresolver envEx { stgsAll with stonCols := false, parallelCols := false } 10 lpFree).1
      (fun _ => .fin 0) (fun _ => .fin 0) (fun _ => .fin 0)).map (fun σ => σ.x 0) = some .pinf := by
  refine ⟨by decide +kernel, by decide +kernel, by decide +kernel, by decide +kernel⟩

end Verif
