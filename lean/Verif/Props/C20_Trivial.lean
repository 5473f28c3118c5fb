import Verif.Lemmas.TrivMat
import Verif.Props.C03_Verdicts

/-!
# C20 for the trivial explorers in the arrays

`C20_storage` is about one deletion.  Here a whole call of `run_trivial_explorers` is run in the arrays: close bounds, dual
fixing (with columns fixed to an infinite value), singleton rows until none is left, empty rows and columns.
-/

namespace Verif

/-- **C20, the trivial explorers in memory.**  Let a state with the invariants of a run and nothing pending be stored in
arrays of any size, whatever the gaps.  If the assertions hold, `run_trivial_explorers` never leaves an array, returns the
status of the list version, and leaves arrays that are well laid out and hold the state of the list version.  If it does not
stop with a verdict, both copies of the matrix have the same entries afterwards. -/
theorem C20_trivial_storage (stgs : Settings) {M : Arrays} (ok : M.OK) (inv : Inv M.view) (rng : InRng M.view)
    (clean : Clean M.view) (o : (runTrivial stgs M.view).1.asrt = true) :
    ∃ M', Arrays.runTrivial stgs M = some (M', (runTrivial stgs M.view).2) ∧ M'.OK ∧ M'.view = (runTrivial stgs M.view).1 ∧
      M'.A.m = M.A.m ∧ M'.AT.m = M.AT.m ∧
      ((runTrivial stgs M.view).2 = UNCHANGED → ∀ i < M.A.m, ∀ k < M.AT.m, ∀ v,
        (k, v) ∈ M'.A.rowOf i ↔ (i, v) ∈ M'.AT.rowOf k) := by
  obtain ⟨M', a, b, c, d, e⟩ := Arrays.runTrivial_ref stgs ⟨ok, inv, rng⟩ clean o
  refine ⟨M', a, b, c, d, e, fun hst i hi k hk v => ?_⟩
  obtain ⟨i', -, j⟩ := Good.fit (runTrivial_good Mode.all stgs M.view) (ok_all.mpr o) inv rng clean
  have cl := j (by rw [hst]; exact fine_unchanged)
  rw [← c] at i' cl
  have g := i'.gi
  have eA : M'.view.A i = M'.A.rowOf i := if_pos (show i < M'.A.m by rw [d]; exact hi)
  have eT : M'.view.AT k = M'.AT.rowOf k := if_pos (show k < M'.AT.m by rw [e]; exact hk)
  rw [← eA, ← eT]
  by_cases hr : M'.view.rowSize i = -1
  · refine ⟨fun h => ?_, fun h => ?_⟩
    · rw [(g.rowGone i hr).1] at h; cases h
    · cases hc : (M'.view.ctag k).inactive with
      | false => exact absurd hr (g.colIn k hc _ h)
      | true =>
        by_cases hz : M'.view.colSize k = -1
        · rw [(g.colGone k hz).1] at h; cases h
        · have := g.colPendIn k hc hz
          rw [cl.2.1, cl.2.2] at this; cases this
  · by_cases hz : M'.view.colSize k = -1
    · refine ⟨fun h => ?_, fun h => ?_⟩
      · cases hc : (M'.view.rtag i).inactive with
        | false => exact absurd hz (g.rowIn i hc _ h)
        | true =>
          have := g.rowPend i hc hr
          rw [cl.1] at this; cases this
      · rw [(g.colGone k hz).1] at h; cases h
    · exact g.agree i k v hr hz

/-- **C20, the first call of the trivial explorers.**  The same for arrays that hold a valid problem. -/
theorem C20_trivial_first {P : LP} (hP : P.Valid) (stgs : Settings) {M : Arrays} (ok : M.OK) (hM : M.view = initSt P)
    (o : (runTrivial stgs (initSt P)).1.asrt = true) :
    ∃ M', Arrays.runTrivial stgs M = some (M', (runTrivial stgs (initSt P)).2) ∧ M'.OK ∧ M'.view = (runTrivial stgs (initSt P)).1 := by
  rw [← hM] at o ⊢
  obtain ⟨M', a, b, c, -⟩ := C20_trivial_storage stgs ok (by rw [hM]; exact initSt_inv hP) (by rw [hM]; exact initSt_inRng hP)
    (by rw [hM]; exact (initSt_ce P).1) o
  exact ⟨M', a, b, c⟩

/-- `2 x0 = 4`, `x0 + x1 + x3 <= 9`, `x1 - x3 + x2 <= 7`, `x1 + x3 <= 20`, `x2` wants to be small: dual fixing fixes `x2`,
row 0 fixes `x0`, and the other rows lose a cell. -/
def lpTriv : LP :=
  { m := 4, n := 4
    A := ofList [[(0, 2)], [(0, 1), (1, 1), (3, 1)], [(1, 1), (2, 1), (3, -1)], [(1, 1), (3, 1)]] []
    lhs := ofList [.fin 4, .ninf, .ninf, .fin 1] .ninf
    rhs := ofList [.fin 4, .fin 9, .fin 7, .fin 20] .pinf
    lb := fun _ => .fin 0, ub := fun _ => .fin 10, c := ofList [1, -1, 1, -2] 0 }

/-- `lpTriv` in memory, with free cells behind row 1 and column 1. -/
def arraysTriv : Arrays :=
  { s := initSt lpTriv
    A := { m := 4, n := 4, nnz := 9, nAlloc := 10
           cell := fun c => [(0, 2), (0, 1), (1, 1), (3, 1), (9, 9), (1, 1), (2, 1), (3, -1), (1, 1), (3, 1)].getD c (0, 0)
           ps := fun i => [0, 1, 5, 8, 10].getD i 10, pe := fun i => [1, 4, 8, 10, 10].getD i 10 }
    AT := { m := 4, n := 4, nnz := 9, nAlloc := 11
            cell := fun c => [(0, 2), (1, 1), (1, 1), (2, 1), (3, 1), (9, 9), (9, 9), (2, 1), (1, 1), (2, -1), (3, 1)].getD c (0, 0)
            ps := fun k => [0, 2, 7, 8, 11].getD k 11, pe := fun k => [2, 5, 8, 11, 11].getD k 11 } }

theorem arraysTriv_ok : arraysTriv.OK := by
  have hA : ∀ i, i < arraysTriv.A.m → i = 0 ∨ i = 1 ∨ i = 2 ∨ i = 3 := fun i (hi : i < 4) => by omega
  have hT : ∀ i, i < arraysTriv.AT.m → i = 0 ∨ i = 1 ∨ i = 2 ∨ i = 3 := fun i (hi : i < 4) => by omega
  refine ⟨rfl, rfl, ⟨fun i hi => ?_, fun i hi => ?_, by decide⟩, ⟨fun i hi => ?_, fun i hi => ?_, by decide⟩, fun i hi => ?_,
    fun i hi => ?_⟩
  · obtain rfl | rfl | rfl | rfl := hA i hi <;> decide
  · obtain rfl | rfl | rfl | rfl := hA i hi <;> decide
  · obtain rfl | rfl | rfl | rfl := hT i hi <;> decide
  · obtain rfl | rfl | rfl | rfl := hT i hi <;> decide
  · obtain rfl | rfl | rfl | rfl := hA i hi <;> decide +kernel
  · obtain rfl | rfl | rfl | rfl := hT i hi <;> decide +kernel

theorem arraysTriv_view : arraysTriv.view = initSt lpTriv := by
  have hA : arraysTriv.A.lists = (initSt lpTriv).A := by
    funext i
    by_cases h : i < 4
    · have : i = 0 ∨ i = 1 ∨ i = 2 ∨ i = 3 := by omega
      obtain rfl | rfl | rfl | rfl := this <;> decide +kernel
    · refine (if_neg (show ¬ i < arraysTriv.A.m from h)).trans ?_
      show ([] : List Cell) = (lpTriv.A i)
      unfold lpTriv ofList
      simp only
      rw [List.getD_eq_getElem?_getD, List.getElem?_eq_none (by simp; omega)]
      rfl
  have hT : arraysTriv.AT.lists = (initSt lpTriv).AT := by
    funext k
    by_cases h : k < 4
    · have : k = 0 ∨ k = 1 ∨ k = 2 ∨ k = 3 := by omega
      obtain rfl | rfl | rfl | rfl := this <;> decide +kernel
    · refine (if_neg (show ¬ k < arraysTriv.AT.m from h)).trans ?_
      show ([] : List Cell) = colCells 4 lpTriv.A k
      refine (List.flatMap_eq_nil_iff.mpr (fun i hi => ?_)).symm
      have : i = 0 ∨ i = 1 ∨ i = 2 ∨ i = 3 := by have := List.mem_range.mp hi; omega
      obtain rfl | rfl | rfl | rfl := this <;> simp [lpTriv, ofList] <;> omega
  unfold Arrays.view
  rw [hA, hT]
  rfl

/-- The hypotheses hold in `arraysTriv` with dual fixing on; rows and columns are removed from both copies. -/
example : ∃ stgs : Settings, stgs.dualFix = true ∧ lpTriv.Valid ∧ arraysTriv.OK ∧ arraysTriv.view = initSt lpTriv ∧
    (runTrivial stgs (initSt lpTriv)).1.asrt = true ∧ (runTrivial stgs (initSt lpTriv)).2 = UNCHANGED ∧
    (Arrays.runTrivial stgs arraysTriv).map (fun r => ((List.range 4).map r.1.A.rowOf, (List.range 4).map r.1.AT.rowOf)) =
      some ([[], [(1, 1), (3, 1)], [(1, 1), (3, -1)], [(1, 1), (3, 1)]],
        [[], [(1, 1), (2, 1), (3, 1)], [], [(1, 1), (2, -1), (3, 1)]]) :=
  ⟨⟨true, true, true, true, true, true, true, true⟩, rfl, LP.valid_ofList _ rfl rfl (by decide +kernel), arraysTriv_ok,
    arraysTriv_view, by decide +kernel, by decide +kernel, by decide +kernel⟩

end Verif
