import Verif.Lemmas.DelMat
import Verif.Inv.Replay
import Verif.Props.C20_Delete

/-!
# C20 in the arrays

`C20_delete` is about lists of cells.  Here the same is proved of the array code: cells moved one by
one to the left, ends of ranges moved, gaps left behind.
-/

namespace Verif

/-- Both pending deletions in memory. -/
def Arrays.deletePending (M : Arrays) : Option Arrays := do
  let M ← M.deleteInactiveRows
  M.deleteInactiveCols

/-- **C20, in memory.**  Let `A` and `AT` be stored in arrays, whatever the gaps between the rows.
The deletions never touch anything outside an array.  Afterwards the ranges of the rows are still
inside the array and do not overlap, the two copies agree, every row that stays holds exactly its
old cells without those of deleted columns, in the old order, contiguously; rows that go are empty;
the sizes and `nnz` are the lengths of the ranges.  The result is that of the list version, so
everything proved of the list version holds in memory. -/
theorem C20_storage {M : Arrays} (hA : M.A.m = M.s.m) (hT : M.AT.m = M.s.n) (lA : M.A.Layout) (lT : M.AT.Layout)
    (g : GI M.view) (r : InRng M.view) :
    ∃ M', M.deletePending = some M' ∧ M'.A.m = M.A.m ∧ M'.AT.m = M.AT.m ∧ M'.A.Layout ∧ M'.AT.Layout ∧
      (∀ i < M.A.m, ∀ k < M.AT.m, ∀ v, (k, v) ∈ M'.A.rowOf i ↔ (i, v) ∈ M'.AT.rowOf k) ∧
      (∀ i < M.A.m, (M.s.rtag i).inactive = true → M'.A.rowOf i = [] ∧ M'.s.rowSize i = -1) ∧
      (∀ k < M.AT.m, (M.s.ctag k).inactive = true → M'.AT.rowOf k = [] ∧ M'.s.colSize k = -1) ∧
      (∀ i < M.A.m, (M.s.rtag i).inactive = false →
        Keeps (fun k => (M.s.ctag k).inactive = true) (M.A.rowOf i) (M'.A.rowOf i) ∧
        M'.s.rowSize i = (M'.A.pe i : ℤ) - M'.A.ps i) ∧
      (∀ k < M.AT.m, (M.s.ctag k).inactive = false →
        Keeps (fun i => (M.s.rtag i).inactive = true) (M.AT.rowOf k) (M'.AT.rowOf k) ∧
        M'.s.colSize k = (M'.AT.pe k : ℤ) - M'.AT.ps k) ∧
      M'.s.nnz = ∑ i ∈ Finset.range M.A.m, ((M'.A.pe i : ℤ) - M'.A.ps i) ∧
      M'.s.nnz = ∑ k ∈ Finset.range M.AT.m, ((M'.AT.pe k : ℤ) - M'.AT.ps k) ∧
      M'.view = Verif.deletePending M.view := by
  have ok : M.OK := ⟨hA, hT, lA, lT,
    fun i hi p hp => by
      rw [hT]; exact (g.rowRange i p (by show p ∈ M.A.lists i; rw [Mat.lists_of hi]; exact hp)).2.1,
    fun k hk p hp => by
      rw [hA]; exact (g.colRange k p (by show p ∈ M.AT.lists k; rw [Mat.lists_of hk]; exact hp)).2.1⟩
  obtain ⟨N, a, b, c, d, e⟩ := Arrays.deleteInactiveRows_step ok (fun i hi => by
    rw [hA]; exact r.1 i (g.rowsDel i hi).2)
  have hr := deleteInactiveRows_deleted g
  have hf : N.s.fixedCols ++ N.s.subCols = M.s.fixedCols ++ M.s.subCols := by
    have e1 : N.view.fixedCols = M.view.fixedCols := by rw [c, hr.eq]
    have e2 : N.view.subCols = M.view.subCols := by rw [c, hr.eq]
    show N.view.fixedCols ++ N.view.subCols = _
    rw [e1, e2]; rfl
  obtain ⟨M', a', b', c', d', e'⟩ := Arrays.deleteInactiveCols_step b (fun k hk => by
    rw [hf] at hk; rw [e, hT]; exact r.2 k (g.colsDel k hk).2)
  have hv : M'.view = Verif.deletePending M.view := by rw [c', c]; rfl
  have dm := d'.trans d
  have em := e'.trans e
  obtain ⟨p1, p2, p3, p4, p5, p6, p7, -⟩ := C20_delete g
  rw [← hv] at p1 p2 p3 p4 p5 p6 p7
  have LA : ∀ i < M.A.m, M'.view.A i = M'.A.rowOf i := fun i hi => Mat.lists_of (by rw [dm]; exact hi)
  have LT : ∀ k < M.AT.m, M'.view.AT k = M'.AT.rowOf k := fun k hk => Mat.lists_of (by rw [em]; exact hk)
  have NA : ∀ i < M.A.m, ((M'.view.A i).length : ℤ) = (M'.A.pe i : ℤ) - M'.A.ps i := fun i hi => by
    rw [LA i hi]; exact Mat.rowOf_len b'.layA (by rw [dm]; exact hi)
  have NT : ∀ k < M.AT.m, ((M'.view.AT k).length : ℤ) = (M'.AT.pe k : ℤ) - M'.AT.ps k := fun k hk => by
    rw [LT k hk]; exact Mat.rowOf_len b'.layT (by rw [em]; exact hk)
  refine ⟨M', by simp only [Arrays.deletePending, a, a', Option.bind_eq_bind, Option.bind_some], dm, em, b'.layA, b'.layT,
    fun i hi k hk v => ?_, fun i hi h => ?_, fun k hk h => ?_, fun i hi h => ?_, fun k hk h => ?_, ?_, ?_, hv⟩
  · rw [← LA i hi, ← LT k hk]; exact p1 i k v
  · rw [← LA i hi]; exact p2 i h
  · rw [← LT k hk]; exact p3 k h
  · rw [← LA i hi, ← NA i hi, show M.A.rowOf i = M.view.A i from (Mat.lists_of hi).symm]; exact p4 i h
  · rw [← LT k hk, ← NT k hk, show M.AT.rowOf k = M.view.AT k from (Mat.lists_of hk).symm]; exact p5 k h
  · have p6 : M'.s.nnz = _ := p6
    rw [p6]
    exact Finset.sum_congr (by rw [hA]; rfl) (fun i hi => NA i (Finset.mem_range.mp hi))
  · have p7 : M'.s.nnz = _ := p7
    rw [p7]
    exact Finset.sum_congr (by rw [hT]; rfl) (fun k hk => NT k (Finset.mem_range.mp hk))

/-- `exDel` with row 1 and column 0 to go, stored with gaps (cells `(9, 9)`). -/
def arraysEx : Arrays :=
  { s := markAll exDel [1] [0] []
    A := { m := 3, n := 3, nnz := 6, nAlloc := 9
           cell := fun j => [(0, 1), (2, 2), (9, 9), (0, 3), (1, 4), (1, -1), (2, 5), (9, 9), (9, 9)].getD j (0, 0)
           ps := fun i => [0, 3, 5, 9].getD i 9, pe := fun i => [2, 5, 7, 9].getD i 9 }
    AT := { m := 3, n := 3, nnz := 6, nAlloc := 8
            cell := fun j => [(0, 1), (1, 3), (1, 4), (2, -1), (9, 9), (0, 2), (2, 5), (9, 9)].getD j (0, 0)
            ps := fun k => [0, 2, 5, 8].getD k 8, pe := fun k => [2, 4, 7, 8].getD k 8 } }

theorem arraysEx_view : arraysEx.view = markAll exDel [1] [0] [] := by
  have e1 : arraysEx.A.lists = (markAll exDel [1] [0] []).A := by
    funext i
    by_cases h : i < 3
    · rw [Mat.lists_of (show i < arraysEx.A.m from h)]
      obtain rfl | rfl | rfl : i = 0 ∨ i = 1 ∨ i = 2 := by omega
      all_goals decide +kernel
    · exact (if_neg h).trans (by
        show [] = exDel.A i
        simp only [exDel, show ¬ i = 0 by omega, show ¬ i = 1 by omega, show ¬ i = 2 by omega, if_false])
  have e2 : arraysEx.AT.lists = (markAll exDel [1] [0] []).AT := by
    funext k
    by_cases h : k < 3
    · rw [Mat.lists_of (show k < arraysEx.AT.m from h)]
      obtain rfl | rfl | rfl : k = 0 ∨ k = 1 ∨ k = 2 := by omega
      all_goals decide +kernel
    · refine (if_neg h).trans (Eq.symm ?_)
      show (initSt exDel).AT k = []
      rw [List.eq_nil_iff_forall_not_mem]
      intro p hp
      exact h ((initSt_gi exDel_valid).colRange k p hp).1
  unfold Arrays.view
  rw [e1, e2]
  rfl

theorem arraysEx_layA : arraysEx.A.Layout := by
  constructor
  · intro i hi
    have hi : i < 3 := hi
    obtain rfl | rfl | rfl : i = 0 ∨ i = 1 ∨ i = 2 := by omega
    all_goals decide
  · intro i hi
    have hi : i < 3 := hi
    obtain rfl | rfl | rfl : i = 0 ∨ i = 1 ∨ i = 2 := by omega
    all_goals decide
  · decide

theorem arraysEx_layT : arraysEx.AT.Layout := by
  constructor
  · intro i hi
    have hi : i < 3 := hi
    obtain rfl | rfl | rfl : i = 0 ∨ i = 1 ∨ i = 2 := by omega
    all_goals decide
  · intro i hi
    have hi : i < 3 := hi
    obtain rfl | rfl | rfl : i = 0 ∨ i = 1 ∨ i = 2 := by omega
    all_goals decide
  · decide

/-- The hypotheses hold in `arraysEx`; row 0 has lost its cell of column 0 and its other cell has moved
to the left; so have the cells of column 1. -/
example : (arraysEx.A.m = arraysEx.s.m ∧ arraysEx.AT.m = arraysEx.s.n ∧ arraysEx.A.Layout ∧ arraysEx.AT.Layout ∧ GI arraysEx.view ∧
      InRng arraysEx.view) ∧
    arraysEx.deletePending.map (fun M => (M.A.rowOf 0, M.A.rowOf 1, M.A.rowOf 2, M.s.nnz)) =
      some ([(2, 2)], [], [(1, -1), (2, 5)], 3) ∧
    arraysEx.deletePending.map (fun M => (M.AT.rowOf 0, M.AT.rowOf 1, M.AT.rowOf 2, M.A.pe 0)) =
      some ([], [(2, -1)], [(0, 2), (2, 5)], 1) :=
  ⟨⟨rfl, rfl, arraysEx_layA, arraysEx_layT,
    by rw [arraysEx_view]; exact C20_any_marking exDel_valid (by simp) (by simp) (by simp [exDel]) (by simp [exDel]),
    by rw [arraysEx_view]; exact initSt_inRng exDel_valid⟩, by decide +kernel, by decide +kernel⟩

end Verif
