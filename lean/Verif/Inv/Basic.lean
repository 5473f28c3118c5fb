import Verif.Lemmas.DtonLoop
import Verif.Lemmas.Frame

/-!
# The structural invariant of the presolver state

`GI s` says that the two copies of the matrix, the sizes, the locks, the nonzero count and the
lists of pending deletions fit together.  A row or column is *gone* when its recorded size is
`-1`; it is *pending* when it is tagged inactive but not gone yet.
-/

namespace Verif

/-- Structural invariant of the presolver state between any two elementary operations. -/
structure GI (s : St) : Prop where
  rowSz : ∀ i, s.rowSize i ≠ -1 → s.rowSize i = ((s.A i).length : ℤ)
  rowGone : ∀ i, s.rowSize i = -1 → s.A i = [] ∧ (s.rtag i).inactive = true
  colGone : ∀ k, s.colSize k = -1 → s.AT k = [] ∧ (s.ctag k).inactive = true
  colSz : ∀ k, (s.ctag k).inactive = false → s.colSize k = ((s.AT k).length : ℤ)
  colPend : ∀ k, s.colSize k ≠ -1 →
    (((s.AT k).filter (fun p => decide (s.rowSize p.1 ≠ -1))).length : ℤ) ≤ s.colSize k
  agree : ∀ i k v, s.rowSize i ≠ -1 → s.colSize k ≠ -1 → ((k, v) ∈ s.A i ↔ (i, v) ∈ s.AT k)
  rowIn : ∀ i, (s.rtag i).inactive = false → ∀ p ∈ s.A i, s.colSize p.1 ≠ -1
  colIn : ∀ k, (s.ctag k).inactive = false → ∀ p ∈ s.AT k, s.rowSize p.1 ≠ -1
  rowSorted : ∀ i, SortedC (s.A i)
  colSorted : ∀ k, SortedC (s.AT k)
  rowRange : ∀ i, ∀ p ∈ s.A i, i < s.m ∧ p.1 < s.n ∧ p.2 ≠ 0
  colRange : ∀ k, ∀ p ∈ s.AT k, k < s.n ∧ p.1 < s.m ∧ p.2 ≠ 0
  rowPend : ∀ i, (s.rtag i).inactive = true → s.rowSize i ≠ -1 → i ∈ s.rowsToDelete
  colPendIn : ∀ k, (s.ctag k).inactive = true → s.colSize k ≠ -1 → k ∈ s.fixedCols ++ s.subCols
  rowsDel : ∀ i ∈ s.rowsToDelete, (s.rtag i).inactive = true ∧ s.rowSize i ≠ -1
  rowsNodup : s.rowsToDelete.Nodup
  colsDel : ∀ k ∈ s.fixedCols ++ s.subCols, (s.ctag k).inactive = true ∧ s.colSize k ≠ -1
  colsNodup : (s.fixedCols ++ s.subCols).Nodup
  nnz : s.nnz = ∑ i ∈ Finset.range s.m, ((s.A i).length : ℤ)
  locks : ∀ k, (s.ctag k).inactive = false → (s.up k, s.down k) = countLocks s.rtag (s.AT k)

/-- Two states that differ only in activities, work lists, clock and ghost flags. -/
structure SameCore (s t : St) : Prop where
  m : t.m = s.m
  n : t.n = s.n
  A : t.A = s.A
  AT : t.AT = s.AT
  lhs : t.lhs = s.lhs
  rhs : t.rhs = s.rhs
  lb : t.lb = s.lb
  ub : t.ub = s.ub
  rtag : t.rtag = s.rtag
  ctag : t.ctag = s.ctag
  c : t.c = s.c
  off : t.off = s.off
  rowSize : t.rowSize = s.rowSize
  colSize : t.colSize = s.colSize
  up : t.up = s.up
  down : t.down = s.down
  rowsToDelete : t.rowsToDelete = s.rowsToDelete
  fixedCols : t.fixedCols = s.fixedCols
  subCols : t.subCols = s.subCols
  nnz : t.nnz = s.nnz
  log : t.log = s.log

theorem SameCore.refl (s : St) : SameCore s s := by constructor <;> rfl

theorem SameCore.symm {s t : St} (h : SameCore s t) : SameCore t s :=
  ⟨h.m.symm, h.n.symm, h.A.symm, h.AT.symm, h.lhs.symm, h.rhs.symm, h.lb.symm, h.ub.symm,
    h.rtag.symm, h.ctag.symm, h.c.symm, h.off.symm, h.rowSize.symm, h.colSize.symm, h.up.symm,
    h.down.symm, h.rowsToDelete.symm, h.fixedCols.symm, h.subCols.symm, h.nnz.symm, h.log.symm⟩

theorem SameCore.trans {a b c : St} (h : SameCore a b) (h' : SameCore b c) : SameCore a c :=
  ⟨h'.m.trans h.m, h'.n.trans h.n, h'.A.trans h.A, h'.AT.trans h.AT, h'.lhs.trans h.lhs,
    h'.rhs.trans h.rhs, h'.lb.trans h.lb, h'.ub.trans h.ub, h'.rtag.trans h.rtag,
    h'.ctag.trans h.ctag, h'.c.trans h.c, h'.off.trans h.off, h'.rowSize.trans h.rowSize,
    h'.colSize.trans h.colSize, h'.up.trans h.up, h'.down.trans h.down,
    h'.rowsToDelete.trans h.rowsToDelete, h'.fixedCols.trans h.fixedCols,
    h'.subCols.trans h.subCols, h'.nnz.trans h.nnz, h'.log.trans h.log⟩

theorem SameAct.core {s t : St} (h : SameAct s t) : SameCore s t :=
  ⟨h.m, h.n, h.A, h.AT, h.lhs, h.rhs, h.lb, h.ub, h.rtag, h.ctag, h.c, h.off, h.rowSize, h.colSize,
    h.up, h.down, h.rowsToDelete, h.fixedCols, h.subCols, h.nnz, h.log⟩

theorem sameCore_check (s : St) (b : Bool) : SameCore s (s.check b) := by constructor <;> rfl
theorem sameCore_flag (s : St) (b : Bool) : SameCore s (s.flag b) := by constructor <;> rfl

/-- `GI` only depends on the structural part. -/
theorem GI.of_eq {s t : St} (h : GI s) (m : t.m = s.m) (n : t.n = s.n) (A : t.A = s.A)
    (AT : t.AT = s.AT) (rtag : t.rtag = s.rtag) (ctag : ∀ k, (t.ctag k).inactive = (s.ctag k).inactive)
    (rowSize : t.rowSize = s.rowSize) (colSize : t.colSize = s.colSize) (up : t.up = s.up)
    (down : t.down = s.down) (rd : t.rowsToDelete = s.rowsToDelete) (fc : t.fixedCols = s.fixedCols)
    (sc : t.subCols = s.subCols) (nnz : t.nnz = s.nnz) : GI t := by
  constructor
  · rw [rowSize, A]; exact h.rowSz
  · rw [rowSize, A, rtag]; exact h.rowGone
  · simp only [colSize, AT, ctag]; exact h.colGone
  · simp only [colSize, AT, ctag]; exact h.colSz
  · rw [colSize, AT, rowSize]; exact h.colPend
  · rw [rowSize, colSize, A, AT]; exact h.agree
  · rw [rtag, A, colSize]; exact h.rowIn
  · simp only [ctag, AT, rowSize]; exact h.colIn
  · rw [A]; exact h.rowSorted
  · rw [AT]; exact h.colSorted
  · rw [A, m, n]; exact h.rowRange
  · rw [AT, m, n]; exact h.colRange
  · rw [rtag, rowSize, rd]; exact h.rowPend
  · simp only [ctag, colSize, fc, sc]; exact h.colPendIn
  · rw [rtag, rowSize, rd]; exact h.rowsDel
  · rw [rd]; exact h.rowsNodup
  · simp only [ctag, colSize, fc, sc]; exact h.colsDel
  · rw [fc, sc]; exact h.colsNodup
  · rw [nnz, m, A]; exact h.nnz
  · simp only [ctag, up, down, rtag, AT]; exact h.locks

theorem SameCore.gi {s t : St} (h : SameCore s t) (g : GI s) : GI t :=
  g.of_eq h.m h.n h.A h.AT h.rtag (fun k => by rw [h.ctag]) h.rowSize h.colSize h.up h.down
    h.rowsToDelete h.fixedCols h.subCols h.nnz

theorem GI.colActive {s : St} (h : GI s) {k : ℕ} (hk : (s.ctag k).inactive = false) :
    s.colSize k ≠ -1 := by rw [h.colSz k hk]; omega

theorem GI.rowActive {s : St} (h : GI s) {i : ℕ} (hi : (s.rtag i).inactive = false) :
    s.rowSize i ≠ -1 := by
  intro e; rw [(h.rowGone i e).2] at hi; cases hi

/-- An active row lists exactly the active columns' cells. -/
theorem GI.cell {s : St} (h : GI s) {i k : ℕ} {v : ℚ} (hi : s.rowSize i ≠ -1)
    (hk : s.colSize k ≠ -1) : (k, v) ∈ s.A i ↔ (i, v) ∈ s.AT k := h.agree i k v hi hk

/-- Locks contributed by the cells of a list. -/
theorem countLocks_eq (rtag : ℕ → RTag) (l : List Cell) :
    countLocks rtag l = ((l.map (fun p => (lockOf p.2 (rtag p.1)).1)).sum,
      (l.map (fun p => (lockOf p.2 (rtag p.1)).2)).sum) := by
  unfold countLocks
  suffices ∀ a : ℤ × ℤ, l.foldl (fun l p => (l.1 + (lockOf p.2 (rtag p.1)).1,
      l.2 + (lockOf p.2 (rtag p.1)).2)) a =
      (a.1 + (l.map (fun p => (lockOf p.2 (rtag p.1)).1)).sum,
       a.2 + (l.map (fun p => (lockOf p.2 (rtag p.1)).2)).sum) by
    rw [this]; simp
  induction l with
  | nil => intro a; simp
  | cons p l ih => intro a; rw [List.foldl_cons, ih]; simp [add_assoc]

/-- Summing over the cells of a column that lie in the rows of `L` is summing over the rows of
`L` the cells that lie in the column. -/
theorem swap_sum (w : Cell → ℤ) (A : ℕ → List Cell) (T : List Cell) (k : ℕ) (L : List ℕ)
    (hnd : L.Nodup) (hA : ∀ i ∈ L, SortedC (A i)) (hT : SortedC T)
    (hag : ∀ i ∈ L, ∀ v, (k, v) ∈ A i ↔ (i, v) ∈ T) :
    ((T.filter (fun p => decide (p.1 ∈ L))).map w).sum =
      (L.map (fun i => ((mids k (A i)).map (fun p => w (i, p.2))).sum)).sum := by
  induction L with
  | nil => simp
  | cons i L ih =>
    rw [List.nodup_cons] at hnd
    have ih := ih hnd.2 (fun i' h => hA i' (List.mem_cons_of_mem _ h))
      (fun i' h => hag i' (List.mem_cons_of_mem _ h))
    rw [List.map_cons, List.sum_cons, ← ih]
    have hsplit : ∀ T : List Cell, ((T.filter (fun p => decide (p.1 ∈ i :: L))).map w).sum =
        ((mids i T).map w).sum + ((T.filter (fun p => decide (p.1 ∈ L))).map w).sum := by
      intro T
      induction T with
      | nil => simp [mids]
      | cons p T ih =>
        by_cases h1 : p.1 = i
        · have h2 : ¬ p.1 ∈ L := by rw [h1]; exact hnd.1
          simp only [mids, List.filter_cons, h1, List.mem_cons, true_or, decide_true, if_true, hnd.1,
            decide_false, Bool.false_eq_true, if_false, List.map_cons, List.sum_cons]
          have := ih
          simp only [mids, List.mem_cons] at this
          rw [this]; ring
        · by_cases h2 : p.1 ∈ L
          · simp only [mids, List.filter_cons, h1, List.mem_cons, false_or, decide_true, if_true, h2,
              decide_false, Bool.false_eq_true, if_false, List.map_cons, List.sum_cons]
            have := ih
            simp only [mids, List.mem_cons] at this
            rw [this]; ring
          · simp only [mids, List.filter_cons, h1, List.mem_cons, h2, or_self, decide_false,
              Bool.false_eq_true, if_false]
            simpa only [mids, List.mem_cons] using ih
    rw [hsplit T]
    congr 1
    by_cases hm : ∃ v, (i, v) ∈ T
    · obtain ⟨v, hv⟩ := hm
      rw [mids_of_mem hT hv, mids_of_mem (hA i List.mem_cons_self) ((hag i List.mem_cons_self v).mpr hv)]
      simp
    · have e1 : mids i T = [] := List.filter_eq_nil_iff.mpr (fun p hp => by
        simp only [decide_eq_true_eq]
        rintro rfl; exact hm ⟨p.2, hp⟩)
      have e2 : mids k (A i) = [] := List.filter_eq_nil_iff.mpr (fun p hp => by
        simp only [decide_eq_true_eq]
        rintro rfl; exact hm ⟨p.2, (hag i List.mem_cons_self _).mp hp⟩)
      rw [e1, e2]; simp

end Verif
