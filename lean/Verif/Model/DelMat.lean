import Verif.Model.Delete
import Verif.Model.Mat

/-!
# Deletion of rows and columns in the arrays (`/repo/src/core/Constraints.c:67-292`)

`Verif.Model.Delete` works on lists of cells.  Here the same functions work on the arrays of `A` and
`AT`: cells are read and written one by one, and the ends of the ranges are moved.  An index outside
an array is undefined behaviour (`none`).
-/

namespace Verif

/-- The matrices in memory, everything else in `s`; the lists of cells in `s` are not used.  `s.nnz`
is `A->nnz`; `AT->nnz`, which is only a copy of it, is left out, and so is the wrap of `size_t`. -/
structure Arrays where
  s : St
  A : Mat ℚ
  AT : Mat ℚ

/-- The loop over the cells of one row in `delete_inactive_rows`,
`/repo/src/core/Constraints.c:112-123`: `cnt` cells from `j` on.  `col_sizes` and `col_locks` have
`n` entries. -/
def Arrays.rowLoop (A : Mat ℚ) (n : ℕ) (t : RTag) : ℕ → ℕ → St → Option St
  | _, 0, s => some s
  | j, cnt + 1, s => do
    let e ← A.getCell j
    guard (e.1 < n)
    Arrays.rowLoop A n t (j + 1) cnt (delRowCell t s e)

/-- Body of the first loop of `delete_inactive_rows`, `/repo/src/core/Constraints.c:95-125`. -/
def Arrays.delOneRow (M : Arrays) (row : ℕ) : Option Arrays := do
  guard (row < M.A.m)
  let s := M.s.check (decide (M.s.rowSize row ≠ -1))
  if s.rowSize row = 0 then some { M with s := { s with rowSize := upd s.rowSize row (-1) } }
  else
    let s := { s with nnz := s.nnz - s.rowSize row, rowSize := upd s.rowSize row (-1) }
    let s ← Arrays.rowLoop M.A M.AT.m (s.rtag row) (M.A.ps row) (M.A.pe row - M.A.ps row) s
    some { M with s := s, A := M.A.setRange row (M.A.ps row) (M.A.ps row) }

/-- The loop that places the cells that stay contiguously in memory,
`/repo/src/core/Constraints.c:155-167` and `267-280`: `cnt` cells from `j` on, `shift` of the cells
before `j` are gone.  The sizes that are looked up have `lim` entries. -/
def Mat.compLoop (size : ℕ → ℤ) (lim : ℕ) : ℕ → ℕ → ℕ → Mat ℚ → Option (Mat ℚ × ℕ)
  | _, shift, 0, A => some (A, shift)
  | j, shift, cnt + 1, A => do
    let e ← A.getCell j
    guard (e.1 < lim)
    if size e.1 = -1 then Mat.compLoop size lim (j + 1) (shift + 1) cnt A
    else
      let A ← A.setCell (j - shift) e
      Mat.compLoop size lim (j + 1) shift cnt A

/-- `shift = 0`, the loop and the new end of the range, `/repo/src/core/Constraints.c:153-170` and
`265-283`. -/
def Mat.compact (size : ℕ → ℤ) (lim : ℕ) (A : Mat ℚ) (r : ℕ) : Option (Mat ℚ × ℕ) := do
  let (B, shift) ← Mat.compLoop size lim (A.ps r) 0 (A.pe r - A.ps r) A
  some (B.setRange r (B.ps r) (B.pe r - shift), shift)

/-- Body of the second loop of `delete_inactive_rows`, `/repo/src/core/Constraints.c:135-171`. -/
def Arrays.delCompactCol (M : Arrays) (col : ℕ) : Option Arrays :=
  if (M.s.ctag col).inactive || decide (M.s.colSize col = (M.AT.pe col : ℤ) - M.AT.ps col) then some M
  else do
    let s := M.s.check (decide (M.s.colSize col ≠ -1))
    let r : St × Mat ℚ :=
      if s.colSize col = 0 then
        ({ s with emptyCols := s.emptyCols ++ [col] }, M.AT.setRange col (M.AT.ps col) (M.AT.ps col))
      else if s.colSize col = 1 then ({ s with stonCols := s.stonCols ++ [col] }, M.AT)
      else (s, M.AT)
    let c ← Mat.compact r.1.rowSize M.A.m r.2 col
    some { M with s := r.1.check (decide ((c.1.ps col : ℤ) + r.1.colSize col = c.1.pe col)), AT := c.1 }

/-- `delete_inactive_rows`, `/repo/src/core/Constraints.c:67-175`. -/
def Arrays.deleteInactiveRows (M : Arrays) : Option Arrays :=
  if M.s.rowsToDelete = [] then some M
  else do
    let M ← M.s.rowsToDelete.foldlM Arrays.delOneRow M
    let M ← (List.range M.AT.m).foldlM Arrays.delCompactCol M
    some { M with s := { M.s with rowsToDelete := [] } }

/-- The loop over the cells of one column in `delete_inactive_cols_from_A_and_AT`,
`/repo/src/core/Constraints.c:198-206` and `215-223`; `row_sizes` has `m` entries. -/
def Arrays.colLoop (AT : Mat ℚ) (m : ℕ) : ℕ → ℕ → (ℕ → ℤ) → Option (ℕ → ℤ)
  | _, 0, sz => some sz
  | j, cnt + 1, sz => do
    let e ← AT.getCell j
    guard (e.1 < m)
    Arrays.colLoop AT m (j + 1) cnt (if sz e.1 = -1 then sz else upd sz e.1 (sz e.1 - 1))

/-- Body of the loops over the columns to delete, `/repo/src/core/Constraints.c:193-226`. -/
def Arrays.delOneCol (M : Arrays) (col : ℕ) : Option Arrays := do
  guard (col < M.AT.m)
  let s := { M.s with colSize := upd M.s.colSize col (-1) }
  let sz ← Arrays.colLoop M.AT M.A.m (M.AT.ps col) (M.AT.pe col - M.AT.ps col) s.rowSize
  some { M with s := { s with rowSize := sz }, AT := M.AT.setRange col (M.AT.ps col) (M.AT.ps col) }

/-- Body of the loop over the rows of `A` in `delete_inactive_cols_from_A_and_AT`,
`/repo/src/core/Constraints.c:234-287`. -/
def Arrays.delCompactRow (M : Arrays) (row : ℕ) : Option Arrays :=
  if (M.s.rtag row).inactive || decide (M.s.rowSize row = (M.A.pe row : ℤ) - M.A.ps row) then some M
  else do
    let s := M.s.check (decide (M.s.rowSize row ≠ -1))
    let r : St × Mat ℚ :=
      if s.rowSize row = 0 then
        let s := s.check (!s.emptyRows.contains row)
        ({ s with emptyRows := s.emptyRows ++ [row]
                  nnz := s.nnz - ((M.A.pe row : ℤ) - M.A.ps row) },
          M.A.setRange row (M.A.ps row) (M.A.ps row))
      else if s.rowSize row = 1 then
        let s := s.check (!s.stonRows.contains row)
        ({ s with stonRows := s.stonRows ++ [row] }, M.A)
      else if s.rowSize row = 2 ∧ (s.rtag row).eq = true then
        let s := s.check (!s.dtonRows.contains row)
        ({ s with dtonRows := s.dtonRows ++ [row] }, M.A)
      else (s, M.A)
    let c ← Mat.compact r.1.colSize M.AT.m r.2 row
    let s := { r.1 with nnz := r.1.nnz - (c.2 : ℤ) }
    some { M with s := s.check (decide ((c.1.ps row : ℤ) + s.rowSize row = c.1.pe row)), A := c.1 }

/-- `delete_inactive_cols_from_A_and_AT`, `/repo/src/core/Constraints.c:177-292`. -/
def Arrays.deleteInactiveCols (M : Arrays) : Option Arrays := do
  let M ← M.s.fixedCols.foldlM Arrays.delOneCol M
  let M ← M.s.subCols.foldlM Arrays.delOneCol M
  let M ← (List.range M.A.m).foldlM Arrays.delCompactRow M
  some { M with s := { M.s with fixedCols := [], subCols := [] } }

end Verif
