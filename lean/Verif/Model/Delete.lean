import Verif.Model.Core

/-!
# Deletion of rows and columns from the matrices (`/repo/src/core/Constraints.c`)

The in-place compaction of a row or column is modelled by `List.filter`; the array code is
`Verif.Model.DelMat`, and that it computes this is `Verif.C20_storage`.
-/

namespace Verif

/-- Body of the loop over one row's cells in `delete_inactive_rows:112-124`. -/
def delRowCell (t : RTag) (s : St) (p : Cell) : St :=
  if s.colSize p.1 = -1 then s
  else lockDel { s with colSize := upd s.colSize p.1 (s.colSize p.1 - 1) } p.1 p.2 t

/-- Body of the first loop of `delete_inactive_rows`, `/repo/src/core/Constraints.c:95-125`. -/
def delOneRow (s : St) (row : ℕ) : St :=
  let s := s.check (decide (s.rowSize row ≠ -1))
  if s.rowSize row = 0 then { s with rowSize := upd s.rowSize row (-1) }
  else
    let s := { s with nnz := s.nnz - s.rowSize row, rowSize := upd s.rowSize row (-1) }
    let s := (s.A row).foldl (delRowCell (s.rtag row)) s
    { s with A := upd s.A row [] }

/-- Body of the second loop of `delete_inactive_rows`, `/repo/src/core/Constraints.c:135-171`:
new empty and singleton columns, compaction of the column. -/
def delCompactCol (s : St) (col : ℕ) : St :=
  if (s.ctag col).inactive || decide (s.colSize col = ((s.AT col).length : ℤ)) then s
  else
    let s := s.check (decide (s.colSize col ≠ -1))
    let s :=
      if s.colSize col = 0 then
        { s with emptyCols := s.emptyCols ++ [col], AT := upd s.AT col [] }
      else if s.colSize col = 1 then { s with stonCols := s.stonCols ++ [col] }
      else s
    let cells := (s.AT col).filter (fun p => decide (s.rowSize p.1 ≠ -1))
    let s := { s with AT := upd s.AT col cells }
    s.check (decide (s.colSize col = ((s.AT col).length : ℤ)))

/-- `delete_inactive_rows`, `/repo/src/core/Constraints.c:67-175`. -/
def deleteInactiveRows (s : St) : St :=
  if s.rowsToDelete = [] then s
  else
    let s := s.rowsToDelete.foldl delOneRow s
    let s := (List.range s.n).foldl delCompactCol s
    { s with rowsToDelete := [] }

/-- Body of the loops over the columns to delete in `delete_inactive_cols_from_A_and_AT`,
`/repo/src/core/Constraints.c:193-226`. -/
def delOneCol (s : St) (col : ℕ) : St :=
  let cells := s.AT col
  { s with colSize := upd s.colSize col (-1)
           rowSize := cells.foldl (fun sz p =>
             if sz p.1 = -1 then sz else upd sz p.1 (sz p.1 - 1)) s.rowSize
           AT := upd s.AT col [] }

/-- Body of the loop over the rows of `A` in `delete_inactive_cols_from_A_and_AT`,
`/repo/src/core/Constraints.c:234-287`. -/
def delCompactRow (s : St) (row : ℕ) : St :=
  if (s.rtag row).inactive || decide (s.rowSize row = ((s.A row).length : ℤ)) then s
  else
    let s := s.check (decide (s.rowSize row ≠ -1))
    let s :=
      if s.rowSize row = 0 then
        let s := s.check (!s.emptyRows.contains row)
        { s with emptyRows := s.emptyRows ++ [row]
                 nnz := s.nnz - ((s.A row).length : ℤ)
                 A := upd s.A row [] }
      else if s.rowSize row = 1 then
        let s := s.check (!s.stonRows.contains row)
        { s with stonRows := s.stonRows ++ [row] }
      else if s.rowSize row = 2 ∧ (s.rtag row).eq = true then
        let s := s.check (!s.dtonRows.contains row)
        { s with dtonRows := s.dtonRows ++ [row] }
      else s
    let cells := (s.A row).filter (fun p => decide (s.colSize p.1 ≠ -1))
    let s := { s with nnz := s.nnz - (((s.A row).length : ℤ) - (cells.length : ℤ))
                      A := upd s.A row cells }
    s.check (decide (s.rowSize row = ((s.A row).length : ℤ)))

/-- `delete_inactive_cols_from_A_and_AT`, `/repo/src/core/Constraints.c:177-292`. -/
def deleteInactiveCols (s : St) : St :=
  let s := s.fixedCols.foldl delOneCol s
  let s := s.subCols.foldl delOneCol s
  let s := (List.range s.m).foldl delCompactRow s
  { s with fixedCols := [], subCols := [] }

end Verif
