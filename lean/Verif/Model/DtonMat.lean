import Verif.Model.DelMat
import Verif.Model.Dton

/-!
# Elimination of a doubleton equality in the arrays (`/repo/src/explorers/DtonsEq.c`)

`Verif.Model.Dton` works on lists of cells and takes the answer of the space check from outside.
Here the space check and the substitution work on the arrays of `A` and `AT`.  An index outside an
array is undefined behaviour (`none`).
-/

namespace Verif

/-- `!(ABS(v) > ZERO_TOL)`. -/
def negligible (v : ℚ) : Bool := decide (|v| ≤ ZERO_TOL)

/-- The merge loop that counts the fill-in and `fill_in += len_col_k - kk`,
`/repo/src/explorers/DtonsEq.c:62-83`; `jj`, `kk` are positions in the array, `ej`, `ek` the ends of
the two columns.  The first argument bounds the number of iterations. -/
def Mat.fillCount (T : Mat ℚ) (ej ek : ℕ) : ℕ → ℕ → ℕ → ℤ → Option ℤ
  | 0, _, _, _ => none
  | fuel + 1, jj, kk, f =>
    if jj < ej ∧ kk < ek then do
      let a ← T.getCell jj
      let b ← T.getCell kk
      if a.1 = b.1 then Mat.fillCount T ej ek fuel (jj + 1) (kk + 1) f
      else if b.1 < a.1 then Mat.fillCount T ej ek fuel jj (kk + 1) (f + 1)
      else Mat.fillCount T ej ek fuel (jj + 1) kk f
    else some (f + ((ek : ℤ) - kk))

/-- `sufficient_space_AT`, `/repo/src/explorers/DtonsEq.c:41-91`: the answer and `AT`, in which rows
may have been shifted. -/
def Mat.sufficientSpace (T : Mat ℚ) (pref : ℕ → ℕ → Bool) (j k : ℕ) (maxShift : ℤ) :
    Option (Bool × Mat ℚ) := do
  let f ← Mat.fillCount T (T.pe j) (T.pe k) ((T.pe j - T.ps j) + (T.pe k - T.ps k) + 1) (T.ps j) (T.ps k) (-1)
  if f ≤ (T.ps (j + 1) : ℤ) - T.pe j then some (true, T) else T.shiftRow pref j f maxShift

/-- Body of the loop of `execute_substitution`, `/repo/src/explorers/DtonsEq.c:529-625`, for the row
`q` that has been read.  The activity is recomputed from the cells of the new row (the code reads
`*sub_row.len` cells, asserted to be the length of the range). -/
def Arrays.substRow (i j k : ℕ) (aij aik : ℚ) (acc : Arrays × List ℕ) (q : ℕ) : Option (Arrays × List ℕ) :=
  let M := acc.1
  if M.A.m ≤ q then none
  else if (M.s.rtag q).inactive then some acc
  else do
    let u ← M.A.updateRowADton negligible 0 (fun old sub => old - aij / aik * sub) q j k
    let r : DtonRow := ⟨u.2.1.rowOf q, u.1.1, u.1.2.1, u.1.2.2⟩
    let s := M.s.check (decide (q ≠ i))
    let oldLen := s.rowSize q
    let s := s.save (.addedRow i q (-r.oldSubst / aik))
    let s := { s with rowSize := upd s.rowSize q (s.rowSize q + u.2.2)
                      nnz := s.nnz + u.2.2
                      tiny := s.tiny || (decide (r.newStay ≠ 0) && decide (|r.newStay| ≤ ZERO_TOL)) }
    let s := s.check (decide (s.rowSize q = (u.2.1.pe q : ℤ) - u.2.1.ps q) && dtonCoefAssert r)
    let s := s.check (insertAssert (M.AT.rowOf j) q r.newStay)
    let w := dtonNoteSize s q oldLen acc.2
    let t ← M.AT.insertOrUpdate negligible 0 j q r.newStay
    let s := { w.1 with colSize := upd w.1.colSize j (w.1.colSize j + t.2.2), A := fun _ => r.cells }
    let s := dtonSides s q aik (s.rhs i) r.oldSubst
    some (⟨dtonAct s q j k r, u.2.1, t.2.1⟩, w.2)

/-- The loop of `execute_substitution`, `/repo/src/explorers/DtonsEq.c:526-625`: the row indices are
read from the cells that column `k` had, `cnt` of them from `pos` on, while `AT` is being changed. -/
def Arrays.substLoop (i j k : ℕ) (aij aik : ℚ) : ℕ → ℕ → Arrays × List ℕ → Option (Arrays × List ℕ)
  | _, 0, acc => some acc
  | pos, cnt + 1, acc => do
    let e ← acc.1.AT.getCell pos
    let acc ← Arrays.substRow i j k aij aik acc e.1
    Arrays.substLoop i j k aij aik (pos + 1) cnt acc

/-- `execute_substitution`, `/repo/src/explorers/DtonsEq.c:488-648`. -/
def Arrays.dtonExecute (M : Arrays) (i : ℕ) (rowCells : List Cell) (j k : ℕ) (aij aik : ℚ)
    (buf : List ℕ) (ck : ℚ) : Option (Arrays × List ℕ) := do
  let start := M.AT.ps k
  let len := M.AT.pe k - M.AT.ps k
  let T ← M.AT.removeCoeff j i
  let s := { M.s with colSize := upd M.s.colSize j (M.s.colSize j - 1) }
  let r ← Arrays.substLoop i j k aij aik start len (⟨s, M.A, T.setRange k (T.ps k) (T.ps k)⟩, buf)
  let s := r.1.s
  let s :=
    if s.colSize j = 0 then
      let s := s.check (!(s.ctag j).inactive && !s.emptyCols.contains j)
      { s with emptyCols := s.emptyCols ++ [j] }
    else if s.colSize j = 1 then
      let s := s.check (!(s.ctag j).inactive && !s.stonCols.contains j)
      { s with stonCols := s.stonCols ++ [j] }
    else s
  let s := { s with ctag := upd s.ctag k { fixed := true, subst := true }
                    colSize := upd s.colSize k (-1) }
  let s := s.check (decide (s.colSize j = (r.1.AT.pe j : ℤ) - r.1.AT.ps j))
  let l := countLocks s.rtag (r.1.AT.rowOf j)
  let s := { s with up := upd s.up j l.1, down := upd s.down j l.2 }
  let s := s.save (.subCol k rowCells (s.rhs i) i ck)
  some (⟨s.save (.deletedRow i (ck / aik)), r.1.A, r.1.AT⟩, r.2)

end Verif
