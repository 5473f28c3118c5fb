import Verif.Model.Shrink
import Mathlib.Data.List.Range
import Mathlib.Tactic.Linarith

/-!
# Sparse matrix storage (`/repo/src/core/Matrix.c`, `/repo/include/core/Matrix.h`)

`Mat α` is the C struct `Matrix`.  The two arrays `A->i` and `A->x`, which the code always
moves together, are one array `cell` of pairs.  Cells at or beyond `nAlloc` do not exist:
an operation that would touch one returns `none` (undefined behaviour).
The coefficient type `α` is arbitrary, so nothing here depends on real arithmetic.
-/

namespace Verif

/-- `struct Matrix`, Matrix.h; `ps i`/`pe i` are `A->p[i].start`/`A->p[i].end` for
`i = 0..m`. -/
structure Mat (α : Type) where
  m : ℕ
  n : ℕ
  nnz : ℕ
  nAlloc : ℕ
  cell : ℕ → ℕ × α
  ps : ℕ → ℕ
  pe : ℕ → ℕ

namespace Mat
variable {α : Type}

/-- The (column, value) pairs stored in row `i`: cells `p[i].start .. p[i].end - 1`. -/
def rowOf (A : Mat α) (i : ℕ) : List (ℕ × α) :=
  (List.range (A.pe i - A.ps i)).map fun k => A.cell (A.ps i + k)

/-- Layout invariant (`verify_CSR_matrix`, `/repo/src/core/Debugger.c:352-404`, without the
sortedness part): rows are in order, disjoint, and inside the allocation. -/
structure Layout (A : Mat α) : Prop where
  le : ∀ i < A.m, A.ps i ≤ A.pe i
  next : ∀ i < A.m, A.pe i ≤ A.ps (i + 1)
  alloc : A.ps A.m ≤ A.nAlloc

/-- C `memmove` of `len` cells inside the arrays, `none` if it leaves the allocation. -/
def memmove (A : Mat α) (dst src len : ℕ) : Option (Mat α) :=
  if dst + len ≤ A.nAlloc ∧ src + len ≤ A.nAlloc then
    some { A with cell := fun k =>
      if dst ≤ k ∧ k < dst + len then A.cell (src + (k - dst)) else A.cell k }
  else none

/-- Write one cell. -/
def setCell (A : Mat α) (k : ℕ) (e : ℕ × α) : Option (Mat α) :=
  if k < A.nAlloc then some { A with cell := Function.update A.cell k e } else none

/-- Read one cell. -/
def getCell (A : Mat α) (k : ℕ) : Option (ℕ × α) :=
  if k < A.nAlloc then some (A.cell k) else none

/-- `row_r[r].start = s; row_r[r].end = e`. -/
def setRange (A : Mat α) (r s e : ℕ) : Mat α :=
  { A with ps := Function.update A.ps r s, pe := Function.update A.pe r e }

/-! ## Memory sizes, Matrix.c:169-187 -/

/-- `calc_memory(nnz, n_rows, extra_row_space, memory_ratio)`, Matrix.c:169-182, for the
integer ratios that occur (2 in a release build, 1 in tests and for `remove_all`). -/
def calcMemory (ratio extra nnz nRows : ℕ) : ℕ := nnz * ratio + nRows * extra

/-- `calc_memory_row`, Matrix.c:184-187. -/
def calcMemoryRow (ratio extra size : ℕ) : ℕ := size * ratio + extra

/-! ## `matrix_new_no_extra_space`, Matrix.c:87-117 -/

/-- A user array: contents and documented length. -/
structure UArr (β : Type) where
  val : ℕ → β
  len : ℕ

/-- Read a user array; `none` outside the documented length. -/
def UArr.read {β : Type} (a : UArr β) (k : ℕ) : Option β := if k < a.len then some (a.val k) else none

/-- The loop Matrix.c:110-114 after `k` iterations: `p[i] = (Ap[i], Ap[i+1])`. -/
def copyPtrs (Ap : UArr ℕ) : ℕ → Option ((ℕ → ℕ) × (ℕ → ℕ))
  | 0 => some (fun _ => 0, fun _ => 0)
  | k + 1 => do
    let (s, e) ← copyPtrs Ap k
    let a ← Ap.read k
    let b ← Ap.read (k + 1)
    some (Function.update s k a, Function.update e k b)

/-- `matrix_new_no_extra_space`, Matrix.c:87-117.  `iters` is the number of iterations of
the pointer loop: the code runs `i = 0 .. n_rows` inclusive, i.e. `iters = n_rows + 1`. -/
def newNoExtraWith (iters : ℕ) (Axi : UArr (ℕ × α)) (Ap : UArr ℕ) (nRows nCols nnz : ℕ) :
    Option (Mat α) := do
  guard (nnz ≤ Axi.len)
  let (s, e) ← copyPtrs Ap iters
  some { m := nRows, n := nCols, nnz := nnz, nAlloc := nnz, cell := Axi.val, ps := s, pe := e }

/-- `matrix_new_no_extra_space` as written (`i <= n_rows`, Matrix.c:110). -/
def newNoExtra (Axi : UArr (ℕ × α)) (Ap : UArr ℕ) (nRows nCols nnz : ℕ) : Option (Mat α) :=
  newNoExtraWith (nRows + 1) Axi Ap nRows nCols nnz

/-! ## `shift_row`, Matrix.c:272-422 -/

/-- Result of the planning loop: `left`, `right`, `left_shifts`, `right_shifts`. -/
structure Plan where
  left : ℕ
  right : ℕ
  ls : ℤ
  rs : ℤ

/-- The direction decision Matrix.c:319-364; `some true` = shift left, `none` = `return false`.
`pref` is the comparison of the two quotients in lines 352-353 (floating point); the model
allows any answer. -/
def shiftDir (A : Mat α) (pref : ℕ → ℕ → Bool) (left right : ℕ) (remaining : ℤ) : Option Bool :=
  let nmr : ℤ := (A.pe right : ℤ) - A.ps right
  let nml : ℤ := (A.pe left : ℤ) - A.ps left
  if left = 0 then
    if right ≠ A.m ∧ nmr ≤ remaining then some false else none
  else if right = A.m then
    if left ≠ 0 ∧ nml ≤ remaining then some true else none
  else if nml = 0 then some true
  else if nmr = 0 then some false
  else if nml ≤ remaining ∧ pref left right = true then some true
  else if nmr ≤ remaining then some false
  else none

/-- The planning loop Matrix.c:293-383.  `fuel` bounds the number of iterations; `m + 1`
suffices because every iteration moves `left` down or `right` up (see
`planLoop_fuel`). -/
def planLoop (A : Mat α) (pref : ℕ → ℕ → Bool) :
    ℕ → ℕ → ℕ → ℤ → ℤ → ℤ → ℤ → Option Plan
  | 0, _, _, _, _, _, _ => none
  | fuel + 1, left, right, missing, remaining, ls, rs =>
    if missing > 0 then
      if left = 0 ∧ right = A.m then none
      else
        let spaceLeft : ℤ := if left = 0 then 0 else (A.ps left : ℤ) - A.pe (left - 1)
        let spaceRight : ℤ := if right = A.m then 0 else (A.ps (right + 1) : ℤ) - A.pe right
        let nmr : ℤ := (A.pe right : ℤ) - A.ps right
        let nml : ℤ := (A.pe left : ℤ) - A.ps left
        match shiftDir A pref left right remaining with
        | none => none
        | some true =>
          let ls' := min missing spaceLeft
          planLoop A pref fuel (left - 1) right (missing - ls') (remaining - nml) ls' rs
        | some false =>
          let rs' := min missing spaceRight
          planLoop A pref fuel left (right + 1) (missing - rs') (remaining - nmr) ls rs'
    else some ⟨left, right, ls, rs⟩

/-- Move row `r` so that it starts at `dst`: one body of the loops Matrix.c:389-402 and
408-421. -/
def moveRow (A : Mat α) (r dst : ℕ) : Option (Mat α) :=
  let len := A.pe r - A.ps r
  (if len > 0 then A.memmove dst (A.ps r) len else some A).map fun B => B.setRange r dst (dst + len)

/-- "execute total left shift", Matrix.c:388-402: rows `r, r+1, …` (`cnt` of them) are packed
from `next` on. -/
def leftLoop (A : Mat α) (next r : ℕ) : ℕ → Option (Mat α)
  | 0 => some A
  | cnt + 1 => do
    let len := A.pe r - A.ps r
    let B ← A.moveRow r next
    leftLoop B (next + len) (r + 1) cnt

/-- "execute total right shift", Matrix.c:407-421: rows `row+cnt, …, row+1` are packed
downwards from `nextEnd`. -/
def rightLoop (A : Mat α) (row nextEnd : ℕ) : ℕ → Option (Mat α)
  | 0 => some A
  | cnt + 1 => do
    let r := row + (cnt + 1)
    let len := A.pe r - A.ps r
    if nextEnd < len then none
    else
      let B ← A.moveRow r (nextEnd - len)
      rightLoop B row (nextEnd - len) cnt

/-- Outcome of `shift_row`: the returned Boolean and the matrix; `none` is undefined
behaviour. -/
def shiftRow (A : Mat α) (pref : ℕ → ℕ → Bool) (row : ℕ) (extraSpace maxShift : ℤ) :
    Option (Bool × Mat α) :=
  let missing := extraSpace - ((A.ps (row + 1) : ℤ) - A.pe row)
  if missing ≤ 0 then some (true, A)
  else
    match planLoop A pref (A.m + 1) row (row + 1) missing maxShift 0 0 with
    | none => some (false, A)
    | some p => do
      let nextStart : ℤ := (A.ps (p.left + 1) : ℤ) - p.ls
      if nextStart < 0 then none
      else
        let B ← leftLoop A nextStart.toNat (p.left + 1) (row - p.left)
        let nextEnd : ℤ := (B.pe (p.right - 1) : ℤ) + p.rs
        let C ← rightLoop B row nextEnd.toNat (p.right - (row + 1))
        some (true, C)

/-! ## `transpose`, Matrix.c:119-167 and `count_rows`, Matrix.c:531-537 -/

/-- All entries in storage order as (row, col, value). -/
def triples (A : Mat α) : List (ℕ × ℕ × α) :=
  (List.range A.m).flatMap fun i => (A.rowOf i).map fun e => (i, e.1, e.2)

/-- Counting loop Matrix.c:130-136. `none` if a column index is out of range. -/
def countCols (n : ℕ) : List (ℕ × ℕ × α) → Option (ℕ → ℕ)
  | [] => some fun _ => 0
  | (_, j, _) :: ts => do
    guard (j < n)
    let c ← countCols n ts
    some (Function.update c j (c j + 1))

/-- Pointer loop Matrix.c:140-148 after `k` iterations: `AT->p[0..k].start`. -/
def transStart (ratio extra : ℕ) (cnt : ℕ → ℕ) : ℕ → ℕ
  | 0 => 0
  | k + 1 => transStart ratio extra cnt k + calcMemoryRow ratio extra (cnt k)

/-- Fill loop Matrix.c:156-164: next free position per column, and the matrix. -/
def fillLoop (AT : Mat α) (pos : ℕ → ℕ) : List (ℕ × ℕ × α) → Option (Mat α)
  | [] => some AT
  | (i, j, v) :: ts => do
    let B ← AT.setCell (pos j) (i, v)
    fillLoop B (Function.update pos j (pos j + 1)) ts

/-- `transpose(A, work)`, Matrix.c:119-167, allocation succeeding; `fresh` is the
unspecified contents of the new arrays. -/
def transpose (ratio extra : ℕ) (fresh : ℕ → ℕ × α) (A : Mat α) : Option (Mat α) := do
  let nAlloc := calcMemory ratio extra A.nnz A.n
  let cnt ← countCols A.n A.triples
  let start := transStart ratio extra cnt
  let AT : Mat α :=
    { m := A.n, n := A.m, nnz := A.nnz, nAlloc := nAlloc, cell := fresh
      ps := fun i => if i = A.n then nAlloc else start i
      pe := fun i => if i = A.n then nAlloc else start i + cnt i }
  fillLoop AT start A.triples

/-- `count_rows`, Matrix.c:531-537. -/
def countRows (A : Mat α) (i : ℕ) : ℤ := (A.pe i : ℤ) - A.ps i

/-! ## `remove_extra_space`, Matrix.c:201-270 -/

/-- First loop Matrix.c:216-236 after the first `k` rows: matrix, number of deleted rows,
`curr`. -/
def compactLoop (A : Mat α) (ratio extra : ℕ) (inactRow : ℕ → Bool) :
    ℕ → Option (Mat α × ℕ × ℕ)
  | 0 => some (A, 0, 0)
  | k + 1 => do
    let (B, del, curr) ← compactLoop A ratio extra inactRow k
    if inactRow k then some (B, del + 1, curr)
    else
      let start := B.ps k
      let len := B.pe k - B.ps k
      let C ← B.memmove curr start len
      some (C.setRange (k - del) curr (curr + len), del, curr + calcMemoryRow ratio extra len)

/-- Index update loop Matrix.c:259-268: `A->i[j] = map[A->i[j]]` for all cells of all rows.
A column mapped to `-1` would be stored as an invalid index; the model makes that `none`. -/
def remapCells (A : Mat α) (map : ℕ → ℤ) : List ℕ → Option (Mat α)
  | [] => some A
  | k :: ks => do
    let e ← A.getCell k
    guard (0 ≤ map e.1)
    let B ← A.setCell k ((map e.1).toNat, e.2)
    remapCells B map ks

/-- The cell positions visited by the index update loop. -/
def rowCells (A : Mat α) : List ℕ :=
  (List.range A.m).flatMap fun i => (List.range (A.pe i - A.ps i)).map fun k => A.ps i + k

/-- `remove_extra_space(A, row_sizes, col_sizes, remove_all, col_idxs_map)`,
Matrix.c:201-270; `inactRow i`/`inactCol j` say that the size is `-1`.  Returns the matrix and
the column map.  `ratio`,`extra` are 1,0 for `remove_all`. -/
def removeExtraSpace (A : Mat α) (ratio extra : ℕ) (inactRow inactCol : ℕ → Bool) :
    Option (Mat α × (ℕ → ℤ)) := do
  let (B, del, curr) ← compactLoop A ratio extra inactRow A.m
  let m' := A.m - del
  let C := { B with m := m', ps := Function.update B.ps m' curr, pe := Function.update B.pe m' curr,
                    nAlloc := max curr 1, n := idxCount inactCol A.n }
  let D ← remapCells C (idxMap inactCol A.n) C.rowCells
  some (D, idxMap inactCol A.n)

/-! ## Single coefficients: `insert_or_update_coeff` and `remove_coeff`,
Matrix.c:433-529 -/

/-- First position in `start..end-1` holding a column `>= col`, else `end`
(Matrix.c:445-452). -/
def findInsertion (A : Mat α) (col start : ℕ) : ℕ → ℕ
  | 0 => start
  | k + 1 => if (A.cell start).1 ≥ col then start else findInsertion A col (start + 1) k

/-- `insert_or_update_coeff(A, row, col, val, &row_size)`, Matrix.c:433-509.
`small v` is `!(ABS(v) > ZERO_TOL)`, `z` is `0.0`.  Returns `old_val`, the matrix, and the
change of `*row_size`.  `none` is undefined behaviour: a cell outside the allocation, or a
`memmove` whose length `end - insertion - 1` is negative (converted to a huge `size_t`). -/
def insertOrUpdate (A : Mat α) (small : α → Bool) (z : α) (row col : ℕ) (val : α) :
    Option (α × Mat α × ℤ) :=
  let e := A.pe row
  let ins := findInsertion A col (A.ps row) (e - A.ps row)
  if small val = false then
    if ins = e then do
      let B ← A.setCell ins (col, val)
      some (z, { B with pe := Function.update B.pe row (e + 1), nnz := B.nnz + 1 }, 1)
    else if (A.cell ins).1 = col then do
      let old := (A.cell ins).2
      let B ← A.setCell ins (col, val)
      some (old, B, 0)
    else do
      let B ← A.memmove (ins + 1) ins (e - ins)
      let C ← B.setCell ins (col, val)
      some (z, { C with pe := Function.update C.pe row (e + 1), nnz := C.nnz + 1 }, 1)
  else if ins = e then none
  else if ins + 1 = e then
    some (z, { A with pe := Function.update A.pe row (e - 1), nnz := A.nnz - 1 }, -1)
  else do
    let B ← A.memmove ins (ins + 1) (e - ins - 1)
    some (z, { B with pe := Function.update B.pe row (e - 1), nnz := B.nnz - 1 }, -1)

/-- The loop of `remove_coeff`, Matrix.c:511-526, over `i = start .. start+cnt-1`:
each cell is overwritten by the one `shift` further; `none` if that cell does not exist. -/
def removeLoop (A : Mat α) (col : ℕ) (i : ℕ) (shift : Bool) : ℕ → Option (Mat α × Bool)
  | 0 => some (A, shift)
  | cnt + 1 => do
    let shift' := if (A.cell i).1 = col then true else shift
    let e ← A.getCell (i + (if shift' then 1 else 0))
    let B ← A.setCell i e
    removeLoop B col (i + 1) shift' cnt

/-- `remove_coeff(row, col)`, Matrix.c:511-529 (`range.end -= 1`, `*len -= 1`). -/
def removeCoeff (A : Mat α) (row col : ℕ) : Option (Mat α) := do
  let (B, _) ← removeLoop A col (A.ps row) false (A.pe row - A.ps row)
  some { B with pe := Function.update B.pe row (B.pe row - 1) }

/-- First position in `start..` holding exactly `col` (DtonsEq.c:254-261). -/
def findEq (A : Mat α) (col start : ℕ) : ℕ → Option ℕ
  | 0 => none
  | k + 1 => if (A.cell start).1 = col then some start else findEq A col (start + 1) k

/-- `update_row_A_dton(A, i, q, j, k, aij, aik, …)`, DtonsEq.c:236-368: in row `q` column `k`
is eliminated in favour of column `j`.  `f old akk` is `new_val = old_val - (aij/aik)*x[subst]`.
Returns (old coefficient of j, old coefficient of k, new coefficient of j), the matrix and the
change of the row size. -/
def updateRowADton (A : Mat α) (small : α → Bool) (z : α) (f : α → α → α) (q j k : ℕ) :
    Option ((α × α × α) × Mat α × ℤ) := do
  let s := A.ps q
  let e := A.pe q
  let sub ← findEq A k s (e - s)
  let ins := findInsertion A j s (e - s)
  let old := if ins ≠ e ∧ (A.cell ins).1 = j then (A.cell ins).2 else z
  let osub := (A.cell sub).2
  let new := f old osub
  let B ← A.memmove sub (sub + 1) (e - sub - 1)
  let e1 := e - 1
  let ins1 := if sub < ins then ins - 1 else ins
  if small new then
    if ins1 ≥ e1 then none
    else do
      let C ← B.memmove ins1 (ins1 + 1) (e1 - ins1 - 1)
      some ((old, osub, new),
        { C with pe := Function.update C.pe q (e1 - 1), nnz := C.nnz - 2 }, -2)
  else if ins1 = e1 then do
    let C ← B.setCell ins1 (j, new)
    some ((old, osub, new), { C with pe := Function.update C.pe q (e1 + 1) }, 0)
  else if (B.cell ins1).1 = j then do
    let C ← B.setCell ins1 (j, new)
    some ((old, osub, new), { C with pe := Function.update C.pe q e1, nnz := C.nnz - 1 }, -1)
  else do
    let C ← B.memmove (ins1 + 1) ins1 (e1 - ins1)
    let D ← C.setCell ins1 (j, new)
    some ((old, osub, new), { D with pe := Function.update D.pe q (e1 + 1) }, 0)

end Mat
end Verif
