import Verif.Spec.Num

/-!
# Presolver state (layer H)

The mutable data of the presolver.  Rows and columns are lists of (index, value) pairs
(the storage layer `Verif.Model.Mat` shows how those lists sit in memory); everything
else is a function of the row or column number.
-/

namespace Verif

/-- Replace the value of a function at one index: `arr[i] = v`. -/
def upd {α : Type} (f : ℕ → α) (i : ℕ) (v : α) : ℕ → α := fun k => if k = i then v else f k

@[simp] theorem upd_same {α : Type} (f : ℕ → α) (i : ℕ) (v : α) : upd f i v i = v := by
  simp [upd]
@[simp] theorem upd_ne {α : Type} (f : ℕ → α) {i k : ℕ} (v : α) (h : k ≠ i) :
    upd f i v k = f k := by simp [upd, h]
theorem upd_apply {α : Type} (f : ℕ → α) (i k : ℕ) (v : α) :
    upd f i v k = if k = i then v else f k := rfl

/-- Row tag: `/repo/include/core/Tags.h:28-36`, one Boolean per bit.  `R_TAG_INFEAS` is only
a return value of `check_activity` and is modelled there. -/
structure RTag where
  lhsInf : Bool := false
  rhsInf : Bool := false
  eq : Bool := false
  inactive : Bool := false
deriving DecidableEq, Repr

/-- Column tag: `/repo/include/core/Tags.h:38-50`.  The `HUGE` bits are never set by the
code and are left out. -/
structure CTag where
  lbInf : Bool := false
  ubInf : Bool := false
  fixed : Bool := false
  subst : Bool := false
deriving DecidableEq, Repr

/-- `HAS_TAG(tag, C_TAG_INACTIVE)`: the mask has two bits and `HAS_TAG` tests for any of
them (`/repo/include/core/Tags.h:49,57`). -/
def CTag.inactive (t : CTag) : Bool := t.fixed || t.subst

/-- `Status` of an activity, `/repo/include/core/Activity.h:35-41`. -/
inductive ActStatus where
  | notAdded | added | propagatedThisRound | propagateNextRound
deriving DecidableEq, Repr

/-- `Activity`, `/repo/include/core/Activity.h:43-62`. -/
structure Act where
  min : D := .fin 0
  max : D := .fin 0
  nInfMin : ℤ := 0
  nInfMax : ℤ := 0
  status : ActStatus := .notAdded
deriving DecidableEq, Repr

/-- A matrix entry as stored in a row: column index and value (in a column of the
transpose: row index and value). -/
abbrev Cell := ℕ × ℚ

/-- One record of the postsolve log, one constructor per `ReductionType`
(`/repo/include/core/Postsolver.h`, save functions `/repo/src/core/Postsolver.c:668-858`).
The flat encoding into `types/indices/vals/starts` is modelled and shown to round-trip in
`Verif.Model.Log`. -/
inductive Rec where
  /-- `FIXED_COL`: column, value, cost, column of `A` at that time. -/
  | fixedCol (col : ℕ) (val : D) (ck : ℚ) (cells : List Cell)
  /-- `FIXED_COL_INF`: to `+∞`?, column, finite other bound, (side, row)s of the column. -/
  | fixedColInf (pos : Bool) (col : ℕ) (bound : D) (rows : List (D × List Cell))
  /-- `SUB_COL`: column, row of `A`, side, row index, cost. -/
  | subCol (col : ℕ) (cells : List Cell) (rhs : D) (row : ℕ) (ck : ℚ)
  /-- `PARALLEL_COL`. -/
  | parallelCol (j k : ℕ) (tagj tagk : CTag) (lbj ubj lbk ubk : D) (ratio : ℚ)
  /-- `DELETED_ROW`: row, dual value. -/
  | deletedRow (row : ℕ) (val : ℚ)
  /-- `ADDED_ROW`. -/
  | addedRow (i j : ℕ) (ratio : ℚ)
  /-- `ADDED_ROWS`: row, column of `A` (rows, values), pivot. -/
  | addedRows (i : ℕ) (cells : List Cell) (aik : ℚ)
  /-- `LHS_CHANGE`: row, other row, row cells, new side, ratio. -/
  | lhsChange (i j : ℕ) (cells : List Cell) (side : D) (ratio : ℚ)
  /-- `RHS_CHANGE`. -/
  | rhsChange (i j : ℕ) (cells : List Cell) (side : D) (ratio : ℚ)
  /-- `EQ_TO_INEQ`. -/
  | eqToIneq (row : ℕ) (val : ℚ)
  /-- `BOUND_CHANGE_NO_ROW`: column, new bound, other bound, is the other bound the lower
  one. -/
  | boundChangeNoRow (j : ℕ) (implied other : D) (otherIsLower : Bool)
  /-- `BOUND_CHANGE_THE_ROW`: row, its cells, number of bound changes to replay. -/
  | boundChangeTheRow (i : ℕ) (cells : List Cell) (num : ℕ)
deriving DecidableEq, Repr

/-- The presolver's mutable data: `Constraints`, `State`, `Objective`
(`/repo/include/core/Constraints.h:30-45`, `/repo/include/core/State.h`,
`/repo/include/core/Problem.h`).

Simplifications: matrices are lists of cells per row (`A`) and per column (`AT`); the
postsolve log is a list of records, newest first; `A->nnz` is an integer (so that an
underflow would be visible) and the copy in `AT->nnz` is left out; work arrays are local
variables.  `tick` counts queries to the environment (memory layout, sorting, clock).
`undef` is a ghost flag: it becomes true when the code would run into undefined behaviour
or read data outside a row.  `asrt` is a ghost flag: it becomes false when one of the
assertions of the code that the model tracks does not hold (assertions are disabled in
release builds, so execution continues).  `tiny` is a ghost flag: it becomes true when a
coefficient is dropped because it is within `ZERO_TOL` of zero although it is not zero
(`/repo/src/explorers/DtonsEq.c:322`, `/repo/src/core/Matrix.c:457`), or when columns are merged
that are parallel only up to the tolerances (`/repo/src/explorers/Parallel_cols.c:89`).  `near` is a
ghost flag: it becomes true when a column is fixed at a bound although its two bounds are only nearly
equal (`/repo/src/explorers/SimpleReductions.c:673-707`,
`/repo/src/explorers/Primal_propagation.c:60-182`), or when a column is fixed to an infinite value
(`/repo/src/core/CoreTransformation.c:70-141`). -/
structure St where
  m : ℕ
  n : ℕ
  A : ℕ → List Cell
  AT : ℕ → List Cell
  lhs : ℕ → D
  rhs : ℕ → D
  lb : ℕ → D
  ub : ℕ → D
  rtag : ℕ → RTag
  ctag : ℕ → CTag
  c : ℕ → ℚ
  off : D
  rowSize : ℕ → ℤ
  colSize : ℕ → ℤ
  up : ℕ → ℤ
  down : ℕ → ℤ
  act : ℕ → Act
  emptyRows : List ℕ
  stonRows : List ℕ
  dtonRows : List ℕ
  emptyCols : List ℕ
  stonCols : List ℕ
  rowsToDelete : List ℕ
  fixedCols : List ℕ
  subCols : List ℕ
  updActs : List ℕ
  nnz : ℤ
  log : List Rec
  tick : ℕ
  undef : Bool
  asrt : Bool
  tiny : Bool := false
  near : Bool := false

namespace St

/-- Append one record to the postsolve log (`save_retrieval_*`,
`/repo/src/core/Postsolver.c:668-858`). -/
def save (s : St) (r : Rec) : St := { s with log := r :: s.log }

/-- Record that an `assert` of the code evaluated to `b`. -/
def check (s : St) (b : Bool) : St := { s with asrt := s.asrt && b }

/-- Record that a column is fixed because of a tolerance if `b`. -/
def fuzz (s : St) (b : Bool) : St := { s with near := s.near || b }

/-- Record undefined behaviour if `b`. -/
def flag (s : St) (b : Bool) : St := { s with undef := s.undef || b }

/-- `C_TAG_INACTIVE` test on a column. -/
def colInactive (s : St) (k : ℕ) : Bool := (s.ctag k).inactive

end St

/-- `PresolveStatus`, `/repo/include/PSLP/PSLP_status.h:10-18`. -/
abbrev Status := ℕ
/-- `/repo/include/PSLP/PSLP_status.h:14` -/
def UNCHANGED : Status := 0
/-- `/repo/include/PSLP/PSLP_status.h:15` -/
def REDUCED : Status := 1
/-- `/repo/include/PSLP/PSLP_status.h:16` -/
def INFEASIBLE : Status := 2
/-- `INFEASIBLE | (1 << 2)`, `/repo/include/PSLP/PSLP_status.h:17` -/
def UNBNDORINFEAS : Status := 6
/-- `HAS_STATUS`, `/repo/include/core/Tags.h:59`. -/
def hasStatus (s mask : Status) : Bool := decide (s &&& mask ≠ 0)

/-- `IS_HUGE(x)`, `/repo/include/core/Numerics.h:52`. -/
def isHuge (x : D) : Bool := D.le (.fin HUGE_VAL_PS) (D.abs x)

/-- `IS_INTEGRAL(x)`: `x == (int) x`, `/repo/include/core/Numerics.h:46`.  Simplification:
the conversion of values outside the range of `int` is undefined in C; here it is the
mathematical test. -/
def isIntegral : D → Bool
  | .fin q => decide (q.den = 1)
  | _ => false

/-- `get_max_abs`, `/repo/src/core/utils.c:83-92`. -/
def getMaxAbs (cells : List Cell) : ℚ := cells.foldl (fun mx p => if |p.2| < mx then mx else |p.2|) 0

end Verif
