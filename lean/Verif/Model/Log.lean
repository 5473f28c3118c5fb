import Verif.Model.Postsolve

/-!
# The flat postsolve log (`/repo/src/core/Postsolver.c`)

The four vectors of `PostsolveInfo`: one type per record, the values and indices of all records one
after the other, and the start of each record.  A pointer `indices + start` is the list without its
first `start` elements; reading behind the end of an array, or a record of unknown type, is the
outcome `none`.  Simplified: entries of `vals` that the code uses as integers (`(int) vals[0]`) or
that the model keeps as rationals must be finite.
-/

namespace Verif

/-- `PostsolveInfo`, `/repo/include/core/Postsolver.h:54-77` (without the maps). -/
structure FlatLog where
  types : List ℕ
  starts : List ℕ
  idx : List ℤ
  vals : List D

/-- `postsolve_info_new`, `/repo/src/core/Postsolver.c:38-68`: empty vectors, `starts = [0]`. -/
def FlatLog.new : FlatLog := ⟨[], [0], [], []⟩

/-- The three appends and the new start every save function ends with, e.g.
`/repo/src/core/Postsolver.c:671-678`. -/
def FlatLog.push (L : FlatLog) (type : ℕ) (idx : List ℤ) (vals : List D) : FlatLog :=
  { types := L.types ++ [type]
    idx := L.idx ++ idx
    vals := L.vals ++ vals
    starts := L.starts ++ [(L.idx ++ idx).length] }

/-- `DUMMY_VALUE`, `/repo/src/core/Postsolver.c:36`. -/
def DUMMY : ℤ := -382749

/-- Bits of a column tag, `/repo/include/core/Tags.h:39-52`. -/
def tagBits (t : CTag) : ℤ :=
  (if t.lbInf then 1 else 0) + (if t.ubInf then 4 else 0) + (if t.fixed then 16 else 0) +
    (if t.subst then 32 else 0)

/-- Reading the tag back: `HAS_TAG`. -/
def tagOfBits (b : ℤ) : CTag :=
  { lbInf := decide (b % 2 = 1), ubInf := decide (b / 4 % 2 = 1)
    fixed := decide (b / 16 % 2 = 1), subst := decide (b / 32 % 2 = 1) }

/-- Indices of cells. -/
def cellIdx (l : List Cell) : List ℤ := l.map (fun p => (p.1 : ℤ))
/-- Values of cells. -/
def cellVal (l : List Cell) : List D := l.map (fun p => D.fin p.2)

/-- The save functions, `/repo/src/core/Postsolver.c:668-858`. -/
def FlatLog.save (L : FlatLog) : Rec → FlatLog
  | .fixedCol col val ck cells =>
    L.push 0 ((col : ℤ) :: DUMMY :: cellIdx cells) (val :: .fin ck :: cellVal cells)
  | .fixedColInf pos col bound rows =>
    L.push 1 ((if pos then 1 else -1) :: (col : ℤ) ::
        rows.flatMap (fun r => (r.2.length : ℤ) :: cellIdx r.2))
      (.fin rows.length :: bound :: rows.flatMap (fun r => r.1 :: cellVal r.2))
  | .subCol col cells rhs row ck =>
    L.push 2 ((col : ℤ) :: (cellIdx cells ++ [(row : ℤ)])) (rhs :: (cellVal cells ++ [.fin ck]))
  | .parallelCol j k tj tk lbj ubj lbk ubk ratio =>
    L.push 4 [(j : ℤ), (k : ℤ), tagBits tj, tagBits tk, DUMMY] [lbj, ubj, lbk, ubk, .fin ratio]
  | .deletedRow row val => L.push 8 [(row : ℤ)] [.fin val]
  | .addedRow i j ratio => L.push 16 [(i : ℤ), (j : ℤ)] [.fin ratio, .fin DUMMY]
  | .addedRows i cells aik => L.push 32 ((i : ℤ) :: cellIdx cells) (.fin aik :: cellVal cells)
  | .lhsChange i j cells side ratio =>
    L.push 64 ((i : ℤ) :: (j : ℤ) :: cellIdx cells) (side :: .fin ratio :: cellVal cells)
  | .rhsChange i j cells side ratio =>
    L.push 128 ((i : ℤ) :: (j : ℤ) :: cellIdx cells) (side :: .fin ratio :: cellVal cells)
  | .eqToIneq row val => L.push 256 [(row : ℤ)] [.fin val]
  | .boundChangeNoRow j implied other lower =>
    L.push 512 [(j : ℤ), if lower then 1 else 0] [implied, other]
  | .boundChangeTheRow i cells num =>
    L.push 1024 ((i : ℤ) :: cellIdx cells) (.fin num :: cellVal cells)

/-- A nonnegative index. -/
def natOf (z : ℤ) : Option ℕ := if 0 ≤ z then some z.toNat else none
/-- A finite value. -/
def ratOf : D → Option ℚ
  | .fin q => some q
  | _ => none
/-- `(int) vals[..]` for a value that was stored as a count. -/
def countOf : D → Option ℕ
  | .fin q => if 0 ≤ q then some q.floor.toNat else none
  | _ => none

/-- `len` cells read from an index pointer and a value pointer. -/
def readCells : ℕ → List ℤ → List D → Option (List Cell)
  | 0, _, _ => some []
  | n + 1, i :: I, v :: V => do
    let i ← natOf i
    let v ← ratOf v
    let l ← readCells n I V
    some ((i, v) :: l)
  | _ + 1, _, _ => none

/-- The rows of a `FIXED_COL_INF` record, the running offset `counter` of
`/repo/src/core/Postsolver.c:174-182`. -/
def readRows : ℕ → List ℤ → List D → Option (List (D × List Cell))
  | 0, _, _ => some []
  | n + 1, len :: I, side :: V => do
    let len ← natOf len
    let cells ← readCells len I V
    let rest ← readRows n (I.drop len) (V.drop len)
    some ((side, cells) :: rest)
  | _ + 1, _, _ => none

/-- What `postsolver_run` reads for one record of the given type and size,
`/repo/src/core/Postsolver.c:529-655` and the heads of the retrieve functions. -/
def readRec (type size : ℕ) (I : List ℤ) (V : List D) : Option Rec :=
  match type, I, V with
  | 0, col :: _ :: I, val :: ck :: V => do
    let cells ← readCells (size - 2) I V
    some (.fixedCol (← natOf col) val (← ratOf ck) cells)
  | 1, pos :: col :: I, n :: bound :: V => do
    let rows ← readRows (← countOf n) I V
    some (.fixedColInf (decide (0 < pos)) (← natOf col) bound rows)
  | 2, col :: I, rhs :: V => do
    let cells ← readCells (size - 2) I V
    some (.subCol (← natOf col) cells rhs (← (← I[size - 2]?) |> natOf) (← (← V[size - 2]?) |> ratOf))
  | 4, j :: k :: tj :: tk :: _, lbj :: ubj :: lbk :: ubk :: ratio :: _ => do
    some (.parallelCol (← natOf j) (← natOf k) (tagOfBits tj) (tagOfBits tk) lbj ubj lbk ubk (← ratOf ratio))
  | 8, row :: _, val :: _ => do some (.deletedRow (← natOf row) (← ratOf val))
  | 16, i :: j :: _, ratio :: _ => do some (.addedRow (← natOf i) (← natOf j) (← ratOf ratio))
  | 32, i :: I, aik :: V => do
    let cells ← readCells (size - 1) I V
    some (.addedRows (← natOf i) cells (← ratOf aik))
  | 64, i :: j :: I, side :: ratio :: V => do
    let cells ← readCells (size - 2) I V
    some (.lhsChange (← natOf i) (← natOf j) cells side (← ratOf ratio))
  | 128, i :: j :: I, side :: ratio :: V => do
    let cells ← readCells (size - 2) I V
    some (.rhsChange (← natOf i) (← natOf j) cells side (← ratOf ratio))
  | 256, row :: _, val :: _ => do some (.eqToIneq (← natOf row) (← ratOf val))
  | 512, j :: lower :: _, implied :: other :: _ => do
    some (.boundChangeNoRow (← natOf j) implied other (decide (lower ≠ 0)))
  | 1024, i :: I, num :: V => do
    let cells ← readCells (size - 1) I V
    some (.boundChangeTheRow (← natOf i) cells (← countOf num))
  | _, _, _ => none

/-- Record `i` of the log: `type = reductions[i]`, `start = starts[i]`, size
`starts[i + 1] - start`. -/
def FlatLog.read (L : FlatLog) (i : ℕ) : Option Rec := do
  let type ← L.types[i]?
  let start ← L.starts[i]?
  let stop ← L.starts[i + 1]?
  readRec type (stop - start) (L.idx.drop start) (L.vals.drop start)

/-- The loop of `postsolver_run` on the flat log, `/repo/src/core/Postsolver.c:527-656`: `i` counts the
records still to be replayed. -/
def FlatLog.replay (L : FlatLog) : Option Group → ℕ → Sol → Option Sol
  | none, 0, σ => some σ
  | some _, 0, _ => none
  | g, i + 1, σ =>
    match g, L.read i with
    | none, some (.boundChangeTheRow r cells num) => L.replay (Group.next r cells num) i σ
    | none, some r => L.replay none i (retRec σ r)
    | some g, some (.fixedCol col val ck cells) => L.replay (some g) i (retFixCol σ col val ck cells)
    | some (r, cells, k), some (.boundChangeNoRow j implied other lower) =>
      L.replay (Group.next r cells (k - 1)) i (retBoundChange σ r cells j implied other lower)
    | _, _ => none

end Verif
