import Verif.Model.Dton

/-!
# Parallel rows (`/repo/src/explorers/Parallel_rows.c`)

`find_parallel_rows` is shared with the parallel columns; it gets the matrix as a function
from rows to cells.
-/

namespace Verif

/-- The sort key of a row, `compute_supp_and_coeff_hash`,
`/repo/src/explorers/Parallel_rows.c:85-112`.  Inactive rows get `INT_MAX` and keep an old
coefficient hash. -/
def rowKey (env : Env) (tick : ℕ) (M : ℕ → List Cell) (inactive : ℕ → Bool) (i : ℕ) : ℤ × ℤ :=
  if inactive i then (2147483647, env.staleHash tick i)
  else (env.hashSupp ((M i).map Prod.fst), env.hashCoef ((M i).map Prod.snd))

/-- The comparison loop of `find_parallel_rows_in_bin`,
`/repo/src/explorers/Parallel_rows.c:263-289`: same length, same support, coefficients equal
up to the factor given by the first ones. -/
def isParallel (r1 r2 : List Cell) : Bool :=
  match r1, r2 with
  | p1 :: _, p2 :: _ =>
    decide (r1.length = r2.length) &&
    (r1.zip r2).all (fun pq =>
      decide (|pq.1.2 - p1.2 / p2.2 * pq.2.2| ≤ FEAS_TOL) && decide (pq.1.1 = pq.2.1))
  | [], [] => true
  | _, _ => false

/-- The group found in a bin, `find_parallel_rows_in_bin`,
`/repo/src/explorers/Parallel_rows.c:247-304`: the rows parallel to the first one, then the
first one. -/
def binGroup (M : ℕ → List Cell) (first : ℕ) (rest : List ℕ) : List (List ℕ) :=
  let par := rest.filter (fun i => isParallel (M first) (M i))
  if par = [] then [] else [par ++ [first]]

/-- The loop over the sorted rows, `/repo/src/explorers/Parallel_rows.c:343-365`: stop at the
first inactive row, take the rows with the same key as one bin. -/
def findGroups (key : ℕ → ℤ × ℤ) (inactive : ℕ → Bool) (M : ℕ → List Cell) :
    List ℕ → List (List ℕ)
  | [] => []
  | r :: rest =>
    if inactive r then []
    else
      binGroup M r (rest.takeWhile (fun i => decide (key i = key r))) ++
        findGroups key inactive M (rest.dropWhile (fun i => decide (key i = key r)))
termination_by l => l.length
decreasing_by
  have := (List.dropWhile_suffix (l := rest) (fun i => decide (key i = key r))).length_le
  simp only [List.length_cons]; omega

/-- `find_parallel_rows`, `/repo/src/explorers/Parallel_rows.c:307-368`. -/
def findParallel (env : Env) (tick : ℕ) (M : ℕ → List Cell) (inactive : ℕ → Bool) (n : ℕ) :
    List (List ℕ) :=
  let key := rowKey env tick M inactive
  findGroups key inactive M (env.sort tick key (List.range n))

/-- First coefficient of a row, `A->x[A->p[i].start]` (`0` for a row without cells, which
would be a stale read). -/
def firstCoef (cells : List Cell) : ℚ :=
  match cells with
  | [] => 0
  | p :: _ => p.2

/-- Local variables of `process_single_bin` about the remaining row,
`/repo/src/explorers/Parallel_rows.c:379-402`. -/
structure ParRow where
  rem : ℕ
  isEq : Bool
  rhsInf : Bool
  lhsInf : Bool
  newRhs : D
  newLhs : D
  lhsIdx : ℕ := 0
  lhsRatio : ℚ := 1
  rhsIdx : ℕ := 0
  rhsRatio : ℚ := 1

/-- Start of `process_single_bin`, lines 393-402. -/
def parRowInit (s : St) (r : ℕ) : ParRow :=
  { rem := r, isEq := (s.rtag r).eq, rhsInf := (s.rtag r).rhsInf, lhsInf := (s.rtag r).lhsInf
    newRhs := s.rhs r, newLhs := s.lhs r }

/-- The swap of lines 409-422: an equality takes over from an inequality.  The sides collected
so far are forgotten and the flags `is_rhs_inf_remaining_row`, `is_lhs_inf_remaining_row` are
not refreshed, as in the code. -/
def parSwap (s : St) (p : ParRow) (other : ℕ) : ParRow × ℕ :=
  if !p.isEq && (s.rtag other).eq then
    ({ p with rem := other, isEq := true, newRhs := s.rhs other, newLhs := s.lhs other }, p.rem)
  else (p, other)

/-- Tightest sides of two inequalities, lines 472-523; `ratio` scales the other row to the
remaining one. -/
def parTighten (s : St) (p : ParRow) (other : ℕ) (ratio : ℚ) : ParRow :=
  let t := s.rtag other
  let r := D.smul ratio (s.rhs other)
  let l := D.smul ratio (s.lhs other)
  if 0 < ratio then
    let p := if !t.rhsInf && (p.rhsInf || D.lt r p.newRhs) then
        { p with rhsIdx := other, rhsRatio := ratio, newRhs := r, rhsInf := false } else p
    if !t.lhsInf && (p.lhsInf || D.lt p.newLhs l) then
      { p with lhsIdx := other, lhsRatio := ratio, newLhs := l, lhsInf := false } else p
  else
    let p := if !t.rhsInf && (p.lhsInf || D.lt p.newLhs r) then
        { p with lhsIdx := other, lhsRatio := ratio, newLhs := r, lhsInf := false } else p
    if !t.lhsInf && (p.rhsInf || D.lt l p.newRhs) then
      { p with rhsIdx := other, rhsRatio := ratio, newRhs := l, rhsInf := false } else p

/-- Infeasibility test equality against inequality, lines 448-463. -/
def parInfeas (s : St) (p : ParRow) (other : ℕ) (ratio : ℚ) : Bool :=
  let t := s.rtag other
  let r := D.smul ratio (s.rhs other)
  let l := D.smul ratio (s.lhs other)
  (!t.rhsInf && ((decide (0 < ratio) && D.lt r p.newRhs) ||
      (decide (ratio < 0) && D.lt p.newRhs r))) ||
  (!t.lhsInf && ((decide (0 < ratio) && D.lt p.newRhs l) ||
      (decide (ratio < 0) && D.lt l p.newRhs)))

/-- Body of the loop of `process_single_bin`, lines 404-524; `none` means `INFEASIBLE`. -/
def parRowStep (s : St) (p : ParRow) (i : ℕ) : Option ParRow :=
  let (p, other) := parSwap s p i
  let ratio := firstCoef (s.A p.rem) / firstCoef (s.A other)
  if p.isEq && (s.rtag other).eq then
    if isEqualFeasTol p.newRhs (D.smul ratio (s.rhs other)) then some p else none
  else if p.isEq then
    if parInfeas s p other ratio then none else some p
  else some (parTighten s p other ratio)

/-- Loop of `process_single_bin`. -/
def parRowLoop (s : St) : List ℕ → ParRow → Option ParRow
  | [], p => some p
  | i :: rest, p =>
    match parRowStep s p i with
    | none => none
    | some p => parRowLoop s rest p

/-- Lines 531-573: change the sides of a remaining inequality. -/
def parApply (s : St) (p : ParRow) : St × Status :=
  if p.isEq then (s, UNCHANGED)
  else
    let r := if !p.rhsInf && !D.eqb p.newRhs (s.rhs p.rem) then
      changeRhs s p.rem p.newRhs p.rhsIdx p.rhsRatio else (s, UNCHANGED)
    if r.2 = INFEASIBLE then r
    else if !p.lhsInf && !D.eqb p.newLhs (r.1.lhs p.rem) then
      changeLhs r.1 p.rem p.newLhs p.lhsIdx p.lhsRatio
    else (r.1, UNCHANGED)

/-- `process_single_bin`, `/repo/src/explorers/Parallel_rows.c:370-577`. -/
def parRowsBin (s : St) (bin : List ℕ) : St × Status :=
  match bin with
  | [] => (s, UNCHANGED)
  | r :: rest =>
    let s := s.flag (bin.any (fun i => decide (s.A i = [])))
    match parRowLoop s rest (parRowInit s r) with
    | none => (s, INFEASIBLE)
    | some p =>
      let q := parApply s p
      if q.2 = INFEASIBLE then (q.1, INFEASIBLE)
      else (bin.foldl (fun s i => if i = p.rem then s else setRowToInactive s i 0) q.1, UNCHANGED)

/-- `process_all_bins`, `/repo/src/explorers/Parallel_rows.c:581-598`. -/
def parRowsBins : List (List ℕ) → St → St × Status
  | [], s => (s, UNCHANGED)
  | bin :: rest, s =>
    let r := parRowsBin s bin
    if r.2 = INFEASIBLE then r else parRowsBins rest r.1

/-- `remove_parallel_rows`, `/repo/src/explorers/Parallel_rows.c:600-623`. -/
def removeParallelRows (env : Env) (s : St) : St × Status :=
  let s := ((s.check (decide (s.stonRows = []))).check (decide (s.emptyRows = []))).check
    (decide (s.emptyCols = []))
  let groups := findParallel env s.tick s.A (fun i => (s.rtag i).inactive) s.m
  let r := parRowsBins groups { s with tick := s.tick + 1 }
  (deleteInactiveRows r.1, r.2)

end Verif
