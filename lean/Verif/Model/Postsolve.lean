import Verif.Model.State

/-!
# Postsolve (`/repo/src/core/Postsolver.c`)

The records are replayed newest first.  Assertions are disabled in release builds and not
part of the model, except that reading something that is not a record of the right kind is
the outcome `none`.
-/

namespace Verif

/-- `Solution`, `/repo/include/PSLP/PSLP_sol.h`: primal values, row duals, reduced costs. -/
structure Sol where
  x : ℕ → D
  y : ℕ → D
  z : ℕ → D

/-- `copy_reduced_sol_to_orginal`, `/repo/src/core/Postsolver.c:84-114`; the maps are `none`
for `-1`.  `COL_NOT_RETRIEVED` and `ROW_NOT_RETRIEVED` are `INF`
(`/repo/include/core/Postsolver.h`). -/
def copyReduced (cmap rmap : ℕ → Option ℕ) (x y z : ℕ → D) : Sol :=
  { x := fun i => match cmap i with | none => .pinf | some k => x k
    z := fun i => match cmap i with | none => .pinf | some k => z k
    y := fun i => match rmap i with | none => .pinf | some k => y k }

/-- `retrieve_fix_col`, `/repo/src/core/Postsolver.c:117-130`. -/
def retFixCol (σ : Sol) (col : ℕ) (val : D) (ck : ℚ) (cells : List Cell) : Sol :=
  { σ with x := upd σ.x col val
           z := upd σ.z col
             (cells.foldl (fun a p => D.sub a (D.smul p.2 (σ.y p.1))) (.fin ck)) }

/-- Coefficient of column `k` found while scanning a row (the last one, `d` if there is
none): lines 142-148 and 187-191. -/
def scanCoef (k : ℕ) (d : ℚ) (cells : List Cell) : ℚ :=
  cells.foldl (fun a p => if p.1 = k then p.2 else a) d

/-- `retrieve_sub_col`, `/repo/src/core/Postsolver.c:133-157`. -/
def retSubCol (σ : Sol) (k : ℕ) (cells : List Cell) (rhs : D) (i : ℕ) (ck : ℚ) : Sol :=
  let aik := scanCoef k 0 cells
  let num := cells.foldl (fun a p =>
    if p.1 = k then a else D.sub a (D.smul p.2 (σ.x p.1))) rhs
  { σ with z := upd σ.z k (D.sub (.fin ck) (D.smul aik (σ.y i)))
           x := upd σ.x k (D.divq num aik) }

/-- Loop over the rows of a column fixed at infinity, `/repo/src/core/Postsolver.c:175-211`.
`coeff` keeps its value from one row to the next, values not yet retrieved count as zero. -/
def fixInfLoop (pos : Bool) (col : ℕ) (x : ℕ → D) : List (D × List Cell) → ℚ → D → D
  | [], _, ext => ext
  | (side, cells) :: rest, coeff, ext =>
    let coeff := scanCoef col coeff cells
    let r := cells.foldl (fun a p =>
      if p.1 = col then a
      else if D.eqb (x p.1) .pinf then a
      else D.sub a (D.smul p.2 (x p.1))) side
    let v := D.divq r coeff
    fixInfLoop pos col x rest coeff (if pos then D.max ext v else D.min ext v)

/-- `retrieve_fix_col_inf`, `/repo/src/core/Postsolver.c:159-216`. -/
def retFixColInf (σ : Sol) (pos : Bool) (col : ℕ) (bound : D) (rows : List (D × List Cell)) :
    Sol :=
  { σ with x := upd σ.x col (fixInfLoop pos col σ.x rows 0 bound)
           z := upd σ.z col (.fin 0) }

/-- First try for `x_j` in `retrieve_parallel_col:243-254`. -/
def parTry (tj : CTag) (lbj ubj : D) : D :=
  if !tj.lbInf then lbj else if !tj.ubInf then ubj else .fin 0

/-- Split of the merged value in `retrieve_parallel_col:259-273`: `(x_j, x_k)`. -/
def parSplit (xnew : D) (tj tk : CTag) (lbj ubj lbk ubk : D) (ratio : ℚ) : D × D :=
  let xj := parTry tj lbj ubj
  let xk := D.divq (D.sub xnew xj) ratio
  if !tk.lbInf && D.le (D.add xk (.fin FEAS_TOL)) lbk then
    (D.sub xnew (D.smul ratio lbk), lbk)
  else if !tk.ubInf && D.le (D.add ubk (.fin FEAS_TOL)) xk then
    (D.sub xnew (D.smul ratio ubk), ubk)
  else (xj, xk)

/-- A value is at one of its finite bounds, `retrieve_parallel_col:279-284`. -/
def atBound (v : D) (t : CTag) (lb ub : D) : Bool :=
  (!t.lbInf && isEqualFeasTol v lb) || (!t.ubInf && isEqualFeasTol v ub)

/-- `retrieve_parallel_col`, `/repo/src/core/Postsolver.c:218-313`. -/
def retParallelCol (σ : Sol) (j k : ℕ) (tj tk : CTag) (lbj ubj lbk ubk : D) (ratio : ℚ) : Sol :=
  let v := parSplit (σ.x j) tj tk lbj ubj lbk ubk ratio
  { σ with x := upd (upd σ.x j v.1) k v.2
           z := upd σ.z k
             (if atBound v.1 tj lbj ubj && atBound v.2 tk lbk ubk then D.smul ratio (σ.z j)
              else .fin 0) }

/-- `retrieve_deleted_row`, `/repo/src/core/Postsolver.c:315-319`. -/
def retDeletedRow (σ : Sol) (row : ℕ) (val : ℚ) : Sol := { σ with y := upd σ.y row (.fin val) }

/-- `retrieve_added_row`, `/repo/src/core/Postsolver.c:323-333`. -/
def retAddedRow (σ : Sol) (i j : ℕ) (ratio : ℚ) : Sol :=
  { σ with y := upd σ.y i (D.add (σ.y i) (D.smul ratio (σ.y j))) }

/-- `retrieve_added_rows`, `/repo/src/core/Postsolver.c:335-348`. -/
def retAddedRows (σ : Sol) (i : ℕ) (cells : List Cell) (aik : ℚ) : Sol :=
  { σ with y := upd σ.y i (cells.foldl (fun a p =>
      if p.1 = i then a else D.sub a (D.smul (p.2 / aik) (σ.y p.1))) (σ.y i)) }

/-- Search of the coefficient in `retrieve_bound_change:382-391` (`1.0` if absent). -/
def findCoef (j : ℕ) (cells : List Cell) : ℚ :=
  match cells.find? (fun p => decide (p.1 = j)) with
  | some p => p.2
  | none => 1

/-- `retrieve_bound_change`, `/repo/src/core/Postsolver.c:350-414`. -/
def retBoundChange (σ : Sol) (i : ℕ) (cells : List Cell) (j : ℕ) (implied other : D)
    (otherIsLower : Bool) : Sol :=
  if isEqualFeasTol (σ.x j) other &&
      ((otherIsLower && D.le (.fin 0) (σ.z j)) || (!otherIsLower && D.le (σ.z j) (.fin 0))) then σ
  else if !isEqualFeasTol (σ.x j) implied then σ
  else
    let aij := findCoef j cells
    { σ with y := upd σ.y i (D.add (σ.y i) (D.divq (σ.z j) aij))
             z := upd (cells.foldl (fun z p =>
                 if p.1 = j then z
                 else if D.eqb (z p.1) .pinf then z
                 else upd z p.1 (D.sub (z p.1) (D.smul (p.2 / aij) (σ.z j)))) σ.z) j (.fin 0) }

/-- Residual of a row, `retrieve_lhs_change:423-428`. -/
def residual (σ : Sol) (cells : List Cell) (side : D) : D :=
  cells.foldl (fun a p => D.add a (D.smul p.2 (σ.x p.1))) (D.neg side)

/-- `retrieve_lhs_change`, `/repo/src/core/Postsolver.c:416-444`. -/
def retLhsChange (σ : Sol) (i j : ℕ) (cells : List Cell) (side : D) (ratio : ℚ) : Sol :=
  if !isZeroFeasTol (residual σ cells side) then σ
  else
    let cand := D.smul ratio (σ.y i)
    if D.lt (D.smul ratio cand) (.fin 0) then { σ with y := upd σ.y j (.fin 0) }
    else { σ with y := upd (upd σ.y j cand) i (.fin 0) }

/-- `retrieve_rhs_change`, `/repo/src/core/Postsolver.c:446-474`. -/
def retRhsChange (σ : Sol) (i j : ℕ) (cells : List Cell) (side : D) (ratio : ℚ) : Sol :=
  if !isZeroFeasTol (residual σ cells side) then σ
  else
    let cand := D.smul ratio (σ.y i)
    if D.lt (.fin 0) (D.smul ratio cand) then { σ with y := upd σ.y j (.fin 0) }
    else { σ with y := upd (upd σ.y j cand) i (.fin 0) }

/-- `retrieve_eq_to_ineq`, `/repo/src/core/Postsolver.c:476-480`. -/
def retEqToIneq (σ : Sol) (row : ℕ) (val : ℚ) : Sol :=
  { σ with y := upd σ.y row (D.add (σ.y row) (.fin val)) }

/-- What the replay loop is in the middle of: the records of one `BOUND_CHANGE_THE_ROW` (row,
its cells, number of bound changes still to process). -/
abbrev Group := ℕ × List Cell × ℕ

/-- The group after a bound change has been processed. -/
def Group.next (i : ℕ) (cells : List Cell) : ℕ → Option Group
  | 0 => none
  | k + 1 => some (i, cells, k + 1)

/-- One record outside a group, `/repo/src/core/Postsolver.c:530-655`. -/
def retRec (σ : Sol) : Rec → Sol
  | .fixedCol col val ck cells => retFixCol σ col val ck cells
  | .fixedColInf pos col bound rows => retFixColInf σ pos col bound rows
  | .subCol col cells rhs row ck => retSubCol σ col cells rhs row ck
  | .parallelCol j k tj tk lbj ubj lbk ubk ratio => retParallelCol σ j k tj tk lbj ubj lbk ubk ratio
  | .deletedRow row val => retDeletedRow σ row val
  | .addedRow i j ratio => retAddedRow σ i j ratio
  | .addedRows i cells aik => retAddedRows σ i cells aik
  | .lhsChange i j cells side ratio => retLhsChange σ i j cells side ratio
  | .rhsChange i j cells side ratio => retRhsChange σ i j cells side ratio
  | .eqToIneq row val => retEqToIneq σ row val
  | .boundChangeNoRow _ _ _ _ => σ
  | .boundChangeTheRow _ _ _ => σ

/-- The loop of `postsolver_run`, `/repo/src/core/Postsolver.c:527-656`, on the list of records
newest first.  Inside a group (582-621) only fixed columns and bound changes are expected;
anything else, or the end of the log, is undefined behaviour (`none`). -/
def replay : Option Group → List Rec → Sol → Option Sol
  | none, [], σ => some σ
  | some _, [], _ => none
  | none, .boundChangeTheRow i cells num :: rest, σ =>
    replay (Group.next i cells num) rest σ
  | none, r :: rest, σ => replay none rest (retRec σ r)
  | some g, .fixedCol col val ck cells :: rest, σ =>
    replay (some g) rest (retFixCol σ col val ck cells)
  | some (i, cells, k), .boundChangeNoRow j implied other lower :: rest, σ =>
    replay (Group.next i cells (k - 1)) rest (retBoundChange σ i cells j implied other lower)
  | some _, _ :: _, _ => none

/-- `postsolver_run`, `/repo/src/core/Postsolver.c:513-664`. -/
def postsolverRun (log : List Rec) (cmap rmap : ℕ → Option ℕ) (x y z : ℕ → D) : Option Sol :=
  replay none log (copyReduced cmap rmap x y z)

end Verif
