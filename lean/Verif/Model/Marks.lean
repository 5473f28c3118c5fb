import Verif.Inv.Replay

/-!
# Which entries have been retrieved

The markers `COL_NOT_RETRIEVED` and `ROW_NOT_RETRIEVED` of `/repo/src/core/Postsolver.c` are the value
`INF`.  Here a marker is a flag of its own, and a retrieval step that runs into one of the assertions
on markers in that file fails (`none`).  The values are modelled in `Verif.Model.Postsolve`.
-/

namespace Verif

/-- Entries of the solution that have been retrieved. -/
structure Marks where
  x : ℕ → Bool
  y : ℕ → Bool
  z : ℕ → Bool

/-- `copy_reduced_sol_to_orginal`, `/repo/src/core/Postsolver.c:84-114`. -/
def marksCopy (cmap rmap : ℕ → Option ℕ) : Marks :=
  { x := fun k => (cmap k).isSome, y := fun i => (rmap i).isSome, z := fun k => (cmap k).isSome }

/-- Column `k` is retrieved; it must not have been retrieved before. -/
def Marks.col (a : Marks) (k : ℕ) (ok : Bool) : Option Marks :=
  if !a.x k && !a.z k && ok then some { a with x := upd a.x k true, z := upd a.z k true } else none

/-- Nothing new is retrieved. -/
def Marks.keep (a : Marks) (ok : Bool) : Option Marks := if ok then some a else none

/-- Assertions on markers of the retrieval steps:
`retrieve_fix_col` (`/repo/src/core/Postsolver.c:120-127`), `retrieve_sub_col` (137-156),
`retrieve_fix_col_inf` (173-174; entries that are not retrieved count as zero, 197),
`retrieve_parallel_col` (231-232), `retrieve_deleted_row` (317), `retrieve_added_row` (327-328),
`retrieve_added_rows` (338-344), `retrieve_lhs_change` (419-426), `retrieve_rhs_change` (449-456),
`retrieve_eq_to_ineq` (476).  The two assertions on the value of `y[j]` in lines 420 and 450 are left
out; these two steps need not define `y[j]` (430-433, 460-463) and are not counted as defining it. -/
def markRec (a : Marks) : Rec → Option Marks
  | .fixedCol k _ _ cells => a.col k (cells.all (fun p => a.y p.1))
  | .fixedColInf _ k _ _ => a.col k true
  | .subCol k cells _ i _ => a.col k (a.y i && cells.all (fun p => decide (p.1 = k) || a.x p.1))
  | .parallelCol j k _ _ _ _ _ _ _ => a.col k (a.x j && a.z j)
  | .deletedRow i _ => if a.y i then none else some { a with y := upd a.y i true }
  | .addedRow i j _ => a.keep (a.y i && a.y j)
  | .addedRows i cells _ => a.keep (a.y i && cells.all (fun p => decide (p.1 = i) || a.y p.1))
  | .lhsChange i _ cells _ _ => a.keep (a.y i && cells.all (fun p => a.x p.1))
  | .rhsChange i _ cells _ _ => a.keep (a.y i && cells.all (fun p => a.x p.1))
  | .eqToIneq i _ => a.keep (a.y i)
  | .boundChangeNoRow _ _ _ _ => none
  | .boundChangeTheRow _ _ _ => none

/-- Assertions on markers of `retrieve_bound_change`, `/repo/src/core/Postsolver.c:357-359` and
`382-392`; reduced costs that are not retrieved are skipped (404). -/
def markBound (a : Marks) (i : ℕ) (cells : List Cell) (j : ℕ) : Option Marks :=
  a.keep (a.x j && a.y i && a.z j && cells.any (fun p => decide (p.1 = j) && decide (p.2 ≠ 0)))

def markInterp : Interp Marks where
  record := markRec
  bound := fun a i cells j _ _ _ => markBound a i cells j

/-- The marks after `postsolver_run`, `/repo/src/core/Postsolver.c:512-664`. -/
def marksRun (s : St) : Option Marks :=
  markInterp.replay none s.log (marksCopy (idxMapOf s.colSize) (idxMapOf s.rowSize))

end Verif
