import Verif.Model.DtonRound
import Verif.Model.Driver

/-!
# The trivial explorers in the arrays (`/repo/src/core/Presolver.c:422-458`)

Bounds, sides, tags and activities are changed on the rows and columns that the arrays hold; what is modelled here is
how the arrays themselves are changed.
-/

namespace Verif

/-- `remove_variables_with_close_bounds`, `/repo/src/explorers/SimpleReductions.c:673-707`. -/
def Arrays.closeBounds (M : Arrays) : Option (Arrays × Status) :=
  let r := closeBoundsLoop (List.range M.s.n) M.rows
  if r.2 = INFEASIBLE then some (⟨r.1, M.A, M.AT⟩, r.2)
  else (Arrays.deleteInactiveCols ⟨deleteFixedCols r.1, M.A, M.AT⟩).map (fun N => (N, UNCHANGED))

/-- First loop of `remove_ston_rows`, `/repo/src/explorers/SimpleReductions.c:235-252`: the range of a row whose column
has been fixed is emptied (`:157-165`). -/
def Arrays.stonEqLoop : List ℕ → Arrays → Arrays × Status
  | [], M => (M, UNCHANGED)
  | row :: rest, M =>
    if !(M.s.rtag row).eq || (M.s.rtag row).inactive then Arrays.stonEqLoop rest M
    else
      let r := removeStonRow M.rows row
      if r.2 = INFEASIBLE then (⟨r.1, M.A, M.AT⟩, INFEASIBLE)
      else if r.2 = REDUCED then Arrays.stonEqLoop rest ⟨r.1, M.A.setRange row (M.A.ps row) (M.A.ps row), M.AT⟩
      else Arrays.stonEqLoop rest ⟨r.1, M.A, M.AT⟩

/-- `remove_ston_rows`, `/repo/src/explorers/SimpleReductions.c:219-291`. -/
def Arrays.removeStonRows (M : Arrays) : Option (Arrays × Status) :=
  if M.s.stonRows = [] then some (M, UNCHANGED)
  else
    let r := Arrays.stonEqLoop M.s.stonRows M
    if r.2 = INFEASIBLE then some r
    else
      let q := stonIneqLoop M.s.stonRows r.1.rows
      if q.2 = INFEASIBLE then some (⟨q.1, r.1.A, r.1.AT⟩, q.2)
      else
        (Arrays.deleteInactiveRows ⟨{ q.1 with stonRows := [] }, r.1.A, r.1.AT⟩).bind fun N =>
          (Arrays.deleteInactiveCols ⟨deleteFixedCols N.rows, N.A, N.AT⟩).map (fun N => (N, REDUCED))

/-- The do-while loop of `run_trivial_explorers:442-446`, with a bound on the number of rounds. -/
def Arrays.stonRowsLoop : ℕ → Arrays → Option (Arrays × Status)
  | 0, _ => none
  | fuel + 1, M =>
    (Arrays.removeStonRows M).bind fun r =>
      if r.2 = INFEASIBLE then some r
      else if r.2 = REDUCED then Arrays.stonRowsLoop fuel r.1 else some r

/-- `fix_col_to_negative_inf` and `fix_col_to_positive_inf`, `/repo/src/core/CoreTransformation.c:70-141`: the range of the
column is emptied. -/
def Arrays.fixInf (M : Arrays) (p : ℕ × Bool) : Arrays :=
  ⟨if p.2 then fixColPosInf M.rows p.1 else fixColNegInf M.rows p.1, M.A, M.AT.setRange p.1 (M.AT.ps p.1) (M.AT.ps p.1)⟩

/-- `simple_dual_fix`, `/repo/src/explorers/Simple_dual_fix.c:110-178`. -/
def Arrays.simpleDualFix (M : Arrays) : Option (Arrays × Status) :=
  let s := M.rows.check (decide (M.s.emptyCols = []))
  let r := (List.range M.s.n).foldl dualFixStep (s, [], UNCHANGED)
  (Arrays.deleteInactiveRows (r.2.1.foldl Arrays.fixInf ⟨r.1, M.A, M.AT⟩)).bind fun N =>
    (Arrays.deleteInactiveCols ⟨deleteFixedCols N.rows, N.A, N.AT⟩).map (fun N => (N, r.2.2))

/-- First part of `run_trivial_explorers`, `/repo/src/core/Presolver.c:424-440`.  `remove_empty_cols` and
`remove_empty_rows` do not touch the arrays. -/
def Arrays.trivialHead (stgs : Settings) (M : Arrays) : Option (Arrays × Status) :=
  (Arrays.closeBounds M).bind fun r =>
    if r.2 = INFEASIBLE then some r
    else if stgs.dualFix then
      let e := removeEmptyCols r.1.rows
      (Arrays.simpleDualFix ⟨e.1, r.1.A, r.1.AT⟩).map (fun d => (d.1, r.2 ||| e.2 ||| d.2))
    else some r

/-- `run_trivial_explorers`, `/repo/src/core/Presolver.c:422-458`. -/
def Arrays.runTrivial (stgs : Settings) (M : Arrays) : Option (Arrays × Status) :=
  (Arrays.trivialHead stgs M).bind fun r =>
    if r.2 = INFEASIBLE then some r
    else if stgs.dualFix ∧ r.2 = UNBNDORINFEAS then some r
    else
      (Arrays.stonRowsLoop (r.1.s.m + 2) r.1).bind fun r =>
        if r.2 = INFEASIBLE then some r
        else
          let e := removeEmptyRows r.1.rows
          if e.2 = INFEASIBLE then some (⟨e.1, r.1.A, r.1.AT⟩, e.2)
          else
            let f := removeEmptyCols e.1
            if f.2 = UNBNDORINFEAS then some (⟨f.1, r.1.A, r.1.AT⟩, f.2)
            else
              let s := ((f.1.check (decide (f.1.stonRows = []))).check
                (decide (f.1.emptyRows = []))).check (decide (f.1.emptyCols = []))
              some (⟨s, r.1.A, r.1.AT⟩, UNCHANGED)

end Verif
