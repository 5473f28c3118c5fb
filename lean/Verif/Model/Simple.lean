import Verif.Model.Delete

/-!
# Simple reductions (`/repo/src/explorers/SimpleReductions.c`,
`/repo/src/explorers/Simple_dual_fix.c`)
-/

namespace Verif

/-- Body of the inner loop of `delete_fixed_cols_from_problem`,
`/repo/src/explorers/SimpleReductions.c:77-117`: move the contribution of a fixed column
into the sides and activities of one row. -/
def shiftSides (v : D) (s : St) (p : Cell) : St :=
  if (s.rtag p.1).inactive then s
  else
    let d := D.smul p.2 v
    let lhs := if (s.rtag p.1).lhsInf then s.lhs else upd s.lhs p.1 (D.sub (s.lhs p.1) d)
    let rhs := if (s.rtag p.1).rhsInf then s.rhs else upd s.rhs p.1 (D.sub (s.rhs p.1) d)
    let a := s.act p.1
    let a := if a.nInfMax = 0 then { a with max := D.sub a.max d } else a
    let a := if a.nInfMin = 0 then { a with min := D.sub a.min d } else a
    { s with lhs := lhs, rhs := rhs, act := upd s.act p.1 a }

/-- Body of the outer loop of `delete_fixed_cols_from_problem`,
`/repo/src/explorers/SimpleReductions.c:49-121`. -/
def delFixedCol (s : St) (k : ℕ) : St :=
  let s := ((s.check (s.ctag k).fixed).check (!D.isInf (s.ub k))).check
    (D.eqb (s.lb k) (s.ub k))
  let v := s.ub k
  if D.eqb v (.fin 0) then s
  else fixVarInObj ((s.AT k).foldl (shiftSides v) s) k v

/-- `delete_fixed_cols_from_problem`, `/repo/src/explorers/SimpleReductions.c:33-122`.  The
assertion that no ranged row becomes an equality (114-117, marked "can it happen" in the
source) is not tracked. -/
def deleteFixedCols (s : St) : St := s.fixedCols.foldl delFixedCol s

/-- `remove_stonrow`, `/repo/src/explorers/SimpleReductions.c:124-217`.  Simplification: on a
row without cells the code reads the stale first cell of the row, whose column has been
fixed in the meantime, and returns `UNCHANGED`. -/
def removeStonRow (s : St) (row : ℕ) : St × Status :=
  match s.A row with
  | [] => (s, UNCHANGED)
  | (k, aik) :: _ =>
    let lhs := s.lhs row
    let rhs := s.rhs row
    let s := s.check (!(s.rtag row).inactive && !(s.ctag k).subst)
    if (s.ctag k).fixed then (s, UNCHANGED)
    else
      let s := s.check (!(s.ctag k).inactive)
      if (s.rtag row).eq then
        let s := s.check (D.eqb lhs rhs)
        let r := fixCol s k (D.divq rhs aik) (s.c k)
        if r.2 = INFEASIBLE then (r.1, INFEASIBLE)
        else
          let s := r.1
          let s := { s with rowSize := upd s.rowSize row (-1)
                            rtag := upd s.rtag row { inactive := true }
                            A := upd s.A row []
                            nnz := s.nnz - 1 }
          let s := s.save (.addedRows row (s.AT k) aik)
          (s.save (.deletedRow row (s.c k / aik)), REDUCED)
      else
        let rhsInf := (s.rtag row).rhsInf
        let lhsInf := (s.rtag row).lhsInf
        if 0 < aik then
          let r := if rhsInf then (s, UNCHANGED) else updateUb s k (D.divq rhs aik) row
          if r.2 = INFEASIBLE then (r.1, INFEASIBLE)
          else
            let r := if lhsInf then (r.1, UNCHANGED) else updateLb r.1 k (D.divq lhs aik) row
            if r.2 = INFEASIBLE then (r.1, INFEASIBLE)
            else (setRowToInactive r.1 row 0, REDUCED)
        else
          let r := if rhsInf then (s, UNCHANGED) else updateLb s k (D.divq rhs aik) row
          if r.2 = INFEASIBLE then (r.1, INFEASIBLE)
          else
            let r := if lhsInf then (r.1, UNCHANGED) else updateUb r.1 k (D.divq lhs aik) row
            if r.2 = INFEASIBLE then (r.1, INFEASIBLE)
            else (setRowToInactive r.1 row 0, REDUCED)

/-- First loop of `remove_ston_rows`, `/repo/src/explorers/SimpleReductions.c:235-252`
(equality rows).  Stops at the first `INFEASIBLE`. -/
def stonEqLoop : List ℕ → St → St × Status
  | [], s => (s, UNCHANGED)
  | row :: rest, s =>
    if !(s.rtag row).eq || (s.rtag row).inactive then stonEqLoop rest s
    else
      let r := removeStonRow s row
      if r.2 = INFEASIBLE then (r.1, INFEASIBLE) else stonEqLoop rest r.1

/-- Second loop of `remove_ston_rows`, `/repo/src/explorers/SimpleReductions.c:254-273`
(inequality rows). -/
def stonIneqLoop : List ℕ → St → St × Status
  | [], s => (s, UNCHANGED)
  | row :: rest, s =>
    if (s.rtag row).inactive || (s.rtag row).eq then stonIneqLoop rest s
    else
      let r := removeStonRow s row
      if r.2 = INFEASIBLE then (r.1, INFEASIBLE) else stonIneqLoop rest r.1

/-- `remove_ston_rows`, `/repo/src/explorers/SimpleReductions.c:219-291`. -/
def removeStonRows (s : St) : St × Status :=
  if s.stonRows = [] then (s, UNCHANGED)
  else
    let r := stonEqLoop s.stonRows s
    if r.2 = INFEASIBLE then r
    else
      let r := stonIneqLoop s.stonRows r.1
      if r.2 = INFEASIBLE then r
      else
        (deleteInactiveCols (deleteFixedCols (deleteInactiveRows { r.1 with stonRows := [] })),
          REDUCED)

/-- The return value of `check_activity` (`R_TAG_INFEAS`, `R_TAG_LHS_INF`,
`R_TAG_RHS_INF`). -/
structure ActTag where
  infeas : Bool := false
  lhsRed : Bool := false
  rhsRed : Bool := false
deriving DecidableEq, Repr

/-- `check_activity`, `/repo/src/explorers/SimpleReductions.c:296-345`. -/
def checkActivity (a : Act) (lhs rhs : D) (t : RTag) : ActTag :=
  if !t.rhsInf && decide (a.nInfMin = 0) && D.le (D.add rhs (.fin FEAS_TOL)) a.min then
    { infeas := true }
  else
    let rr := !t.rhsInf && decide (a.nInfMax = 0) && D.le a.max (D.add rhs (.fin FEAS_TOL))
    if !t.lhsInf && decide (a.nInfMax = 0) && D.le a.max (D.sub lhs (.fin FEAS_TOL)) then
      { infeas := true }
    else
      { lhsRed := !t.lhsInf && decide (a.nInfMin = 0) && D.le (D.sub lhs (.fin FEAS_TOL)) a.min
        rhsRed := rr }

/-- Body of the loop of `check_activities`, `/repo/src/explorers/SimpleReductions.c:372-457`
for one row; the Boolean says that the row is infeasible. -/
def checkActRow (s : St) (row : ℕ) : St × Bool :=
  if (s.rtag row).inactive || (s.rtag row).eq || decide (s.rowSize row ≤ 1) then (s, false)
  else
    let s := s.check (decide ((s.act row).nInfMin = 0 ∨ (s.act row).nInfMax = 0))
    let t := checkActivity (s.act row) (s.lhs row) (s.rhs row) (s.rtag row)
    if (t.lhsRed || (s.rtag row).lhsInf) && (t.rhsRed || (s.rtag row).rhsInf) then
      (setRowToInactive s row 0, false)
    else if t.lhsRed then
      let s := { s with rtag := upd s.rtag row { lhsInf := true } }
      let s := locksEqToIneq s (s.A row) true
      ({ s with lhs := upd s.lhs row .ninf }, false)
    else if t.rhsRed then
      let s := { s with rtag := upd s.rtag row { rhsInf := true } }
      let s := locksEqToIneq s (s.A row) false
      ({ s with rhs := upd s.rhs row .pinf }, false)
    else (s, t.infeas)

/-- Loop of `check_activities`. -/
def checkActLoop : List ℕ → St → St × Status
  | [], s => (s, UNCHANGED)
  | row :: rest, s =>
    let r := checkActRow s row
    if r.2 then (r.1, INFEASIBLE) else checkActLoop rest r.1

/-- `check_activities`, `/repo/src/explorers/SimpleReductions.c:347-465`. -/
def checkActivities (s : St) : St × Status :=
  let r := checkActLoop s.updActs s
  if r.2 = INFEASIBLE then r else (deleteInactiveRows r.1, UNCHANGED)

/-- Loop of `remove_empty_rows`, `/repo/src/explorers/SimpleReductions.c:484-501`. -/
def emptyRowLoop : List ℕ → St → St × Status
  | [], s => (s, UNCHANGED)
  | row :: rest, s =>
    let s := s.check (decide (s.rowSize row = 0))
    if (!(s.rtag row).lhsInf && D.le (.fin FEAS_TOL) (s.lhs row)) ||
       (!(s.rtag row).rhsInf && D.le (s.rhs row) (.fin (-FEAS_TOL))) then (s, INFEASIBLE)
    else
      emptyRowLoop rest { s with rtag := upd s.rtag row { s.rtag row with inactive := true }
                                 rowSize := upd s.rowSize row (-1)
                                 log := Rec.deletedRow row 0 :: s.log }

/-- `remove_empty_rows`, `/repo/src/explorers/SimpleReductions.c:467-505`. -/
def removeEmptyRows (s : St) : St × Status :=
  let r := emptyRowLoop s.emptyRows s
  if r.2 = INFEASIBLE then r else ({ r.1 with emptyRows := [] }, UNCHANGED)

/-- Value chosen for an empty column, `/repo/src/explorers/SimpleReductions.c:534-578`;
`none` when the problem is unbounded or infeasible. -/
def emptyColVal (ck : ℚ) (lb ub : D) (t : CTag) : Option D :=
  if ck = 0 then
    if !t.lbInf && D.lt (.fin 0) lb then some lb
    else if !t.ubInf && D.lt ub (.fin 0) then some ub
    else some (.fin 0)
  else if ck < 0 then (if t.ubInf then none else some ub)
  else (if t.lbInf then none else some lb)

/-- Loop of `remove_empty_cols`, `/repo/src/explorers/SimpleReductions.c:527-592`. -/
def emptyColLoop : List ℕ → St → St × Status
  | [], s => (s, UNCHANGED)
  | k :: rest, s =>
    let s := s.check (decide (s.colSize k = 0) && !(s.ctag k).inactive)
    match emptyColVal (s.c k) (s.lb k) (s.ub k) (s.ctag k) with
    | none => (s, UNBNDORINFEAS)
    | some v =>
      emptyColLoop rest
        { s with lb := if s.c k < 0 then upd s.lb k (s.ub k) else s.lb
                 ub := if 0 < s.c k then upd s.ub k (s.lb k) else s.ub
                 off := D.add s.off (D.smul (s.c k) v)
                 ctag := upd s.ctag k { s.ctag k with fixed := true }
                 colSize := upd s.colSize k (-1)
                 log := Rec.fixedCol k v (s.c k) [] :: s.log }

/-- `remove_empty_cols`, `/repo/src/explorers/SimpleReductions.c:507-596`. -/
def removeEmptyCols (s : St) : St × Status :=
  let r := emptyColLoop s.emptyCols s
  if r.2 = UNBNDORINFEAS then r else ({ r.1 with emptyCols := [] }, UNCHANGED)

/-- Loop of `remove_variables_with_close_bounds`,
`/repo/src/explorers/SimpleReductions.c:682-701`.  The return value of `fix_col` is ignored,
as in the code. -/
def closeBoundsLoop : List ℕ → St → St × Status
  | [], s => (s, UNCHANGED)
  | k :: rest, s =>
    if decide (s.colSize k < 0) || (s.ctag k).lbInf || (s.ctag k).ubInf then
      closeBoundsLoop rest s
    else
      let s := s.check (!(s.ctag k).inactive)
      if isEqualFeasTol (s.lb k) (s.ub k) then
        closeBoundsLoop rest (fixCol (s.fuzz (!D.eqb (s.lb k) (s.ub k))) k (s.lb k) (s.c k)).1
      else if D.lt (D.add (s.ub k) (.fin FEAS_TOL)) (s.lb k) then (s, INFEASIBLE)
      else closeBoundsLoop rest s

/-- `remove_variables_with_close_bounds`, `/repo/src/explorers/SimpleReductions.c:673-707`. -/
def closeBounds (s : St) : St × Status :=
  let r := closeBoundsLoop (List.range s.n) s
  if r.2 = INFEASIBLE then r
  else (deleteInactiveCols (deleteFixedCols r.1), UNCHANGED)

/-! ### Dual fixing -/

/-- What `_simple_dual_fix` decides for one column
(`/repo/src/explorers/Simple_dual_fix.c:32-108`). -/
inductive DualFix where
  | nothing | unbounded | atLower | atUpper | toNegInf | toPosInf
deriving DecidableEq, Repr

/-- The decision of `_simple_dual_fix`, `/repo/src/explorers/Simple_dual_fix.c:32-108`. -/
def dualFixDecide (ck : ℚ) (up down : ℤ) (t : CTag) : DualFix :=
  if 0 < ck ∧ down = 0 then (if t.lbInf then .unbounded else .atLower)
  else if ck < 0 ∧ up = 0 then (if t.ubInf then .unbounded else .atUpper)
  else if ck = 0 then
    if down = 0 then (if t.lbInf then .toNegInf else .atLower)
    else if up = 0 then (if t.ubInf then .toPosInf else .atUpper)
    else .nothing
  else .nothing

/-- Body of the first loop of `simple_dual_fix`, `/repo/src/explorers/Simple_dual_fix.c:126-140`:
state, columns to fix to an infinite value (with the direction), status.  `cols_to_inf`
stores the sign of the direction in the sign of the column number; column 0 is
disambiguated by its locks (154-165), which gives the same direction because locks do not
change in between. -/
def dualFixStep (acc : St × List (ℕ × Bool) × Status) (k : ℕ) : St × List (ℕ × Bool) × Status :=
  let (s, q, st) := acc
  if (s.ctag k).inactive || (decide (0 < s.up k) && decide (0 < s.down k)) then (s, q, st)
  else
    match dualFixDecide (s.c k) (s.up k) (s.down k) (s.ctag k) with
    | .nothing => (s, q, st)
    | .unbounded => (s, q, st ||| UNBNDORINFEAS)
    | .atLower => ((fixCol (s.check (!D.isInf (s.lb k))) k (s.lb k) (s.c k)).1, q, st)
    | .atUpper => ((fixCol (s.check (!D.isInf (s.ub k))) k (s.ub k) (s.c k)).1, q, st)
    | .toNegInf => (s, q ++ [(k, false)], st)
    | .toPosInf => (s, q ++ [(k, true)], st)

/-- `simple_dual_fix`, `/repo/src/explorers/Simple_dual_fix.c:110-178`. -/
def simpleDualFix (s : St) : St × Status :=
  let s := s.check (decide (s.emptyCols = []))
  let r := (List.range s.n).foldl dualFixStep (s, [], UNCHANGED)
  let s := r.2.1.foldl (fun s p => if p.2 then fixColPosInf s p.1 else fixColNegInf s p.1) r.1
  (deleteInactiveCols (deleteFixedCols (deleteInactiveRows s)), r.2.2)

end Verif
