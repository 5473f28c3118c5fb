import Mathlib.Data.List.Sort
import Verif.Model.ParCols

/-!
# Primal propagation (`/repo/src/explorers/Primal_propagation.c`)
-/

namespace Verif

/-- `update_lb_within_propagation`, `/repo/src/explorers/Primal_propagation.c:33-107`. -/
def propLb (fbt : Bool) (s : St) (col : ℕ) (newLb : D) : St × Status :=
  let lb := s.lb col
  let ub := s.ub col
  let ubInf := (s.ctag col).ubInf
  let lbInf := (s.ctag col).lbInf
  let cells := s.AT col
  let s := (s.check (!D.isInf newLb && !(s.ctag col).inactive)).check
    ((lbInf || D.le lb newLb) && !isHuge newLb)
  if !ubInf && D.le (D.add ub (.fin FEAS_TOL)) newLb then (s, INFEASIBLE)
  else if !ubInf && (D.le ub newLb ||
      D.le (D.smul (getMaxAbs cells) (D.sub ub newLb)) (.fin FEAS_TOL)) then
    let s := (s.save (.boundChangeNoRow col newLb ub false)).fuzz (!D.le ub newLb)
    ((fixCol s col ub (s.c col)).1, REDUCED)
  else if lbInf || (fbt && D.lt (.fin (FEAS_TOL * 10000)) (D.sub newLb lb) &&
      D.lt (D.smul (1 / 100) (D.abs lb)) (D.sub newLb lb)) then
    let newLb := if isIntegral newLb then newLb
      else D.sub newLb (D.smul BOUND_MARGINAL (D.abs newLb))
    let s := { s with ctag := upd s.ctag col { s.ctag col with lbInf := false }
                      lb := upd s.lb col newLb }
    let s := updActsBoundChange s cells lb newLb (!lbInf) true
    (s.save (.boundChangeNoRow col newLb ub false), REDUCED)
  else (s, UNCHANGED)

/-- `update_ub_within_propagation`, `/repo/src/explorers/Primal_propagation.c:109-182`. -/
def propUb (fbt : Bool) (s : St) (col : ℕ) (newUb : D) : St × Status :=
  let lb := s.lb col
  let ub := s.ub col
  let ubInf := (s.ctag col).ubInf
  let lbInf := (s.ctag col).lbInf
  let cells := s.AT col
  let s := (s.check (!D.isInf newUb && !(s.ctag col).inactive)).check
    ((ubInf || D.le newUb ub) && !isHuge newUb)
  if !lbInf && D.le newUb (D.sub lb (.fin FEAS_TOL)) then (s, INFEASIBLE)
  else if !lbInf && (D.le newUb lb ||
      D.le (D.smul (getMaxAbs cells) (D.sub newUb lb)) (.fin FEAS_TOL)) then
    let s := (s.save (.boundChangeNoRow col newUb lb true)).fuzz (!D.le newUb lb)
    ((fixCol s col lb (s.c col)).1, REDUCED)
  else if ubInf || (fbt && D.lt (.fin (FEAS_TOL * 10000)) (D.sub ub newUb) &&
      D.lt (D.smul (1 / 100) (D.abs ub)) (D.sub ub newUb)) then
    let newUb := if isIntegral newUb then newUb
      else D.add newUb (D.smul BOUND_MARGINAL (D.abs newUb))
    let s := { s with ctag := upd s.ctag col { s.ctag col with ubInf := false }
                      ub := upd s.ub col newUb }
    let s := updActsBoundChange s cells ub newUb (!ubInf) false
    (s.save (.boundChangeNoRow col newUb lb true), REDUCED)
  else (s, UNCHANGED)

/-- State, status and number of bound changes while one row is propagated. -/
abbrev PropAcc := St × Status × ℕ

/-- Add the result of a bound update: `if (temp_status == REDUCED) (*num)++; status |= …`. -/
def propPut (acc : PropAcc) (r : St × Status) : PropAcc :=
  (r.1, acc.2.1 ||| r.2, if r.2 = REDUCED then acc.2.2 + 1 else acc.2.2)

/-- Try an implied upper bound, e.g. `/repo/src/explorers/Primal_propagation.c:255-271`. -/
def propTryUb (fbt : Bool) (acc : PropAcc) (k : ℕ) (b : D) : PropAcc :=
  let s := acc.1
  if ((s.ctag k).ubInf || D.lt b (s.ub k)) && !isHuge b then propPut acc (propUb fbt s k b)
  else acc

/-- Try an implied lower bound, e.g. `/repo/src/explorers/Primal_propagation.c:282-299`. -/
def propTryLb (fbt : Bool) (acc : PropAcc) (k : ℕ) (b : D) : PropAcc :=
  let s := acc.1
  if ((s.ctag k).lbInf || D.lt (s.lb k) b) && !isHuge b then propPut acc (propLb fbt s k b)
  else acc

/-- Case 1 of `bound_tightening_single_row_rhs`, loop body,
`/repo/src/explorers/Primal_propagation.c:232-300`. -/
def propRhsCell (fbt : Bool) (i : ℕ) (acc : PropAcc) (p : Cell) : PropAcc :=
  let s := acc.1
  if (s.ctag p.1).inactive then acc
  else
    let d := D.divq (D.sub (s.rhs i) (s.act i).min) p.2
    if 0 < p.2 then propTryUb fbt acc p.1 (D.add (s.lb p.1) d)
    else propTryLb fbt acc p.1 (D.add (s.ub p.1) d)

/-- Case 1 of `bound_tightening_single_row_lhs`, loop body,
`/repo/src/explorers/Primal_propagation.c:431-498`. -/
def propLhsCell (fbt : Bool) (i : ℕ) (acc : PropAcc) (p : Cell) : PropAcc :=
  let s := acc.1
  if (s.ctag p.1).inactive then acc
  else
    let d := D.divq (D.sub (s.lhs i) (s.act i).max) p.2
    if 0 < p.2 then propTryLb fbt acc p.1 (D.add (s.ub p.1) d)
    else propTryUb fbt acc p.1 (D.add (s.lb p.1) d)

/-- Search for the variable with the infinite contribution, lines 325-341 and 524-540.  If
there is none the code goes on with the last cell. -/
def propFind (ok : Cell → Bool) (cells : List Cell) : Option Cell :=
  match cells.find? ok with
  | some p => some p
  | none => cells.getLast?

/-- `bound_tightening_single_row_rhs`, `/repo/src/explorers/Primal_propagation.c:202-386`. -/
def propRhs (fbt : Bool) (i : ℕ) (acc : PropAcc) : PropAcc :=
  let s := acc.1
  let cells := s.A i
  let a := s.act i
  let rhsInf := (s.rtag i).rhsInf
  if !rhsInf && decide (a.nInfMin = 0) then cells.foldl (propRhsCell fbt i) acc
  else if (!rhsInf || decide (a.nInfMax = 0)) && decide (a.nInfMin = 1) then
    let ok : Cell → Bool := fun p =>
      ((decide (0 < p.2) && (s.ctag p.1).lbInf) || (decide (p.2 < 0) && (s.ctag p.1).ubInf)) &&
        !(s.ctag p.1).inactive
    match propFind ok cells with
    | none => (s.flag true, acc.2)
    | some p =>
      let acc := (s.check (ok p), acc.2)
      let base := if rhsInf then a.max else s.rhs i
      let b := D.divq (D.sub base (minActOneTag s.lb s.ub cells p.1)) p.2
      if 0 < p.2 then propTryUb fbt acc p.1 b else propTryLb fbt acc p.1 b
  else acc

/-- `bound_tightening_single_row_lhs`, `/repo/src/explorers/Primal_propagation.c:401-590`. -/
def propLhs (fbt : Bool) (i : ℕ) (acc : PropAcc) : PropAcc :=
  let s := acc.1
  let cells := s.A i
  let a := s.act i
  let lhsInf := (s.rtag i).lhsInf
  if !lhsInf && decide (a.nInfMax = 0) then cells.foldl (propLhsCell fbt i) acc
  else if (!lhsInf || decide (a.nInfMin = 0)) && decide (a.nInfMax = 1) then
    let ok : Cell → Bool := fun p =>
      ((decide (0 < p.2) && (s.ctag p.1).ubInf) || (decide (p.2 < 0) && (s.ctag p.1).lbInf)) &&
        !(s.ctag p.1).inactive
    match propFind ok cells with
    | none => (s.flag true, acc.2)
    | some p =>
      let acc := (s.check (ok p), acc.2)
      let base := if lhsInf then a.min else s.lhs i
      let b := D.divq (D.sub base (maxActOneTag s.lb s.ub cells p.1)) p.2
      if 0 < p.2 then propTryLb fbt acc p.1 b else propTryUb fbt acc p.1 b
  else acc

/-- `bound_tightening_single_row`, `/repo/src/explorers/Primal_propagation.c:595-625`. -/
def propRow (fbt : Bool) (s : St) (i : ℕ) : St × Status :=
  let s := s.check (!(s.rtag i).inactive)
  let acc := propLhs fbt i (propRhs fbt i (s, UNCHANGED, 0))
  let s := if 0 < acc.2.2 then acc.1.save (.boundChangeTheRow i (acc.1.A i) acc.2.2) else acc.1
  (s, acc.2.1)

/-- Filter of the main loop of `propagate_primal`, lines 688-694: `true` means skip. -/
def propSkip (s : St) (i : ℕ) : Bool :=
  let a := s.act i
  let t := s.rtag i
  decide (s.rowSize i ≤ 1) || decide (a.status ≠ .added) ||
    !(decide (a.nInfMin = 0) || decide (a.nInfMax = 0) ||
      (decide (a.nInfMin = 1) && !t.rhsInf) || (decide (a.nInfMax = 1) && !t.lhsInf))

/-- Main loop of `propagate_primal`, `/repo/src/explorers/Primal_propagation.c:674-721`, over
the list of updated activities, which grows while it is processed; with a bound on the number
of iterations. -/
def propLoop (fbt : Bool) : ℕ → ℕ → St → St × Status
  | 0, _, s => (s.flag true, UNCHANGED)
  | fuel + 1, ii, s =>
    match s.updActs[ii]? with
    | none => (s, UNCHANGED)
    | some i =>
      if propSkip s i then propLoop fbt fuel (ii + 1) s
      else
        let s := { s with act := upd s.act i { s.act i with status := .propagatedThisRound } }
        let r := propRow fbt s i
        if hasStatus r.2 INFEASIBLE then (r.1, INFEASIBLE)
        else propLoop fbt fuel (ii + 1) r.1

/-- Rows for the next round, `/repo/src/explorers/Primal_propagation.c:744-756`; meeting a row
again does not list it twice because its status is reset. -/
def propNext (s : St) : List ℕ :=
  (s.updActs.filter (fun i => decide ((s.act i).status = .propagateNextRound))).foldl
    (fun l i => if i ∈ l then l else l ++ [i]) []

/-- End of `propagate_primal` before the deletions, lines 744-768. -/
def propReset (s : St) : St :=
  let next := propNext s
  { s with updActs := next
           act := fun i =>
             if i ∈ next then { s.act i with status := .added }
             else if i < s.m then { s.act i with status := .notAdded }
             else s.act i }

/-- `propagate_primal`, `/repo/src/explorers/Primal_propagation.c:627-783`. -/
def propagatePrimal (fbt : Bool) (s : St) : St × Status :=
  let s := (s.check (decide (s.stonRows = []))).check (decide (s.emptyRows = []))
  let r := propLoop fbt (s.updActs.length + 2 * s.m + 1) 0 s
  if r.2 = INFEASIBLE then r
  else
    let s := deleteInactiveCols (deleteFixedCols (propReset r.1))
    let s := s.check (decide (s.rowsToDelete = []))
    removeEmptyRows s

/-- Loop body of `remove_redundant_bounds`, `/repo/src/explorers/Primal_propagation.c:843-882`.
Release build: only the tag and the activities change, not the bound. -/
def relaxCol (s : St) (k : ℕ) : St :=
  let t := s.ctag k
  if t.inactive || (t.ubInf && t.lbInf) then s
  else if t.ubInf then
    if isLbImpliedFree s k then
      { s with act := removeFiniteLb s.act (s.AT k) (s.lb k)
               ctag := upd s.ctag k { t with lbInf := true } }
    else s
  else
    if isUbImpliedFree s k then
      { s with act := removeFiniteUb s.act (s.AT k) (s.ub k)
               ctag := upd s.ctag k { t with ubInf := true } }
    else s

/-- Column order of `remove_redundant_bounds`, lines 788-841: by size, then by index (a total
order, so the result does not depend on the sorting algorithm). -/
def relaxOrder (s : St) : List ℕ :=
  (List.range s.n).insertionSort
    (fun a b => s.colSize a < s.colSize b ∨ (s.colSize a = s.colSize b ∧ a ≤ b))

/-- `remove_redundant_bounds`, `/repo/src/explorers/Primal_propagation.c:806-885`. -/
def removeRedundantBounds (s : St) : St := (relaxOrder s).foldl relaxCol s

end Verif
