import Verif.Model.Simple

/-!
# Column singletons (`/repo/src/explorers/StonCols.c`)

`remove_coeff` (`/repo/src/core/Matrix.c:334-356`) is modelled by `dropCell`; that the array
code computes it is `Verif.removeCoeff_correct` (C18).
-/

namespace Verif

/-- Effect of `remove_coeff` on the cells of a row: the first cell of column `k` goes. -/
def dropCell (k : ℕ) (cells : List Cell) : List Cell := cells.eraseP (fun p => decide (p.1 = k))

/-- Remove column `k` from row `i`: `remove_coeff(row, k); (*A_nnz)--;`, which also
decrements `row_sizes[i]`.  If the row does not contain the column the code drops the last
cell; that sets the ghost flag `undef`. -/
def removeCoeffH (s : St) (i k : ℕ) : St :=
  let s := s.flag (!(s.A i).any (fun p => decide (p.1 = k)))
  { s with A := upd s.A i (dropCell k (s.A i))
           rowSize := upd s.rowSize i (s.rowSize i - 1)
           nnz := s.nnz - 1 }

/-- Column `k` leaves the problem: `col->range->end = start; *col->len = SIZE_INACTIVE_COL`. -/
def dropCol (s : St) (k : ℕ) : St :=
  { s with AT := upd s.AT k [], colSize := upd s.colSize k (-1) }

/-- Activity update when the column contributes a finite amount `q * bound` to the minimum
and its upper (`Aik > 0`) bound may be infinite; `handle_impl_free_from_above_eq:63-84` and
its three mirror images.  `infBound` says that the other bound is infinite. -/
def actDropMinFin (a : Act) (q : ℚ) (finB otherB : D) (infOther : Bool) (lb ub : ℕ → D)
    (cells : List Cell) : Act :=
  let a := if a.nInfMin = 0 then { a with min := D.sub a.min (D.smul q finB) } else a
  if infOther then
    let k := a.nInfMax - 1
    if k = 0 then { a with nInfMax := k, max := maxActNoTags lb ub cells }
    else { a with nInfMax := k }
  else if a.nInfMax = 0 then { a with max := D.sub a.max (D.smul q otherB) } else a

/-- Mirror image: the finite contribution is to the maximum;
`handle_impl_free_from_above_eq:95-119`, `handle_impl_free_from_below_eq:150-174`. -/
def actDropMaxFin (a : Act) (q : ℚ) (finB otherB : D) (infOther : Bool) (lb ub : ℕ → D)
    (cells : List Cell) : Act :=
  let a := if a.nInfMax = 0 then { a with max := D.sub a.max (D.smul q finB) } else a
  if infOther then
    let k := a.nInfMin - 1
    if k = 0 then { a with nInfMin := k, min := minActNoTags lb ub cells }
    else { a with nInfMin := k }
  else if a.nInfMin = 0 then { a with min := D.sub a.min (D.smul q otherB) } else a

/-- The equality row `i` becomes `… ≤ rhs - q * b` (`upper`) or `… ≥ lhs - q * b`, with locks;
lines 53-60, 89-92, 143-147, 180-183. -/
def eqToIneqSide (s : St) (i : ℕ) (q : ℚ) (b : D) (upper : Bool) : St :=
  if upper then
    let s := { s with rhs := upd s.rhs i (D.sub (s.rhs i) (D.smul q b))
                      lhs := upd s.lhs i .ninf
                      rtag := upd s.rtag i { lhsInf := true } }
    locksEqToIneq s (s.A i) true
  else
    let s := { s with lhs := upd s.lhs i (D.sub (s.lhs i) (D.smul q b))
                      rhs := upd s.rhs i .pinf
                      rtag := upd s.rtag i { rhsInf := true } }
    locksEqToIneq s (s.A i) false

/-- `handle_impl_free_from_above_eq`, `/repo/src/explorers/StonCols.c:35-122`. -/
def implFreeAboveEq (s : St) (i k : ℕ) (q : ℚ) (ck : ℚ) : St :=
  let lb := s.lb k
  let ub := s.ub k
  let ubInf := (s.ctag k).ubInf
  let s := s.save (.eqToIneq i (ck / q))
  let s := s.save (.subCol k (s.A i) (s.rhs i) i 0)
  let s := s.check (!D.isInf lb && !(s.ctag k).lbInf)
  let s := removeCoeffH s i k
  let s := eqToIneqSide s i q lb (decide (0 < q))
  if 0 < q then
    { s with act := upd s.act i (actDropMinFin (s.act i) q lb ub ubInf s.lb s.ub (s.A i)) }
  else
    { s with act := upd s.act i (actDropMaxFin (s.act i) q lb ub ubInf s.lb s.ub (s.A i)) }

/-- `handle_impl_free_from_below_eq`, `/repo/src/explorers/StonCols.c:126-210`. -/
def implFreeBelowEq (s : St) (i k : ℕ) (q : ℚ) (ck : ℚ) : St :=
  let lb := s.lb k
  let ub := s.ub k
  let lbInf := (s.ctag k).lbInf
  let s := s.save (.eqToIneq i (ck / q))
  let s := s.save (.subCol k (s.A i) (s.rhs i) i 0)
  let s := s.check (!D.isInf ub && !(s.ctag k).ubInf)
  let s := removeCoeffH s i k
  let s := eqToIneqSide s i q ub (decide (q ≤ 0))
  if 0 < q then
    { s with act := upd s.act i (actDropMaxFin (s.act i) q ub lb lbInf s.lb s.ub (s.A i)) }
  else
    { s with act := upd s.act i (actDropMinFin (s.act i) q ub lb lbInf s.lb s.ub (s.A i)) }

/-- Tail of `process_colston_eq`, lines 272-285: new singleton or doubleton row. -/
def noteShortRow (s : St) (i : ℕ) (dton : Bool) : St :=
  let s :=
    if s.rowSize i = 1 then
      let s := s.check (!s.stonRows.contains i)
      { s with stonRows := s.stonRows ++ [i] }
    else if dton && decide (s.rowSize i = 2) && (s.rtag i).eq then
      let s := s.check (!s.dtonRows.contains i)
      { s with dtonRows := s.dtonRows ++ [i] }
    else s
  s.check (decide (s.rowSize i ≠ 0))

/-- `process_colston_eq`, `/repo/src/explorers/StonCols.c:212-288`. -/
def colstonEq (s : St) (i k : ℕ) (q : ℚ) (above below : Bool) : St × Status :=
  let s := s.check (D.eqb (s.lhs i) (s.rhs i))
  let s := s.check (!((s.rtag i).inactive || (s.rtag i).lhsInf || (s.rtag i).rhsInf))
  if !above && !below then (s, UNCHANGED)
  else
    let ck := s.c k
    let s := subVarInObj s (s.A i) k q (s.rhs i)
    let s := dropCol { s with ctag := upd s.ctag k { s.ctag k with subst := true } } k
    if above && below then
      let s := s.save (.subCol k (s.A i) (s.rhs i) i ck)
      (setRowToInactive s i (ck / q), REDUCED)
    else
      let s := if above then implFreeAboveEq s i k q ck else implFreeBelowEq s i k q ck
      (noteShortRow s i true, REDUCED)

/-- Activity update of `fix_col_ston`, `/repo/src/explorers/StonCols.c:334-368`.  Both finite
activities are moved by `Aik * val`, whichever bound contributed to them. -/
def actFixSton (a : Act) (q : ℚ) (v : D) (t : CTag) (lb ub : ℕ → D) (cells : List Cell) : Act :=
  let a :=
    if a.nInfMin = 0 then { a with min := D.sub a.min (D.smul q v) }
    else if (decide (0 < q) && t.lbInf) || (decide (q < 0) && t.ubInf) then
      let k := a.nInfMin - 1
      if k = 0 then { a with nInfMin := k, min := minActNoTags lb ub cells }
      else { a with nInfMin := k }
    else a
  if a.nInfMax = 0 then { a with max := D.sub a.max (D.smul q v) }
  else if (decide (0 < q) && t.ubInf) || (decide (q < 0) && t.lbInf) then
    let k := a.nInfMax - 1
    if k = 0 then { a with nInfMax := k, max := maxActNoTags lb ub cells }
    else { a with nInfMax := k }
  else a

/-- `fix_col_ston`, `/repo/src/explorers/StonCols.c:309-374`. -/
def fixColSton (s : St) (i k : ℕ) (q : ℚ) (v : D) : St :=
  let s := removeCoeffH s i k
  let s := dropCol { s with ctag := upd s.ctag k { s.ctag k with fixed := true } } k
  let s := { s with
    lhs := if (s.rtag i).lhsInf then s.lhs else upd s.lhs i (D.sub (s.lhs i) (D.smul q v))
    rhs := if (s.rtag i).rhsInf then s.rhs else upd s.rhs i (D.sub (s.rhs i) (D.smul q v))
    act := upd s.act i (actFixSton (s.act i) q v (s.ctag k) s.lb s.ub (s.A i)) }
  let s := fixVarInObj s k v
  s.save (.fixedCol k v (s.c k) [(i, q)])

/-- What `process_colston_ineq` decides (`/repo/src/explorers/StonCols.c:376-541`). -/
inductive StonIneq where
  | nothing
  | unbounded
  /-- dual fix at the lower / upper bound -/
  | fixLower | fixUpper
  /-- substitute out with the left / right side active -/
  | freeLhs | freeRhs
  /-- the row becomes an equality with its right / left side -/
  | toEqRhs | toEqLhs
deriving DecidableEq, Repr

/-- The decision of `process_colston_ineq`, `/repo/src/explorers/StonCols.c:392-540`. -/
def stonIneqDecide (ck q : ℚ) (rt : RTag) (t : CTag) (above below : Bool) : StonIneq :=
  if (0 < ck ∧ 0 < q ∧ rt.lhsInf = true) ∨ (0 < ck ∧ q < 0 ∧ rt.rhsInf = true) then
    (if t.lbInf then .unbounded else .fixLower)
  else if (ck < 0 ∧ q < 0 ∧ rt.lhsInf = true) ∨ (ck < 0 ∧ 0 < q ∧ rt.rhsInf = true) then
    (if t.ubInf then .unbounded else .fixUpper)
  else if above = true ∧ below = true then
    if (0 < ck ∧ 0 < q) ∨ (ck < 0 ∧ q < 0) then
      (if rt.lhsInf then .unbounded else .freeLhs)
    else if (0 < ck ∧ q < 0) ∨ (ck < 0 ∧ 0 < q) then
      (if rt.rhsInf then .unbounded else .freeRhs)
    else (if rt.lhsInf then .freeRhs else .freeLhs)
  else if (ck < 0 ∧ 0 < q ∧ above = true) ∨ (0 < ck ∧ q < 0 ∧ below = true) then .toEqRhs
  else if (0 < ck ∧ 0 < q ∧ below = true) ∨ (ck < 0 ∧ q < 0 ∧ above = true) then .toEqLhs
  else .nothing

/-- Substitute out an implied free column singleton of an inequality row,
`/repo/src/explorers/StonCols.c:472-484`. -/
def freeColIneq (s : St) (i k : ℕ) (q : ℚ) (side : D) : St :=
  let ck := s.c k
  let s := subVarInObj s (s.A i) k q side
  let s := dropCol { s with ctag := upd s.ctag k { s.ctag k with subst := true } } k
  let s := s.save (.subCol k (s.A i) side i ck)
  setRowToInactive s i (ck / q)

/-- Append a new doubleton equality row, lines 507-511 and 532-536. -/
def noteDton (s : St) (i : ℕ) : St :=
  if s.rowSize i = 2 then
    let s := s.check (!s.dtonRows.contains i)
    { s with dtonRows := s.dtonRows ++ [i] }
  else s

/-- `process_colston_ineq`, `/repo/src/explorers/StonCols.c:376-541`. -/
def colstonIneq (s : St) (i k : ℕ) (q : ℚ) (above below : Bool) : St × Status :=
  match stonIneqDecide (s.c k) q (s.rtag i) (s.ctag k) above below with
  | .nothing => (s, UNCHANGED)
  | .unbounded => (s, UNBNDORINFEAS)
  | .fixLower =>
    (noteShortRow (fixColSton (s.check (!D.isInf (s.lb k))) i k q (s.lb k)) i false, REDUCED)
  | .fixUpper =>
    (noteShortRow (fixColSton (s.check (!D.isInf (s.ub k))) i k q (s.ub k)) i false, REDUCED)
  | .freeLhs => (freeColIneq s i k q (s.lhs i), REDUCED)
  | .freeRhs => (freeColIneq s i k q (s.rhs i), REDUCED)
  | .toEqRhs =>
    let s := if (s.rtag i).lhsInf then locksNewLhs s (s.A i) else s
    let s := s.check (!(s.rtag i).rhsInf)
    let s := { s with lhs := upd s.lhs i (s.rhs i), rtag := upd s.rtag i { eq := true } }
    (noteDton s i, REDUCED)
  | .toEqLhs =>
    let s := if (s.rtag i).rhsInf then locksNewRhs s (s.A i) else s
    let s := s.check (!(s.rtag i).lhsInf)
    let s := { s with rhs := upd s.rhs i (s.lhs i), rtag := upd s.rtag i { eq := true } }
    (noteDton s i, REDUCED)

/-- Body of the loop of `remove_ston_cols__`, `/repo/src/explorers/StonCols.c:607-675`.  A
listed column without cells would make the code read a stale entry (asserted not to happen,
612) and sets the ghost flag `undef`. -/
def stonColStep (acc : St × Status) (k : ℕ) : St × Status :=
  let (s, st) := acc
  match s.AT k with
  | [] => ((s.flag true).check false, st)
  | (i, q) :: rest =>
    let s := (s.check (decide (rest = []))).check (!(s.ctag k).inactive)
    if (s.rtag i).inactive || decide (s.rowSize i ≤ 1) then (s, st)
    else
      let above := impliedFreeAbove q (s.A i) (s.lhs i) (s.rhs i) (s.rtag i) (s.lb k) (s.ub k)
        (s.ctag k) (s.act i) s.ctag s.lb s.ub
      let below := impliedFreeBelow q (s.A i) (s.lhs i) (s.rhs i) (s.rtag i) (s.lb k) (s.ub k)
        (s.ctag k) (s.act i) s.ctag s.lb s.ub
      let r := if (s.rtag i).eq then colstonEq s i k q above below
        else colstonIneq s i k q above below
      (r.1, st ||| r.2)

/-- `remove_ston_cols__`, `/repo/src/explorers/StonCols.c:571-692`, including
`refresh_ston_cols:549-569`. -/
def stonColsRound (s : St) : St × Status :=
  let s := { s with stonCols := s.stonCols.filter (fun k => decide (s.colSize k = 1)) }
  let r := s.stonCols.foldl stonColStep (s, UNCHANGED)
  let s := deleteInactiveRows r.1
  if hasStatus r.2 UNBNDORINFEAS then (s, UNBNDORINFEAS)
  else if hasStatus r.2 REDUCED then (s, REDUCED)
  else (s, UNCHANGED)

/-- The do-while loop of `remove_ston_cols:706-709` with a bound on the number of rounds. -/
def stonColsLoop : ℕ → St → St × Status
  | 0, s => (s.flag true, UNCHANGED)
  | fuel + 1, s =>
    let r := stonColsRound s
    if r.2 = REDUCED then stonColsLoop fuel r.1 else r

/-- `remove_ston_cols`, `/repo/src/explorers/StonCols.c:694-714`.  Every round that returns
`REDUCED` removes a column or turns an inequality into an equality, which bounds the number
of rounds. -/
def removeStonCols (s : St) : St × Status :=
  let s := ((s.check (decide (s.stonRows = []))).check (decide (s.emptyRows = []))).check
    (decide (s.emptyCols = []))
  stonColsLoop (s.m + 2 * s.n + 1) s

end Verif
