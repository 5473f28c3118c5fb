import Verif.Model.Activity

/-!
# Core transformations

`/repo/src/core/CoreTransformation.c`, `/repo/include/core/CoreTransformations.h`,
`/repo/src/core/Locks.c`, `/repo/include/core/Locks.h` and the objective updates of
`/repo/src/core/Problem.c`.

Throughout, code that is only compiled in debug builds (`DEBUG(...)`, `#ifndef NDEBUG`) is
left out.
-/

namespace Verif

/-- `set_col_to_fixed`, `/repo/include/core/CoreTransformations.h:95-101`. -/
def setColToFixed (s : St) (k : ℕ) : St :=
  let s := s.check (!(s.ctag k).inactive)
  { s with ctag := upd s.ctag k { s.ctag k with fixed := true }
           fixedCols := s.fixedCols ++ [k] }

/-- `set_col_to_substituted`, `/repo/include/core/CoreTransformations.h:118-124`. -/
def setColToSubstituted (s : St) (k : ℕ) : St :=
  let s := s.check (!(s.ctag k).inactive)
  { s with ctag := upd s.ctag k { s.ctag k with subst := true }
           subCols := s.subCols ++ [k] }

/-- `set_row_to_inactive`, `/repo/include/core/CoreTransformations.h:103-116`. -/
def setRowToInactive (s : St) (i : ℕ) (val : ℚ) : St :=
  let s := s.check (!(s.rtag i).inactive)
  { s with rowsToDelete := s.rowsToDelete ++ [i]
           rtag := upd s.rtag i { s.rtag i with inactive := true }
           log := Rec.deletedRow i val :: s.log }

/-- `fix_col`, `/repo/src/core/CoreTransformation.c:30-68`. -/
def fixCol (s : St) (k : ℕ) (val : D) (ck : ℚ) : St × Status :=
  let oldLb := s.lb k
  let oldUb := s.ub k
  let ubInf := (s.ctag k).ubInf
  let lbInf := (s.ctag k).lbInf
  let s := (s.check (decide (0 < s.colSize k))).check (!(s.ctag k).inactive)
  if (!ubInf && D.le (D.add oldUb (.fin FEAS_TOL)) val) ||
     (!lbInf && D.le val (D.sub oldLb (.fin FEAS_TOL))) then (s, INFEASIBLE)
  else
    let cells := s.AT k
    let s := setColToFixed s k
    let s := s.save (.fixedCol k val ck cells)
    let ubUpd := ubInf || !D.eqb val oldUb
    let lbUpd := lbInf || !D.eqb val oldLb
    let s := { s with ub := upd s.ub k val, lb := upd s.lb k val }
    (updActsFixedCol s cells oldUb oldLb val ubUpd lbUpd ubInf lbInf, REDUCED)

/-- The record written by `save_retrieval_fixed_col_inf`,
`/repo/src/core/Postsolver.c:686-729`: per row of the column the side and the first
`row_sizes[row]` cells of the row. -/
def fixedColInfRec (s : St) (k : ℕ) (pos : Bool) (bound : D) : Rec :=
  .fixedColInf pos k bound ((s.AT k).map (fun p =>
    ((if (s.rtag p.1).lhsInf then s.rhs p.1 else s.lhs p.1),
      (s.A p.1).take (s.rowSize p.1).toNat)))

/-- Save the `FIXED_COL_INF` record.  `row_sizes[row] ≠ end - start` would copy stale or
missing cells and sets the ghost flag `undef`; the two assertions on the row tags are
tracked.  Sets the ghost flag `near`. -/
def saveFixedColInf (s : St) (k : ℕ) (pos : Bool) (bound : D) : St :=
  let r := fixedColInfRec s k pos bound
  let s := s.flag ((s.AT k).any (fun p => decide (s.rowSize p.1 ≠ ((s.A p.1).length : ℤ))))
  let s := s.check ((s.AT k).all (fun p =>
    !((s.rtag p.1).lhsInf && (s.rtag p.1).rhsInf) && ((s.rtag p.1).lhsInf || (s.rtag p.1).rhsInf)))
  (s.save r).fuzz true

/-- The loop over the rows of the column in `fix_col_to_negative_inf:85-96` and
`fix_col_to_positive_inf:121-133`. -/
def deactivateRows (s : St) (cells : List Cell) : St :=
  cells.foldl (fun s p => if (s.rtag p.1).inactive then s else setRowToInactive s p.1 0) s

/-- `fix_col_to_negative_inf`, `/repo/src/core/CoreTransformation.c:70-104`. -/
def fixColNegInf (s : St) (k : ℕ) : St :=
  let s := ((s.check (!(s.ctag k).inactive)).check (s.ctag k).lbInf).check
    (decide (s.down k = 0))
  let s := saveFixedColInf s k false (s.ub k)
  let s := deactivateRows s (s.AT k)
  { s with ctag := upd s.ctag k { s.ctag k with fixed := true }
           colSize := upd s.colSize k (-1)
           AT := upd s.AT k []
           lb := upd s.lb k .ninf
           ub := upd s.ub k .ninf }

/-- `fix_col_to_positive_inf`, `/repo/src/core/CoreTransformation.c:106-141`. -/
def fixColPosInf (s : St) (k : ℕ) : St :=
  let s := ((s.check (!(s.ctag k).inactive)).check (s.ctag k).ubInf).check
    (decide (s.up k = 0))
  let s := saveFixedColInf s k true (s.lb k)
  let s := deactivateRows s (s.AT k)
  { s with ctag := upd s.ctag k { s.ctag k with fixed := true }
           colSize := upd s.colSize k (-1)
           AT := upd s.AT k []
           lb := upd s.lb k .pinf
           ub := upd s.ub k .pinf }

/-- `update_lb`, `/repo/src/core/CoreTransformation.c:143-193`.  The assertion on huge bounds
(`huge_bound_ok`, debug builds only) is not tracked. -/
def updateLb (s : St) (k : ℕ) (newLb : D) (row : ℕ) : St × Status :=
  let ub := s.ub k
  let lb := s.lb k
  let s := s.check (!(s.ctag k).inactive)
  if !(s.ctag k).ubInf && D.le (D.add ub (.fin FEAS_TOL)) newLb then (s, INFEASIBLE)
  else
    let lbInf := (s.ctag k).lbInf
    if lbInf || D.le (D.add lb (.fin FEAS_TOL)) newLb then
      let s := { s with lb := upd s.lb k newLb }
      let s := updActsBoundChange s (s.AT k) lb newLb (!lbInf) true
      let s := { s with ctag := upd s.ctag k { s.ctag k with lbInf := false } }
      let s := s.save (.boundChangeNoRow k newLb ub false)
      (s.save (.boundChangeTheRow row (s.A row) 1), UNCHANGED)
    else (s, UNCHANGED)

/-- `update_ub`, `/repo/src/core/CoreTransformation.c:195-246`. -/
def updateUb (s : St) (k : ℕ) (newUb : D) (row : ℕ) : St × Status :=
  let ub := s.ub k
  let lb := s.lb k
  let s := s.check (!(s.ctag k).inactive)
  if !(s.ctag k).lbInf && D.le newUb (D.sub lb (.fin FEAS_TOL)) then (s, INFEASIBLE)
  else
    let ubInf := (s.ctag k).ubInf
    if ubInf || D.le newUb (D.sub ub (.fin FEAS_TOL)) then
      let s := { s with ub := upd s.ub k newUb }
      let s := updActsBoundChange s (s.AT k) ub newUb (!ubInf) false
      let s := { s with ctag := upd s.ctag k { s.ctag k with ubInf := false } }
      let s := s.save (.boundChangeNoRow k newUb lb true)
      (s.save (.boundChangeTheRow row (s.A row) 1), UNCHANGED)
    else (s, UNCHANGED)

/-- The value `implied_ub` computed in `implied_free_from_above_by_row`,
`/repo/src/core/CoreTransformation.c:258-294`. -/
def impliedUb (aik : ℚ) (cells : List Cell) (lhs rhs : D) (rt : RTag) (lb : D) (t : CTag)
    (a : Act) (ctag : ℕ → CTag) (lbs ubs : ℕ → D) : D :=
  if 0 < aik ∧ rt.rhsInf = false then
    if a.nInfMin = 0 then D.add lb (D.divq (D.sub rhs a.min) aik)
    else if a.nInfMin = 1 ∧ t.lbInf = true then
      D.divq (D.sub rhs (minActTags ctag lbs ubs cells)) aik
    else .pinf
  else if aik < 0 ∧ rt.lhsInf = false then
    if a.nInfMax = 0 then D.add lb (D.divq (D.sub lhs a.max) aik)
    else if a.nInfMax = 1 ∧ t.lbInf = true then
      D.divq (D.sub lhs (maxActTags ctag lbs ubs cells)) aik
    else .pinf
  else .pinf

/-- `implied_free_from_above_by_row`, `/repo/src/core/CoreTransformation.c:248-298`. -/
def impliedFreeAbove (aik : ℚ) (cells : List Cell) (lhs rhs : D) (rt : RTag) (lb ub : D)
    (t : CTag) (a : Act) (ctag : ℕ → CTag) (lbs ubs : ℕ → D) : Bool :=
  if t.ubInf then true
  else D.le (D.sub (impliedUb aik cells lhs rhs rt lb t a ctag lbs ubs) ub) (.fin 0)

/-- The value `implied_lb` computed in `implied_free_from_below_by_row`,
`/repo/src/core/CoreTransformation.c:311-348`. -/
def impliedLb (aik : ℚ) (cells : List Cell) (lhs rhs : D) (rt : RTag) (ub : D) (t : CTag)
    (a : Act) (ctag : ℕ → CTag) (lbs ubs : ℕ → D) : D :=
  if 0 < aik ∧ rt.lhsInf = false then
    if a.nInfMax = 0 then D.add ub (D.divq (D.sub lhs a.max) aik)
    else if a.nInfMax = 1 ∧ t.ubInf = true then
      D.divq (D.sub lhs (maxActTags ctag lbs ubs cells)) aik
    else .ninf
  else if aik < 0 ∧ rt.rhsInf = false then
    if a.nInfMin = 0 then D.add ub (D.divq (D.sub rhs a.min) aik)
    else if a.nInfMin = 1 ∧ t.ubInf = true then
      D.divq (D.sub rhs (minActTags ctag lbs ubs cells)) aik
    else .ninf
  else .ninf

/-- `implied_free_from_below_by_row`, `/repo/src/core/CoreTransformation.c:300-352`. -/
def impliedFreeBelow (aik : ℚ) (cells : List Cell) (lhs rhs : D) (rt : RTag) (lb ub : D)
    (t : CTag) (a : Act) (ctag : ℕ → CTag) (lbs ubs : ℕ → D) : Bool :=
  if t.lbInf then true
  else D.le (D.sub lb (impliedLb aik cells lhs rhs rt ub t a ctag lbs ubs)) (.fin 0)

/-- `is_ub_implied_free`, `/repo/src/core/CoreTransformation.c:472-505`: some row of the
column implies the upper bound.  (Returns at the first hit; the test has no effect on the
state.) -/
def isUbImpliedFree (s : St) (k : ℕ) : Bool :=
  (s.AT k).any (fun p => impliedFreeAbove p.2 (s.A p.1) (s.lhs p.1) (s.rhs p.1) (s.rtag p.1)
    (s.lb k) (s.ub k) (s.ctag k) (s.act p.1) s.ctag s.lb s.ub)

/-- `is_lb_implied_free`, `/repo/src/core/CoreTransformation.c:507-542`. -/
def isLbImpliedFree (s : St) (k : ℕ) : Bool :=
  (s.AT k).any (fun p => impliedFreeBelow p.2 (s.A p.1) (s.lhs p.1) (s.rhs p.1) (s.rtag p.1)
    (s.lb k) (s.ub k) (s.ctag k) (s.act p.1) s.ctag s.lb s.ub)

/-! ### Locks -/

/-- Add `du` to the up lock and `dd` to the down lock of column `k`. -/
def St.addLock (s : St) (k : ℕ) (du dd : ℤ) : St :=
  { s with up := upd s.up k (s.up k + du), down := upd s.down k (s.down k + dd) }

/-- Locks gained when a right-hand side appears: `change_rhs_of_ineq:373-386` and
`update_locks_ineq_to_eq:137-151` in `/repo/src/core/Locks.c`. -/
def locksNewRhs (s : St) (cells : List Cell) : St :=
  cells.foldl (fun s p => if 0 < p.2 then s.addLock p.1 1 0 else s.addLock p.1 0 1) s

/-- Locks gained when a left-hand side appears: `change_lhs_of_ineq:432-445` and
`update_locks_ineq_to_eq:120-133`. -/
def locksNewLhs (s : St) (cells : List Cell) : St :=
  cells.foldl (fun s p => if 0 < p.2 then s.addLock p.1 0 1 else s.addLock p.1 1 0) s

/-- `update_locks_eq_to_ineq`, `/repo/src/core/Locks.c:73-112`. -/
def locksEqToIneq (s : St) (cells : List Cell) (toUpper : Bool) : St :=
  cells.foldl (fun s p =>
    if toUpper then (if 0 < p.2 then s.addLock p.1 0 (-1) else s.addLock p.1 (-1) 0)
    else (if 0 < p.2 then s.addLock p.1 (-1) 0 else s.addLock p.1 0 (-1))) s

/-- Locks contributed by one coefficient: (up, down); `/repo/src/core/Locks.c:37-62` and
`count_locks_one_column:164-188`. -/
def lockOf (q : ℚ) (t : RTag) : ℤ × ℤ :=
  if 0 < q then ((if t.rhsInf then 0 else 1), (if t.lhsInf then 0 else 1))
  else ((if t.lhsInf then 0 else 1), (if t.rhsInf then 0 else 1))

/-- `update_lock_coeff_deletion`, `/repo/include/core/Locks.h:53-79`. -/
def lockDel (s : St) (k : ℕ) (q : ℚ) (t : RTag) : St :=
  s.addLock k (-(lockOf q t).1) (-(lockOf q t).2)

/-- `count_locks_one_column`, `/repo/src/core/Locks.c:155-190`. -/
def countLocks (rtag : ℕ → RTag) (cells : List Cell) : ℤ × ℤ :=
  cells.foldl (fun l p => (l.1 + (lockOf p.2 (rtag p.1)).1, l.2 + (lockOf p.2 (rtag p.1)).2))
    (0, 0)

/-- `change_rhs_of_ineq`, `/repo/src/core/CoreTransformation.c:354-411`. -/
def changeRhs (s : St) (i : ℕ) (newRhs : D) (other : ℕ) (ratio : ℚ) : St × Status :=
  let s := (s.check (!((s.rtag i).eq || (s.rtag i).inactive))).check (!D.isInf newRhs)
  if !(s.rtag i).lhsInf && D.le (D.add newRhs (.fin FEAS_TOL)) (s.lhs i) then (s, INFEASIBLE)
  else
    let rhsInf := (s.rtag i).rhsInf
    let s := s.check (rhsInf || D.lt newRhs (s.rhs i))
    let s := if rhsInf then locksNewRhs s (s.A i) else s
    let s := { s with rhs := upd s.rhs i newRhs
                      rtag := upd s.rtag i { s.rtag i with rhsInf := false } }
    let s :=
      if !(s.rtag i).lhsInf && isEqualFeasTol (s.lhs i) (s.rhs i) then
        let s := { s with rhs := upd s.rhs i (s.lhs i)
                          rtag := upd s.rtag i { s.rtag i with eq := true } }
        if (s.A i).length = 2 then { s with dtonRows := s.dtonRows ++ [i] } else s
      else s
    (s.save (.rhsChange i other (s.A i) newRhs ratio), REDUCED)

/-- `change_lhs_of_ineq`, `/repo/src/core/CoreTransformation.c:413-470`. -/
def changeLhs (s : St) (i : ℕ) (newLhs : D) (other : ℕ) (ratio : ℚ) : St × Status :=
  let s := (s.check (!((s.rtag i).eq || (s.rtag i).inactive))).check (!D.isInf newLhs)
  if !(s.rtag i).rhsInf && D.le (s.rhs i) (D.sub newLhs (.fin FEAS_TOL)) then (s, INFEASIBLE)
  else
    let lhsInf := (s.rtag i).lhsInf
    let s := s.check (lhsInf || D.lt (s.lhs i) newLhs)
    let s := if lhsInf then locksNewLhs s (s.A i) else s
    let s := { s with lhs := upd s.lhs i newLhs
                      rtag := upd s.rtag i { s.rtag i with lhsInf := false } }
    let s :=
      if !(s.rtag i).rhsInf && isEqualFeasTol (s.rhs i) (s.lhs i) then
        let s := { s with lhs := upd s.lhs i (s.rhs i)
                          rtag := upd s.rtag i { s.rtag i with eq := true } }
        if (s.A i).length = 2 then { s with dtonRows := s.dtonRows ++ [i] } else s
      else s
    (s.save (.lhsChange i other (s.A i) newLhs ratio), REDUCED)

/-! ### Objective -/

/-- `fix_var_in_obj`, `/repo/src/core/Problem.c:80-83`. -/
def fixVarInObj (s : St) (k : ℕ) (val : D) : St :=
  { s with off := D.add s.off (D.smul (s.c k) val) }

/-- `sub_var_in_obj`, `/repo/src/core/Problem.c:95-110`.  The loop includes column `k`
itself, whose cost becomes zero. -/
def subVarInObj (s : St) (cells : List Cell) (k : ℕ) (aik : ℚ) (rhs : D) : St :=
  if s.c k = 0 then s
  else
    let ratio := s.c k / aik
    { s with c := cells.foldl (fun c p => upd c p.1 (c p.1 - ratio * p.2)) s.c
             off := D.add s.off (D.smul ratio rhs) }

end Verif
