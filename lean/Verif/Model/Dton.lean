import Verif.Model.Ston

/-!
# Doubleton equality rows (`/repo/src/explorers/DtonsEq.c`)

The array versions of `insert_or_update_coeff` and `update_row_A_dton` are in
`Verif.Model.Mat` (C18); here they act on lists of cells.
-/

namespace Verif

/-- Everything the presolver asks of its environment and the model does not determine:
whether the transpose has room for fill-in (`sufficient_space_AT`,
`/repo/src/explorers/DtonsEq.c:41-91`, which depends on the memory layout), the order in which
`qsort` leaves the rows, the two hash functions, the stale hash of an inactive row, the clock
(`update_termination`, `/repo/src/core/Presolver.c:376`).  Indexed by the query counter
`St.tick` where the answer may differ from call to call. -/
structure Env where
  /-- `sufficient_space_AT` succeeds at this query. -/
  space : ℕ → Bool
  /-- Hash of the sparsity pattern, `hash_int_array` (`/repo/src/explorers/Parallel_rows.c:41-56`). -/
  hashSupp : List ℕ → ℤ
  /-- Hash of the scaled coefficients, `hash_double_array_with_scale`
  (`/repo/src/explorers/Parallel_rows.c:61-83`). -/
  hashCoef : List ℚ → ℤ
  /-- Left-over coefficient hash of an inactive row (`coeff_hashes` is not written for it,
  `/repo/src/explorers/Parallel_rows.c:95-101`). -/
  staleHash : ℕ → ℕ → ℤ
  /-- Order in which the sort (`sort_rows`, `/repo/src/explorers/Parallel_rows.c:143-149`) leaves
  a list of indices with the given keys. -/
  sort : ℕ → (ℕ → ℤ × ℤ) → List ℕ → List ℕ
  /-- The time limit has been reached at this query. -/
  timeUp : ℕ → Bool

/-- What the C library guarantees about `qsort`: a sorted permutation. -/
structure Env.SortOK (env : Env) : Prop where
  perm : ∀ t key l, (env.sort t key l).Perm l
  sorted : ∀ t key l, (env.sort t key l).Pairwise
    (fun a b => (key a).1 < (key b).1 ∨ ((key a).1 = (key b).1 ∧ (key a).2 ≤ (key b).2))

/-- Decision of `can_dton_be_eliminated` which of the two entries is substituted
(`/repo/src/explorers/DtonsEq.c:126-150`): `true` means the first one. -/
def dtonSubstFirst (a b : ℚ) (size0 size1 : ℤ) : Bool :=
  let int0 := isIntegral (.fin (|a| / |b|))
  let int1 := isIntegral (.fin (|b| / |a|))
  if size0 = 1 ∧ size1 ≠ 1 then true
  else if size0 ≠ 1 ∧ size1 = 1 then false
  else if int0 = true ∧ int1 = false then false
  else if int1 = true ∧ int0 = false then true
  else decide (size0 < size1)

/-- Pivot test, `/repo/src/explorers/DtonsEq.c:158-166`: `true` means rejected. -/
def dtonPivotBad (stay subst : ℚ) : Bool :=
  decide (MAX_RATIO_PIVOT < |stay / subst|) || decide (|stay / subst| < 1 / MAX_RATIO_PIVOT)

/-- Outcome of `find_substitution`, `/repo/src/explorers/DtonsEq.c:402-486`. -/
inductive DtonPlan where
  /-- skip this row -/
  | skip
  /-- rejected, try again in the next round -/
  | retry
  /-- column `j` stays, column `k` goes -/
  | subst (j k : ℕ) (aij aik : ℚ)
deriving DecidableEq, Repr

/-- `find_substitution` with `can_dton_be_eliminated`.  A row whose recorded size is at
least two but which has fewer cells would be read out of range and sets `undef`. -/
def findSubst (env : Env) (s : St) (i : ℕ) : St × DtonPlan :=
  if s.rowSize i < 2 then (s, .skip)
  else
    let s := (s.check ((s.rtag i).eq && !(s.rtag i).inactive)).check
      (D.eqb (s.lhs i) (s.rhs i) && !D.isInf (s.rhs i))
    match s.A i with
    | (c0, a0) :: (c1, a1) :: _ =>
      if (s.ctag c0).inactive || (s.ctag c1).inactive then (s, .skip)
      else
        let first := dtonSubstFirst a0 a1 (s.colSize c0) (s.colSize c1)
        let aik := if first then a0 else a1
        let aij := if first then a1 else a0
        let k := if first then c0 else c1
        let j := if first then c1 else c0
        if dtonPivotBad aij aik then (s, .retry)
        else
          let ok := env.space s.tick
          let s := { s with tick := s.tick + 1 }
          if ok then (s, .subst j k aij aik) else (s, .retry)
    | _ => (s.flag true, .skip)

/-- `modify_bounds`, `/repo/src/explorers/DtonsEq.c:189-234`.  The return values of `update_lb`
and `update_ub` are ignored, as in the code. -/
def modifyBounds (s : St) (i : ℕ) (aij aik : ℚ) (rhs lbk ubk : D) (j : ℕ) (t : CTag) : St :=
  let candL := D.divq (D.sub rhs (D.smul aik lbk)) aij
  let candU := D.divq (D.sub rhs (D.smul aik ubk)) aij
  if 0 < aik * aij then
    let s := if t.lbInf then s else (updateUb s j candL i).1
    if !t.lbInf && (s.ctag j).fixed then s
    else if t.ubInf then s else (updateLb s j candU i).1
  else
    let s := if t.lbInf then s else (updateLb s j candL i).1
    if !t.lbInf && (s.ctag j).fixed then s
    else if t.ubInf then s else (updateUb s j candU i).1

/-- Result of rewriting one row: the new cells, the old coefficient of the column that stays,
the one of the column that goes, the new one of the column that stays. -/
structure DtonRow where
  cells : List Cell
  oldStay : ℚ
  oldSubst : ℚ
  newStay : ℚ
deriving DecidableEq, Repr

/-- Write a cell into a row at position `ins` (`update_row_A_dton:331-356`,
`insert_or_update_coeff:455-487`): append, overwrite or insert. -/
def putCell (cells : List Cell) (ins col : ℕ) (v : ℚ) : List Cell :=
  match cells[ins]? with
  | none => cells ++ [(col, v)]
  | some p => if p.1 = col then cells.set ins (col, v) else cells.insertIdx ins (col, v)

/-- `update_row_A_dton`, `/repo/src/explorers/DtonsEq.c:236-368`, on the cells of row `q`.
`none` is undefined behaviour: the column that goes is not in the row, or a negligible
coefficient has to be removed behind the end of the row. -/
def dtonRow (cells : List Cell) (j k : ℕ) (ratio : ℚ) : Option DtonRow :=
  let sub := cells.findIdx (fun p => decide (p.1 = k))
  let ins := cells.findIdx (fun p => decide (j ≤ p.1))
  match cells[sub]? with
  | none => none
  | some ps =>
    let old := match cells[ins]? with
      | none => 0
      | some p => if p.1 = j then p.2 else 0
    let new := old - ratio * ps.2
    let cells1 := cells.eraseIdx sub
    let ins1 := if sub < ins then ins - 1 else ins
    if |new| ≤ ZERO_TOL then
      if ins1 < cells1.length then some ⟨cells1.eraseIdx ins1, old, ps.2, new⟩ else none
    else some ⟨putCell cells1 ins1 j new, old, ps.2, new⟩

/-- `insert_or_update_coeff`, `/repo/src/core/Matrix.c:433-509`, on the cells of column `j`
of the transpose. -/
def insertOrUpdCells (cells : List Cell) (col : ℕ) (v : ℚ) : Option (List Cell) :=
  let ins := cells.findIdx (fun p => decide (col ≤ p.1))
  if |v| ≤ ZERO_TOL then
    if ins < cells.length then some (cells.eraseIdx ins) else none
  else some (putCell cells ins col v)

/-- `update_lhs_and_rhs`, `/repo/src/explorers/DtonsEq.c:380-398`. -/
def dtonSides (s : St) (q : ℕ) (aik : ℚ) (rhs : D) (coef : ℚ) : St :=
  if D.eqb rhs (.fin 0) then s
  else
    let d := D.smul (coef / aik) rhs
    { s with
      lhs := if (s.rtag q).lhsInf then s.lhs else upd s.lhs q (D.sub (s.lhs q) d)
      rhs := if (s.rtag q).rhsInf then s.rhs else upd s.rhs q (D.sub (s.rhs q) d) }

/-- Size bookkeeping of `execute_substitution`, `/repo/src/explorers/DtonsEq.c:547-576`; the new
doubleton rows go to a buffer. -/
def dtonNoteSize (s : St) (q : ℕ) (oldLen : ℤ) (buf : List ℕ) : St × List ℕ :=
  if s.rowSize q = 0 then
    let s := s.check (!s.emptyRows.contains q)
    ({ s with emptyRows := s.emptyRows ++ [q] }, buf)
  else if s.rowSize q = 1 then
    if oldLen ≠ 1 then
      let s := s.check (!s.stonRows.contains q)
      ({ s with stonRows := s.stonRows ++ [q] }, buf)
    else (s, buf)
  else if s.rowSize q = 2 ∧ (s.rtag q).eq = true ∧ oldLen ≠ 2 then (s, buf ++ [q])
  else (s, buf)

/-- Recomputation of one activity and list of updated activities,
`/repo/src/explorers/DtonsEq.c:597-624`. -/
def dtonNoteAct (s : St) (q : ℕ) : St :=
  if (s.act q).status = .notAdded then
    { s with act := upd s.act q { s.act q with status := .added }, updActs := s.updActs ++ [q] }
  else s

/-- Activity part of the loop body, `/repo/src/explorers/DtonsEq.c:585-624`. -/
def dtonAct (s : St) (q j k : ℕ) (r : DtonRow) : St :=
  let a1 := updActCoeffChange (s.act q) (s.lb j) (s.ub j) r.oldStay r.newStay (s.ctag j)
  let a2 := updActCoeffChange a1.1 (s.lb k) (s.ub k) r.oldSubst 0 (s.ctag k)
  let s := { s with act := upd s.act q a2.1 }
  let s :=
    if a1.2.minRecompute || a2.2.minRecompute then
      dtonNoteAct { s with act := upd s.act q
                            { s.act q with min := minActNoTags s.lb s.ub (s.A q) } } q
    else s
  if a1.2.maxRecompute || a2.2.maxRecompute then
    dtonNoteAct { s with act := upd s.act q
                          { s.act q with max := maxActNoTags s.lb s.ub (s.A q) } } q
  else s

/-- The assertion of `insert_or_update_coeff`, `/repo/src/core/Matrix.c:493`: a coefficient that
has become negligible already has a cell. -/
def insertAssert (cells : List Cell) (col : ℕ) (v : ℚ) : Bool :=
  decide (ZERO_TOL < |v|) || cells.any (fun p => decide (p.1 = col))

/-- The assertion of `update_row_A_dton`, `/repo/src/explorers/DtonsEq.c:294-297`: cancellation against a coefficient
that is not small is complete or leaves something that is not small. -/
def dtonCoefAssert (r : DtonRow) : Bool :=
  decide (|r.oldSubst| ≤ 1 / 1000000) || decide (1 / 1000000 < |r.newStay|) || decide (r.newStay = 0)

/-- Body of the loop of `execute_substitution`, `/repo/src/explorers/DtonsEq.c:527-625`.  In the
two cases of undefined behaviour the assertion of `/repo/src/core/Matrix.c:493` counts as
failed. -/
def dtonSubstRow (i j k : ℕ) (aij aik : ℚ) (acc : St × List ℕ) (p : Cell) : St × List ℕ :=
  let (s, buf) := acc
  let q := p.1
  if (s.rtag q).inactive then (s, buf)
  else
    let s := s.check (decide (q ≠ i))
    match dtonRow (s.A q) j k (aij / aik) with
    | none => ((s.flag true).check false, buf)
    | some r =>
      let oldLen := s.rowSize q
      let diff : ℤ := ((s.A q).length : ℤ) - (r.cells.length : ℤ)
      let s := s.save (.addedRow i q (-r.oldSubst / aik))
      let s := { s with A := upd s.A q r.cells
                        rowSize := upd s.rowSize q (s.rowSize q - diff)
                        nnz := s.nnz - diff
                        tiny := s.tiny || (decide (r.newStay ≠ 0) && decide (|r.newStay| ≤ ZERO_TOL)) }
      let s := s.check (decide (s.rowSize q = (r.cells.length : ℤ)) && dtonCoefAssert r)
      let s := s.check (insertAssert (s.AT j) q r.newStay)
      let (s, buf) := dtonNoteSize s q oldLen buf
      match insertOrUpdCells (s.AT j) q r.newStay with
      | none => ((s.flag true).check false, buf)
      | some col =>
        let s := { s with AT := upd s.AT j col
                          colSize := upd s.colSize j
                            (s.colSize j + ((col.length : ℤ) - ((s.AT j).length : ℤ))) }
        let s := dtonSides s q aik (s.rhs i) r.oldSubst
        (dtonAct s q j k r, buf)

/-- `execute_substitution`, `/repo/src/explorers/DtonsEq.c:488-648`. -/
def dtonExecute (s : St) (i : ℕ) (rowCells : List Cell) (j k : ℕ) (aij aik : ℚ)
    (buf : List ℕ) (ck : ℚ) : St × List ℕ :=
  let subst := s.AT k
  let s := s.flag (!(s.AT j).any (fun p => decide (p.1 = i)))
  let s := { s with AT := upd (upd s.AT j (dropCell i (s.AT j))) k []
                    colSize := upd s.colSize j (s.colSize j - 1) }
  let (s, buf) := subst.foldl (dtonSubstRow i j k aij aik) (s, buf)
  let s :=
    if s.colSize j = 0 then
      let s := s.check (!(s.ctag j).inactive && !s.emptyCols.contains j)
      { s with emptyCols := s.emptyCols ++ [j] }
    else if s.colSize j = 1 then
      let s := s.check (!(s.ctag j).inactive && !s.stonCols.contains j)
      { s with stonCols := s.stonCols ++ [j] }
    else s
  let s := { s with ctag := upd s.ctag k { fixed := true, subst := true }
                    colSize := upd s.colSize k (-1) }
  let s := s.check (decide (s.colSize j = ((s.AT j).length : ℤ)))
  let l := countLocks s.rtag (s.AT j)
  let s := { s with up := upd s.up j l.1, down := upd s.down j l.2 }
  let s := s.save (.subCol k rowCells (s.rhs i) i ck)
  (s.save (.deletedRow i (ck / aik)), buf)

/-- Body of the loop of `remove_dton_eq_rows__`, `/repo/src/explorers/DtonsEq.c:677-722`:
state, buffer of new doubleton rows, whether something was reduced. -/
def dtonStep (env : Env) (acc : St × List ℕ × Bool) (i : ℕ) : St × List ℕ × Bool :=
  let (s, buf, red) := acc
  match findSubst env s i with
  | (s, .skip) => (s, buf, red)
  | (s, .retry) => (s, buf ++ [i], red)
  | (s, .subst j k aij aik) =>
    let s := modifyBounds s i aij aik (s.rhs i) (s.lb k) (s.ub k) j (s.ctag k)
    if (s.ctag j).inactive then (s, buf, true)
    else
      let rowCells := (s.A i).take 2
      let s := { s with c := upd s.c j (s.c j - aij / aik * s.c k)
                        off := D.add s.off (D.smul (s.c k) (D.divq (s.rhs i) aik)) }
      let s := { s with rtag := upd s.rtag i { inactive := true }
                        rowSize := upd s.rowSize i (-1)
                        A := upd s.A i []
                        nnz := s.nnz - 2 }
      let r := dtonExecute s i rowCells j k aij aik buf (s.c k)
      (r.1, r.2, true)

/-- `remove_dton_eq_rows__`, `/repo/src/explorers/DtonsEq.c:653-740`; the Boolean is
`status == REDUCED`. -/
def dtonRound (env : Env) (s : St) : St × Bool :=
  let r := s.dtonRows.foldl (dtonStep env) (s, [], false)
  ({ r.1 with dtonRows := r.2.1 }, r.2.2)

/-- The loop of `remove_dton_eq_rows:751-759`, with a bound on the number of rounds. -/
def dtonLoop (env : Env) : ℕ → St → St
  | 0, s => s.flag true
  | fuel + 1, s =>
    if s.dtonRows = [] then s
    else
      let r := dtonRound env s
      if r.2 then dtonLoop env fuel r.1 else r.1

/-- `remove_dton_eq_rows`, `/repo/src/explorers/DtonsEq.c:742-772` (returns `UNCHANGED`).  Every
round that reduces something removes a row, which bounds the number of rounds. -/
def removeDtonRows (env : Env) (s : St) : St :=
  let s := ((s.check (decide (s.stonRows = []))).check (decide (s.emptyRows = []))).check
    (decide (s.emptyCols = []))
  let s := dtonLoop env (s.m + 1) s
  if s.fixedCols = [] then s else deleteInactiveCols (deleteFixedCols s)

end Verif
