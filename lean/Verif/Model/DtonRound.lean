import Verif.Model.DtonMat

/-!
# One round over the doubleton equalities in the arrays (`/repo/src/explorers/DtonsEq.c:402-486, 653-740`)
-/

namespace Verif

/-- The state with the rows and columns that the arrays hold. -/
def Arrays.rows (M : Arrays) : St :=
  { M.s with A := fun i => if i < M.A.m then M.A.rowOf i else []
             AT := fun k => if k < M.AT.m then M.AT.rowOf k else [] }

/-- The part of `find_substitution` and `can_dton_be_eliminated` between reading the two cells of the row and the space
check, `/repo/src/explorers/DtonsEq.c:433-437, 111-166`: `none` skips the row, `some none` puts it aside,
`some (some (j, k, aij, aik))` asks for space in column `j`, which stays. -/
def dtonPick (s : St) (e0 e1 : Cell) : Option (Option (ℕ × ℕ × ℚ × ℚ)) :=
  if (s.ctag e0.1).inactive || (s.ctag e1.1).inactive then none
  else
    let first := dtonSubstFirst e0.2 e1.2 (s.colSize e0.1) (s.colSize e1.1)
    let aik := if first then e0.2 else e1.2
    let aij := if first then e1.2 else e0.2
    let k := if first then e0.1 else e1.1
    let j := if first then e1.1 else e0.1
    if dtonPivotBad aij aik then some none else some (some (j, k, aij, aik))

/-- `find_substitution`, `/repo/src/explorers/DtonsEq.c:402-486`.  `row.vals` and `row.cols` point to the start of the
row; the two cells are read from there.  `pref` are the answers of the direction heuristics of `shift_row`, which may
depend on the query. -/
def Arrays.findSubst (pref : ℕ → ℕ → ℕ → Bool) (maxShift : ℤ) (M : Arrays) (i : ℕ) : Option (Arrays × DtonPlan) :=
  if M.s.rowSize i < 2 then some (M, .skip)
  else do
    let s := (M.s.check ((M.s.rtag i).eq && !(M.s.rtag i).inactive)).check
      (D.eqb (M.s.lhs i) (M.s.rhs i) && !D.isInf (M.s.rhs i))
    let e0 ← M.A.getCell (M.A.ps i)
    let e1 ← M.A.getCell (M.A.ps i + 1)
    match dtonPick s e0 e1 with
    | none => some (⟨s, M.A, M.AT⟩, .skip)
    | some none => some (⟨s, M.A, M.AT⟩, .retry)
    | some (some p) =>
      (M.AT.sufficientSpace (pref s.tick) p.1 p.2.1 maxShift).map fun r =>
        (⟨{ s with tick := s.tick + 1 }, M.A, r.2⟩, if r.1 then .subst p.1 p.2.1 p.2.2.1 p.2.2.2 else .retry)

/-- Body of the loop of `remove_dton_eq_rows__`, `/repo/src/explorers/DtonsEq.c:677-722`.  `modify_bounds` only reads
the matrices; it runs on the rows and columns that they hold.  The two cells of the row are still in place when they
are saved (`/repo/src/explorers/DtonsEq.c:642-647`): the range of the row is empty by then and no row is moved. -/
def Arrays.dtonStep (pref : ℕ → ℕ → ℕ → Bool) (maxShift : ℤ) (acc : Arrays × List ℕ × Bool) (i : ℕ) :
    Option (Arrays × List ℕ × Bool) := do
  let f ← Arrays.findSubst pref maxShift acc.1 i
  match f.2 with
  | .skip => some (f.1, acc.2.1, acc.2.2)
  | .retry => some (f.1, acc.2.1 ++ [i], acc.2.2)
  | .subst j k aij aik =>
    let M := f.1
    let s := modifyBounds M.rows i aij aik (M.s.rhs i) (M.s.lb k) (M.s.ub k) j (M.s.ctag k)
    if (s.ctag j).inactive then some (⟨s, M.A, M.AT⟩, acc.2.1, true)
    else do
      let e0 ← M.A.getCell (M.A.ps i)
      let e1 ← M.A.getCell (M.A.ps i + 1)
      let s := { s with c := upd s.c j (s.c j - aij / aik * s.c k)
                        off := D.add s.off (D.smul (s.c k) (D.divq (s.rhs i) aik)) }
      let s := { s with rtag := upd s.rtag i { inactive := true }
                        rowSize := upd s.rowSize i (-1)
                        nnz := s.nnz - 2 }
      let r ← Arrays.dtonExecute ⟨s, M.A.setRange i (M.A.ps i) (M.A.ps i), M.AT⟩ i [e0, e1] j k aij aik acc.2.1 (s.c k)
      some (r.1, r.2, true)

/-- `remove_dton_eq_rows__`, `/repo/src/explorers/DtonsEq.c:653-740`; the Boolean is `status == REDUCED`. -/
def Arrays.dtonRound (pref : ℕ → ℕ → ℕ → Bool) (maxShift : ℤ) (M : Arrays) : Option (Arrays × Bool) := do
  let r ← M.s.dtonRows.foldlM (Arrays.dtonStep pref maxShift) (M, [], false)
  some (⟨{ r.1.s with dtonRows := r.2.1 }, r.1.A, r.1.AT⟩, r.2.2)

/-- The loop of `remove_dton_eq_rows:751-759`, with a bound on the number of rounds. -/
def Arrays.dtonLoop (pref : ℕ → ℕ → ℕ → Bool) (maxShift : ℤ) : ℕ → Arrays → Option Arrays
  | 0, _ => none
  | fuel + 1, M =>
    if M.s.dtonRows = [] then some M
    else do
      let r ← Arrays.dtonRound pref maxShift M
      if r.2 then Arrays.dtonLoop pref maxShift fuel r.1 else some r.1

/-- `remove_dton_eq_rows`, `/repo/src/explorers/DtonsEq.c:742-772`.  The sides of the rows of fixed columns are changed on
the rows and columns that the arrays hold. -/
def Arrays.removeDtonRows (pref : ℕ → ℕ → ℕ → Bool) (maxShift : ℤ) (M : Arrays) : Option Arrays := do
  let s := ((M.s.check (decide (M.s.stonRows = []))).check (decide (M.s.emptyRows = []))).check
    (decide (M.s.emptyCols = []))
  let M ← Arrays.dtonLoop pref maxShift (M.s.m + 1) ⟨s, M.A, M.AT⟩
  if M.s.fixedCols = [] then some M
  else Arrays.deleteInactiveCols ⟨deleteFixedCols M.rows, M.A, M.AT⟩

end Verif
