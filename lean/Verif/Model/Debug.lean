import Verif.Model.Driver

/-!
# The consistency checks of debug builds

`run_debugger` (`/repo/src/core/Debugger.c:42-62`) as Boolean functions of the state: `false` stands
for a failing assertion.  In the model rows and columns are lists of cells, so the checks on the layout
of the arrays (`Debugger.c:363-375`, `396-401`: row ranges ascending, no null pointers, no gaps after the
compression) have no counterpart here; `Verif.Model.Mat` is about those.  `debugPoints` collects the
states on which the driver calls the debugger.
-/

namespace Verif

/-- `verify_row_and_col_sizes`, `/repo/src/core/Debugger.c:541-598`. -/
def verifySizes (s : St) : Bool :=
  (List.range s.m).all (fun i =>
    (if (s.rtag i).inactive then decide (s.rowSize i = -1) && decide (s.A i = [])
     else decide (s.rowSize i = (s.A i).length)) &&
    (decide (s.rowSize i ≠ -1) || (s.rtag i).inactive)) &&
  (List.range s.n).all (fun k =>
    (if (s.ctag k).inactive then decide (s.colSize k = -1) && decide (s.AT k = [])
     else decide (s.colSize k = (s.AT k).length)) &&
    (decide (s.colSize k ≠ -1) || (s.ctag k).inactive))

/-- The pattern of `verify_empty_rows`, `verify_empty_cols` and `verify_ston_rows`: the listed indices
are exactly those of the given size. -/
def verifyListed (n : ℕ) (size : ℕ → ℤ) (v : ℤ) (l : List ℕ) : Bool :=
  l.all (fun i => decide (size i = v)) &&
  (List.range n).all (fun i => decide (size i ≠ v) || decide (i ∈ l))

/-- `verify_empty_rows`, `/repo/src/core/Debugger.c:92-117`. -/
def verifyEmptyRows (s : St) : Bool := verifyListed s.m s.rowSize 0 s.emptyRows

/-- `verify_empty_cols`, `/repo/src/core/Debugger.c:119-144`. -/
def verifyEmptyCols (s : St) : Bool := verifyListed s.n s.colSize 0 s.emptyCols

/-- `verify_ston_rows`, `/repo/src/core/Debugger.c:174-200`. -/
def verifyStonRows (s : St) : Bool := verifyListed s.m s.rowSize 1 s.stonRows

/-- `verify_ston_cols`, `/repo/src/core/Debugger.c:146-172`. -/
def verifyStonCols (s : St) : Bool :=
  s.stonCols.all (fun k => decide (s.colSize k ≤ 1)) &&
  (List.range s.n).all (fun k => decide (s.colSize k ≠ 1) || decide (k ∈ s.stonCols))

/-- `verify_doubleton_rows`, `/repo/src/core/Debugger.c:202-242`. -/
def verifyDtonRows (s : St) : Bool :=
  s.dtonRows.all (fun i => decide (s.rowSize i ≤ 2) &&
    ((s.rtag i).eq || (s.rtag i).inactive || decide (s.rowSize i < 2))) &&
  (List.range s.m).all (fun i => !(decide (s.rowSize i = 2) && (s.rtag i).eq) || decide (i ∈ s.dtonRows))

/-- `verify_no_duplicates_lists`, `/repo/src/core/Debugger.c:305-320`; that the indices are not negative is
part of the type. -/
def verifyNoDuplicates (s : St) : Bool :=
  decide s.updActs.Nodup && decide s.dtonRows.Nodup && decide s.stonRows.Nodup && decide s.fixedCols.Nodup &&
  decide s.subCols.Nodup && decide s.rowsToDelete.Nodup

/-- `verify_row_tags`, `/repo/src/core/Debugger.c:322-356`. -/
def verifyRowTags (s : St) : Bool :=
  (List.range s.m).all (fun i =>
    (!(D.eqb (s.lhs i) .ninf && !(s.rtag i).inactive) || (s.rtag i).lhsInf) &&
    (!(D.eqb (s.rhs i) .pinf && !(s.rtag i).inactive) || (s.rtag i).rhsInf) &&
    (!(s.rtag i).lhsInf || D.eqb (s.lhs i) .ninf) &&
    (!(s.rtag i).rhsInf || D.eqb (s.rhs i) .pinf) &&
    (!(!(s.rtag i).lhsInf && !(s.rtag i).rhsInf && D.eqb (s.lhs i) (s.rhs i)) ||
      (s.rtag i).eq || (s.rtag i).inactive))

/-- The part of `verify_CSR_matrix` about the entries, `/repo/src/core/Debugger.c:377-394`: the indices
of a row increase, no zero is stored, `nnz` is the number of entries. -/
def verifyCsr (m : ℕ) (A : ℕ → List Cell) (nnz : ℤ) : Bool :=
  (List.range m).all (fun i => decide ((A i).Pairwise (fun a b => a.1 < b.1)) &&
    (A i).all (fun p => decide (p.2 ≠ 0))) &&
  decide (((List.range m).map (fun i => ((A i).length : ℤ))).sum = nnz)

/-- `verify_A_and_AT`, `/repo/src/core/Debugger.c:462-479`, with `verify_A_and_AT_consistency`
(406-444; `transpose` builds `colCells`, C16) and `verify_no_inactive_cols` (446-460).  The model keeps one
`nnz` for both matrices. -/
def verifyMatrices (s : St) : Bool :=
  verifyCsr s.m s.A s.nnz && verifyCsr s.n s.AT s.nnz &&
  (List.range s.n).all (fun k => decide (s.AT k = colCells s.m s.A k)) &&
  (List.range s.m).all (fun i => (s.A i).all (fun p => !(s.ctag p.1).inactive)) &&
  (List.range s.n).all (fun k => (s.AT k).all (fun p => !(s.rtag p.1).inactive))

/-- The numbers of rows that block a column, as counted by `verify_locks`
(`/repo/src/core/Debugger.c:500-519`). -/
def debugLocks (s : St) (k : ℕ) : ℤ × ℤ :=
  ((((s.AT k).filter (fun p => (decide (0 < p.2) && !(s.rtag p.1).rhsInf) ||
      (decide (p.2 < 0) && !(s.rtag p.1).lhsInf))).length : ℕ),
   (((s.AT k).filter (fun p => (decide (0 < p.2) && !(s.rtag p.1).lhsInf) ||
      (decide (p.2 < 0) && !(s.rtag p.1).rhsInf))).length : ℕ))

/-- `verify_locks`, `/repo/src/core/Debugger.c:481-520`. -/
def verifyLocks (s : St) : Bool :=
  (List.range s.n).all (fun k => (s.ctag k).inactive || decide ((s.up k, s.down k) = debugLocks s k))

/-- The lists that `verify_empty_when_finished` (`/repo/src/core/Debugger.c:522-539`) wants to be empty.
Its check that no row or column is tagged inactive concerns the compressed arrays. -/
def verifyFinished (s : St) : Bool :=
  decide (s.emptyCols = []) && decide (s.emptyRows = []) && decide (s.rowsToDelete = []) &&
  decide (s.fixedCols = []) && decide (s.subCols = [])

/-- Which cells of a row `verify_activity` counts as infinite contributions to the maximal activity,
`/repo/src/core/Debugger.c:615-647`. -/
def debugInfMax (s : St) (p : Cell) : Bool :=
  !(s.ctag p.1).inactive && (if 0 < p.2 then (s.ctag p.1).ubInf else (s.ctag p.1).lbInf)

/-- The same for the minimal activity. -/
def debugInfMin (s : St) (p : Cell) : Bool :=
  !(s.ctag p.1).inactive && (if 0 < p.2 then (s.ctag p.1).lbInf else (s.ctag p.1).ubInf)

/-- `verify_activities`, `/repo/src/core/Debugger.c:722-738`, with `verify_activity` (600-720): the counts of
infinite contributions, and the bounds used are finite when there are none.  Not modelled: the value
`INVALID_ACT_DEBUG` that debug builds store in an infinite activity.  The code computes the finite activities and does
not compare them. -/
def verifyActivities (s : St) : Bool :=
  (List.range s.m).all (fun i => (s.rtag i).inactive ||
    (decide ((((s.A i).filter (debugInfMax s)).length : ℤ) = (s.act i).nInfMax) &&
     decide ((((s.A i).filter (debugInfMin s)).length : ℤ) = (s.act i).nInfMin) &&
     (decide (0 < (s.act i).nInfMax) || (s.A i).all (fun p => (s.ctag p.1).inactive ||
       (if 0 < p.2 then !(s.ctag p.1).ubInf && !D.eqb (s.ub p.1) .pinf
        else !(s.ctag p.1).lbInf && !D.eqb (s.lb p.1) .ninf))) &&
     (decide (0 < (s.act i).nInfMin) || (s.A i).all (fun p => (s.ctag p.1).inactive ||
       (if 0 < p.2 then !(s.ctag p.1).lbInf && !D.eqb (s.lb p.1) .ninf
        else !(s.ctag p.1).ubInf && !D.eqb (s.ub p.1) .pinf)))))

/-- `run_debugger`, `/repo/src/core/Debugger.c:42-62`, without the checks of the activities
(`verifyActivities`). -/
def runDebugger (s : St) (finished : Bool) : Bool :=
  verifySizes s && verifyEmptyRows s && verifyStonRows s && verifyDtonRows s && verifyEmptyCols s &&
  verifyStonCols s && verifyNoDuplicates s && verifyMatrices s && verifyLocks s && verifyRowTags s &&
  (!finished || verifyFinished s)

/-- `mainLoop` that also collects the states given to the debugger after the trivial explorers
(`/repo/src/core/Presolver.c:696`), oldest first. -/
def mainLoopD (env : Env) (stgs : Settings) :
    ℕ → St → Complexity → ℤ → ℤ → (St × Status × Bool) × List St
  | 0, s, _, _, _ => ((s, UNCHANGED, false), [])
  | fuel + 1, s, c, beforeCycle, afterCycle =>
    let r := runTrivial stgs s
    if r.2 ≠ UNCHANGED then ((r.1, r.2, true), [])
    else
      let beforePhase := r.1.nnz
      let q := match c with
        | .fast => runFast env stgs r.1
        | .medium => runMedium env stgs r.1
      let afterCycle := if c = .medium then q.1.nnz else afterCycle
      let t := env.timeUp q.1.tick
      let s := { q.1 with tick := q.1.tick + 1 }
      if updateTermination afterCycle beforeCycle c q.2 t then ((s, q.2, true), [r.1])
      else
        let w := mainLoopD env stgs fuel s (updateComplexity c beforePhase s.nnz)
          (if c = .medium then afterCycle else beforeCycle) afterCycle
        (w.1, r.1 :: w.2)

/-- The states on which `new_presolver` and `run_presolver` call the debugger, with its argument
`finished`: `/repo/src/core/Presolver.c:320`, `673`, `696` and `743`.  At line 743 the arrays have just been
compressed (`problem_clean`); the model keeps the numbering of the original problem. -/
def debugPoints (env : Env) (stgs : Settings) (fuel : ℕ) (P : LP) : List (St × Bool) :=
  let s := initSt P
  let w := mainLoopD env stgs fuel s .fast s.nnz s.nnz
  (s, false) :: (s, false) :: w.2.map (fun t => (t, false)) ++
    (if w.1.2.1 = UNCHANGED ∧ w.1.2.2 = true then
      [(if stgs.relaxBounds then removeRedundantBounds w.1.1 else w.1.1, true)] else [])

/-- Collecting the states changes nothing. -/
theorem mainLoopD_erase (env : Env) (stgs : Settings) (fuel : ℕ) (s : St) (c : Complexity) (b a : ℤ) :
    (mainLoopD env stgs fuel s c b a).1 = mainLoop env stgs fuel s c b a := by
  induction fuel generalizing s c b a with
  | zero => rfl
  | succ fuel ih =>
    unfold mainLoopD mainLoop
    cases c <;>
    · simp only
      split
      · rfl
      · generalize updateTermination _ _ _ _ _ = x
        cases x
        · exact ih ..
        · rfl

end Verif
