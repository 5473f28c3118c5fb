import Verif.Model.PrimProp
import Verif.Model.Postsolve

/-!
# The driver (`/repo/src/core/Presolver.c`)
-/

namespace Verif

/-- The problem handed to `new_presolver`: `minimize c·x` subject to `lhs ≤ A x ≤ rhs`,
`lb ≤ x ≤ ub`; rows as lists of cells. -/
structure LP where
  m : ℕ
  n : ℕ
  A : ℕ → List Cell
  lhs : ℕ → D
  rhs : ℕ → D
  lb : ℕ → D
  ub : ℕ → D
  c : ℕ → ℚ

/-- Column `k` of the matrix: (row, value), rows in increasing order.  The array code for it is
`transpose` (`/repo/src/core/Matrix.c:119-178`, C16). -/
def colCells (m : ℕ) (A : ℕ → List Cell) (k : ℕ) : List Cell :=
  (List.range m).flatMap (fun i => ((A i).filter (fun p => decide (p.1 = k))).map
    (fun p => (i, p.2)))

/-- `Settings`, `/repo/include/PSLP/PSLP_API.h`: the fields read during presolve. -/
structure Settings where
  stonCols : Bool
  dtonEq : Bool
  parallelRows : Bool
  parallelCols : Bool
  primalPropagation : Bool
  dualFix : Bool
  finiteBoundTightening : Bool
  relaxBounds : Bool
deriving DecidableEq, Repr

/-- `new_rowtags`, `/repo/src/core/Tags.c:23-48`. -/
def rowTagOf (lhs rhs : D) : RTag :=
  { rhsInf := D.eqb rhs .pinf
    lhsInf := D.eqb lhs .ninf
    eq := !D.eqb lhs .ninf && D.eqb lhs rhs }

/-- Column tags of `init_thread_func`, `/repo/src/core/Presolver.c:122-138`. -/
def colTagOf (lb ub : D) : CTag := { lbInf := D.eqb lb .ninf, ubInf := D.eqb ub .pinf }

/-- The state built by `new_presolver`, `/repo/src/core/Presolver.c:212-351`, `new_state`,
`/repo/src/core/State.c:47-152`, `new_activities`, `new_locks`.  Rows and columns outside the
arrays count as inactive. -/
def initSt (P : LP) : St :=
  let AT := colCells P.m P.A
  let rtag := fun i => if i < P.m then rowTagOf (P.lhs i) (P.rhs i) else { inactive := true }
  let ctag := fun k => if k < P.n then colTagOf (P.lb k) (P.ub k) else { fixed := true }
  let act0 := fun i => actInit ctag P.lb P.ub (P.A i)
  let upd := fun i => decide ((act0 i).nInfMin = 0 ∨ (act0 i).nInfMax = 0)
  { m := P.m, n := P.n, A := P.A, AT := AT, lhs := P.lhs, rhs := P.rhs, lb := P.lb, ub := P.ub
    rtag := rtag, ctag := ctag, c := P.c, off := .fin 0
    rowSize := fun i => if i < P.m then (P.A i).length else -1
    colSize := fun k => if k < P.n then (AT k).length else -1
    up := fun k => (countLocks rtag (AT k)).1
    down := fun k => (countLocks rtag (AT k)).2
    act := fun i => if i < P.m ∧ upd i = true then { act0 i with status := .added } else act0 i
    emptyRows := (List.range P.m).filter (fun i => decide ((P.A i).length = 0))
    stonRows := (List.range P.m).filter (fun i => decide ((P.A i).length = 1))
    dtonRows := (List.range P.m).filter (fun i => decide ((P.A i).length = 2) && (rtag i).eq)
    emptyCols := (List.range P.n).filter (fun k => decide ((AT k).length = 0))
    stonCols := (List.range P.n).filter (fun k => decide ((AT k).length = 1))
    rowsToDelete := [], fixedCols := [], subCols := []
    updActs := (List.range P.m).filter upd
    nnz := ((List.range P.m).map (fun i => ((P.A i).length : ℤ))).sum
    log := [], tick := 0, undef := false, asrt := true }

/-- The do-while loop over singleton rows of `run_trivial_explorers:442-446`, with a bound on
the number of rounds. -/
def stonRowsLoop : ℕ → St → St × Status
  | 0, s => (s.flag true, UNCHANGED)
  | fuel + 1, s =>
    let r := removeStonRows s
    if r.2 = INFEASIBLE then r
    else if r.2 = REDUCED then stonRowsLoop fuel r.1 else r

/-- The part of `run_trivial_explorers` before the singleton rows, lines 427-440. -/
def trivialHead (stgs : Settings) (s : St) : St × Status :=
  let r := closeBounds s
  if r.2 = INFEASIBLE then r
  else if stgs.dualFix then
    let e := removeEmptyCols r.1
    let d := simpleDualFix e.1
    (d.1, r.2 ||| e.2 ||| d.2)
  else r

/-- `run_trivial_explorers`, `/repo/src/core/Presolver.c:422-458`. -/
def runTrivial (stgs : Settings) (s : St) : St × Status :=
  let r := trivialHead stgs s
  if r.2 = INFEASIBLE then r
  else if stgs.dualFix ∧ r.2 = UNBNDORINFEAS then r
  else
    let r := stonRowsLoop (r.1.m + 2) r.1
    if r.2 = INFEASIBLE then r
    else
      let r := removeEmptyRows r.1
      if r.2 = INFEASIBLE then r
      else
        let r := removeEmptyCols r.1
        if r.2 = UNBNDORINFEAS then r
        else
          let s := ((r.1.check (decide (r.1.stonRows = []))).check
            (decide (r.1.emptyRows = []))).check (decide (r.1.emptyCols = []))
          (s, UNCHANGED)

/-- `run_fast_explorers`, `/repo/src/core/Presolver.c:464-489`. -/
def runFast (env : Env) (stgs : Settings) (s : St) : St × Status :=
  let r :=
    if stgs.stonCols then
      let a := removeStonCols s
      let a := (a.1.check (decide (a.1.emptyRows = [])), a.2)
      let b := runTrivial stgs a.1
      (b.1, a.2 ||| b.2)
    else (s, UNCHANGED)
  if stgs.dtonEq then
    let b := runTrivial stgs (removeDtonRows env r.1)
    (b.1, r.2 ||| b.2)
  else r

/-- `run_medium_explorers`, `/repo/src/core/Presolver.c:494-571` (statistics left out). -/
def runMedium (env : Env) (stgs : Settings) (s : St) : St × Status :=
  let r :=
    if stgs.primalPropagation then
      let a := checkActivities s
      let b := propagatePrimal stgs.finiteBoundTightening a.1
      let d := runTrivial stgs b.1
      (d.1, a.2 ||| b.2 ||| d.2)
    else (s, UNCHANGED)
  if r.2 ≠ UNCHANGED then r
  else
    let r := if stgs.parallelRows then removeParallelRows env r.1 else r
    if r.2 ≠ UNCHANGED then r
    else if stgs.parallelCols then
      let a := removeParallelCols env r.1
      let d := runTrivial stgs a.1
      (d.1, a.2 ||| d.2)
    else r

/-- `Complexity`. -/
inductive Complexity where
  | fast | medium
deriving DecidableEq, Repr

/-- `update_complexity`, `/repo/src/core/Presolver.c:395-416`;
`NNZ_REMOVED_FAST` is `0.95` (`/repo/include/core/glbopts.h`). -/
def updateComplexity (c : Complexity) (before after : ℤ) : Complexity :=
  match c with
  | .fast => if (after : ℚ) < 95 / 100 * (before : ℚ) then .fast else .medium
  | .medium => .fast

/-- `update_termination`, `/repo/src/core/Presolver.c:360-385`. -/
def updateTermination (afterCycle beforeCycle : ℤ) (c : Complexity) (st : Status)
    (timeUp : Bool) : Bool :=
  hasStatus st UNBNDORINFEAS ||
  (decide (c = .medium) && decide (95 / 100 * (beforeCycle : ℚ) ≤ (afterCycle : ℚ))) || timeUp

/-- Main loop of `run_presolver`, `/repo/src/core/Presolver.c:684-733`, with a bound on the
number of iterations; the Boolean says that the loop ended by itself. -/
def mainLoop (env : Env) (stgs : Settings) :
    ℕ → St → Complexity → ℤ → ℤ → St × Status × Bool
  | 0, s, _, _, _ => (s, UNCHANGED, false)
  | fuel + 1, s, c, beforeCycle, afterCycle =>
    let r := runTrivial stgs s
    if r.2 ≠ UNCHANGED then (r.1, r.2, true)
    else
      let beforePhase := r.1.nnz
      let q := match c with
        | .fast => runFast env stgs r.1
        | .medium => runMedium env stgs r.1
      let afterCycle := if c = .medium then q.1.nnz else afterCycle
      let t := env.timeUp q.1.tick
      let s := { q.1 with tick := q.1.tick + 1 }
      if updateTermination afterCycle beforeCycle c q.2 t then (s, q.2, true)
      else
        mainLoop env stgs fuel s (updateComplexity c beforePhase s.nnz)
          (if c = .medium then afterCycle else beforeCycle) afterCycle

/-- What `run_presolver` leaves behind: the final state (with the numbering of the original
problem), whether it was completed (bounds relaxed), the status. -/
def runPresolver (env : Env) (stgs : Settings) (fuel : ℕ) (P : LP) : St × Status × Bool :=
  let s := initSt P
  let r := mainLoop env stgs fuel s .fast s.nnz s.nnz
  if r.2.1 ≠ UNCHANGED then r
  else (if stgs.relaxBounds then removeRedundantBounds r.1 else r.1, r.2)

/-- The index map built by `remove_extra_space` with `remove_all`
(`/repo/src/core/Matrix.c:205-270`, C19): rank of the present indices. -/
def idxMapOf (size : ℕ → ℤ) (i : ℕ) : Option ℕ :=
  if size i = -1 then none
  else some ((List.range i).filter (fun j => decide (size j ≠ -1))).length

/-- `postsolve`, `/repo/src/core/Presolver.c:760-779`. -/
def postsolve (s : St) (x y z : ℕ → D) : Option Sol :=
  postsolverRun s.log (idxMapOf s.colSize) (idxMapOf s.rowSize) x y z

end Verif
