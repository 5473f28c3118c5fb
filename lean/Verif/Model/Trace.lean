import Verif.Model.Driver

/-!
# The driver with a record of the explorer calls

`Verif.Model.Driver` with one addition: every call of an explorer is written down together with
the status it returned (oldest first).  `…T_erase` says that nothing else changes.
-/

namespace Verif

/-- The explorers called by the driver, `/repo/src/core/Presolver.c:422-571`. -/
inductive Expl where
  | closeBounds | emptyCols | dualFix | stonRows | emptyRows
  | stonCols | dton | checkActs | propagation | parallelRows | parallelCols
deriving DecidableEq, Repr

/-- Calls of explorers and the statuses they returned, oldest first. -/
abbrev Trace := List (Expl × Status)

/-- `stonRowsLoop` with trace: `/repo/src/core/Presolver.c:442-446`. -/
def stonRowsLoopT : ℕ → St → St × Status × Trace
  | 0, s => (s.flag true, UNCHANGED, [])
  | fuel + 1, s =>
    let r := removeStonRows s
    if r.2 = INFEASIBLE then (r.1, r.2, [(.stonRows, r.2)])
    else if r.2 = REDUCED then
      let q := stonRowsLoopT fuel r.1
      (q.1, q.2.1, (.stonRows, r.2) :: q.2.2)
    else (r.1, r.2, [(.stonRows, r.2)])

/-- `trivialHead` with trace: `/repo/src/core/Presolver.c:427-440`. -/
def trivialHeadT (stgs : Settings) (s : St) : St × Status × Trace :=
  let r := closeBounds s
  if r.2 = INFEASIBLE then (r.1, r.2, [(.closeBounds, r.2)])
  else if stgs.dualFix then
    let e := removeEmptyCols r.1
    let d := simpleDualFix e.1
    (d.1, r.2 ||| e.2 ||| d.2, [(.closeBounds, r.2), (.emptyCols, e.2), (.dualFix, d.2)])
  else (r.1, r.2, [(.closeBounds, r.2)])

/-- `runTrivial` with trace: `/repo/src/core/Presolver.c:422-458`. -/
def runTrivialT (stgs : Settings) (s : St) : St × Status × Trace :=
  let r := trivialHeadT stgs s
  if r.2.1 = INFEASIBLE then r
  else if stgs.dualFix ∧ r.2.1 = UNBNDORINFEAS then r
  else
    let q := stonRowsLoopT (r.1.m + 2) r.1
    if q.2.1 = INFEASIBLE then (q.1, q.2.1, r.2.2 ++ q.2.2)
    else
      let e := removeEmptyRows q.1
      if e.2 = INFEASIBLE then (e.1, e.2, r.2.2 ++ q.2.2 ++ [(.emptyRows, e.2)])
      else
        let f := removeEmptyCols e.1
        let tr := r.2.2 ++ q.2.2 ++ [(.emptyRows, e.2), (.emptyCols, f.2)]
        if f.2 = UNBNDORINFEAS then (f.1, f.2, tr)
        else
          let s := ((f.1.check (decide (f.1.stonRows = []))).check
            (decide (f.1.emptyRows = []))).check (decide (f.1.emptyCols = []))
          (s, UNCHANGED, tr)

/-- `runFast` with trace: `/repo/src/core/Presolver.c:464-489`. -/
def runFastT (env : Env) (stgs : Settings) (s : St) : St × Status × Trace :=
  let r :=
    if stgs.stonCols then
      let a := removeStonCols s
      let a := (a.1.check (decide (a.1.emptyRows = [])), a.2)
      let b := runTrivialT stgs a.1
      (b.1, a.2 ||| b.2.1, (.stonCols, a.2) :: b.2.2)
    else (s, UNCHANGED, [])
  if stgs.dtonEq then
    let b := runTrivialT stgs (removeDtonRows env r.1)
    (b.1, r.2.1 ||| b.2.1, r.2.2 ++ (.dton, UNCHANGED) :: b.2.2)
  else r

/-- The part of `run_medium_explorers` after the propagation,
`/repo/src/core/Presolver.c:527-571`. -/
def mediumTail (env : Env) (stgs : Settings) (r : St × Status) : St × Status :=
  if r.2 ≠ UNCHANGED then r
  else
    let r := if stgs.parallelRows then removeParallelRows env r.1 else r
    if r.2 ≠ UNCHANGED then r
    else if stgs.parallelCols then
      let a := removeParallelCols env r.1
      let d := runTrivial stgs a.1
      (d.1, a.2 ||| d.2)
    else r

/-- `mediumTail` with trace: `/repo/src/core/Presolver.c:527-571`. -/
def mediumTailT (env : Env) (stgs : Settings) (r : St × Status × Trace) : St × Status × Trace :=
  if r.2.1 ≠ UNCHANGED then r
  else
    let q := if stgs.parallelRows then
        let a := removeParallelRows env r.1
        (a.1, a.2, r.2.2 ++ [(Expl.parallelRows, a.2)])
      else r
    if q.2.1 ≠ UNCHANGED then q
    else if stgs.parallelCols then
      let a := removeParallelCols env q.1
      let d := runTrivialT stgs a.1
      (d.1, a.2 ||| d.2.1, q.2.2 ++ (Expl.parallelCols, a.2) :: d.2.2)
    else q

/-- `runMedium` with trace: `/repo/src/core/Presolver.c:494-571`. -/
def runMediumT (env : Env) (stgs : Settings) (s : St) : St × Status × Trace :=
  mediumTailT env stgs
    (if stgs.primalPropagation then
      let a := checkActivities s
      let b := propagatePrimal stgs.finiteBoundTightening a.1
      let d := runTrivialT stgs b.1
      (d.1, a.2 ||| b.2 ||| d.2.1, (.checkActs, a.2) :: (.propagation, b.2) :: d.2.2)
    else (s, UNCHANGED, []))

/-- `mainLoop` with trace: `/repo/src/core/Presolver.c:684-733`. -/
def mainLoopT (env : Env) (stgs : Settings) :
    ℕ → St → Complexity → ℤ → ℤ → St × Status × Bool × Trace
  | 0, s, _, _, _ => (s, UNCHANGED, false, [])
  | fuel + 1, s, c, beforeCycle, afterCycle =>
    let r := runTrivialT stgs s
    if r.2.1 ≠ UNCHANGED then (r.1, r.2.1, true, r.2.2)
    else
      let beforePhase := r.1.nnz
      let q := match c with
        | .fast => runFastT env stgs r.1
        | .medium => runMediumT env stgs r.1
      let afterCycle := if c = .medium then q.1.nnz else afterCycle
      let t := env.timeUp q.1.tick
      let s := { q.1 with tick := q.1.tick + 1 }
      if updateTermination afterCycle beforeCycle c q.2.1 t then
        (s, q.2.1, true, r.2.2 ++ q.2.2)
      else
        let w := mainLoopT env stgs fuel s (updateComplexity c beforePhase s.nnz)
          (if c = .medium then afterCycle else beforeCycle) afterCycle
        (w.1, w.2.1, w.2.2.1, r.2.2 ++ q.2.2 ++ w.2.2.2)

/-- The explorer calls of `run_presolver`, `/repo/src/core/Presolver.c:653-735`. -/
def runTrace (env : Env) (stgs : Settings) (fuel : ℕ) (P : LP) : Trace :=
  (mainLoopT env stgs fuel (initSt P) .fast (initSt P).nnz (initSt P).nnz).2.2.2

theorem stonRowsLoopT_erase : ∀ (fuel : ℕ) (s : St),
    ((stonRowsLoopT fuel s).1, (stonRowsLoopT fuel s).2.1) = stonRowsLoop fuel s
  | 0, _ => rfl
  | fuel + 1, s => by
    simp only [stonRowsLoopT, stonRowsLoop]
    split
    · rfl
    · split
      · exact stonRowsLoopT_erase fuel _
      · rfl

theorem trivialHeadT_erase (stgs : Settings) (s : St) :
    ((trivialHeadT stgs s).1, (trivialHeadT stgs s).2.1) = trivialHead stgs s := by
  simp only [trivialHeadT, trivialHead]
  split
  · rfl
  · split <;> rfl

theorem runTrivialT_erase (stgs : Settings) (s : St) :
    ((runTrivialT stgs s).1, (runTrivialT stgs s).2.1) = runTrivial stgs s := by
  unfold runTrivialT runTrivial
  rw [← trivialHeadT_erase stgs s]
  generalize trivialHeadT stgs s = r
  obtain ⟨s1, st1, t1⟩ := r
  dsimp only
  by_cases c1 : st1 = INFEASIBLE
  · rw [if_pos c1, if_pos c1]
  rw [if_neg c1, if_neg c1]
  by_cases c2 : stgs.dualFix = true ∧ st1 = UNBNDORINFEAS
  · rw [if_pos c2, if_pos c2]
  rw [if_neg c2, if_neg c2, ← stonRowsLoopT_erase]
  generalize stonRowsLoopT (s1.m + 2) s1 = q
  obtain ⟨s2, st2, t2⟩ := q
  dsimp only
  by_cases c3 : st2 = INFEASIBLE
  · rw [if_pos c3, if_pos c3]
  rw [if_neg c3, if_neg c3]
  generalize removeEmptyRows s2 = e
  by_cases c4 : e.2 = INFEASIBLE
  · rw [if_pos c4, if_pos c4]
  rw [if_neg c4, if_neg c4]
  generalize removeEmptyCols e.1 = f
  by_cases c5 : f.2 = UNBNDORINFEAS
  · rw [if_pos c5, if_pos c5]
  rw [if_neg c5, if_neg c5]

theorem runFastT_erase (env : Env) (stgs : Settings) (s : St) :
    ((runFastT env stgs s).1, (runFastT env stgs s).2.1) = runFast env stgs s := by
  unfold runFastT runFast
  simp only [← runTrivialT_erase]
  by_cases h1 : stgs.stonCols = true <;> by_cases h2 : stgs.dtonEq = true <;>
    simp only [h1, h2, if_true, if_false, Bool.false_eq_true]

theorem mediumTailT_erase (env : Env) (stgs : Settings) (r : St × Status × Trace) :
    ((mediumTailT env stgs r).1, (mediumTailT env stgs r).2.1) =
      mediumTail env stgs (r.1, r.2.1) := by
  unfold mediumTailT mediumTail
  obtain ⟨s1, st1, t1⟩ := r
  simp only [← runTrivialT_erase]
  by_cases c1 : st1 ≠ UNCHANGED
  · rw [if_pos c1, if_pos c1]
  rw [if_neg c1, if_neg c1]
  by_cases c2 : stgs.parallelRows = true
  · simp only [c2, if_true]
    generalize removeParallelRows env s1 = a
    obtain ⟨s2, st2⟩ := a
    dsimp only
    by_cases c3 : st2 ≠ UNCHANGED
    · rw [if_pos c3, if_pos c3]
    rw [if_neg c3, if_neg c3]
    by_cases c4 : stgs.parallelCols = true
    · rw [if_pos c4, if_pos c4]
    · rw [if_neg c4, if_neg c4]
  · simp only [c2, if_false, Bool.false_eq_true]
    rw [if_neg c1, if_neg c1]
    by_cases c4 : stgs.parallelCols = true
    · rw [if_pos c4, if_pos c4]
    · rw [if_neg c4, if_neg c4]

theorem runMedium_tail (env : Env) (stgs : Settings) (s : St) : runMedium env stgs s =
    mediumTail env stgs
      (if stgs.primalPropagation then
        let a := checkActivities s
        let b := propagatePrimal stgs.finiteBoundTightening a.1
        let d := runTrivial stgs b.1
        (d.1, a.2 ||| b.2 ||| d.2)
      else (s, UNCHANGED)) := by
  unfold runMedium mediumTail
  rfl

theorem runMediumT_erase (env : Env) (stgs : Settings) (s : St) :
    ((runMediumT env stgs s).1, (runMediumT env stgs s).2.1) = runMedium env stgs s := by
  rw [runMedium_tail]
  unfold runMediumT
  rw [mediumTailT_erase]
  by_cases h1 : stgs.primalPropagation = true
  · simp only [h1, if_true, ← runTrivialT_erase]
  · simp only [h1, if_false, Bool.false_eq_true]

/-- The phase run by the main loop, `/repo/src/core/Presolver.c:705-719`. -/
def runPhase (env : Env) (stgs : Settings) (c : Complexity) (s : St) : St × Status :=
  match c with
  | .fast => runFast env stgs s
  | .medium => runMedium env stgs s

/-- `runPhase` with trace: `/repo/src/core/Presolver.c:705-719`. -/
def runPhaseT (env : Env) (stgs : Settings) (c : Complexity) (s : St) : St × Status × Trace :=
  match c with
  | .fast => runFastT env stgs s
  | .medium => runMediumT env stgs s

theorem runPhaseT_erase (env : Env) (stgs : Settings) (c : Complexity) (s : St) :
    ((runPhaseT env stgs c s).1, (runPhaseT env stgs c s).2.1) = runPhase env stgs c s := by
  cases c
  · exact runFastT_erase env stgs s
  · exact runMediumT_erase env stgs s

theorem mainLoop_succ (env : Env) (stgs : Settings) (fuel : ℕ) (s : St) (c : Complexity)
    (b a : ℤ) : mainLoop env stgs (fuel + 1) s c b a =
    (let r := runTrivial stgs s
     if r.2 ≠ UNCHANGED then (r.1, r.2, true)
     else
      let q := runPhase env stgs c r.1
      let a' := if c = .medium then q.1.nnz else a
      let s' := { q.1 with tick := q.1.tick + 1 }
      if updateTermination a' b c q.2 (env.timeUp q.1.tick) then (s', q.2, true)
      else mainLoop env stgs fuel s' (updateComplexity c r.1.nnz s'.nnz)
          (if c = .medium then a' else b) a') := by
  cases c <;> rfl

theorem mainLoopT_succ (env : Env) (stgs : Settings) (fuel : ℕ) (s : St) (c : Complexity)
    (b a : ℤ) : mainLoopT env stgs (fuel + 1) s c b a =
    (let r := runTrivialT stgs s
     if r.2.1 ≠ UNCHANGED then (r.1, r.2.1, true, r.2.2)
     else
      let q := runPhaseT env stgs c r.1
      let a' := if c = .medium then q.1.nnz else a
      let s' := { q.1 with tick := q.1.tick + 1 }
      if updateTermination a' b c q.2.1 (env.timeUp q.1.tick) then
        (s', q.2.1, true, r.2.2 ++ q.2.2)
      else
        let w := mainLoopT env stgs fuel s' (updateComplexity c r.1.nnz s'.nnz)
          (if c = .medium then a' else b) a'
        (w.1, w.2.1, w.2.2.1, r.2.2 ++ q.2.2 ++ w.2.2.2)) := by
  cases c <;> rfl

theorem mainLoopT_erase (env : Env) (stgs : Settings) : ∀ (fuel : ℕ) (s : St) (c : Complexity)
    (b a : ℤ), ((mainLoopT env stgs fuel s c b a).1, (mainLoopT env stgs fuel s c b a).2.1,
      (mainLoopT env stgs fuel s c b a).2.2.1) = mainLoop env stgs fuel s c b a
  | 0, _, _, _, _ => rfl
  | fuel + 1, s, c, b, a => by
    rw [mainLoop_succ, mainLoopT_succ, ← runTrivialT_erase]
    generalize runTrivialT stgs s = r
    obtain ⟨s1, st1, t1⟩ := r
    dsimp only
    by_cases c1 : st1 ≠ UNCHANGED
    · rw [if_pos c1, if_pos c1]
    rw [if_neg c1, if_neg c1, ← runPhaseT_erase]
    generalize runPhaseT env stgs c s1 = q
    obtain ⟨s2, st2, t2⟩ := q
    dsimp only
    generalize (if c = Complexity.medium then s2.nnz else a) = a'
    cases c2 : updateTermination a' b c st2 (env.timeUp s2.tick) with
    | true => rw [if_pos rfl, if_pos rfl]
    | false =>
      rw [if_neg Bool.false_ne_true, if_neg Bool.false_ne_true]
      exact mainLoopT_erase env stgs fuel _ _ _ _

end Verif
