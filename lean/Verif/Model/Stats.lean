import Verif.Model.Driver

/-!
# The driver with the counters of removed nonzeros

`Verif.Model.Driver` with one addition: the `nnz_removed_*` fields of `PresolveStats`
(`/repo/include/PSLP/PSLP_stats.h:40-44`).  The `…S_erase` theorems say that nothing else changes.
The counters are of type `size_t` in the code; here they are integers, so that a subtraction that
would wrap around is visible as a negative number.
-/

namespace Verif

/-- The counters of removed nonzeros, `/repo/include/PSLP/PSLP_stats.h:40-44`. -/
structure Stats where
  trivial : ℤ := 0
  fast : ℤ := 0
  propagation : ℤ := 0
  parallelRows : ℤ := 0
  parallelCols : ℤ := 0
deriving DecidableEq, Repr

/-- The sum formed in `run_debugger_stats_consistency_check`,
`/repo/src/core/Debugger.c:800-803`. -/
def Stats.total (t : Stats) : ℤ :=
  t.trivial + t.fast + t.propagation + t.parallelRows + t.parallelCols

/-- Propagation block of `run_medium_explorers`, `/repo/src/core/Presolver.c:506-526`. -/
def mediumPropS (stgs : Settings) (s : St) (t : Stats) : St × Status × Stats :=
  if stgs.primalPropagation then
    let a := checkActivities s
    let b := propagatePrimal stgs.finiteBoundTightening a.1
    let d := runTrivial stgs b.1
    let st := a.2 ||| b.2 ||| d.2
    (d.1, st, if st ≠ UNCHANGED then t else { t with propagation := t.propagation + (s.nnz - d.1.nnz) })
  else (s, UNCHANGED, t)

/-- Parallel rows block, `/repo/src/core/Presolver.c:528-546`. -/
def mediumRowsS (env : Env) (stgs : Settings) (r : St × Status × Stats) : St × Status × Stats :=
  if stgs.parallelRows then
    let a := removeParallelRows env r.1
    (a.1, a.2, if a.2 ≠ UNCHANGED then r.2.2
      else { r.2.2 with parallelRows := r.2.2.parallelRows + (r.1.nnz - a.1.nnz) })
  else r

/-- Parallel columns block, `/repo/src/core/Presolver.c:548-569`. -/
def mediumColsS (env : Env) (stgs : Settings) (r : St × Status × Stats) : St × Status × Stats :=
  if stgs.parallelCols then
    let a := removeParallelCols env r.1
    let d := runTrivial stgs a.1
    let st := a.2 ||| d.2
    (d.1, st, if st ≠ UNCHANGED then r.2.2
      else { r.2.2 with parallelCols := r.2.2.parallelCols + (r.1.nnz - d.1.nnz) })
  else r

/-- `run_medium_explorers` with its statistics, `/repo/src/core/Presolver.c:494-571`. -/
def runMediumS (env : Env) (stgs : Settings) (s : St) (t : Stats) : St × Status × Stats :=
  let r := mediumPropS stgs s t
  if r.2.1 ≠ UNCHANGED then r
  else
    let r := mediumRowsS env stgs r
    if r.2.1 ≠ UNCHANGED then r else mediumColsS env stgs r

/-- One phase of the main loop with its statistics, `/repo/src/core/Presolver.c:705-719`. -/
def runPhaseS (env : Env) (stgs : Settings) (c : Complexity) (s : St) (t : Stats) : St × Status × Stats :=
  match c with
  | .fast =>
    let q := runFast env stgs s
    (q.1, q.2, { t with fast := t.fast + (s.nnz - q.1.nnz) })
  | .medium => runMediumS env stgs s t

/-- Main loop of `run_presolver` with its statistics, `/repo/src/core/Presolver.c:684-733`. -/
def mainLoopS (env : Env) (stgs : Settings) :
    ℕ → St → Complexity → ℤ → ℤ → Stats → St × Status × Bool × Stats
  | 0, s, _, _, _, t => (s, UNCHANGED, false, t)
  | fuel + 1, s, c, beforeCycle, afterCycle, t =>
    let r := runTrivial stgs s
    if r.2 ≠ UNCHANGED then (r.1, r.2, true, t)
    else
      let t := { t with trivial := t.trivial + (s.nnz - r.1.nnz) }
      let beforePhase := r.1.nnz
      let q := runPhaseS env stgs c r.1 t
      let afterCycle := if c = .medium then q.1.nnz else afterCycle
      let up := env.timeUp q.1.tick
      let s := { q.1 with tick := q.1.tick + 1 }
      if updateTermination afterCycle beforeCycle c q.2.1 up then (s, q.2.1, true, q.2.2)
      else
        mainLoopS env stgs fuel s (updateComplexity c beforePhase s.nnz)
          (if c = .medium then afterCycle else beforeCycle) afterCycle q.2.2

/-- `run_presolver` with its statistics, `/repo/src/core/Presolver.c:653-757`: what `runPresolver`
returns and the counters. -/
def runPresolverS (env : Env) (stgs : Settings) (fuel : ℕ) (P : LP) : (St × Status × Bool) × Stats :=
  let s := initSt P
  let r := mainLoopS env stgs fuel s .fast s.nnz s.nnz {}
  if r.2.1 ≠ UNCHANGED then ((r.1, r.2.1, r.2.2.1), r.2.2.2)
  else ((if stgs.relaxBounds then removeRedundantBounds r.1 else r.1, r.2.1, r.2.2.1), r.2.2.2)

theorem runMediumS_erase (env : Env) (stgs : Settings) (s : St) (t : Stats) :
    ((runMediumS env stgs s t).1, (runMediumS env stgs s t).2.1) = runMedium env stgs s := by
  unfold runMediumS runMedium mediumPropS
  simp only
  by_cases h1 : stgs.primalPropagation = true
  · simp only [h1, if_true]
    generalize checkActivities s = a
    generalize propagatePrimal stgs.finiteBoundTightening a.1 = b
    generalize runTrivial stgs b.1 = d
    generalize (a.2 ||| b.2 ||| d.2) = st
    generalize (if st ≠ UNCHANGED then t else _) = t'
    split
    · rfl
    · unfold mediumRowsS mediumColsS
      by_cases h2 : stgs.parallelRows = true
      · simp only [h2, if_true]
        generalize removeParallelRows env d.1 = e
        split
        · rfl
        · by_cases h3 : stgs.parallelCols = true
          · simp only [h3, if_true]
          · simp only [h3, if_false, Bool.false_eq_true]
      · simp only [h2, if_false, Bool.false_eq_true]
        split
        · rfl
        · by_cases h3 : stgs.parallelCols = true
          · simp only [h3, if_true]
          · simp only [h3, if_false, Bool.false_eq_true]
  · simp only [h1, if_false, Bool.false_eq_true]
    unfold mediumRowsS mediumColsS
    by_cases h2 : stgs.parallelRows = true
    · simp only [h2, if_true, ne_eq, not_true_eq_false, if_false]
      generalize removeParallelRows env s = e
      split
      · rfl
      · by_cases h3 : stgs.parallelCols = true
        · simp only [h3, if_true]
        · simp only [h3, if_false, Bool.false_eq_true]
    · simp only [h2, if_false, Bool.false_eq_true, ne_eq, not_true_eq_false]
      by_cases h3 : stgs.parallelCols = true
      · simp only [h3, if_true]
      · simp only [h3, if_false, Bool.false_eq_true]

theorem mainLoopS_erase (env : Env) (stgs : Settings) : ∀ (fuel : ℕ) (s : St) (c : Complexity)
    (b a : ℤ) (t : Stats), ((mainLoopS env stgs fuel s c b a t).1, (mainLoopS env stgs fuel s c b a t).2.1,
      (mainLoopS env stgs fuel s c b a t).2.2.1) = mainLoop env stgs fuel s c b a
  | 0, _, _, _, _, _ => rfl
  | fuel + 1, s, c, b, a, t => by
    unfold mainLoopS mainLoop
    simp only
    generalize runTrivial stgs s = r
    by_cases c1 : r.2 ≠ UNCHANGED
    · rw [if_pos c1, if_pos c1]
    rw [if_neg c1, if_neg c1]
    generalize ({ t with trivial := t.trivial + (s.nnz - r.1.nnz) } : Stats) = t'
    have key : ∀ (q : St × Status) (w : St × Status × Stats), (w.1, w.2.1) = q →
        ∀ (c' : Complexity) (a' b' : ℤ),
        ((if updateTermination a' b c w.2.1 (env.timeUp w.1.tick) = true then
          ({ w.1 with tick := w.1.tick + 1 }, w.2.1, true, w.2.2)
        else mainLoopS env stgs fuel { w.1 with tick := w.1.tick + 1 } c' b' a' w.2.2).1,
        (if updateTermination a' b c w.2.1 (env.timeUp w.1.tick) = true then
          ({ w.1 with tick := w.1.tick + 1 }, w.2.1, true, w.2.2)
        else mainLoopS env stgs fuel { w.1 with tick := w.1.tick + 1 } c' b' a' w.2.2).2.1,
        (if updateTermination a' b c w.2.1 (env.timeUp w.1.tick) = true then
          ({ w.1 with tick := w.1.tick + 1 }, w.2.1, true, w.2.2)
        else mainLoopS env stgs fuel { w.1 with tick := w.1.tick + 1 } c' b' a' w.2.2).2.2.1) =
        (if updateTermination a' b c q.2 (env.timeUp q.1.tick) = true then
          ({ q.1 with tick := q.1.tick + 1 }, q.2, true)
        else mainLoop env stgs fuel { q.1 with tick := q.1.tick + 1 } c' b' a') := by
      intro q w e c' a' b'
      subst e
      simp only
      split
      · rfl
      · exact mainLoopS_erase env stgs fuel _ _ _ _ _
    cases c with
    | fast =>
      simp only [runPhaseS, reduceCtorEq, if_false]
      exact key (runFast env stgs r.1) ((runFast env stgs r.1).1, (runFast env stgs r.1).2, _) rfl _ _ _
    | medium =>
      have e := runMediumS_erase env stgs r.1 t'
      simp only [runPhaseS, if_true]
      generalize runMediumS env stgs r.1 t' = w at e
      generalize runMedium env stgs r.1 = q at e
      have := key q w e (updateComplexity .medium r.1.nnz q.1.nnz) q.1.nnz q.1.nnz
      subst e
      exact this

/-- The counters do not influence the run. -/
theorem runPresolverS_erase (env : Env) (stgs : Settings) (fuel : ℕ) (P : LP) :
    (runPresolverS env stgs fuel P).1 = runPresolver env stgs fuel P := by
  unfold runPresolverS runPresolver
  simp only
  rw [← mainLoopS_erase env stgs fuel (initSt P) .fast (initSt P).nnz (initSt P).nnz {}]
  generalize mainLoopS env stgs fuel (initSt P) .fast (initSt P).nnz (initSt P).nnz {} = r
  simp only
  split <;> rfl

end Verif
