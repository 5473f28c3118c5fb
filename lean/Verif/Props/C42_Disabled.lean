import Verif.Props.C39_Time

/-!
# C42: disabled reductions have no effect
-/

namespace Verif

/-- Which explorers the settings allow; the clean-ups are always on. -/
def Expl.allowed (stgs : Settings) : Expl → Bool
  | .closeBounds | .emptyCols | .stonRows | .emptyRows => true
  | .dualFix => stgs.dualFix
  | .stonCols => stgs.stonCols
  | .dton => stgs.dtonEq
  | .checkActs | .propagation => stgs.primalPropagation
  | .parallelRows => stgs.parallelRows
  | .parallelCols => stgs.parallelCols

/-- All calls of a trace are allowed. -/
def OnlyAllowed (stgs : Settings) (tr : Trace) : Prop := ∀ e ∈ tr, e.1.allowed stgs = true

theorem OnlyAllowed.append {stgs : Settings} {a b : Trace} (h : OnlyAllowed stgs a)
    (k : OnlyAllowed stgs b) : OnlyAllowed stgs (a ++ b) := by
  intro e he
  rcases List.mem_append.mp he with he | he
  · exact h e he
  · exact k e he

theorem OnlyAllowed.nil {stgs : Settings} : OnlyAllowed stgs [] :=
  fun _ he => (List.not_mem_nil he).elim

theorem OnlyAllowed.cons {stgs : Settings} {x : Expl} {st : Status} {b : Trace}
    (h : x.allowed stgs = true) (k : OnlyAllowed stgs b) : OnlyAllowed stgs ((x, st) :: b) := by
  intro e he
  rcases List.mem_cons.mp he with rfl | he
  · exact h
  · exact k e he

theorem stonRowsLoopT_allowed (stgs : Settings) : ∀ (fuel : ℕ) (s : St),
    OnlyAllowed stgs (stonRowsLoopT fuel s).2.2
  | 0, _ => .nil
  | fuel + 1, s => by
    rw [stonRowsLoopT]
    dsimp only
    by_cases c1 : (removeStonRows s).2 = INFEASIBLE
    · rw [if_pos c1]; exact .cons rfl .nil
    rw [if_neg c1]
    by_cases c2 : (removeStonRows s).2 = REDUCED
    · rw [if_pos c2]; exact .cons rfl (stonRowsLoopT_allowed stgs fuel _)
    · rw [if_neg c2]; exact .cons rfl .nil

theorem trivialHeadT_allowed (stgs : Settings) (s : St) :
    OnlyAllowed stgs (trivialHeadT stgs s).2.2 := by
  unfold trivialHeadT
  dsimp only
  by_cases c1 : (closeBounds s).2 = INFEASIBLE
  · rw [if_pos c1]; exact .cons rfl .nil
  rw [if_neg c1]
  by_cases c2 : stgs.dualFix = true
  · rw [if_pos c2]; exact .cons rfl (.cons rfl (.cons c2 .nil))
  · rw [if_neg c2]; exact .cons rfl .nil

theorem runTrivialT_allowed (stgs : Settings) (s : St) :
    OnlyAllowed stgs (runTrivialT stgs s).2.2 := by
  unfold runTrivialT
  have h := trivialHeadT_allowed stgs s
  generalize trivialHeadT stgs s = r at h ⊢
  obtain ⟨s1, st1, t1⟩ := r
  dsimp only at h ⊢
  by_cases c1 : st1 = INFEASIBLE
  · rw [if_pos c1]; exact h
  rw [if_neg c1]
  by_cases c2 : stgs.dualFix = true ∧ st1 = UNBNDORINFEAS
  · rw [if_pos c2]; exact h
  rw [if_neg c2]
  have h2 := stonRowsLoopT_allowed stgs (s1.m + 2) s1
  generalize stonRowsLoopT (s1.m + 2) s1 = q at h2 ⊢
  by_cases c3 : q.2.1 = INFEASIBLE
  · rw [if_pos c3]; exact h.append h2
  rw [if_neg c3]
  generalize removeEmptyRows q.1 = e
  by_cases c4 : e.2 = INFEASIBLE
  · rw [if_pos c4]; exact (h.append h2).append (.cons rfl .nil)
  rw [if_neg c4]
  generalize removeEmptyCols e.1 = f
  have h5 : OnlyAllowed stgs
      (t1 ++ q.2.2 ++ [(Expl.emptyRows, e.2), (Expl.emptyCols, f.2)]) :=
    (h.append h2).append (.cons rfl (.cons rfl .nil))
  by_cases c5 : f.2 = UNBNDORINFEAS
  · rw [if_pos c5]; exact h5
  rw [if_neg c5]
  exact h5

theorem runPhaseT_allowed (env : Env) (stgs : Settings) (c : Complexity) (s : St) :
    OnlyAllowed stgs (runPhaseT env stgs c s).2.2 := by
  cases c
  · simp only [runPhaseT, runFastT]
    by_cases c1 : stgs.stonCols = true <;> by_cases c2 : stgs.dtonEq = true <;>
      simp only [c1, c2, if_true, if_false, Bool.false_eq_true]
    · exact OnlyAllowed.append (.cons c1 (runTrivialT_allowed stgs _))
        (.cons c2 (runTrivialT_allowed stgs _))
    · exact .cons c1 (runTrivialT_allowed stgs _)
    · exact OnlyAllowed.append .nil (.cons c2 (runTrivialT_allowed stgs _))
    · exact .nil
  · have tail : ∀ r : St × Status × Trace, OnlyAllowed stgs r.2.2 →
        OnlyAllowed stgs (mediumTailT env stgs r).2.2 := by
      intro r hr
      unfold mediumTailT
      by_cases c1 : r.2.1 ≠ UNCHANGED
      · simp only [if_pos c1]; exact hr
      simp only [if_neg c1]
      have key : ∀ q : St × Status × Trace, OnlyAllowed stgs q.2.2 →
          OnlyAllowed stgs (if q.2.1 ≠ UNCHANGED then q
            else if stgs.parallelCols then
              let a := removeParallelCols env q.1
              let d := runTrivialT stgs a.1
              (d.1, a.2 ||| d.2.1, q.2.2 ++ (Expl.parallelCols, a.2) :: d.2.2)
            else q).2.2 := by
        intro q hq
        by_cases c2 : q.2.1 ≠ UNCHANGED
        · simp only [if_pos c2]; exact hq
        simp only [if_neg c2]
        by_cases c3 : stgs.parallelCols = true
        · simp only [if_pos c3]
          exact hq.append (.cons c3 (runTrivialT_allowed stgs _))
        · simp only [if_neg c3]; exact hq
      apply key
      by_cases c2 : stgs.parallelRows = true
      · simp only [if_pos c2]; exact hr.append (.cons c2 .nil)
      · simp only [if_neg c2]; exact hr
    apply tail
    by_cases c1 : stgs.primalPropagation = true
    · simp only [if_pos c1]
      exact .cons c1 (.cons c1 (runTrivialT_allowed stgs _))
    · simp only [if_neg c1]; exact .nil

theorem mainLoopT_allowed (env : Env) (stgs : Settings) : ∀ (fuel : ℕ) (s : St) (c : Complexity)
    (b a : ℤ), OnlyAllowed stgs (mainLoopT env stgs fuel s c b a).2.2.2
  | 0, _, _, _, _ => .nil
  | fuel + 1, s, c, b, a => by
    rw [mainLoopT_succ]
    have h1 := runTrivialT_allowed stgs s
    generalize runTrivialT stgs s = r at h1 ⊢
    dsimp only at h1 ⊢
    by_cases c1 : r.2.1 ≠ UNCHANGED
    · rw [if_pos c1]; exact h1
    rw [if_neg c1]
    have h2 := runPhaseT_allowed env stgs c r.1
    generalize runPhaseT env stgs c r.1 = q at h2 ⊢
    generalize (if c = Complexity.medium then q.1.nnz else a) = a'
    cases c2 : updateTermination a' b c q.2.1 (env.timeUp q.1.tick) with
    | true => rw [if_pos rfl]; exact h1.append h2
    | false =>
      rw [if_neg Bool.false_ne_true]
      exact (h1.append h2).append (mainLoopT_allowed env stgs fuel _ _ _ _)

/-- **C42, calls.**  Only explorers that the settings allow are called. -/
theorem C42_calls (env : Env) (stgs : Settings) (fuel : ℕ) (P : LP) :
    ∀ e ∈ runTrace env stgs fuel P, e.1.allowed stgs = true :=
  mainLoopT_allowed env stgs fuel _ _ _ _

/-! ### Everything switched off -/

/-- All the switchable reductions are off. -/
def Settings.AllOff (stgs : Settings) : Prop :=
  stgs.stonCols = false ∧ stgs.dtonEq = false ∧ stgs.parallelRows = false ∧
  stgs.parallelCols = false ∧ stgs.primalPropagation = false ∧ stgs.dualFix = false ∧
  stgs.relaxBounds = false

/-- The always-on clean-ups, once: variables whose bounds (nearly) coincide, singleton rows,
empty rows, empty columns; stops at the first failure. -/
def cleanUpOnce (s : St) : St × Status :=
  let a := closeBounds s
  if a.2 = INFEASIBLE then a
  else
    let b := stonRowsLoop (a.1.m + 2) a.1
    if b.2 = INFEASIBLE then b
    else
      let d := removeEmptyRows b.1
      if d.2 = INFEASIBLE then d
      else
        let e := removeEmptyCols d.1
        if e.2 = UNBNDORINFEAS then e
        else (((e.1.check (decide (e.1.stonRows = []))).check
            (decide (e.1.emptyRows = []))).check (decide (e.1.emptyCols = [])), UNCHANGED)

/-- One round of clean-ups and one question to the clock. -/
def cleanUpTick (s : St) : St :=
  { (cleanUpOnce s).1 with tick := (cleanUpOnce s).1.tick + 1 }

theorem runTrivial_off {stgs : Settings} (h : stgs.AllOff) (s : St) :
    runTrivial stgs s = cleanUpOnce s := by
  obtain ⟨-, -, -, -, -, h, -⟩ := h
  have e : trivialHead stgs s = closeBounds s := by
    unfold trivialHead
    dsimp only
    split
    · rfl
    · rw [if_neg (by rw [h]; exact Bool.false_ne_true)]
  unfold runTrivial cleanUpOnce
  rw [e]
  dsimp only
  by_cases c1 : (closeBounds s).2 = INFEASIBLE
  · rw [if_pos c1, if_pos c1]
  rw [if_neg c1, if_neg c1, if_neg (by rw [h]; exact fun w => Bool.false_ne_true w.1)]

theorem runPhase_off (env : Env) {stgs : Settings} (h : stgs.AllOff) (c : Complexity) (s : St) :
    runPhase env stgs c s = (s, UNCHANGED) := by
  obtain ⟨h1, h2, h3, h4, h5, -, -⟩ := h
  cases c
  · simp only [runPhase, runFast, h1, h2, if_false, Bool.false_eq_true]
  · simp only [runPhase, runMedium, h3, h4, h5, if_false, Bool.false_eq_true]
    rw [if_neg (by simp), if_neg (by simp)]

theorem mainLoop_off (env : Env) {stgs : Settings} (h : stgs.AllOff) :
    ∀ (fuel : ℕ) (s : St) (c : Complexity) (b a : ℤ),
    (mainLoop env stgs fuel s c b a).2.2 = true → ∃ k,
      (mainLoop env stgs fuel s c b a).1 = (cleanUpOnce (cleanUpTick^[k] s)).1 ∨
      (mainLoop env stgs fuel s c b a).1 = cleanUpTick^[k] s
  | 0, _, _, _, _, h0 => by cases h0
  | fuel + 1, s, c, b, a, h0 => by
    rw [mainLoop_succ] at h0 ⊢
    rw [runTrivial_off h] at h0 ⊢
    dsimp only at h0 ⊢
    by_cases c1 : (cleanUpOnce s).2 ≠ UNCHANGED
    · rw [if_pos c1]; exact ⟨0, .inl rfl⟩
    rw [if_neg c1] at h0 ⊢
    rw [runPhase_off env h] at h0 ⊢
    dsimp only at h0 ⊢
    generalize (if c = Complexity.medium then (cleanUpOnce s).1.nnz else a) = a' at h0 ⊢
    cases c2 : updateTermination a' b c UNCHANGED (env.timeUp (cleanUpOnce s).1.tick) with
    | true => rw [if_pos rfl]; exact ⟨1, .inr rfl⟩
    | false =>
      rw [c2, if_neg Bool.false_ne_true] at h0
      rw [if_neg Bool.false_ne_true]
      obtain ⟨k, hk⟩ := mainLoop_off env h fuel _ _ _ _ h0
      refine ⟨k + 1, ?_⟩
      rw [Function.iterate_succ_apply]
      exact hk

/-- **C42, everything off.**  With every switchable reduction off, the state at the end of a run
is the initial one after some number of rounds of the always-on clean-ups, and nothing else
(`tick` only counts the questions to the clock). -/
theorem C42_all_off (env : Env) (stgs : Settings) (h : stgs.AllOff) (fuel : ℕ) (P : LP)
    (hr : (runPresolver env stgs fuel P).2.2 = true) : ∃ k,
    (runPresolver env stgs fuel P).1 = (cleanUpOnce (cleanUpTick^[k] (initSt P))).1 ∨
    (runPresolver env stgs fuel P).1 = cleanUpTick^[k] (initSt P) := by
  have e1 : (runPresolver env stgs fuel P) =
      mainLoop env stgs fuel (initSt P) .fast (initSt P).nnz (initSt P).nnz := by
    unfold runPresolver
    dsimp only
    split
    · rfl
    · rw [if_neg (by rw [h.2.2.2.2.2.2]; exact Bool.false_ne_true)]
  rw [e1] at hr ⊢
  exact mainLoop_off env h fuel _ _ _ _ hr

/-! ### Finite bound tightening -/

/-- **C42, finite bounds.**  With `finite_bound_tightening` off, propagation leaves a finite
upper bound alone unless it fixes the variable (at its lower bound) or finds infeasibility. -/
theorem C42_finite_ub (s : St) (k : ℕ) (b : D) (hf : (s.ctag k).ubInf = false)
    (hst : (propUb false s k b).2 ≠ INFEASIBLE) :
    ((propUb false s k b).2 = UNCHANGED ∧ (propUb false s k b).1.ub = s.ub ∧
      (propUb false s k b).1.lb = s.lb ∧ (propUb false s k b).1.log = s.log ∧
      (propUb false s k b).1.ctag = s.ctag ∧ (propUb false s k b).1.act = s.act) ∨
    ((propUb false s k b).1 = (fixCol ((((s.check (!D.isInf b && !(s.ctag k).inactive)).check
        (((s.ctag k).ubInf || D.le b (s.ub k)) && !isHuge b)).save
        (.boundChangeNoRow k b (s.lb k) true)).fuzz (!D.le b (s.lb k))) k (s.lb k) (s.c k)).1) := by
  unfold propUb at hst ⊢
  dsimp only at hst ⊢
  simp only [hf, Bool.false_or, Bool.false_and, Bool.false_eq_true, if_false] at hst ⊢
  split at hst
  · exact absurd rfl hst
  · split
    · contradiction
    · split
      · exact .inr rfl
      · exact .inl ⟨rfl, rfl, rfl, rfl, rfl, rfl⟩

/-- **C42, finite bounds**, lower bound. -/
theorem C42_finite_lb (s : St) (k : ℕ) (b : D) (hf : (s.ctag k).lbInf = false)
    (hst : (propLb false s k b).2 ≠ INFEASIBLE) :
    ((propLb false s k b).2 = UNCHANGED ∧ (propLb false s k b).1.ub = s.ub ∧
      (propLb false s k b).1.lb = s.lb ∧ (propLb false s k b).1.log = s.log ∧
      (propLb false s k b).1.ctag = s.ctag ∧ (propLb false s k b).1.act = s.act) ∨
    ((propLb false s k b).1 = (fixCol ((((s.check (!D.isInf b && !(s.ctag k).inactive)).check
        (((s.ctag k).lbInf || D.le (s.lb k) b) && !isHuge b)).save
        (.boundChangeNoRow k b (s.ub k) false)).fuzz (!D.le (s.ub k) b)) k (s.ub k) (s.c k)).1) := by
  unfold propLb at hst ⊢
  dsimp only at hst ⊢
  simp only [hf, Bool.false_or, Bool.false_and, Bool.false_eq_true, if_false] at hst ⊢
  split at hst
  · exact absurd rfl hst
  · split
    · contradiction
    · split
      · exact .inr rfl
      · exact .inl ⟨rfl, rfl, rfl, rfl, rfl, rfl⟩

/-- Settings with everything off. -/
def stgsOff : Settings where
  stonCols := false
  dtonEq := false
  parallelRows := false
  parallelCols := false
  primalPropagation := false
  dualFix := false
  finiteBoundTightening := false
  relaxBounds := false

/-- The hypotheses are met, and the clean-ups still act (the singleton row of `lpStat` goes). -/
example : stgsOff.AllOff ∧ (runPresolver envEx stgsOff 10 lpStat).2 = (UNCHANGED, true) ∧
    (runPresolver envEx stgsOff 10 lpStat).1.rowSize 1 = -1 ∧
    (runPresolver envEx stgsOff 10 lpStat).1.rowSize 0 = 2 := by
  refine ⟨⟨rfl, rfl, rfl, rfl, rfl, rfl, rfl⟩, ?_⟩
  decide +kernel

end Verif
