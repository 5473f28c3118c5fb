import Verif.Model.Trace
import Verif.Lemmas.EnvEx

/-!
# C12: the returned status
-/

namespace Verif

/-- Number of entries stored in the matrix handed to `new_presolver`. -/
def LP.entries (P : LP) : ℤ := ((List.range P.m).map (fun i => ((P.A i).length : ℤ))).sum

/-- Number of indices below `n` whose row (column) was not removed: the dimension computed by
`remove_extra_space` with `remove_all` (`/repo/src/core/Matrix.c:205-270`, C09, C10). -/
def countLeft (n : ℕ) (size : ℕ → ℤ) : ℕ :=
  ((List.range n).filter (fun i => decide (size i ≠ -1))).length

/-- `final_status`, `/repo/src/core/Presolver.c:639-651`, with the statistics filled in at lines
316 and 744-746. -/
def finalStatus (P : LP) (s : St) : Status :=
  if P.n = countLeft P.n s.colSize ∧ P.m = countLeft P.m s.rowSize ∧ P.entries = s.nnz then
    UNCHANGED
  else REDUCED

/-- The value returned by `run_presolver`, `/repo/src/core/Presolver.c:653-758` (`none` when the
main loop does not end within the given number of iterations). -/
def presolveStatus (env : Env) (stgs : Settings) (fuel : ℕ) (P : LP) : Option Status :=
  let r := runPresolver env stgs fuel P
  if r.2.2 then some (if r.2.1 ≠ UNCHANGED then r.2.1 else finalStatus P r.1) else none

/-! ### Spec -/

/-- What the reports of the explorers amount to. -/
def verdict (tr : Trace) : Status :=
  if ∃ e ∈ tr, e.2 = UNBNDORINFEAS then UNBNDORINFEAS
  else if ∃ e ∈ tr, e.2 = INFEASIBLE then INFEASIBLE else UNCHANGED

/-- Every report is a documented status. -/
def Documented (tr : Trace) : Prop :=
  ∀ e ∈ tr, e.2 = UNCHANGED ∨ e.2 = REDUCED ∨ e.2 = INFEASIBLE ∨ e.2 = UNBNDORINFEAS

/-! ### Statuses of the explorers -/

theorem closeBoundsLoop_st : ∀ (l : List ℕ) (s : St),
    (closeBoundsLoop l s).2 = UNCHANGED ∨ (closeBoundsLoop l s).2 = INFEASIBLE
  | [], _ => .inl rfl
  | k :: rest, s => by
    rw [closeBoundsLoop]
    split
    · exact closeBoundsLoop_st rest s
    · dsimp only
      split
      · exact closeBoundsLoop_st rest _
      · split
        · exact .inr rfl
        · exact closeBoundsLoop_st rest _

theorem closeBounds_st (s : St) :
    (closeBounds s).2 = UNCHANGED ∨ (closeBounds s).2 = INFEASIBLE := by
  unfold closeBounds
  dsimp only
  split
  · exact .inr ‹_›
  · exact .inl rfl

theorem removeEmptyCols_st (s : St) :
    (removeEmptyCols s).2 = UNCHANGED ∨ (removeEmptyCols s).2 = UNBNDORINFEAS := by
  unfold removeEmptyCols
  dsimp only
  split
  · exact .inr ‹_›
  · exact .inl rfl

theorem removeEmptyRows_st (s : St) :
    (removeEmptyRows s).2 = UNCHANGED ∨ (removeEmptyRows s).2 = INFEASIBLE := by
  unfold removeEmptyRows
  dsimp only
  split
  · exact .inr ‹_›
  · exact .inl rfl

theorem dualFixStep_st (acc : St × List (ℕ × Bool) × Status) (k : ℕ)
    (h : acc.2.2 = UNCHANGED ∨ acc.2.2 = UNBNDORINFEAS) :
    (dualFixStep acc k).2.2 = UNCHANGED ∨ (dualFixStep acc k).2.2 = UNBNDORINFEAS := by
  obtain ⟨s, q, st⟩ := acc
  dsimp only at h
  unfold dualFixStep
  dsimp only
  split
  · exact h
  · cases dualFixDecide (s.c k) (s.up k) (s.down k) (s.ctag k) <;> dsimp only
    · exact h
    · right; rcases h with rfl | rfl <;> rfl
    all_goals exact h

theorem simpleDualFix_st (s : St) :
    (simpleDualFix s).2 = UNCHANGED ∨ (simpleDualFix s).2 = UNBNDORINFEAS := by
  unfold simpleDualFix
  dsimp only
  have : ∀ (l : List ℕ) (acc : St × List (ℕ × Bool) × Status),
      (acc.2.2 = UNCHANGED ∨ acc.2.2 = UNBNDORINFEAS) →
      ((l.foldl dualFixStep acc).2.2 = UNCHANGED ∨
        (l.foldl dualFixStep acc).2.2 = UNBNDORINFEAS) := by
    intro l
    induction l with
    | nil => exact fun _ h => h
    | cons k l ih => exact fun acc h => ih _ (dualFixStep_st acc k h)
  exact this _ _ (.inl rfl)

theorem removeStonRows_st (s : St) : (removeStonRows s).2 = UNCHANGED ∨
    (removeStonRows s).2 = REDUCED ∨ (removeStonRows s).2 = INFEASIBLE := by
  unfold removeStonRows
  split
  · exact .inl rfl
  · dsimp only
    split
    · exact .inr (.inr ‹_›)
    · split
      · exact .inr (.inr ‹_›)
      · exact .inr (.inl rfl)

theorem stonColsRound_st (s : St) : (stonColsRound s).2 = UNBNDORINFEAS ∨
    (stonColsRound s).2 = REDUCED ∨ (stonColsRound s).2 = UNCHANGED := by
  unfold stonColsRound
  dsimp only
  split
  · exact .inl rfl
  · split
    · exact .inr (.inl rfl)
    · exact .inr (.inr rfl)

theorem stonColsLoop_st : ∀ (fuel : ℕ) (s : St),
    (stonColsLoop fuel s).2 = UNCHANGED ∨ (stonColsLoop fuel s).2 = UNBNDORINFEAS
  | 0, _ => .inl rfl
  | fuel + 1, s => by
    rw [stonColsLoop]
    split
    · exact stonColsLoop_st fuel _
    · rename_i h
      rcases stonColsRound_st s with e | e | e
      · exact .inr e
      · exact absurd e h
      · exact .inl e

theorem removeStonCols_st (s : St) :
    (removeStonCols s).2 = UNCHANGED ∨ (removeStonCols s).2 = UNBNDORINFEAS :=
  stonColsLoop_st _ _

theorem checkActivities_st (s : St) :
    (checkActivities s).2 = UNCHANGED ∨ (checkActivities s).2 = INFEASIBLE := by
  unfold checkActivities
  dsimp only
  split
  · exact .inr ‹_›
  · exact .inl rfl

theorem propagatePrimal_st (b : Bool) (s : St) :
    (propagatePrimal b s).2 = UNCHANGED ∨ (propagatePrimal b s).2 = INFEASIBLE := by
  unfold propagatePrimal
  dsimp only
  split
  · exact .inr ‹_›
  · exact removeEmptyRows_st _

theorem parRowsBin_st (s : St) (bin : List ℕ) :
    (parRowsBin s bin).2 = UNCHANGED ∨ (parRowsBin s bin).2 = INFEASIBLE := by
  unfold parRowsBin
  split
  · exact .inl rfl
  · dsimp only
    split
    · exact .inr rfl
    · split
      · exact .inr rfl
      · exact .inl rfl

theorem parRowsBins_st : ∀ (g : List (List ℕ)) (s : St),
    (parRowsBins g s).2 = UNCHANGED ∨ (parRowsBins g s).2 = INFEASIBLE
  | [], _ => .inl rfl
  | bin :: rest, s => by
    rw [parRowsBins]
    split
    · exact .inr ‹_›
    · exact parRowsBins_st rest _

theorem removeParallelRows_st (env : Env) (s : St) :
    (removeParallelRows env s).2 = UNCHANGED ∨ (removeParallelRows env s).2 = INFEASIBLE :=
  parRowsBins_st _ _

theorem parColsBin_st : ∀ (l : List ℕ) (s : St),
    (parColsBin l s).2 = UNCHANGED ∨ (parColsBin l s).2 = UNBNDORINFEAS
  | [], _ => .inl rfl
  | j :: rest, s => by
    rw [parColsBin]
    split
    · exact .inl rfl
    · split
      · exact parColsBin_st rest s
      · dsimp only
        split
        · exact .inr rfl
        · exact parColsBin_st rest _

theorem removeParallelCols_st (env : Env) (s : St) :
    (removeParallelCols env s).2 = UNCHANGED ∨ (removeParallelCols env s).2 = UNBNDORINFEAS := by
  unfold removeParallelCols
  dsimp only
  unfold parColsBins
  have : ∀ (l : List (List ℕ)) (acc : St × Status),
      (acc.2 = UNCHANGED ∨ acc.2 = UNBNDORINFEAS) →
      ((l.foldl (fun acc bin => let r := parColsBin bin acc.1; (r.1, acc.2 ||| r.2)) acc).2 =
          UNCHANGED ∨
        (l.foldl (fun acc bin => let r := parColsBin bin acc.1; (r.1, acc.2 ||| r.2)) acc).2 =
          UNBNDORINFEAS) := by
    intro l
    induction l with
    | nil => exact fun _ h => h
    | cons b l ih =>
      intro acc h
      refine ih _ ?_
      dsimp only
      rcases h with h | h <;> rcases parColsBin_st b acc.1 with e | e <;> rw [h, e] <;> decide
  exact this _ _ (.inl rfl)

/-! ### The verdict of a trace -/

theorem verdict_cases (tr : Trace) :
    verdict tr = UNCHANGED ∨ verdict tr = INFEASIBLE ∨ verdict tr = UNBNDORINFEAS := by
  unfold verdict
  split
  · exact .inr (.inr rfl)
  · split
    · exact .inr (.inl rfl)
    · exact .inl rfl

theorem verdict_append (a b : Trace) : verdict (a ++ b) = verdict a ||| verdict b := by
  unfold verdict
  simp only [List.mem_append, or_and_right, exists_or]
  by_cases h1 : ∃ e ∈ a, e.2 = UNBNDORINFEAS <;> by_cases h2 : ∃ e ∈ b, e.2 = UNBNDORINFEAS <;>
    by_cases h3 : ∃ e ∈ a, e.2 = INFEASIBLE <;> by_cases h4 : ∃ e ∈ b, e.2 = INFEASIBLE <;>
    simp only [h1, h2, h3, h4, or_true, or_false, if_true, if_false] <;> rfl

theorem verdict_one (x : Expl) {st : Status}
    (h : st = UNCHANGED ∨ st = REDUCED ∨ st = INFEASIBLE ∨ st = UNBNDORINFEAS) :
    verdict [(x, st)] = if st = REDUCED then UNCHANGED else st := by
  rcases h with rfl | rfl | rfl | rfl <;> simp [verdict, UNCHANGED, REDUCED, INFEASIBLE,
    UNBNDORINFEAS]

theorem verdict_cons (x : Expl) (st : Status) (tr : Trace) :
    verdict ((x, st) :: tr) = verdict [(x, st)] ||| verdict tr := verdict_append [_] tr

/-- The trace consists of documented statuses and the status is their verdict. -/
def Tells (tr : Trace) (st : Status) : Prop := Documented tr ∧ st = verdict tr

theorem Tells.append {a b : Trace} {x y : Status} (h : Tells a x) (k : Tells b y) :
    Tells (a ++ b) (x ||| y) := by
  refine ⟨?_, by rw [verdict_append, h.2, k.2]⟩
  intro e he
  rcases List.mem_append.mp he with he | he
  · exact h.1 e he
  · exact k.1 e he

theorem Tells.nil : Tells [] UNCHANGED := ⟨fun _ he => (List.not_mem_nil he).elim, by simp [verdict]⟩

theorem Tells.one (x : Expl) {st : Status}
    (h : st = UNCHANGED ∨ st = INFEASIBLE ∨ st = UNBNDORINFEAS) : Tells [(x, st)] st := by
  refine ⟨?_, ?_⟩
  · intro e he
    rw [List.mem_singleton] at he
    subst he
    rcases h with h | h | h
    · exact .inl h
    · exact .inr (.inr (.inl h))
    · exact .inr (.inr (.inr h))
  · rcases h with rfl | rfl | rfl <;> simp [verdict, UNCHANGED, INFEASIBLE, UNBNDORINFEAS]

theorem Tells.red (x : Expl) : Tells [(x, REDUCED)] UNCHANGED := by
  refine ⟨?_, by simp [verdict, UNCHANGED, REDUCED, INFEASIBLE, UNBNDORINFEAS]⟩
  intro e he
  rw [List.mem_singleton] at he
  subst he
  exact .inr (.inl rfl)

theorem zero_or (x : Status) : (UNCHANGED ||| x : Status) = x := Nat.zero_or x

theorem Tells.append_left {a b : Trace} {y : Status} (h : Tells a UNCHANGED) (k : Tells b y) :
    Tells (a ++ b) y := by
  have := h.append k
  rwa [zero_or] at this

theorem inf2 {st : Status} (h : st = UNCHANGED ∨ st = INFEASIBLE) :
    st = UNCHANGED ∨ st = INFEASIBLE ∨ st = UNBNDORINFEAS := h.imp_right .inl

theorem unb2 {st : Status} (h : st = UNCHANGED ∨ st = UNBNDORINFEAS) :
    st = UNCHANGED ∨ st = INFEASIBLE ∨ st = UNBNDORINFEAS := h.imp_right .inr

theorem stonRowsLoopT_tells : ∀ (fuel : ℕ) (s : St),
    Tells (stonRowsLoopT fuel s).2.2 (stonRowsLoopT fuel s).2.1 ∧
    ((stonRowsLoopT fuel s).2.1 = UNCHANGED ∨ (stonRowsLoopT fuel s).2.1 = INFEASIBLE)
  | 0, _ => ⟨Tells.nil, .inl rfl⟩
  | fuel + 1, s => by
    have h := removeStonRows_st s
    rw [stonRowsLoopT]
    dsimp only
    by_cases c1 : (removeStonRows s).2 = INFEASIBLE
    · rw [if_pos c1]
      exact ⟨Tells.one _ (.inr (.inl c1)), .inr c1⟩
    rw [if_neg c1]
    by_cases c2 : (removeStonRows s).2 = REDUCED
    · rw [if_pos c2]
      have ih := stonRowsLoopT_tells fuel (removeStonRows s).1
      refine ⟨?_, ih.2⟩
      have := (Tells.red .stonRows).append_left ih.1
      rw [c2]
      exact this
    · rw [if_neg c2]
      have c3 : (removeStonRows s).2 = UNCHANGED := by
        rcases h with h | h | h
        · exact h
        · exact absurd h c2
        · exact absurd h c1
      exact ⟨Tells.one _ (.inl c3), .inl c3⟩

theorem trivialHeadT_tells (stgs : Settings) (s : St) :
    Tells (trivialHeadT stgs s).2.2 (trivialHeadT stgs s).2.1 ∧
    ((trivialHeadT stgs s).2.1 = UNCHANGED ∨ (trivialHeadT stgs s).2.1 = INFEASIBLE ∨
      (stgs.dualFix = true ∧ (trivialHeadT stgs s).2.1 = UNBNDORINFEAS)) := by
  unfold trivialHeadT
  dsimp only
  have h1 := closeBounds_st s
  by_cases c1 : (closeBounds s).2 = INFEASIBLE
  · rw [if_pos c1]
    exact ⟨Tells.one _ (.inr (.inl c1)), .inr (.inl c1)⟩
  rw [if_neg c1]
  have c1' : (closeBounds s).2 = UNCHANGED := h1.resolve_right c1
  by_cases c2 : stgs.dualFix = true
  · rw [if_pos c2]
    have h2 := removeEmptyCols_st (closeBounds s).1
    have h3 := simpleDualFix_st (removeEmptyCols (closeBounds s).1).1
    refine ⟨((Tells.one _ (.inl c1')).append (Tells.one _ (unb2 h2))).append
      (Tells.one _ (unb2 h3)), ?_⟩
    dsimp only
    rw [c1', zero_or]
    rcases h2 with h2 | h2 <;> rcases h3 with h3 | h3 <;> rw [h2, h3]
    · exact .inl rfl
    · exact .inr (.inr ⟨c2, rfl⟩)
    · exact .inr (.inr ⟨c2, rfl⟩)
    · exact .inr (.inr ⟨c2, rfl⟩)
  · rw [if_neg c2]
    exact ⟨Tells.one _ (.inl c1'), .inl c1'⟩

theorem runTrivialT_tells (stgs : Settings) (s : St) :
    Tells (runTrivialT stgs s).2.2 (runTrivialT stgs s).2.1 := by
  unfold runTrivialT
  have h := trivialHeadT_tells stgs s
  generalize trivialHeadT stgs s = r at h ⊢
  obtain ⟨s1, st1, t1⟩ := r
  dsimp only at h ⊢
  by_cases c1 : st1 = INFEASIBLE
  · rw [if_pos c1]; exact h.1
  rw [if_neg c1]
  by_cases c2 : stgs.dualFix = true ∧ st1 = UNBNDORINFEAS
  · rw [if_pos c2]; exact h.1
  rw [if_neg c2]
  have e1 : st1 = UNCHANGED := by
    rcases h.2 with h | h | h
    · exact h
    · exact absurd h c1
    · exact absurd h c2
  have h1 := h.1
  rw [e1] at h1
  have h2 := stonRowsLoopT_tells (s1.m + 2) s1
  generalize stonRowsLoopT (s1.m + 2) s1 = q at h2 ⊢
  obtain ⟨s2, st2, t2⟩ := q
  dsimp only at h2 ⊢
  by_cases c3 : st2 = INFEASIBLE
  · rw [if_pos c3]; exact h1.append_left h2.1
  rw [if_neg c3]
  have e2 := h2.2.resolve_right c3
  have h2' := h1.append_left h2.1
  rw [e2] at h2'
  have h3 := removeEmptyRows_st s2
  generalize removeEmptyRows s2 = e at h3 ⊢
  have h3' := h2'.append_left (Tells.one .emptyRows (inf2 h3))
  by_cases c4 : e.2 = INFEASIBLE
  · rw [if_pos c4]; exact h3'
  rw [if_neg c4]
  have e3 := h3.resolve_right c4
  rw [e3] at h3'
  have h4 := removeEmptyCols_st e.1
  generalize removeEmptyCols e.1 = f at h4 ⊢
  have h4' := h3'.append_left (Tells.one .emptyCols (unb2 h4))
  have el : t1 ++ t2 ++ [(Expl.emptyRows, UNCHANGED)] ++ [(Expl.emptyCols, f.2)] =
      t1 ++ t2 ++ [(Expl.emptyRows, UNCHANGED), (Expl.emptyCols, f.2)] := by simp
  rw [el] at h4'
  rw [e3]
  by_cases c5 : f.2 = UNBNDORINFEAS
  · rw [if_pos c5]; exact h4'
  rw [if_neg c5]
  have e4 := h4.resolve_right c5
  rw [e4] at h4' ⊢
  exact h4'

theorem runFastT_tells (env : Env) (stgs : Settings) (s : St) :
    Tells (runFastT env stgs s).2.2 (runFastT env stgs s).2.1 := by
  unfold runFastT
  have key : ∀ r : St × Status × Trace, Tells r.2.2 r.2.1 →
      Tells (if stgs.dtonEq then
          let b := runTrivialT stgs (removeDtonRows env r.1)
          (b.1, r.2.1 ||| b.2.1, r.2.2 ++ (Expl.dton, UNCHANGED) :: b.2.2)
        else r).2.2
        (if stgs.dtonEq then
          let b := runTrivialT stgs (removeDtonRows env r.1)
          (b.1, r.2.1 ||| b.2.1, r.2.2 ++ (Expl.dton, UNCHANGED) :: b.2.2)
        else r).2.1 := by
    intro r hr
    by_cases c : stgs.dtonEq = true
    · simp only [if_pos c]
      exact hr.append ((Tells.one .dton (.inl rfl)).append_left (runTrivialT_tells stgs _))
    · simp only [if_neg c]
      exact hr
  apply key
  by_cases c : stgs.stonCols = true
  · simp only [if_pos c]
    exact (Tells.one .stonCols (unb2 (removeStonCols_st s))).append (runTrivialT_tells stgs _)
  · simp only [if_neg c]
    exact Tells.nil

theorem mediumTailT_tells (env : Env) (stgs : Settings) (r : St × Status × Trace)
    (h : Tells r.2.2 r.2.1) :
    Tells (mediumTailT env stgs r).2.2 (mediumTailT env stgs r).2.1 := by
  unfold mediumTailT
  by_cases c1 : r.2.1 ≠ UNCHANGED
  · simp only [if_pos c1]; exact h
  simp only [if_neg c1]
  rw [not_ne_iff] at c1
  have key : ∀ q : St × Status × Trace, Tells q.2.2 q.2.1 →
      Tells (if q.2.1 ≠ UNCHANGED then q
        else if stgs.parallelCols then
          let a := removeParallelCols env q.1
          let d := runTrivialT stgs a.1
          (d.1, a.2 ||| d.2.1, q.2.2 ++ (Expl.parallelCols, a.2) :: d.2.2)
        else q).2.2
        (if q.2.1 ≠ UNCHANGED then q
        else if stgs.parallelCols then
          let a := removeParallelCols env q.1
          let d := runTrivialT stgs a.1
          (d.1, a.2 ||| d.2.1, q.2.2 ++ (Expl.parallelCols, a.2) :: d.2.2)
        else q).2.1 := by
    intro q hq
    by_cases c2 : q.2.1 ≠ UNCHANGED
    · simp only [if_pos c2]; exact hq
    simp only [if_neg c2]
    rw [not_ne_iff] at c2
    rw [c2] at hq
    by_cases c3 : stgs.parallelCols = true
    · simp only [if_pos c3]
      exact hq.append_left ((Tells.one .parallelCols (unb2 (removeParallelCols_st env q.1))).append
        (runTrivialT_tells stgs _))
    · simp only [if_neg c3]; rw [c2]; exact hq
  apply key
  by_cases c2 : stgs.parallelRows = true
  · simp only [if_pos c2]
    rw [c1] at h
    exact h.append_left (Tells.one .parallelRows (inf2 (removeParallelRows_st env r.1)))
  · simp only [if_neg c2]; exact h

theorem runPhaseT_tells (env : Env) (stgs : Settings) (c : Complexity) (s : St) :
    Tells (runPhaseT env stgs c s).2.2 (runPhaseT env stgs c s).2.1 := by
  cases c
  · exact runFastT_tells env stgs s
  · apply mediumTailT_tells
    by_cases c1 : stgs.primalPropagation = true
    · simp only [if_pos c1]
      have h1 := checkActivities_st s
      have h2 := propagatePrimal_st stgs.finiteBoundTightening (checkActivities s).1
      exact ((Tells.one .checkActs (inf2 h1)).append (Tells.one .propagation (inf2 h2))).append
        (runTrivialT_tells stgs _)
    · simp only [if_neg c1]
      exact Tells.nil

theorem hasStatus_false {st : Status} (h : st = UNCHANGED ∨ st = INFEASIBLE ∨ st = UNBNDORINFEAS)
    (e : hasStatus st UNBNDORINFEAS = false) : st = UNCHANGED := by
  rcases h with h | h | h
  · exact h
  · subst h; exact absurd e (by decide)
  · subst h; exact absurd e (by decide)

theorem mainLoopT_tells (env : Env) (stgs : Settings) : ∀ (fuel : ℕ) (s : St) (c : Complexity)
    (b a : ℤ), Tells (mainLoopT env stgs fuel s c b a).2.2.2 (mainLoopT env stgs fuel s c b a).2.1
  | 0, _, _, _, _ => Tells.nil
  | fuel + 1, s, c, b, a => by
    rw [mainLoopT_succ]
    have h1 := runTrivialT_tells stgs s
    generalize runTrivialT stgs s = r at h1 ⊢
    obtain ⟨s1, st1, t1⟩ := r
    dsimp only at h1 ⊢
    by_cases c1 : st1 ≠ UNCHANGED
    · rw [if_pos c1]; exact h1
    rw [if_neg c1]
    rw [not_ne_iff] at c1
    rw [c1] at h1
    have h2 := runPhaseT_tells env stgs c s1
    generalize runPhaseT env stgs c s1 = q at h2 ⊢
    obtain ⟨s2, st2, t2⟩ := q
    dsimp only at h2 ⊢
    generalize (if c = Complexity.medium then s2.nnz else a) = a'
    have h3 := h1.append_left h2
    cases c2 : updateTermination a' b c st2 (env.timeUp s2.tick) with
    | true => rw [if_pos rfl]; exact h3
    | false =>
      rw [if_neg Bool.false_ne_true]
      have e2 : st2 = UNCHANGED := by
        unfold updateTermination at c2
        simp only [Bool.or_eq_false_iff] at c2
        exact hasStatus_false (h2.2 ▸ verdict_cases t2) c2.1.1
      rw [e2] at h3
      exact h3.append_left (mainLoopT_tells env stgs fuel _ _ _ _)

/-- **C12.**  When `run_presolver` returns (`r` is the value), the value is one of the four
documented ones; it is `UNBNDORINFEAS` exactly if some explorer reported that, `INFEASIBLE`
exactly if some explorer reported that and none the weaker one; otherwise it is `UNCHANGED` or
`REDUCED`, and it is `UNCHANGED` exactly if the numbers of rows, columns and entries of the
reduced problem are those of the original one. -/
theorem C12_status (env : Env) (stgs : Settings) (fuel : ℕ) (P : LP) (r : Status)
    (hr : presolveStatus env stgs fuel P = some r) :
    let tr := runTrace env stgs fuel P
    let s := (runPresolver env stgs fuel P).1
    Documented tr ∧
    (r = UNBNDORINFEAS ↔ ∃ e ∈ tr, e.2 = UNBNDORINFEAS) ∧
    (r = INFEASIBLE ↔ (∃ e ∈ tr, e.2 = INFEASIBLE) ∧ ¬∃ e ∈ tr, e.2 = UNBNDORINFEAS) ∧
    ((∀ e ∈ tr, e.2 ≠ INFEASIBLE ∧ e.2 ≠ UNBNDORINFEAS) → r = UNCHANGED ∨ r = REDUCED) ∧
    ((∀ e ∈ tr, e.2 ≠ INFEASIBLE ∧ e.2 ≠ UNBNDORINFEAS) →
      (r = UNCHANGED ↔ countLeft P.n s.colSize = P.n ∧ countLeft P.m s.rowSize = P.m ∧
        s.nnz = P.entries)) := by
  intro tr s
  have ht : Tells tr (runPresolver env stgs fuel P).2.1 := by
    have h := mainLoopT_tells env stgs fuel (initSt P) .fast (initSt P).nnz (initSt P).nnz
    have e := mainLoopT_erase env stgs fuel (initSt P) .fast (initSt P).nnz (initSt P).nnz
    have e2 := congrArg (fun w => w.2.1) e
    dsimp only at e2
    rw [e2] at h
    have e3 : (runPresolver env stgs fuel P).2.1 =
        (mainLoop env stgs fuel (initSt P) .fast (initSt P).nnz (initSt P).nnz).2.1 := by
      unfold runPresolver
      dsimp only
      split <;> rfl
    rw [e3]
    exact h
  unfold presolveStatus at hr
  dsimp only at hr
  split at hr
  case isFalse => cases hr
  case isTrue =>
  have hr' := Option.some.inj hr
  clear hr
  have hs : finalStatus P (runPresolver env stgs fuel P).1 = finalStatus P s := rfl
  have hv := ht.2
  have hf : finalStatus P s = UNCHANGED ∨ finalStatus P s = REDUCED := by
    unfold finalStatus
    split
    · exact .inl rfl
    · exact .inr rfl
  have hf6 : finalStatus P s ≠ UNBNDORINFEAS := by
    rcases hf with h | h <;> rw [h] <;> decide
  have hf2 : finalStatus P s ≠ INFEASIBLE := by
    rcases hf with h | h <;> rw [h] <;> decide
  rw [hs, hv] at hr'
  have d26 : INFEASIBLE ≠ UNBNDORINFEAS := by decide
  have d20 : INFEASIBLE ≠ UNCHANGED := by decide
  have d60 : UNBNDORINFEAS ≠ UNCHANGED := by decide
  refine ⟨ht.1, ?_, ?_, ?_, ?_⟩
  · by_cases h6 : ∃ e ∈ tr, e.2 = UNBNDORINFEAS
    · rw [show verdict tr = UNBNDORINFEAS by unfold verdict; rw [if_pos h6]] at hr'
      rw [if_pos d60] at hr'
      exact ⟨fun _ => h6, fun _ => hr'.symm⟩
    · by_cases h2 : ∃ e ∈ tr, e.2 = INFEASIBLE
      · rw [show verdict tr = INFEASIBLE by unfold verdict; rw [if_neg h6, if_pos h2],
          if_pos d20] at hr'
        exact ⟨fun h => absurd (hr'.trans h) d26, fun h => absurd h h6⟩
      · rw [show verdict tr = UNCHANGED by unfold verdict; rw [if_neg h6, if_neg h2],
          if_neg (by simp)] at hr'
        exact ⟨fun h => absurd (hr'.trans h) hf6, fun h => absurd h h6⟩
  · by_cases h6 : ∃ e ∈ tr, e.2 = UNBNDORINFEAS
    · rw [show verdict tr = UNBNDORINFEAS by unfold verdict; rw [if_pos h6], if_pos d60] at hr'
      exact ⟨fun h => absurd (hr'.trans h).symm d26, fun h => absurd h6 h.2⟩
    · by_cases h2 : ∃ e ∈ tr, e.2 = INFEASIBLE
      · rw [show verdict tr = INFEASIBLE by unfold verdict; rw [if_neg h6, if_pos h2],
          if_pos d20] at hr'
        exact ⟨fun _ => ⟨h2, h6⟩, fun _ => hr'.symm⟩
      · rw [show verdict tr = UNCHANGED by unfold verdict; rw [if_neg h6, if_neg h2],
          if_neg (by simp)] at hr'
        exact ⟨fun h => absurd (hr'.trans h) hf2, fun h => absurd h.1 h2⟩
  · intro h
    have h6 : ¬∃ e ∈ tr, e.2 = UNBNDORINFEAS := fun ⟨e, he, h'⟩ => (h e he).2 h'
    have h2 : ¬∃ e ∈ tr, e.2 = INFEASIBLE := fun ⟨e, he, h'⟩ => (h e he).1 h'
    rw [show verdict tr = UNCHANGED by unfold verdict; rw [if_neg h6, if_neg h2],
      if_neg (by simp)] at hr'
    rw [← hr']
    exact hf
  · intro h
    have h6 : ¬∃ e ∈ tr, e.2 = UNBNDORINFEAS := fun ⟨e, he, h'⟩ => (h e he).2 h'
    have h2 : ¬∃ e ∈ tr, e.2 = INFEASIBLE := fun ⟨e, he, h'⟩ => (h e he).1 h'
    rw [show verdict tr = UNCHANGED by unfold verdict; rw [if_neg h6, if_neg h2],
      if_neg (by simp)] at hr'
    rw [← hr']
    unfold finalStatus
    split
    · rename_i hc
      exact ⟨fun _ => ⟨hc.1.symm, hc.2.1.symm, hc.2.2.symm⟩, fun _ => rfl⟩
    · rename_i hc
      refine ⟨fun h => absurd h (by decide), fun h => absurd ⟨h.1.symm, h.2.1.symm, h.2.2.symm⟩ hc⟩

/-- Two variables, `x0 + x1 ≤ 3` and `2 x0 ≤ 8` (a singleton row). -/
def lpStat : LP where
  m := 2
  n := 2
  A := ofList [[(0, 1), (1, 1)], [(0, 2)]] []
  lhs := fun _ => .ninf
  rhs := ofList [.fin 3, .fin 8] (.fin 0)
  lb := fun _ => .fin 0
  ub := fun _ => .fin 10
  c := ofList [-1, -2] 0

/-- The hypotheses are met by complete runs, with each of the outcomes: a reduced problem, and
an infeasible one (`2 x0 ≤ -8`). -/
example : presolveStatus envEx stgsAll 10 lpStat = some REDUCED ∧
    presolveStatus envEx stgsAll 10 { lpStat with rhs := ofList [.fin 3, .fin (-8)] (.fin 0) } =
      some INFEASIBLE ∧
    (.stonRows, REDUCED) ∈ runTrace envEx stgsAll 10 lpStat := by
  decide +kernel

end Verif
