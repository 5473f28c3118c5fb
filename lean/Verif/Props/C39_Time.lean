import Verif.Props.C12_Status
import Verif.Lemmas.EnvEx

/-!
# C39: stopping on the time limit is safe at every point

`env.timeUp t` is what the clock says at query `t`: the theorems hold for every such function.
-/

namespace Verif

/-- The same environment with a clock that never reports that the time is over. -/
def Env.unlimited (env : Env) : Env := { env with timeUp := fun _ => false }

theorem findSubst_unlimited (env : Env) (s : St) (i : ℕ) :
    findSubst env.unlimited s i = findSubst env s i := rfl

theorem dtonStep_unlimited (env : Env) : dtonStep env.unlimited = dtonStep env := rfl

theorem dtonLoop_unlimited (env : Env) : ∀ (fuel : ℕ) (s : St),
    dtonLoop env.unlimited fuel s = dtonLoop env fuel s
  | 0, _ => rfl
  | fuel + 1, s => by
    have h : dtonRound env.unlimited s = dtonRound env s := rfl
    unfold dtonLoop
    simp only [h, dtonLoop_unlimited env fuel]

theorem removeDtonRows_unlimited (env : Env) (s : St) :
    removeDtonRows env.unlimited s = removeDtonRows env s := by
  unfold removeDtonRows
  simp only [dtonLoop_unlimited]

theorem removeParallelRows_unlimited (env : Env) (s : St) :
    removeParallelRows env.unlimited s = removeParallelRows env s := rfl

theorem removeParallelCols_unlimited (env : Env) (s : St) :
    removeParallelCols env.unlimited s = removeParallelCols env s := rfl

theorem runPhase_unlimited (env : Env) (stgs : Settings) (c : Complexity) (s : St) :
    runPhase env.unlimited stgs c s = runPhase env stgs c s := by
  cases c
  · simp only [runPhase, runFast, removeDtonRows_unlimited]
  · simp only [runPhase, runMedium, removeParallelRows_unlimited, removeParallelCols_unlimited]

theorem updateTermination_clock (a b : ℤ) (c : Complexity) (st : Status) (t : Bool) :
    updateTermination a b c st t = (updateTermination a b c st false || t) := by
  simp [updateTermination]

/-- Where the main loop stops, relative to the run without a time limit. -/
def StopsBetween (env : Env) (stgs : Settings) (s : St) (c : Complexity) (b a : ℤ)
    (s' : St) (st : Status) : Prop :=
  (∃ k, ∀ fuel, mainLoop env.unlimited stgs (fuel + k) s c b a = (s', st, true)) ∨
  (st = UNCHANGED ∧ ∃ k c' b' a', ∀ fuel, mainLoop env.unlimited stgs (fuel + k) s c b a =
    mainLoop env.unlimited stgs fuel s' c' b' a')

theorem mainLoop_stops (env : Env) (stgs : Settings)
    (hst : ∀ c s, hasStatus (runPhase env stgs c s).2 UNBNDORINFEAS = false →
      (runPhase env stgs c s).2 = UNCHANGED) :
    ∀ (fuel : ℕ) (s : St) (c : Complexity) (b a : ℤ) (s' : St) (st : Status),
    mainLoop env stgs fuel s c b a = (s', st, true) → StopsBetween env stgs s c b a s' st
  | 0, _, _, _, _, _, _, h => by cases h
  | fuel + 1, s, c, b, a, s', st, h => by
    rw [mainLoop_succ] at h
    dsimp only at h
    by_cases c1 : (runTrivial stgs s).2 ≠ UNCHANGED
    · rw [if_pos c1] at h
      refine .inl ⟨1, fun f => ?_⟩
      rw [mainLoop_succ]
      dsimp only
      rw [if_pos c1]
      exact h
    rw [if_neg c1] at h
    have e1 : ∀ f, mainLoop env.unlimited stgs (f + 1) s c b a =
        (let q := runPhase env stgs c (runTrivial stgs s).1
         let a' := if c = .medium then q.1.nnz else a
         let s' := { q.1 with tick := q.1.tick + 1 }
         if updateTermination a' b c q.2 false then (s', q.2, true)
         else mainLoop env.unlimited stgs f s' (updateComplexity c (runTrivial stgs s).1.nnz s'.nnz)
          (if c = .medium then a' else b) a') := by
      intro f
      rw [mainLoop_succ]
      dsimp only
      rw [if_neg c1, runPhase_unlimited]
      rfl
    dsimp only at e1
    have hq := hst c (runTrivial stgs s).1
    generalize runPhase env stgs c (runTrivial stgs s).1 = q at h e1 hq
    generalize (if c = Complexity.medium then q.1.nnz else a) = a' at h e1
    generalize (runTrivial stgs s).1.nnz = n0 at h e1
    rw [updateTermination_clock] at h
    cases ct : updateTermination a' b c q.2 false with
    | true =>
      rw [ct] at h
      simp only [ct, if_true] at e1
      refine .inl ⟨1, fun f => ?_⟩
      rw [e1 f]
      exact h
    | false =>
      have hz : q.2 = UNCHANGED := by
        apply hq
        simp only [updateTermination, Bool.or_eq_false_iff] at ct
        exact ct.1.1
      rw [ct, Bool.false_or] at h
      simp only [ct, if_false, Bool.false_eq_true] at e1
      cases ck : env.timeUp q.1.tick with
      | true =>
        rw [ck, if_pos rfl] at h
        have h1 := congrArg Prod.fst h
        have h2 := congrArg (fun w => w.2.1) h
        dsimp only at h1 h2
        refine .inr ⟨h2 ▸ hz, 1, updateComplexity c n0 q.1.nnz,
          (if c = Complexity.medium then a' else b), a', fun f => ?_⟩
        rw [e1 f, h1]
      | false =>
        rw [ck, if_neg Bool.false_ne_true] at h
        rcases mainLoop_stops env stgs hst fuel _ _ _ _ s' st h with ⟨k, hk⟩ | ⟨hu, k, c', b', a'', hk⟩
        · refine .inl ⟨k + 1, fun f => ?_⟩
          rw [← Nat.add_assoc, e1 (f + k)]
          exact hk f
        · refine .inr ⟨hu, k + 1, c', b', a'', fun f => ?_⟩
          rw [← Nat.add_assoc, e1 (f + k)]
          exact hk f

/-- Everything that is preserved by the trivial explorers and by complete phases (as long as
they do not report a failure), and by the bookkeeping of the loop, holds when the loop stops
without a failure, whatever the clock says. -/
theorem mainLoop_invariant (env : Env) (stgs : Settings) (I : St → Prop)
    (ht : ∀ s, I s → (runTrivial stgs s).2 = UNCHANGED → I (runTrivial stgs s).1)
    (hp : ∀ c s, I s → (runPhase env stgs c s).2 = UNCHANGED → I (runPhase env stgs c s).1)
    (htick : ∀ s t, I s → I { s with tick := t })
    (hst : ∀ c s, hasStatus (runPhase env stgs c s).2 UNBNDORINFEAS = false →
      (runPhase env stgs c s).2 = UNCHANGED) :
    ∀ (fuel : ℕ) (s : St) (c : Complexity) (b a : ℤ), I s →
      (mainLoop env stgs fuel s c b a).2.1 = UNCHANGED → I (mainLoop env stgs fuel s c b a).1
  | 0, _, _, _, _, h, _ => h
  | fuel + 1, s, c, b, a, h, hu => by
    rw [mainLoop_succ] at hu ⊢
    dsimp only at hu ⊢
    by_cases c1 : (runTrivial stgs s).2 ≠ UNCHANGED
    · rw [if_pos c1] at hu; exact absurd hu c1
    rw [if_neg c1] at hu ⊢
    have h1 := ht s h (not_ne_iff.mp c1)
    have h2 := hp c _ h1
    have h3 := hst c (runTrivial stgs s).1
    generalize runPhase env stgs c (runTrivial stgs s).1 = q at *
    cases ct : updateTermination (if c = .medium then q.1.nnz else a) b c q.2
        (env.timeUp q.1.tick) with
    | true =>
      rw [ct, if_pos rfl] at hu
      rw [if_pos rfl]
      exact htick _ _ (h2 hu)
    | false =>
      rw [ct, if_neg Bool.false_ne_true] at hu
      rw [if_neg Bool.false_ne_true]
      have hz : q.2 = UNCHANGED := by
        apply h3
        simp only [updateTermination, Bool.or_eq_false_iff] at ct
        exact ct.1.1
      exact mainLoop_invariant env stgs I ht hp htick hst fuel _ _ _ _ (htick _ _ (h2 hz)) hu

/-- A phase that does not report a failure returns `UNCHANGED` (never `REDUCED`). -/
theorem runPhase_status (env : Env) (stgs : Settings) (c : Complexity) (s : St)
    (h : hasStatus (runPhase env stgs c s).2 UNBNDORINFEAS = false) :
    (runPhase env stgs c s).2 = UNCHANGED := by
  have ht := runPhaseT_tells env stgs c s
  have e := congrArg Prod.snd (runPhaseT_erase env stgs c s)
  dsimp only at e
  rw [e] at ht
  exact hasStatus_false (ht.2 ▸ verdict_cases _) h

/-- What `run_presolver` does after the main loop when there was no failure
(`/repo/src/core/Presolver.c:737-740`). -/
def finishRun (stgs : Settings) (s : St) : St :=
  if stgs.relaxBounds then removeRedundantBounds s else s

/-- **C39, where it stops.**  Whatever the clock reports, a run that ends has either the result
of the run without time limit, or it reports no failure and its main loop ended at a state that
the run without time limit goes through between two phases (from there that run would go on
with the next trivial explorers). -/
theorem C39_boundary (env : Env) (stgs : Settings) (fuel : ℕ) (P : LP)
    (h : (runPresolver env stgs fuel P).2.2 = true) :
    (∃ k, ∀ f, runPresolver env.unlimited stgs (f + k) P = runPresolver env stgs fuel P) ∨
    ((runPresolver env stgs fuel P).2.1 = UNCHANGED ∧ ∃ s' k c b a,
      (runPresolver env stgs fuel P).1 = finishRun stgs s' ∧
      ∀ f, mainLoop env.unlimited stgs (f + k) (initSt P) .fast (initSt P).nnz (initSt P).nnz =
        mainLoop env.unlimited stgs f s' c b a) := by
  unfold runPresolver at h ⊢
  dsimp only at h ⊢
  have hm : (mainLoop env stgs fuel (initSt P) .fast (initSt P).nnz (initSt P).nnz).2.2 = true := by
    split at h <;> exact h
  have key := mainLoop_stops env stgs (runPhase_status env stgs) fuel (initSt P) .fast
    (initSt P).nnz (initSt P).nnz _ (mainLoop env stgs fuel (initSt P) .fast (initSt P).nnz
      (initSt P).nnz).2.1 (by rw [← hm])
  generalize mainLoop env stgs fuel (initSt P) .fast (initSt P).nnz (initSt P).nnz = r at *
  obtain ⟨s', st, b⟩ := r
  dsimp only at hm key ⊢
  subst hm
  rcases key with ⟨k, hk⟩ | ⟨hu, k, c, b', a, hk⟩
  · refine .inl ⟨k, fun f => ?_⟩
    rw [hk f]
  · refine .inr ⟨?_, s', k, c, b', a, ?_, hk⟩
    · rw [if_neg (not_not.mpr hu)]; exact hu
    · rw [if_neg (not_not.mpr hu)]; rfl

/-- **C39, what holds then.**  Let `I` hold for the initial state and be preserved by every run
of the trivial explorers and every complete phase that reports no failure.  Then, whatever the
clock reports, when `run_presolver` ends without a failure the state handed to the final
clean-up satisfies `I`: a time limit weakens no guarantee that is proved phase by phase. -/
theorem C39_guarantees (env : Env) (stgs : Settings) (I : St → Prop)
    (ht : ∀ s, I s → (runTrivial stgs s).2 = UNCHANGED → I (runTrivial stgs s).1)
    (hp : ∀ c s, I s → (runPhase env.unlimited stgs c s).2 = UNCHANGED →
      I (runPhase env.unlimited stgs c s).1)
    (htick : ∀ s t, I s → I { s with tick := t })
    (fuel : ℕ) (P : LP) (h0 : I (initSt P))
    (hu : (runPresolver env stgs fuel P).2.1 = UNCHANGED) :
    ∃ s', I s' ∧ (runPresolver env stgs fuel P).1 = finishRun stgs s' := by
  unfold runPresolver at hu ⊢
  dsimp only at hu ⊢
  have hm : (mainLoop env stgs fuel (initSt P) .fast (initSt P).nnz (initSt P).nnz).2.1 =
      UNCHANGED := by
    split at hu <;> exact hu
  refine ⟨_, mainLoop_invariant env stgs I ht ?_ htick (runPhase_status env stgs) fuel _ _ _ _
    h0 hm, ?_⟩
  · intro c s hs hc
    have := hp c s hs
    rw [runPhase_unlimited] at this
    exact this hc
  · rw [if_neg (not_not.mpr hm)]; rfl

/-- A clock that fires at once, and one that fires at the third query, on the problem of C12:
both runs end without a failure and the first one is stopped by the clock (its log is the log
of the other one cut short). -/
example :
    (runPresolver { envEx with timeUp := fun _ => true } stgsAll 10 lpStat).2 = (UNCHANGED, true) ∧
    (runPresolver { envEx with timeUp := fun t => decide (3 ≤ t) } stgsAll 10 lpStat).2 =
      (UNCHANGED, true) ∧
    (runPresolver envEx stgsAll 10 lpStat).1.tick ≠
      (runPresolver { envEx with timeUp := fun _ => true } stgsAll 10 lpStat).1.tick := by
  decide +kernel

end Verif
