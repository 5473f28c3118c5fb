import Verif.Inv.ListedDton

/-!
# Rows waiting for propagation and row tags in whole runs
-/

namespace Verif

theorem trivialHead_lup (stgs : Settings) (s : St) : Lup s (trivialHead stgs s).1 := by
  unfold trivialHead
  simp only
  split
  · exact closeBounds_lup s
  · split
    · exact ((closeBounds_lup s).trans (removeEmptyCols_lup _)).trans (simpleDualFix_lup _)
    · exact closeBounds_lup s

theorem runTrivial_lup (stgs : Settings) (s : St) : Lup s (runTrivial stgs s).1 := by
  unfold runTrivial
  simp only
  have h := trivialHead_lup stgs s
  split
  · exact h
  · split
    · exact h
    · have h2 := h.trans (stonRowsLoop_lup ((trivialHead stgs s).1.m + 2) _)
      split
      · exact h2
      · have h3 := h2.trans (removeEmptyRows_lup _)
        split
        · exact h3
        · have h4 := h3.trans (removeEmptyCols_lup _)
          split
          · exact h4
          · exact h4.trans (((Lup.check _ _).trans (Lup.check _ _)).trans (Lup.check _ _))

theorem not_infeasible_of_fine {a : Status} (h : fine a) : a ≠ INFEASIBLE := by
  rintro rfl
  revert h
  unfold fine
  decide

/-- `Lup` unless the problem was found infeasible or unbounded. -/
def UpF (s : St) (r : St × Status) : Prop := fine r.2 → Lup s r.1

theorem Lup.f {s : St} {r : St × Status} (h : Lup s r.1) : UpF s r := fun _ => h

theorem UpF.trans' {s : St} {r r' : St × Status} (h : UpF s r) (h' : UpF r.1 r') : UpF s (r'.1, r.2 ||| r'.2) :=
  fun f => (h (fine_or.mp f).1).trans (h' (fine_or.mp f).2)

theorem propagatePrimal_upf (fbt : Bool) (s : St) : UpF s (propagatePrimal fbt s) :=
  fun f => propagatePrimal_lup fbt s (not_infeasible_of_fine f)

theorem explCall_upf (env : Env) (stgs : Settings) (e : Expl) (s : St) : UpF s (explCall env stgs e s) := by
  cases e with
  | closeBounds => exact (closeBounds_lup s).f
  | emptyCols => exact (removeEmptyCols_lup s).f
  | dualFix => exact (simpleDualFix_lup s).f
  | stonRows => exact (removeStonRows_lup s).f
  | emptyRows => exact (removeEmptyRows_lup s).f
  | stonCols => exact (removeStonCols_lup s).f
  | dton => exact Lup.f (r := (removeDtonRows env s, UNCHANGED)) (removeDtonRows_lup env s)
  | checkActs => exact (checkActivities_lup s).f
  | propagation => exact propagatePrimal_upf _ s
  | parallelRows => exact (removeParallelRows_lup env s).f
  | parallelCols => exact (removeParallelCols_lup env s).f

theorem Calls.lup {env : Env} {stgs : Settings} {s t : St} (h : Calls env stgs s t) : Lup s t := by
  induction h with
  | nil => exact .refl s
  | @call t e _ hf ih => exact ih.trans (explCall_upf env stgs e t hf)

theorem runFast_upf (env : Env) (stgs : Settings) (s : St) : UpF s (runFast env stgs s) := by
  unfold runFast
  simp only
  have h1 : UpF s (if stgs.stonCols then
      ((runTrivial stgs ((removeStonCols s).1.check (decide ((removeStonCols s).1.emptyRows = [])))).1,
        (removeStonCols s).2 |||
        (runTrivial stgs ((removeStonCols s).1.check (decide ((removeStonCols s).1.emptyRows = [])))).2)
      else (s, UNCHANGED)) := by
    split
    · exact Lup.f (((removeStonCols_lup s).trans (Lup.check _ _)).trans (runTrivial_lup stgs _))
    · exact (Lup.refl s).f
  generalize (if stgs.stonCols then
      ((runTrivial stgs ((removeStonCols s).1.check (decide ((removeStonCols s).1.emptyRows = [])))).1,
        (removeStonCols s).2 |||
        (runTrivial stgs ((removeStonCols s).1.check (decide ((removeStonCols s).1.emptyRows = [])))).2)
      else (s, UNCHANGED)) = r at h1
  split
  · exact h1.trans' (r' := runTrivial stgs (removeDtonRows env r.1)) ((removeDtonRows_lup env r.1).trans (runTrivial_lup stgs _)).f
  · exact h1

theorem runMedium_upf (env : Env) (stgs : Settings) (s : St) : UpF s (runMedium env stgs s) := by
  unfold runMedium
  simp only
  have h1 : UpF s (if stgs.primalPropagation then
      ((runTrivial stgs (propagatePrimal stgs.finiteBoundTightening (checkActivities s).1).1).1,
        (checkActivities s).2 ||| (propagatePrimal stgs.finiteBoundTightening (checkActivities s).1).2 |||
        (runTrivial stgs (propagatePrimal stgs.finiteBoundTightening (checkActivities s).1).1).2)
      else (s, UNCHANGED)) := by
    split
    · have g1 := (checkActivities_lup s).f
      generalize checkActivities s = a at g1 ⊢
      have g2 := propagatePrimal_upf stgs.finiteBoundTightening a.1
      generalize propagatePrimal stgs.finiteBoundTightening a.1 = b at g2 ⊢
      have g3 := (runTrivial_lup stgs b.1).f
      generalize runTrivial stgs b.1 = d at g3 ⊢
      exact (g1.trans' g2).trans' g3
    · exact (Lup.refl s).f
  generalize (if stgs.primalPropagation then
      ((runTrivial stgs (propagatePrimal stgs.finiteBoundTightening (checkActivities s).1).1).1,
        (checkActivities s).2 ||| (propagatePrimal stgs.finiteBoundTightening (checkActivities s).1).2 |||
        (runTrivial stgs (propagatePrimal stgs.finiteBoundTightening (checkActivities s).1).1).2)
      else (s, UNCHANGED)) = r at h1
  split
  · exact h1
  · rename_i hu
    have hu : r.2 = UNCHANGED := by simpa using hu
    have h2 : UpF s (if stgs.parallelRows then removeParallelRows env r.1 else r) := by
      split
      · exact Lup.f ((h1 (by rw [hu]; rfl)).trans (removeParallelRows_lup env r.1))
      · exact h1
    generalize (if stgs.parallelRows then removeParallelRows env r.1 else r) = r2 at h2
    split
    · exact h2
    · rename_i hu2
      have hu2 : r2.2 = UNCHANGED := by simpa using hu2
      split
      · exact Lup.f (((h2 (by rw [hu2]; rfl)).trans (removeParallelCols_lup env r2.1)).trans (runTrivial_lup stgs _))
      · exact h2

theorem mainLoopD_lup (env : Env) (stgs : Settings) (fuel : ℕ) (s : St) (c : Complexity) (b a : ℤ) :
    (∀ t ∈ (mainLoopD env stgs fuel s c b a).2, Lup s t) ∧
      (fine (mainLoopD env stgs fuel s c b a).1.2.1 → Lup s (mainLoopD env stgs fuel s c b a).1.1) := by
  induction fuel generalizing s c b a with
  | zero => exact ⟨fun t ht => (by cases ht), fun _ => .refl s⟩
  | succ fuel ih =>
    unfold mainLoopD
    simp only
    have h1 := runTrivial_lup stgs s
    generalize runTrivial stgs s = r at h1
    by_cases hu : r.2 ≠ UNCHANGED
    · rw [if_pos hu]
      exact ⟨fun t ht => (by cases ht), fun _ => h1⟩
    rw [if_neg hu]
    have key : ∀ q : St × Status, UpF r.1 q → ∀ (x : Bool) (c' : Complexity) (b' a' : ℤ), (x = false → fine q.2) →
        (∀ t ∈ (if x = true then (({ q.1 with tick := q.1.tick + 1 }, q.2, true), [r.1]) else
          ((mainLoopD env stgs fuel { q.1 with tick := q.1.tick + 1 } c' b' a').1,
            r.1 :: (mainLoopD env stgs fuel { q.1 with tick := q.1.tick + 1 } c' b' a').2) :
              (St × Status × Bool) × List St).2, Lup s t) ∧
        (fine (if x = true then (({ q.1 with tick := q.1.tick + 1 }, q.2, true), [r.1]) else
          ((mainLoopD env stgs fuel { q.1 with tick := q.1.tick + 1 } c' b' a').1,
            r.1 :: (mainLoopD env stgs fuel { q.1 with tick := q.1.tick + 1 } c' b' a').2) :
              (St × Status × Bool) × List St).1.2.1 →
          Lup s (if x = true then (({ q.1 with tick := q.1.tick + 1 }, q.2, true), [r.1]) else
          ((mainLoopD env stgs fuel { q.1 with tick := q.1.tick + 1 } c' b' a').1,
            r.1 :: (mainLoopD env stgs fuel { q.1 with tick := q.1.tick + 1 } c' b' a').2) :
              (St × Status × Bool) × List St).1.1) := by
      intro q h2 x c' b' a' hx
      have h4 : fine q.2 → Lup s { q.1 with tick := q.1.tick + 1 } := fun f =>
        (h1.trans (h2 f)).trans (.same id rfl rfl rfl rfl rfl rfl rfl)
      cases x with
      | true =>
        simp only [if_true]
        exact ⟨fun t ht => (by rw [List.mem_singleton] at ht; subst ht; exact h1), h4⟩
      | false =>
        simp only [Bool.false_eq_true, if_false]
        have h5 := ih { q.1 with tick := q.1.tick + 1 } c' b' a'
        refine ⟨fun t ht => ?_, fun f => (h4 (hx rfl)).trans (h5.2 f)⟩
        rcases List.mem_cons.mp ht with e | e
        · subst e; exact h1
        · exact (h4 (hx rfl)).trans (h5.1 t e)
    have hfine : ∀ (u v : ℤ) (q : St × Status) (tu : Bool), updateTermination u v c q.2 tu = false → fine q.2 := by
      intro u v q tu ht
      unfold updateTermination at ht
      simp only [Bool.or_eq_false_iff] at ht
      exact ht.1.1
    cases c with
    | fast => exact key _ (runFast_upf env stgs r.1) _ _ _ _ (hfine _ _ _ _)
    | medium => exact key _ (runMedium_upf env stgs r.1) _ _ _ _ (hfine _ _ _ _)

/-- Every state given to the debugger comes from the initial one by pieces that keep list and tags right. -/
theorem debugPoints_lup {env : Env} {stgs : Settings} {fuel : ℕ} {P : LP} {t : St} {finished : Bool}
    (h : (t, finished) ∈ debugPoints env stgs fuel P) : Lup (initSt P) t := by
  unfold debugPoints at h
  simp only at h
  have hpts := mainLoopD_lup env stgs fuel (initSt P) .fast (initSt P).nnz (initSt P).nnz
  generalize mainLoopD env stgs fuel (initSt P) .fast (initSt P).nnz (initSt P).nnz = w at h hpts
  rcases List.mem_append.mp h with h | h
  · rcases List.mem_cons.mp h with e | h
    · obtain ⟨rfl, rfl⟩ := Prod.mk.inj e; exact .refl _
    rcases List.mem_cons.mp h with e | h
    · obtain ⟨rfl, rfl⟩ := Prod.mk.inj e; exact .refl _
    obtain ⟨u, hu, e⟩ := List.mem_map.mp h
    obtain ⟨rfl, rfl⟩ := Prod.mk.inj e
    exact hpts.1 u hu
  · split at h
    · rename_i hw
      obtain ⟨ht, rfl⟩ := Prod.mk.inj (List.mem_singleton.mp h)
      have hl := hpts.2 (by rw [hw.1]; rfl)
      subst ht
      split
      · exact hl.trans (removeRedundantBounds_lup _)
      · exact hl
    · cases h

/-- The result of a run. -/
theorem runPresolver_lup {env : Env} {stgs : Settings} {fuel : ℕ} {P : LP} (hf : fine (runPresolver env stgs fuel P).2.1) :
    Lup (initSt P) (runPresolver env stgs fuel P).1 := by
  have hpts := (mainLoopD_lup env stgs fuel (initSt P) .fast (initSt P).nnz (initSt P).nnz).2
  rw [mainLoopD_erase] at hpts
  unfold runPresolver at hf ⊢
  simp only at hf ⊢
  generalize mainLoop env stgs fuel (initSt P) .fast (initSt P).nnz (initSt P).nnz = r at hf hpts ⊢
  split at hf
  · rename_i h
    rw [if_pos h]; exact hpts hf
  · rename_i h
    rw [if_neg h]
    split
    · exact (hpts hf).trans (removeRedundantBounds_lup _)
    · exact hpts hf

/-! ### The initial state -/

theorem initStatus {m : ℕ} {u : ℕ → Bool} {a : ℕ → Act} {i : ℕ} (h : (a i).status = .notAdded) :
    (if i < m ∧ u i = true then { a i with status := .added } else a i : Act).status =
      if i ∈ (List.range m).filter u then .added else .notAdded := by
  have e : i ∈ (List.range m).filter u ↔ i < m ∧ u i = true := by rw [List.mem_filter, List.mem_range]
  by_cases hc : i < m ∧ u i = true
  · rw [if_pos hc, if_pos (e.mpr hc)]
  · rw [if_neg hc, if_neg (fun x => hc (e.mp x))]; exact h

theorem initSt_updOK (P : LP) : UpdOK (initSt P) := by
  have hst : ∀ i, ((initSt P).act i).status = if i ∈ (initSt P).updActs then .added else .notAdded :=
    fun i => initStatus (a := fun i => actInit (initSt P).ctag P.lb P.ub (P.A i)) (i := i)
      (u := fun i => decide ((actInit (initSt P).ctag P.lb P.ub (P.A i)).nInfMin = 0 ∨
        (actInit (initSt P).ctag P.lb P.ub (P.A i)).nInfMax = 0)) rfl
  refine ⟨List.nodup_range.filter _, fun i => ?_, fun i hi => ?_, fun i => ?_, fun k p hp => ?_⟩
  · rw [hst]; split
    · rename_i h; simp [h]
    · rename_i h; simp [h]
  · exact List.mem_range.mp (List.mem_filter.mp hi).1
  · rw [hst]; split
    · exact .inr rfl
    · exact .inl rfl
  · have hp : (p.1, p.2) ∈ colCells P.m P.A k := hp
    exact (mem_colCells.mp hp).1

/-- No left side is `+∞` and no right side is `-∞`. -/
def LP.Sides (P : LP) : Prop := ∀ i < P.m, P.lhs i ≠ .pinf ∧ P.rhs i ≠ .ninf

theorem initSt_tagOK {P : LP} (h : P.Sides) : TagOK (initSt P) := by
  intro i
  show TagRow (if i < P.m then rowTagOf (P.lhs i) (P.rhs i) else { inactive := true }) (P.lhs i) (P.rhs i)
  split
  · rename_i hi
    obtain ⟨h1, h2⟩ := h i hi
    generalize P.lhs i = l at h1 ⊢
    generalize P.rhs i = r at h2 ⊢
    unfold rowTagOf
    cases l <;> cases r <;> constructor <;> simp_all [D.eqb, D.isInf]
  · exact .gone _ _

end Verif
