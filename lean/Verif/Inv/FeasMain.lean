import Verif.Inv.FeasTriv

/-!
# Whole runs keep `Feas`
-/

namespace Verif

section
variable {μ : Mode} {P : LP}

theorem propLoop_goodF (μ : Mode) (P : LP) (fbt : Bool) (w : ℕ) (fuel ii : ℕ) (s : St) (hf : w < fuel + ii) :
    Good μ (Fz P (PropReady w ii)) (Fz P (PropReady w 0)) s (propLoop fbt fuel ii s).1 := by
  induction fuel generalizing ii s with
  | zero =>
    unfold propLoop
    refine .of (fun o => o) (fun _ _ hi => ?_)
    exfalso
    obtain ⟨⟨-, -, h1, h2⟩, -⟩ := hi
    unfold wt at h1
    omega
  | succ fuel ih =>
    unfold propLoop
    split
    · exact (Good.reflF μ P _ s).weakenF (fun _ h => h) (fun _ h => ⟨h.1, h.2.1, h.2.2.1, Nat.zero_le _⟩)
    · rename_i i hi
      have hlen : ii < s.updActs.length := by
        by_contra hc
        rw [List.getElem?_eq_none (by omega)] at hi
        cases hi
      split
      · exact (ih (ii + 1) s (by omega)).weakenF (fun _ h => ⟨h.1, h.2.1, h.2.2.1, hlen⟩) (fun _ h => h)
      · rename_i hs
        have hs : propSkip s i = false := by simpa using hs
        unfold propSkip at hs
        simp only [Bool.or_eq_false_iff, decide_eq_false_iff_not, not_le, not_not] at hs
        have g1 : Good μ (Fz P (PropReady w ii)) (Fz P (fun t => PropReady w (ii + 1) t ∧ t.A i ≠ [])) s
            { s with act := upd s.act i { s.act i with status := .propagatedThisRound } } := by
          refine Good.withF (.of (fun o => o) (fun _ inv h =>
            ⟨.of_same (by constructor <;> rfl) rfl rfl rfl, ⟨h.1, h.2.1, ?_, hlen⟩, ?_⟩)) (fun _ _ _ _ h => ?_)
          · rw [wt_upd_same s i _ (by rw [hs.1.2]; rfl)]
            exact h.2.2.1
          · intro hA
            have hA : s.A i = [] := hA
            have := inv.gi.rowSz i (by omega)
            rw [hA] at this
            simp only [List.length_nil, Nat.cast_zero] at this
            omega
          · refine h.core (by constructor <;> rfl) (fun j => ?_)
            show ActEq (upd s.act i _ j) (s.act j)
            by_cases e : j = i
            · subst e
              rw [upd_same]
              exact ⟨rfl, rfl, rfl, rfl⟩
            · rw [upd_ne _ _ e]; exact .refl _
        have g2 := g1.trans ((propRow_good μ fbt w (ii + 1) _ i).withF
          (fun o inv h _ hF => propRow_feas fbt o inv h.1.1 h.2 hF))
        simp only
        split
        · exact g2.weakenF (fun _ h => h) (fun _ h => ⟨h.1, h.2.1, h.2.2.1, Nat.zero_le _⟩)
        · exact g2.trans (ih (ii + 1) _ (by omega))

theorem propagatePrimal_goodF (μ : Mode) (P : LP) (fbt : Bool) (s : St) :
    GoodX μ (Fz P Clean) (Fz P Clean) s (propagatePrimal fbt s) := by
  unfold propagatePrimal
  simp only
  generalize hs1 : (s.check (decide (s.stonRows = []))).check (decide (s.emptyRows = [])) = s1
  have g1 : Good μ (Fz P Clean) (Fz P Clean) s s1 := by
    rw [← hs1]
    exact Good.trans (J := Fz P Clean) (.checkF s _ (fun _ h => h)) (.checkF _ _ (fun _ h => h))
  have g2 : Good μ (Fz P Clean) (Fz P (PropReady (s1.updActs.length + 2 * s1.m) 0)) s1
      (propLoop fbt (s1.updActs.length + 2 * s1.m + 1) 0 s1).1 :=
    (propLoop_goodF μ P fbt (s1.updActs.length + 2 * s1.m) _ 0 s1 (by omega)).weakenF
      (fun _ h => ⟨h.1, h.2.2, wt_le s1, Nat.zero_le _⟩) (fun _ h => h)
  have g3 := g1.trans g2
  generalize propLoop fbt (s1.updActs.length + 2 * s1.m + 1) 0 s1 = r at *
  split
  · rename_i hr
    refine g3.weaken (fun _ h => h) (fun _ _ hf => ?_)
    rw [hr] at hf
    exact absurd hf not_fine_infeasible
  · have g4 : Good μ (Fz P (PropReady (s1.updActs.length + 2 * s1.m) 0)) (Fz P NoRows) r.1 (propReset r.1) := by
      refine Good.withF ?_ (fun _ _ _ _ h => ?_)
      · unfold propReset
        exact .same (by constructor <;> rfl) rfl rfl rfl (fun o => o) (fun _ h => h.1)
      · refine h.core (by unfold propReset; constructor <;> rfl) (fun j => ?_)
        unfold propReset
        simp only
        split
        · exact ⟨rfl, rfl, rfl, rfl⟩
        · split
          · exact ⟨rfl, rfl, rfl, rfl⟩
          · exact .refl _
    have g5 := (g3.trans g4).trans (delCols_goodF μ P NoRows Clean _ (fun h => h) (fun _ _ d => ⟨d.noRows, d.noFixed, d.noSub⟩))
    generalize deleteInactiveCols (deleteFixedCols (propReset r.1)) = s2 at *
    have g6 : Good μ (Fz P Clean) (Fz P Clean) s (s2.check (decide (s2.rowsToDelete = []))) :=
      g5.trans (.checkF _ _ (fun _ h => h))
    exact (g6.trans (removeEmptyRows_goodF μ P _)).weaken (fun _ h => h) (fun _ h _ => h)

theorem runMedium_goodF (μ : Mode) (P : LP) (env : Env) (stgs : Settings)
    (hr : stgs.parallelRows = false) (hc : stgs.parallelCols = false)
    (s : St) : GoodR μ (Fz P Clean) (Fz P Clean) s (runMedium env stgs s) := by
  unfold runMedium
  simp only
  have h1 : GoodR μ (Fz P Clean) (Fz P Clean) s (if stgs.primalPropagation then
      ((runTrivial stgs (propagatePrimal stgs.finiteBoundTightening (checkActivities s).1).1).1,
        (checkActivities s).2 ||| (propagatePrimal stgs.finiteBoundTightening (checkActivities s).1).2 |||
        (runTrivial stgs (propagatePrimal stgs.finiteBoundTightening (checkActivities s).1).1).2)
      else (s, UNCHANGED)) := by
    split
    · have g1 := (checkActivities_goodF μ P s).toR
      generalize checkActivities s = a at g1 ⊢
      have g2 := (propagatePrimal_goodF μ P stgs.finiteBoundTightening a.1).toR
      generalize propagatePrimal stgs.finiteBoundTightening a.1 = b at g2 ⊢
      have g3 := (runTrivial_goodF μ P stgs b.1).toR
      generalize runTrivial stgs b.1 = d at g3 ⊢
      exact (g1.trans' g2).trans' g3
    · exact Good.toR (.refl _ _ _)
  generalize (if stgs.primalPropagation then
      ((runTrivial stgs (propagatePrimal stgs.finiteBoundTightening (checkActivities s).1).1).1,
        (checkActivities s).2 ||| (propagatePrimal stgs.finiteBoundTightening (checkActivities s).1).2 |||
        (runTrivial stgs (propagatePrimal stgs.finiteBoundTightening (checkActivities s).1).1).2)
      else (s, UNCHANGED)) = r at h1
  rw [hr, hc]
  simp only [Bool.false_eq_true, if_false]
  rw [ite_self, ite_self]
  exact h1

theorem mainLoop_goodF (μ : Mode) (P : LP) (env : Env) (stgs : Settings)
    (h1 : stgs.stonCols = false) (h2 : stgs.dtonEq = false)
    (hr : stgs.parallelRows = false) (hc : stgs.parallelCols = false)
    (fuel : ℕ) (s : St) (c : Complexity) (b a : ℤ) :
    GoodR μ (Fz P Clean) (Fz P Clean) s ((mainLoop env stgs fuel s c b a).1, (mainLoop env stgs fuel s c b a).2.1) := by
  induction fuel generalizing s c b a with
  | zero => exact Good.toR (.refl _ _ _)
  | succ fuel ih =>
    unfold mainLoop
    simp only
    have hT : GoodR μ (Fz P Clean) (Fz P Clean) s (runTrivial stgs s) := (runTrivial_goodF μ P stgs s).toR
    generalize runTrivial stgs s = r at hT
    split
    · exact hT
    · rename_i hu
      have hu : r.2 = UNCHANGED := by simpa using hu
      have key : ∀ q : St × Status, GoodR μ (Fz P Clean) (Fz P Clean) r.1 q → GoodR μ (Fz P Clean) (Fz P Clean) s
          ((if updateTermination (if c = .medium then q.1.nnz else a) b c q.2 (env.timeUp q.1.tick) = true then
            ({ q.1 with tick := q.1.tick + 1 }, q.2, true)
          else mainLoop env stgs fuel { q.1 with tick := q.1.tick + 1 } (updateComplexity c r.1.nnz q.1.nnz)
            (if c = .medium then (if c = .medium then q.1.nnz else a) else b)
            (if c = .medium then q.1.nnz else a)).1,
          (if updateTermination (if c = .medium then q.1.nnz else a) b c q.2 (env.timeUp q.1.tick) = true then
            ({ q.1 with tick := q.1.tick + 1 }, q.2, true)
          else mainLoop env stgs fuel { q.1 with tick := q.1.tick + 1 } (updateComplexity c r.1.nnz q.1.nnz)
            (if c = .medium then (if c = .medium then q.1.nnz else a) else b)
            (if c = .medium then q.1.nnz else a)).2.1) := by
        intro q h2
        have h3 := hT.trans' h2
        rw [hu, zero_or] at h3
        have sc : SameCore q.1 { q.1 with tick := q.1.tick + 1 } := by constructor <;> rfl
        have h4 : GoodR μ (Fz P Clean) (Fz P Clean) s ({ q.1 with tick := q.1.tick + 1 }, q.2) :=
          h3.then (Good.withF (.same sc rfl rfl rfl (fun o => ⟨o.1, o.2⟩) (fun _ h => h))
            (fun _ _ _ _ h => h.core sc (fun _ => .refl _)))
        generalize (if c = .medium then q.1.nnz else a) = a'
        generalize (if c = .medium then a' else b) = b'
        split
        · exact h4
        · rename_i ht
          have hq : fine q.2 := by
            unfold updateTermination at ht
            simp only [Bool.or_eq_true, not_or, Bool.not_eq_true] at ht
            exact ht.1.1
          have h5 := ih { q.1 with tick := q.1.tick + 1 } (updateComplexity c r.1.nnz q.1.nnz)
            b' a'
          exact ⟨fun o => h4.1 (h5.1 o), fun f => (h4.2 hq).trans (h5.2 f)⟩
      cases c with
      | fast =>
        refine key _ ?_
        unfold runFast
        rw [h1, h2]
        exact Good.toR (.refl _ _ _)
      | medium => exact key _ (runMedium_goodF μ P env stgs hr hc r.1)

end

end Verif
