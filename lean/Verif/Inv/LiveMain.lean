import Verif.Inv.LiveProp

/-!
# Whole runs keep a live point
-/

namespace Verif

section
variable {μ : Mode} {P : LP} {v : ℚ} {s : St}

theorem propagatePrimal_keeps (hμ : μ.near = false) (P : LP) (v : ℚ) (fbt : Bool) (s : St) :
    KeepsPt μ P v Clean Clean s (propagatePrimal fbt s) := by
  refine ⟨(propagatePrimal_goodF μ P fbt s).toR, ?_⟩
  unfold propagatePrimal
  simp only
  generalize hs1 : (s.check (decide (s.stonRows = []))).check (decide (s.emptyRows = [])) = s1
  have g1 : KeepsPt μ P v Clean Clean s (s1, UNCHANGED) := by
    rw [← hs1]
    have h1 : KeepsPt μ P v Clean Clean s (s.check (decide (s.stonRows = [])), UNCHANGED) :=
      KeepsPt.check _ _ (fun _ h => h)
    exact h1.next (KeepsPt.check _ _ (fun _ h => h))
  have g2 : KeepsPt μ P v Clean (PropReady (s1.updActs.length + 2 * s1.m) 0) s1
      (propLoop fbt (s1.updActs.length + 2 * s1.m + 1) 0 s1) :=
    (propLoop_keeps hμ P v fbt (s1.updActs.length + 2 * s1.m) _ 0 s1 (by omega)).weaken
      (fun _ h => ⟨h.1, h.2.2, wt_le s1, Nat.zero_le _⟩) (fun _ h => h)
  have g3 := g1.next g2
  have hst := propLoop_st fbt (s1.updActs.length + 2 * s1.m + 1) 0 s1
  generalize propLoop fbt (s1.updActs.length + 2 * s1.m + 1) 0 s1 = r at *
  split
  · exact g3.live
  · rename_i hr
    have g4 := KeepsPt.then g3 (fine_of_two hst hr) (propReset_keeps μ P v _ r.1)
    have g5 := g4.next (delCols_keeps μ P v NoRows Clean (propReset r.1) (fun h => h)
      (fun _ _ d => ⟨d.noRows, d.noFixed, d.noSub⟩) fine_unchanged)
    generalize deleteInactiveCols (deleteFixedCols (propReset r.1)) = s2 at *
    have g6 : KeepsPt μ P v Clean Clean s2 (s2.check (decide (s2.rowsToDelete = [])), UNCHANGED) :=
      KeepsPt.check _ _ (fun _ h => h)
    exact ((g5.next g6).next (removeEmptyRows_keeps μ P v _)).live

theorem runMedium_keeps (hμ : μ.near = false) (P : LP) (v : ℚ) (env : Env) (stgs : Settings)
    (hr : stgs.parallelRows = false) (hc : stgs.parallelCols = false) (s : St) :
    KeepsPt μ P v Clean Clean s (runMedium env stgs s) := by
  unfold runMedium
  simp only
  have h1 : KeepsPt μ P v Clean Clean s (if stgs.primalPropagation then
      ((runTrivial stgs (propagatePrimal stgs.finiteBoundTightening (checkActivities s).1).1).1,
        (checkActivities s).2 ||| (propagatePrimal stgs.finiteBoundTightening (checkActivities s).1).2 |||
        (runTrivial stgs (propagatePrimal stgs.finiteBoundTightening (checkActivities s).1).1).2)
      else (s, UNCHANGED)) := by
    split
    · have g1 := checkActivities_keeps μ P v s
      generalize checkActivities s = a at g1 ⊢
      have g2 := propagatePrimal_keeps hμ P v stgs.finiteBoundTightening a.1
      generalize propagatePrimal stgs.finiteBoundTightening a.1 = b at g2 ⊢
      have g3 := runTrivial_keeps hμ P v stgs b.1
      generalize runTrivial stgs b.1 = d at g3 ⊢
      exact (g1.trans g2).trans g3
    · exact .refl _ _ _ _ _
  generalize (if stgs.primalPropagation then
      ((runTrivial stgs (propagatePrimal stgs.finiteBoundTightening (checkActivities s).1).1).1,
        (checkActivities s).2 ||| (propagatePrimal stgs.finiteBoundTightening (checkActivities s).1).2 |||
        (runTrivial stgs (propagatePrimal stgs.finiteBoundTightening (checkActivities s).1).1).2)
      else (s, UNCHANGED)) = r at h1
  rw [hr, hc]
  simp only [Bool.false_eq_true, if_false]
  rw [ite_self, ite_self]
  exact h1

theorem mainLoop_keeps (hμ : μ.near = false) (P : LP) (v : ℚ) (env : Env) (stgs : Settings)
    (h1 : stgs.stonCols = false) (h2 : stgs.dtonEq = false)
    (hr : stgs.parallelRows = false) (hc : stgs.parallelCols = false)
    (fuel : ℕ) (s : St) (c : Complexity) (b a : ℤ) :
    KeepsPt μ P v Clean Clean s ((mainLoop env stgs fuel s c b a).1, (mainLoop env stgs fuel s c b a).2.1) := by
  induction fuel generalizing s c b a with
  | zero => exact .refl _ _ _ _ _
  | succ fuel ih =>
    unfold mainLoop
    simp only
    have hT : KeepsPt μ P v Clean Clean s (runTrivial stgs s) := runTrivial_keeps hμ P v stgs s
    generalize runTrivial stgs s = r at hT
    split
    · exact hT
    · rename_i hu
      have hu : r.2 = UNCHANGED := by simpa using hu
      have key : ∀ q : St × Status, KeepsPt μ P v Clean Clean r.1 q → KeepsPt μ P v Clean Clean s
          ((if updateTermination (if c = .medium then q.1.nnz else a) b c q.2 (env.timeUp q.1.tick) = true then
            ({ q.1 with tick := q.1.tick + 1 }, q.2, true)
          else mainLoop env stgs fuel { q.1 with tick := q.1.tick + 1 } (updateComplexity c r.1.nnz q.1.nnz)
            (if c = .medium then (if c = .medium then q.1.nnz else a) else b)
            (if c = .medium then q.1.nnz else a)).1,
          (if updateTermination (if c = .medium then q.1.nnz else a) b c q.2 (env.timeUp q.1.tick) = true then
            ({ q.1 with tick := q.1.tick + 1 }, q.2, true)
          else mainLoop env stgs fuel { q.1 with tick := q.1.tick + 1 } (updateComplexity c r.1.nnz q.1.nnz)
            (if c = .medium then (if c = .medium then q.1.nnz else a) else b)
            (if c = .medium then q.1.nnz else a)).2.1) := by
        intro q h2
        have h3 := KeepsPt.then hT (by rw [hu]; exact fine_unchanged) h2
        have sc : SameCore q.1 { q.1 with tick := q.1.tick + 1 } := by constructor <;> rfl
        have gt : Good μ (Fz P Clean) (Fz P Clean) q.1 { q.1 with tick := q.1.tick + 1 } :=
          Good.withF (.same sc rfl rfl rfl (fun o => ⟨o.1, o.2⟩) (fun _ h => h))
            (fun _ _ _ _ h => h.core sc (fun _ => .refl _))
        have h4 : KeepsPt μ P v Clean Clean s ({ q.1 with tick := q.1.tick + 1 }, q.2) := by
          have := h3.trans (KeepsPt.core (v := v) sc gt fine_unchanged)
          have e : q.2 ||| UNCHANGED = q.2 := Nat.or_zero _
          rw [e] at this; exact this
        generalize (if c = .medium then q.1.nnz else a) = a'
        generalize (if c = .medium then a' else b) = b'
        split
        · exact h4
        · rename_i ht
          have hq : fine q.2 := by
            unfold updateTermination at ht
            simp only [Bool.or_eq_true, not_or, Bool.not_eq_true] at ht
            exact ht.1.1
          exact KeepsPt.then h4 hq (ih { q.1 with tick := q.1.tick + 1 } (updateComplexity c r.1.nnz q.1.nnz) b' a')
      cases c with
      | fast =>
        refine key _ ?_
        unfold runFast
        rw [h1, h2]
        exact .refl _ _ _ _ _
      | medium => exact key _ (runMedium_keeps hμ P v env stgs hr hc r.1)

/-! ### Start and end -/

theorem initSt_feasPt {w : ℕ → ℚ} (hP : P.Valid) (hR : P.Regular) (hw : P.Feasible w) : FeasPt (initSt P) w := by
  refine ⟨fun i hi _ => ?_, fun k hk _ _ => ?_⟩
  · have hi : i < P.m := hi
    obtain ⟨h1, h2⟩ := hw.row i hi
    unfold RowOK Sides
    rw [initSt_rtag hi]
    constructor
    · rcases hR.lhs i hi with e | ⟨q, e⟩
      · left; rw [rowTagOf, e]; rfl
      · right; rw [e, LoD_fin] at h1; exact ⟨q, e, h1⟩
    · rcases hR.rhs i hi with e | ⟨q, e⟩
      · left; rw [rowTagOf, e]; rfl
      · right; rw [e, HiD_fin] at h2; exact ⟨q, e, h2⟩
  · have hk : k < P.n := hk
    obtain ⟨h1, h2⟩ := hw.col k hk
    unfold ColIn
    rw [initSt_ctag hk]
    constructor
    · rcases hR.lb k hk with e | ⟨q, e⟩
      · left; rw [colTagOf, e]; rfl
      · right; rw [e, LoD_fin] at h1; exact ⟨q, e, h1⟩
    · rcases hR.ub k hk with e | ⟨q, e⟩
      · left; rw [colTagOf, e]; rfl
      · right; rw [e, HiD_fin] at h2; exact ⟨q, e, h2⟩

theorem initSt_cur {w : ℕ → ℚ} (hP : P.Valid) (hR : P.Regular) (hw : P.Feasible w) : Cur P (P.obj w) (initSt P) := by
  refine ⟨hR, fun r hr => (by cases hr), initSt_inv hP, initSt_feas hP hR (fun k hk l u hl hu => ?_), rfl, w,
    ⟨initSt_feasPt hP hR hw, fun k hk hs => absurd hs (initSt_here hk)⟩, le_refl _⟩
  obtain ⟨h1, h2⟩ := hw.col k hk
  rw [hl, LoD_fin] at h1
  rw [hu, HiD_fin] at h2
  have := FEAS_TOL_pos
  linarith

theorem relaxCol_near (s : St) (k : ℕ) : (relaxCol s k).near = s.near := by
  unfold relaxCol
  simp only
  split
  · rfl
  · split
    · split <;> rfl
    · split <;> rfl

theorem removeRedundantBounds_near (s : St) : (removeRedundantBounds s).near = s.near := by
  unfold removeRedundantBounds
  generalize relaxOrder s = L
  induction L generalizing s with
  | nil => rfl
  | cons k L ih => exact (ih _).trans (relaxCol_near s k)

/-- What is left of a feasible point of the problem when the run is over. -/
theorem runPresolver_live {w : ℕ → ℚ} (hP : P.Valid) (hR : P.Regular) (hw : P.Feasible w) {env : Env} {stgs : Settings}
    {fuel : ℕ} (h1 : stgs.stonCols = false) (h2 : stgs.dtonEq = false)
    (h3 : stgs.parallelRows = false) (h4 : stgs.parallelCols = false)
    (ho : (runPresolver env stgs fuel P).1.asrt = true) (hn : (runPresolver env stgs fuel P).1.near = false) :
    Verdict P (runPresolver env stgs fuel P).2.1 ∧
      (fine (runPresolver env stgs fuel P).2.1 → ∃ t, SameResult t (runPresolver env stgs fuel P).1 ∧ Cur P (P.obj w) t ∧ Clean t) := by
  have hm : (runPresolver env stgs fuel P).2.1 = (mainLoop env stgs fuel (initSt P) .fast (initSt P).nnz (initSt P).nnz).2.1 ∧
      SameResult (mainLoop env stgs fuel (initSt P) .fast (initSt P).nnz (initSt P).nnz).1
        (runPresolver env stgs fuel P).1 ∧
      (runPresolver env stgs fuel P).1.near = (mainLoop env stgs fuel (initSt P) .fast (initSt P).nnz (initSt P).nnz).1.near := by
    unfold runPresolver
    simp only
    split
    · exact ⟨rfl, .refl _, rfl⟩
    · refine ⟨rfl, ?_⟩
      simp only
      split
      · exact ⟨removeRedundantBounds_out _, removeRedundantBounds_near _⟩
      · exact ⟨.refl _, rfl⟩
  obtain ⟨e, so, en⟩ := hm
  rw [so.asrt] at ho
  rw [en] at hn
  have k := mainLoop_keeps (μ := ⟨true, true, true, false, true⟩) rfl P (P.obj w) env stgs h1 h2 h3 h4 fuel (initSt P) .fast
    (initSt P).nnz (initSt P).nnz
  obtain ⟨k1, k2⟩ := k.cur ⟨ho, (fun h => nomatch h), fun _ => hn⟩ (initSt_cur hP hR hw) (initSt_ce P).1
  rw [e]
  exact ⟨k1, fun f => ⟨_, so, (k2 f).1, (k2 f).2⟩⟩

end

end Verif
