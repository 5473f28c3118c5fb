import Verif.Inv.AsrtProp
import Verif.Inv.FeasEnd

/-!
# The assertions in whole runs of the simple reductions
-/

namespace Verif

section
variable {P : LP} {s : St}

theorem runTrivial_st (stgs : Settings) (s : St) : (runTrivial stgs s).2 = UNCHANGED ∨
    (runTrivial stgs s).2 = INFEASIBLE ∨ (runTrivial stgs s).2 = UNBNDORINFEAS := by
  unfold runTrivial
  simp only
  split_ifs with h1 h2 h3 h4 h5
  · exact .inr (.inl h1)
  · exact .inr (.inr h2.2)
  · exact .inr (.inl h3)
  · exact .inr (.inl h4)
  · exact .inr (.inr h5)
  · exact .inl rfl

theorem runTrivial_fine {stgs : Settings} {s : St} (h : fine (runTrivial stgs s).2) : (runTrivial stgs s).2 = UNCHANGED := by
  rcases runTrivial_st stgs s with e | e | e
  · exact e
  · rw [e] at h; exact absurd h (by decide)
  · rw [e] at h; exact absurd h (by decide)

theorem runMedium_up (env : Env) {stgs : Settings} (hr : stgs.parallelRows = false) (hc : stgs.parallelCols = false)
    (s : St) : Up s (runMedium env stgs s).1 := by
  unfold runMedium
  simp only
  rw [hr, hc]
  simp only [Bool.false_eq_true, if_false]
  rw [ite_self, ite_self]
  split
  · have u1 := checkActivities_up s
    generalize checkActivities s = a at u1 ⊢
    have u2 := propagatePrimal_up stgs.finiteBoundTightening a.1
    generalize propagatePrimal stgs.finiteBoundTightening a.1 = b at u2 ⊢
    exact (u1.trans u2).trans (runTrivial_up stgs b.1)
  · exact .refl s

theorem runMedium_safe (env : Env) {stgs : Settings} (hr : stgs.parallelRows = false) (hc : stgs.parallelCols = false)
    (w : W P s) (hD : Done s) (hp : PlainLog (runMedium env stgs s).1) (hs : fine (runMedium env stgs s).2) :
    (W P (runMedium env stgs s).1 ∧ Clean (runMedium env stgs s).1) ∨ Dup (runMedium env stgs s).1 := by
  unfold runMedium at hp hs ⊢
  simp only at hp hs ⊢
  rw [hr, hc] at hp hs ⊢
  simp only [Bool.false_eq_true, if_false] at hp hs ⊢
  rw [ite_self, ite_self] at hp hs ⊢
  split
  · rename_i h
    rw [if_pos h] at hp hs
    simp only at hp hs ⊢
    have hs' := hs
    obtain ⟨⟨f1, f2⟩, f3⟩ : (fine (checkActivities s).2 ∧ fine (propagatePrimal stgs.finiteBoundTightening (checkActivities s).1).2) ∧
      fine (runTrivial stgs (propagatePrimal stgs.finiteBoundTightening (checkActivities s).1).1).2 := by
      rw [← fine_or, ← fine_or]; exact hs
    have p2 := (runTrivial_up _ _).plain hp
    have p1 := (propagatePrimal_up _ _).plain p2
    obtain ⟨w1, c1, e1, e2⟩ := checkActivities_safe w hD.clean p1 (fun e => by rw [e] at f1; exact not_fine_infeasible f1)
    obtain ⟨w2, c2⟩ := propagatePrimal_safe _ w1 c1 (e2.trans hD.sr) (e1.trans hD.er) p2
      (fun e => by rw [e] at f2; exact not_fine_infeasible f2)
    rcases runTrivial_safe stgs w2 c2 hp (runTrivial_fine f3) with ⟨w3, d3⟩ | h
    · exact .inl ⟨w3, d3.clean⟩
    · exact .inr h
  · exact .inl ⟨w, hD.clean⟩

variable {stgs : Settings}

theorem mainLoop_up (env : Env) (h1 : stgs.stonCols = false) (h2 : stgs.dtonEq = false)
    (hr : stgs.parallelRows = false) (hc : stgs.parallelCols = false)
    (fuel : ℕ) (s : St) (c : Complexity) (b a : ℤ) : Up s (mainLoop env stgs fuel s c b a).1 := by
  induction fuel generalizing s c b a with
  | zero => exact .refl s
  | succ fuel ih =>
    unfold mainLoop
    simp only
    have u1 := runTrivial_up stgs s
    generalize runTrivial stgs s = r at *
    split
    · exact u1
    · have key : ∀ q : St × Status, Up r.1 q.1 → ∀ (a' b' : ℤ) (c' : Complexity) (x : Bool), Up s
          (if x = true then ({ q.1 with tick := q.1.tick + 1 }, q.2, true)
          else mainLoop env stgs fuel { q.1 with tick := q.1.tick + 1 } c' b' a').1 := by
        intro q u2 a' b' c' x
        have u3 : Up q.1 { q.1 with tick := q.1.tick + 1 } := .of (List.suffix_refl _) id rfl rfl rfl rfl
        split
        · exact (u1.trans u2).trans u3
        · exact ((u1.trans u2).trans u3).trans (ih _ _ _ _)
      cases c with
      | fast =>
        refine key (runFast env stgs r.1) ?_ _ _ _ _
        unfold runFast
        rw [h1, h2]
        exact .refl _
      | medium => exact key _ (runMedium_up env hr hc r.1) _ _ _ _

theorem mainLoop_safe (env : Env) (h1 : stgs.stonCols = false) (h2 : stgs.dtonEq = false)
    (hr : stgs.parallelRows = false) (hc : stgs.parallelCols = false)
    (fuel : ℕ) (c : Complexity) (b a : ℤ) (w : W P s) (hC : Clean s) (hp : PlainLog (mainLoop env stgs fuel s c b a).1)
    (hs : (mainLoop env stgs fuel s c b a).2.1 = UNCHANGED) :
    W P (mainLoop env stgs fuel s c b a).1 ∨ Dup (mainLoop env stgs fuel s c b a).1 := by
  induction fuel generalizing s c b a with
  | zero => exact .inl w
  | succ fuel ih =>
    unfold mainLoop at hp hs ⊢
    simp only at hp hs ⊢
    by_cases hu : (runTrivial stgs s).2 ≠ UNCHANGED
    · rw [if_pos hu] at hs
      exact absurd hs hu
    · rw [if_neg hu] at hp hs ⊢
      have hu : (runTrivial stgs s).2 = UNCHANGED := by simpa using hu
      have hT : PlainLog (runTrivial stgs s).1 → _ := fun h => runTrivial_safe stgs w hC h hu
      generalize runTrivial stgs s = r at *
      have key : ∀ q : St × Status, Up r.1 q.1 →
          (W P r.1 ∧ Done r.1 → PlainLog q.1 → fine q.2 → (W P q.1 ∧ Clean q.1) ∨ Dup q.1) →
          ∀ (a' b' : ℤ) (c' : Complexity) (x : Bool), (x = false → fine q.2) →
          PlainLog (if x = true then ({ q.1 with tick := q.1.tick + 1 }, q.2, true)
            else mainLoop env stgs fuel { q.1 with tick := q.1.tick + 1 } c' b' a').1 →
          (if x = true then ({ q.1 with tick := q.1.tick + 1 }, q.2, true)
            else mainLoop env stgs fuel { q.1 with tick := q.1.tick + 1 } c' b' a').2.1 = UNCHANGED →
          W P (if x = true then ({ q.1 with tick := q.1.tick + 1 }, q.2, true)
            else mainLoop env stgs fuel { q.1 with tick := q.1.tick + 1 } c' b' a').1 ∨
          Dup (if x = true then ({ q.1 with tick := q.1.tick + 1 }, q.2, true)
            else mainLoop env stgs fuel { q.1 with tick := q.1.tick + 1 } c' b' a').1 := by
        intro q u2 hq a' b' c' x hx hp hs
        have u3 : Up q.1 { q.1 with tick := q.1.tick + 1 } := .of (List.suffix_refl _) id rfl rfl rfl rfl
        have u4 : Up q.1 (if x = true then ({ q.1 with tick := q.1.tick + 1 }, q.2, true)
            else mainLoop env stgs fuel { q.1 with tick := q.1.tick + 1 } c' b' a').1 := by
          split
          · exact u3
          · exact u3.trans (mainLoop_up env h1 h2 hr hc _ _ _ _ _)
        have pq := u4.plain hp
        rcases hT (u2.plain pq) with hw | hd
        · have hf : fine q.2 := by
            cases x with
            | false => exact hx rfl
            | true =>
              have hs : q.2 = UNCHANGED := hs
              rw [hs]; exact fine_unchanged
          rcases hq hw pq hf with ⟨wq, cq⟩ | hd
          · have sc : SameCore q.1 { q.1 with tick := q.1.tick + 1 } := by constructor <;> rfl
            have g : Good μT (Fz P Clean) (Fz P Clean) q.1 { q.1 with tick := q.1.tick + 1 } :=
              Good.withF (.same sc rfl rfl rfl (fun o => ⟨o.1, o.2⟩) (fun _ h => h))
                (fun _ _ _ _ h => h.core sc (fun _ => .refl _))
            obtain ⟨w4, c4⟩ := wq.step u3 pq g cq wq.asrt (wq.el.same rfl rfl rfl rfl rfl rfl)
            cases x with
            | true => exact .inl w4
            | false => exact ih c' b' a' w4 c4 hp hs
          · exact .inr (u4.dup hd)
        · exact .inr ((u2.trans u4).dup hd)
      have hx : ∀ (q : St × Status) (a' : ℤ), updateTermination a' b c q.2 (env.timeUp q.1.tick) = false → fine q.2 := by
        intro q a' ht
        unfold updateTermination at ht
        simp only [Bool.or_eq_false_iff] at ht
        exact ht.1.1
      cases c with
      | fast =>
        have e : runFast env stgs r.1 = (r.1, UNCHANGED) := by
          unfold runFast
          rw [h1, h2]; rfl
        simp only [e] at hp hs ⊢
        exact key (r.1, UNCHANGED) (.refl _) (fun h _ _ => .inl ⟨h.1, h.2.clean⟩) _ _ _ _ (hx (r.1, UNCHANGED) _) hp hs
      | medium =>
        have k1 := runMedium_up env hr hc r.1
        have k2 : W P r.1 ∧ Done r.1 → _ := fun h => runMedium_safe env hr hc h.1 h.2
        simp only at hp hs ⊢
        generalize runMedium env stgs r.1 = q at *
        exact key q k1 k2 _ _ _ _ (hx q _) hp hs

theorem initSt_w (hP : P.Valid) (hR : P.Regular)
    (hg : ∀ k < P.n, ∀ l u, P.lb k = .fin l → P.ub k = .fin u → l < u + FEAS_TOL) : W P (initSt P) := by
  refine ⟨rfl, initSt_inv hP, initSt_feas hP hR (fun k hk l u h1 h2 => (hg k hk l u h1 h2).le), (initSt_ce P).2, ?_, ?_, ?_, ?_⟩
  · refine ⟨List.nodup_range.filter _, List.nodup_range.filter _, fun i hi => ?_, fun k hk => ?_⟩
    · obtain ⟨h1, h2⟩ := List.mem_filter.mp hi
      have h1 := List.mem_range.mp h1
      rw [initSt_rtag h1]
      refine ⟨rfl, ?_⟩
      show P.A i = []
      simpa using h2
    · obtain ⟨h1, h2⟩ := List.mem_filter.mp hk
      have h1 := List.mem_range.mp h1
      rw [initSt_ctag h1]
      refine ⟨rfl, ?_⟩
      show colCells P.m P.A k = []
      simpa using h2
  · intro i hi
    obtain ⟨h1, h2⟩ := List.mem_filter.mp hi
    have h1 := List.mem_range.mp h1
    show Cnt (if _ then _ else _)
    rw [if_pos ⟨h1, h2⟩]
    simpa [Cnt] using h2
  · intro k hk _ _ l u hl hu
    have : k < P.n := by
      by_contra h
      have e : (initSt P).ctag k = { fixed := true } := if_neg h
      rw [e] at hk; cases hk
    exact hg k this l u hl hu
  · intro i hi
    have hm : i < P.m := by
      by_contra h
      have e : (initSt P).rtag i = { inactive := true } := if_neg h
      rw [e] at hi; cases hi
    rw [initSt_rtag hm] at hi
    simp only [rowTagOf, Bool.and_eq_true, Bool.not_eq_true'] at hi
    rcases hR.lhs i hm with hl | ⟨q, hl⟩
    · rw [hl] at hi; cases hi.1
    · rcases hR.rhs i hm with hu | ⟨r, hu⟩
      · rw [hl, hu] at hi; cases hi.2
      · rw [hl, hu, D.eqb_fin] at hi
        have e : q = r := of_decide_eq_true hi.2
        exact ⟨q, hl, by rw [hu, e]⟩

/-- Whole runs without a verdict. -/
theorem runPresolver_asrt (hP : P.Valid) (hR : P.Regular) {env : Env}
    (hg : ∀ k < P.n, ∀ l u, P.lb k = .fin l → P.ub k = .fin u → l ≠ u + FEAS_TOL)
    (h1 : stgs.stonCols = false) (h2 : stgs.dtonEq = false)
    (h3 : stgs.parallelRows = false) (h4 : stgs.parallelCols = false) {fuel : ℕ}
    (hs : (runPresolver env stgs fuel P).2.1 = UNCHANGED)
    (hlog : ∀ r ∈ (runPresolver env stgs fuel P).1.log, r.plain = true)
    (hn : (fixedNames (runPresolver env stgs fuel P).1.log).Nodup) :
    (runPresolver env stgs fuel P).1.asrt = true := by
  have hm : (mainLoop env stgs fuel (initSt P) .fast (initSt P).nnz (initSt P).nnz).2.1 = UNCHANGED ∧
      SameResult (mainLoop env stgs fuel (initSt P) .fast (initSt P).nnz (initSt P).nnz).1
        (runPresolver env stgs fuel P).1 := by
    unfold runPresolver at hs ⊢
    simp only at hs ⊢
    split at hs
    · rename_i hne; exact absurd hs hne
    · rename_i hne
      refine ⟨hs, ?_⟩
      rw [if_neg hne]
      simp only
      split
      · exact removeRedundantBounds_out _
      · exact .refl _
  obtain ⟨hu, so⟩ := hm
  rw [so.log] at hlog hn
  rw [so.asrt]
  cases fuel with
  | zero => rfl
  | succ fuel =>
    have gap : ∀ k < P.n, ∀ l u, P.lb k = .fin l → P.ub k = .fin u → l < u + FEAS_TOL := by
      intro k hk l u hl hu'
      rcases lt_trichotomy l (u + FEAS_TOL) with h | h | h
      · exact h
      · exact absurd h (hg k hk l u hl hu')
      · rw [mainLoop_crossed h hk hl hu' env stgs fuel] at hu
        cases hu
    rcases mainLoop_safe env h1 h2 h3 h4 (fuel + 1) .fast _ _ (initSt_w hP hR gap) (initSt_ce P).1 hlog hu with w | d
    · exact w.asrt
    · exact absurd hn d

end
end Verif
