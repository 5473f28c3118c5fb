import Verif.Inv.QueuedDton
import Verif.Inv.ParRowsEmpty
import Verif.Model.Debug

/-!
# Complete lists in whole runs

`Queued` at the start, after explorer calls in any order, and at the states given to the debugger.
-/

namespace Verif

/-- The state between two explorers: nothing waits for deletion, and the lists are complete. -/
def CQ (s : St) : Prop := CE s ∧ Queued s

theorem initSt_queued {P : LP} (h : P.Valid) : Queued (initSt P) := by
  have hlist : ∀ (n : ℕ) (f : ℕ → Bool) (i : ℕ), i ∈ (List.range n).filter f ↔ i < n ∧ f i = true := by
    intro n f i; rw [List.mem_filter, List.mem_range]
  refine ⟨?_, ?_, ?_, ?_, ?_, ?_, ?_⟩
  · intro i p hi hA _
    show i ∈ (List.range P.m).filter (fun i => decide ((P.A i).length = 1))
    have hA : P.A i = [p] := hA
    rw [hlist, hA]
    refine ⟨(h.range i p (by rw [hA]; exact List.mem_singleton_self p)).1, rfl⟩
  · intro i hi hl he
    show i ∈ (List.range P.m).filter (fun i => decide ((P.A i).length = 2) && ((initSt P).rtag i).eq)
    have hl : (P.A i).length = 2 := hl
    rw [hlist, he, hl]
    refine ⟨?_, rfl⟩
    cases hc : P.A i with
    | nil => rw [hc] at hl; cases hl
    | cons p l => exact (h.range i p (by rw [hc]; exact List.mem_cons_self)).1
  · intro i hi
    have hi : i ∈ (List.range P.m).filter (fun i => decide ((P.A i).length = 2) && ((initSt P).rtag i).eq) := hi
    rw [hlist, Bool.and_eq_true] at hi
    exact .inl hi.2.2
  · exact (List.nodup_range).filter _
  · intro k _ hl
    show k ∈ (List.range P.n).filter (fun k => decide ((colCells P.m P.A k).length = 1))
    have hl : (colCells P.m P.A k).length = 1 := hl
    rw [hlist, hl]
    refine ⟨?_, rfl⟩
    cases hc : colCells P.m P.A k with
    | nil => rw [hc] at hl; cases hl
    | cons p l =>
      have hp : (p.1, p.2) ∈ colCells P.m P.A k := by rw [hc]; exact List.mem_cons_self
      exact (h.range p.1 _ (mem_colCells.mp hp).2).2.1
  · intro k hk
    have hk : k ∈ (List.range P.n).filter (fun k => decide ((colCells P.m P.A k).length = 1)) := hk
    rw [hlist] at hk
    show (colCells P.m P.A k).length ≤ 1
    exact (of_decide_eq_true hk.2).le
  · exact (List.nodup_range).filter _

theorem initSt_cq {P : LP} (h : P.Valid) : CQ (initSt P) := ⟨initSt_ce P, initSt_queued h⟩

/-- An explorer call leaves the lists complete. -/
theorem explCall_queued (env : Env) (stgs : Settings) (e : Expl) {s : St} (i : Inv s) (hc : Clean s) (c : Queued s)
    (o : (explCall env stgs e s).1.asrt = true) : Queued (explCall env stgs e s).1 := by
  cases e with
  | closeBounds => exact (closeBounds_keep s o).2 c
  | emptyCols => exact (removeEmptyCols_keep s o).2 c
  | dualFix => exact (simpleDualFix_keep s o).2 c
  | stonRows => exact (removeStonRows_keep s o).2 c
  | emptyRows => exact (removeEmptyRows_keep s o).2 c
  | stonCols => exact removeStonCols_queued i hc c o
  | dton => exact removeDtonRows_queued i hc c o
  | checkActs => exact (checkActivities_keep s o).2 c
  | propagation => exact (propagatePrimal_keep _ s o).2 c
  | parallelRows => exact (removeParallelRows_keep env s o).2 c
  | parallelCols => exact (removeParallelCols_keep env s o).2 c

theorem Calls.queued {env : Env} (hs : env.SortOK) {stgs : Settings} {s t : St} (h : Calls env stgs s t)
    (o : t.asrt = true) (i : Inv s) (hcq : CQ s) : Inv t ∧ CQ t := by
  induction h with
  | nil => exact ⟨i, hcq⟩
  | @call t e hc hf ih =>
    have o' := ok_all.mp (explCall_good env hs stgs e t (ok_all.mpr o)).1
    obtain ⟨i', c'⟩ := ih o'
    obtain ⟨_, r, ce⟩ := (Calls.call e hc hf).run hs o i hcq.1
    exact ⟨r.inv i, ce, explCall_queued env stgs e i' c'.1.1 c'.2 o⟩

section
variable {I J K : St → Prop} {s t u : St} {a b : Status}

theorem GoodR.withK {r : St × Status} (h : GoodR Mode.all I J s r) (k : Keep s r.1) :
    GoodR Mode.all (fun s => I s ∧ Queued s) (fun s => J s ∧ Queued s) s r :=
  ⟨h.1, fun f => (h.2 f).withQ (fun o _ _ c => (k o).2 c)⟩

end

theorem runTrivial_cq (stgs : Settings) (s : St) : GoodR Mode.all CQ CQ s (runTrivial stgs s) :=
  (runTrivial_good Mode.all stgs s).toR.em.withK (runTrivial_keep stgs s)

theorem stonCols_cq (s : St) : Good Mode.all CQ CQ s (removeStonCols s).1 :=
  (removeStonCols_good Mode.all rfl s).em.withQ (fun o i hc c => removeStonCols_queued i hc.1 c o)

theorem dton_cq (env : Env) (s : St) : Good Mode.all CQ CQ s (removeDtonRows env s) :=
  (removeDtonRows_good Mode.all env s).em.withQ (fun o i hc c => removeDtonRows_queued i hc.1 c o)

theorem queued_check {s : St} {b : Bool} (c : Queued s) : Queued (s.check b) :=
  ⟨c.ston, c.dton, c.dtonMem, c.dtonNodup, c.col, c.colMem, c.colNodup⟩

theorem runFast_cq (env : Env) (stgs : Settings) (s : St) : GoodR Mode.all CQ CQ s (runFast env stgs s) := by
  unfold runFast
  simp only
  have h1 : GoodR Mode.all CQ CQ s (if stgs.stonCols then
      ((runTrivial stgs ((removeStonCols s).1.check (decide ((removeStonCols s).1.emptyRows = [])))).1,
        (removeStonCols s).2 |||
        (runTrivial stgs ((removeStonCols s).1.check (decide ((removeStonCols s).1.emptyRows = [])))).2)
      else (s, UNCHANGED)) := by
    split
    · refine GoodR.trans (J := CQ) (t := (removeStonCols s).1.check (decide ((removeStonCols s).1.emptyRows = [])))
        (Good.toR ((stonCols_cq s).trans (.check _ _ (fun _ h => ⟨h.1, queued_check h.2⟩)))) ?_
      exact runTrivial_cq stgs _
    · exact Good.toR (.refl _ _ _)
  generalize (if stgs.stonCols then
      ((runTrivial stgs ((removeStonCols s).1.check (decide ((removeStonCols s).1.emptyRows = [])))).1,
        (removeStonCols s).2 |||
        (runTrivial stgs ((removeStonCols s).1.check (decide ((removeStonCols s).1.emptyRows = [])))).2)
      else (s, UNCHANGED)) = r at h1
  split
  · exact (h1.then (dton_cq env r.1)).trans (runTrivial_cq stgs _)
  · exact h1

theorem mediumProp_cq (stgs : Settings) (s : St) :
    GoodR Mode.all CQ CQ s (if stgs.primalPropagation then
      ((runTrivial stgs (propagatePrimal stgs.finiteBoundTightening (checkActivities s).1).1).1,
        (checkActivities s).2 ||| (propagatePrimal stgs.finiteBoundTightening (checkActivities s).1).2 |||
        (runTrivial stgs (propagatePrimal stgs.finiteBoundTightening (checkActivities s).1).1).2)
      else (s, UNCHANGED)) := by
  split
  · have g1 : GoodR Mode.all CQ CQ s (checkActivities s) :=
      (checkActivities_good _ s).toR.em.withK (checkActivities_keep s)
    generalize checkActivities s = a at g1 ⊢
    have g2 : GoodR Mode.all CQ CQ a.1 (propagatePrimal stgs.finiteBoundTightening a.1) :=
      (propagatePrimal_good _ stgs.finiteBoundTightening a.1).toR.em.withK (propagatePrimal_keep _ a.1)
    generalize propagatePrimal stgs.finiteBoundTightening a.1 = b at g2 ⊢
    have g3 := runTrivial_cq stgs b.1
    generalize runTrivial stgs b.1 = d at g3 ⊢
    exact (g1.trans' g2).trans' g3
  · exact Good.toR (.refl _ _ _)

theorem runMedium_cq (env : Env) (hs : env.SortOK) (stgs : Settings) (s : St) :
    GoodR Mode.all CQ CQ s (runMedium env stgs s) := by
  unfold runMedium
  simp only
  have h1 := mediumProp_cq stgs s
  generalize (if stgs.primalPropagation then
      ((runTrivial stgs (propagatePrimal stgs.finiteBoundTightening (checkActivities s).1).1).1,
        (checkActivities s).2 ||| (propagatePrimal stgs.finiteBoundTightening (checkActivities s).1).2 |||
        (runTrivial stgs (propagatePrimal stgs.finiteBoundTightening (checkActivities s).1).1).2)
      else (s, UNCHANGED)) = r at h1
  split
  · exact h1
  · rename_i hu
    have hu : r.2 = UNCHANGED := by simpa using hu
    have h2 : GoodR Mode.all CQ CQ s (if stgs.parallelRows then removeParallelRows env r.1 else r) := by
      split
      · have g : Good Mode.all CQ CQ r.1 (removeParallelRows env r.1).1 :=
          (removeParallelRows_good _ rfl env hs r.1).emCE.withQ
            (fun o _ _ c => (removeParallelRows_keep env r.1 o).2 c)
        have := h1.trans (Good.toR (a := (removeParallelRows env r.1).2) g)
        rw [hu] at this
        rw [show (removeParallelRows env r.1) = ((removeParallelRows env r.1).1, (removeParallelRows env r.1).2) from rfl]
        rwa [zero_or] at this
      · exact h1
    generalize (if stgs.parallelRows then removeParallelRows env r.1 else r) = r2 at h2
    split
    · exact h2
    · rename_i hu2
      have hu2 : r2.2 = UNCHANGED := by simpa using hu2
      split
      · have g : Good Mode.all CQ CQ r2.1 (removeParallelCols env r2.1).1 :=
          (removeParallelCols_good _ rfl env hs r2.1).emCE.withQ
            (fun o _ _ c => (removeParallelCols_keep env r2.1 o).2 c)
        generalize removeParallelCols env r2.1 = x at g ⊢
        have g2 := runTrivial_cq stgs x.1
        generalize runTrivial stgs x.1 = y at g2 ⊢
        have := (h2.trans' (r' := x) (Good.toR g)).trans' g2
        rw [hu2, zero_or] at this
        exact this
      · exact h2

/-! ### The lists that the trivial explorers empty -/

/-- The shape of `runTrivial`. -/
theorem trivialShape_te (d : Bool) (r0 r1 r2 r3 : St × Status) (t : St × Status)
    (ht : t = (if r0.2 = INFEASIBLE then r0 else if d = true ∧ r0.2 = UNBNDORINFEAS then r0 else
      if r1.2 = INFEASIBLE then r1 else if r2.2 = INFEASIBLE then r2 else if r3.2 = UNBNDORINFEAS then r3 else
      (((r3.1.check (decide (r3.1.stonRows = []))).check
            (decide (r3.1.emptyRows = []))).check (decide (r3.1.emptyCols = [])), UNCHANGED)))
    (h : t.2 = UNCHANGED) (o : t.1.asrt = true) : TE t.1 := by
  have e0 : ¬ UNCHANGED = INFEASIBLE := by decide
  have e1 : ¬ UNCHANGED = UNBNDORINFEAS := by decide
  by_cases x0 : r0.2 = INFEASIBLE
  · rw [if_pos x0] at ht; subst ht; exact absurd (h.symm.trans x0) e0
  rw [if_neg x0] at ht
  by_cases x1 : d = true ∧ r0.2 = UNBNDORINFEAS
  · rw [if_pos x1] at ht; subst ht; exact absurd (h.symm.trans x1.2) e1
  rw [if_neg x1] at ht
  by_cases x2 : r1.2 = INFEASIBLE
  · rw [if_pos x2] at ht; subst ht; exact absurd (h.symm.trans x2) e0
  rw [if_neg x2] at ht
  by_cases x3 : r2.2 = INFEASIBLE
  · rw [if_pos x3] at ht; subst ht; exact absurd (h.symm.trans x3) e0
  rw [if_neg x3] at ht
  by_cases x4 : r3.2 = UNBNDORINFEAS
  · rw [if_pos x4] at ht; subst ht; exact absurd (h.symm.trans x4) e1
  rw [if_neg x4] at ht
  subst ht
  have o2 := Bool.and_eq_true_iff.mp o
  have o3 := Bool.and_eq_true_iff.mp o2.1
  have o4 := Bool.and_eq_true_iff.mp o3.1
  exact ⟨of_decide_eq_true o4.2, of_decide_eq_true o3.2, of_decide_eq_true o2.2⟩

theorem runTrivial_te {stgs : Settings} {s : St} (h : (runTrivial stgs s).2 = UNCHANGED)
    (o : (runTrivial stgs s).1.asrt = true) : TE (runTrivial stgs s).1 := by
  refine trivialShape_te stgs.dualFix (trivialHead stgs s)
    (stonRowsLoop ((trivialHead stgs s).1.m + 2) (trivialHead stgs s).1)
    (removeEmptyRows (stonRowsLoop ((trivialHead stgs s).1.m + 2) (trivialHead stgs s).1).1)
    (removeEmptyCols (removeEmptyRows (stonRowsLoop ((trivialHead stgs s).1.m + 2) (trivialHead stgs s).1).1).1)
    _ ?_ h o
  unfold runTrivial
  rfl

theorem or_unchanged_both {a b : Status} (h : a ||| b = UNCHANGED) : a = UNCHANGED ∧ b = UNCHANGED :=
  Nat.or_eq_zero_iff.mp h

theorem runFast_te {env : Env} {stgs : Settings} {s : St} (e : TE s) (h : (runFast env stgs s).2 = UNCHANGED)
    (o : (runFast env stgs s).1.asrt = true) : TE (runFast env stgs s).1 := by
  unfold runFast at h o ⊢
  simp only at h o ⊢
  by_cases hd : stgs.dtonEq = true
  · simp only [hd, if_true] at h o ⊢
    exact runTrivial_te (or_unchanged_both h).2 o
  · simp only [hd, if_false, Bool.false_eq_true] at h o ⊢
    by_cases hc : stgs.stonCols = true
    · simp only [hc, if_true] at h o ⊢
      exact runTrivial_te (or_unchanged_both h).2 o
    · simp only [hc, if_false, Bool.false_eq_true] at h o ⊢
      exact e

/-- The shape of `runMedium`. -/
theorem mediumShape_te (pr pc : Bool) (r x : St × Status) (y : St → St × Status)
    (a : St → Status) (t : St × Status)
    (ht : t = (if r.2 ≠ UNCHANGED then r else
      if (if pr then x else r).2 ≠ UNCHANGED then (if pr then x else r) else
      if pc then ((y (if pr then x else r).1).1, a (if pr then x else r).1 ||| (y (if pr then x else r).1).2) else
        (if pr then x else r)))
    (h1 : r.2 = UNCHANGED → r.1.asrt = true → TE r.1)
    (h2 : ∀ u, (y u).2 = UNCHANGED → (y u).1.asrt = true → TE (y u).1)
    (h3 : r.2 = UNCHANGED → x.2 = UNCHANGED → x.1.asrt = true → TE x.1)
    (h : t.2 = UNCHANGED) (o : t.1.asrt = true) : TE t.1 := by
  by_cases x0 : r.2 ≠ UNCHANGED
  · rw [if_pos x0] at ht; subst ht; exact absurd h x0
  rw [if_neg x0] at ht
  by_cases x1 : (if pr then x else r).2 ≠ UNCHANGED
  · rw [if_pos x1] at ht; subst ht; exact absurd h x1
  rw [if_neg x1] at ht
  cases pc with
  | true =>
    rw [if_pos rfl] at ht; subst ht
    exact h2 _ (or_unchanged_both h).2 o
  | false =>
    rw [if_neg Bool.false_ne_true] at ht
    cases pr with
    | true =>
      rw [if_pos rfl] at ht
      subst ht; exact h3 (not_not.mp x0) h o
    | false =>
      rw [if_neg Bool.false_ne_true] at ht
      subst ht; exact h1 h o

theorem runMedium_te {env : Env} (hs : env.SortOK) {stgs : Settings}
    {s : St} (inv : Inv s) (c : CQ s) (e : TE s) (h : (runMedium env stgs s).2 = UNCHANGED)
    (o : (runMedium env stgs s).1.asrt = true) : TE (runMedium env stgs s).1 := by
  refine mediumShape_te stgs.parallelRows stgs.parallelCols (if stgs.primalPropagation then
      ((runTrivial stgs (propagatePrimal stgs.finiteBoundTightening (checkActivities s).1).1).1,
        (checkActivities s).2 ||| (propagatePrimal stgs.finiteBoundTightening (checkActivities s).1).2 |||
        (runTrivial stgs (propagatePrimal stgs.finiteBoundTightening (checkActivities s).1).1).2)
      else (s, UNCHANGED))
    (removeParallelRows env (if stgs.primalPropagation then
      ((runTrivial stgs (propagatePrimal stgs.finiteBoundTightening (checkActivities s).1).1).1,
        (checkActivities s).2 ||| (propagatePrimal stgs.finiteBoundTightening (checkActivities s).1).2 |||
        (runTrivial stgs (propagatePrimal stgs.finiteBoundTightening (checkActivities s).1).1).2)
      else (s, UNCHANGED)).1)
    (fun u => runTrivial stgs (removeParallelCols env u).1) (fun u => (removeParallelCols env u).2)
    _ ?_ ?_ (fun u h o => runTrivial_te h o) ?_ h o
  · unfold runMedium
    rfl
  · intro h2 h3
    cases hp : stgs.primalPropagation with
    | true =>
      simp only [hp, if_true] at h2 h3 ⊢
      exact runTrivial_te (or_unchanged_both h2).2 h3
    | false =>
      simp only [Bool.false_eq_true, if_false]
      exact e
  · intro h1 h2 o
    have g := mediumProp_cq stgs s
    generalize (if stgs.primalPropagation then
      ((runTrivial stgs (propagatePrimal stgs.finiteBoundTightening (checkActivities s).1).1).1,
        (checkActivities s).2 ||| (propagatePrimal stgs.finiteBoundTightening (checkActivities s).1).2 |||
        (runTrivial stgs (propagatePrimal stgs.finiteBoundTightening (checkActivities s).1).1).2)
      else (s, UNCHANGED)) = r at g h1 h2 o
    have o1 : Ok Mode.all r.1 := (removeParallelRows_good Mode.all rfl env hs r.1).ok (ok_all.mpr o)
    obtain ⟨R, c1⟩ := (g.2 (by rw [h1]; rfl) o1).2 inv c
    exact removeParallelRows_te hs (R.inv inv) c1.1 (by rw [h2]; decide) o

theorem TE.relax {s : St} (e : TE s) : TE (removeRedundantBounds s) := by
  unfold removeRedundantBounds
  generalize relaxOrder s = L
  induction L generalizing s with
  | nil => exact e
  | cons k L ih =>
    refine ih ?_
    unfold relaxCol
    simp only
    repeat' split
    all_goals exact ⟨e.ston, e.row, e.col⟩

/-! ### The states given to the debugger -/

/-- What is known of a state that the debugger gets, once assertions held up to it. -/
def Pt (s t : St) : Prop := t.asrt = true → s.asrt = true ∧ (Inv s → CQ s → Inv t ∧ CQ t ∧ TE t)

theorem mainLoopD_points (env : Env) (hs : env.SortOK) (stgs : Settings) (fuel : ℕ) (s : St) (c : Complexity) (b a : ℤ) :
    (∀ t ∈ (mainLoopD env stgs fuel s c b a).2, Pt s t) ∧
    ((mainLoopD env stgs fuel s c b a).1.2.1 = UNCHANGED → (mainLoopD env stgs fuel s c b a).1.2.2 = true →
      Pt s (mainLoopD env stgs fuel s c b a).1.1) := by
  induction fuel generalizing s c b a with
  | zero =>
    refine ⟨fun t ht => ?_, fun _ h => ?_⟩
    · cases ht
    · cases h
  | succ fuel ih =>
    unfold mainLoopD
    simp only
    have h1 := runTrivial_cq stgs s
    have h1e := fun h o => runTrivial_te (stgs := stgs) (s := s) h o
    generalize runTrivial stgs s = r at h1 h1e
    by_cases hu : r.2 ≠ UNCHANGED
    · rw [if_pos hu]
      refine ⟨fun t ht => ?_, fun h => absurd h hu⟩
      cases ht
    rw [if_neg hu]
    replace hu : r.2 = UNCHANGED := by simpa using hu
    have p1 : Pt s r.1 := by
      intro o
      obtain ⟨o', k⟩ := h1.2 (by rw [hu]; rfl) (ok_all.mpr o)
      refine ⟨ok_all.mp o', fun i c => ?_⟩
      obtain ⟨R, J⟩ := k i c
      exact ⟨R.inv i, J, h1e hu o⟩
    have key : ∀ q : St × Status, GoodR Mode.all CQ CQ r.1 q →
        (Inv r.1 → CQ r.1 → TE r.1 → q.2 = UNCHANGED → q.1.asrt = true → TE q.1) →
        ∀ (x : Bool) (c' : Complexity) (b' a' : ℤ), (x = false → fine q.2) →
        (∀ t ∈ (if x = true then (({ q.1 with tick := q.1.tick + 1 }, q.2, true), [r.1]) else
          ((mainLoopD env stgs fuel { q.1 with tick := q.1.tick + 1 } c' b' a').1,
            r.1 :: (mainLoopD env stgs fuel { q.1 with tick := q.1.tick + 1 } c' b' a').2) :
              (St × Status × Bool) × List St).2, Pt s t) ∧
        ((if x = true then (({ q.1 with tick := q.1.tick + 1 }, q.2, true), [r.1]) else
          ((mainLoopD env stgs fuel { q.1 with tick := q.1.tick + 1 } c' b' a').1,
            r.1 :: (mainLoopD env stgs fuel { q.1 with tick := q.1.tick + 1 } c' b' a').2) :
              (St × Status × Bool) × List St).1.2.1 = UNCHANGED →
          (if x = true then (({ q.1 with tick := q.1.tick + 1 }, q.2, true), [r.1]) else
          ((mainLoopD env stgs fuel { q.1 with tick := q.1.tick + 1 } c' b' a').1,
            r.1 :: (mainLoopD env stgs fuel { q.1 with tick := q.1.tick + 1 } c' b' a').2) :
              (St × Status × Bool) × List St).1.2.2 = true →
          Pt s (if x = true then (({ q.1 with tick := q.1.tick + 1 }, q.2, true), [r.1]) else
          ((mainLoopD env stgs fuel { q.1 with tick := q.1.tick + 1 } c' b' a').1,
            r.1 :: (mainLoopD env stgs fuel { q.1 with tick := q.1.tick + 1 } c' b' a').2) :
              (St × Status × Bool) × List St).1.1) := by
      intro q h2 h2e x c' b' a' hx
      have h3 := h1.trans' h2
      rw [hu, zero_or] at h3
      have sc : SameCore q.1 { q.1 with tick := q.1.tick + 1 } := by constructor <;> rfl
      have hq : ∀ t : St, Queued t → Queued { t with tick := t.tick + 1 } := fun t c =>
        ⟨c.ston, c.dton, c.dtonMem, c.dtonNodup, c.col, c.colMem, c.colNodup⟩
      have h4 : GoodR Mode.all CQ CQ s ({ q.1 with tick := q.1.tick + 1 }, q.2) :=
        h3.then (.same sc rfl rfl rfl (fun o => ⟨o.1, o.2⟩) (fun _ h => ⟨h.1, hq _ h.2⟩))
      cases x with
      | true =>
        simp only [if_true]
        refine ⟨fun t ht => ?_, fun hun _ o => ?_⟩
        · rw [List.mem_singleton] at ht; subst ht; exact p1
        · obtain ⟨o', k⟩ := h4.2 (by rw [hun]; rfl) (ok_all.mpr o)
          refine ⟨ok_all.mp o', fun i c => ?_⟩
          obtain ⟨R, J⟩ := k i c
          have or : r.1.asrt = true := ok_all.mp (h2.1 (ok_all.mpr o))
          obtain ⟨i1, c1, e1⟩ := (p1 or).2 i c
          have e := h2e i1 c1 e1 hun o
          exact ⟨R.inv i, J, ⟨e.ston, e.row, e.col⟩⟩
      | false =>
        simp only [Bool.false_eq_true, if_false]
        have h5 := ih { q.1 with tick := q.1.tick + 1 } c' b' a'
        have lift : ∀ t, Pt { q.1 with tick := q.1.tick + 1 } t → Pt s t := by
          intro t ht o
          obtain ⟨o1, k1⟩ := ht o
          obtain ⟨o2, k2⟩ := h4.2 (hx rfl) (ok_all.mpr o1)
          refine ⟨ok_all.mp o2, fun i c => ?_⟩
          obtain ⟨R, J⟩ := k2 i c
          exact k1 (R.inv i) J
        refine ⟨fun t ht => ?_, fun hun he => lift _ (h5.2 hun he)⟩
        rcases List.mem_cons.mp ht with e | e
        · subst e; exact p1
        · exact lift t (h5.1 t e)
    have hfine : ∀ (u v : ℤ) (q : St × Status) (tu : Bool), updateTermination u v c q.2 tu = false → fine q.2 := by
      intro u v q tu ht
      unfold updateTermination at ht
      simp only [Bool.or_eq_false_iff] at ht
      exact ht.1.1
    cases c with
    | fast => exact key _ (runFast_cq env stgs r.1) (fun _ _ e h o => runFast_te e h o) _ _ _ _ (hfine _ _ _ _)
    | medium =>
      exact key _ (runMedium_cq env hs stgs r.1) (fun i c e h o => runMedium_te hs i c e h o) _ _ _ _ (hfine _ _ _ _)

end Verif
