import Verif.Inv.Calls
import Verif.Model.Stats
import Verif.Props.C12_Status
import Verif.Lemmas.EnvEx
import Verif.Props.C20_Delete
import Mathlib.Algebra.BigOperators.Ring.Finset

/-!
# C37: presolve never adds nonzeros and the statistics add up
-/

namespace Verif

/-- The number of stored entries of the matrix. -/
def entries (s : St) : ℤ := ∑ i ∈ Finset.range s.m, ((s.A i).length : ℤ)

/-- **C37, explorers.**  Start from any valid problem and call explorers in any order, then one
more explorer `e`: that call leaves the number of stored entries unchanged or smaller, whatever
status it returns, and the counter `nnz` is that number.  The hypothesis is that the assertions of
the code held so far. -/
theorem C37_no_fill {P : LP} (hP : P.Valid) {env : Env} (hs : env.SortOK) {stgs : Settings} {s : St}
    (h : Calls env stgs (initSt P) s) (e : Expl) (o : (explCall env stgs e s).1.asrt = true) :
    entries (explCall env stgs e s).1 ≤ entries s ∧ s.nnz = entries s ∧
      (explCall env stgs e s).1.nnz = entries (explCall env stgs e s).1 := by
  obtain ⟨o', k⟩ := explCall_good env hs stgs e s (ok_all.mpr o)
  obtain ⟨_, r, c⟩ := h.run hs (ok_all.mp o') (initSt_inv hP) (initSt_ce P)
  have i := r.inv (initSt_inv hP)
  obtain ⟨r', _⟩ := k i c
  have h1 := r'.nnz_le i
  have i' := r'.inv i
  rw [i.gi.nnz, i'.gi.nnz] at h1
  exact ⟨h1, i.gi.nnz, i'.gi.nnz⟩

/-! ### The counters -/

theorem runMedium_st (env : Env) (stgs : Settings) (s : St) :
    (runMedium env stgs s).2 = UNCHANGED ∨ (runMedium env stgs s).2 = INFEASIBLE ∨
      (runMedium env stgs s).2 = UNBNDORINFEAS := by
  have h := runPhaseT_tells env stgs .medium s
  have e := runPhaseT_erase env stgs .medium s
  have e2 : (runPhaseT env stgs .medium s).2.1 = (runMedium env stgs s).2 := congrArg Prod.snd e
  rw [← e2, h.2]
  exact verdict_cases _

theorem mediumPropS_total {stgs : Settings} {s : St} {t : Stats}
    (h : (mediumPropS stgs s t).2.1 = UNCHANGED) :
    (mediumPropS stgs s t).2.2.total = t.total + (s.nnz - (mediumPropS stgs s t).1.nnz) := by
  unfold mediumPropS at h ⊢
  split
  · rename_i hp
    rw [if_pos hp] at h
    simp only at h ⊢
    rw [h]
    simp [Stats.total]
    ring
  · simp

theorem mediumRowsS_total {env : Env} {stgs : Settings} {r : St × Status × Stats}
    (h : (mediumRowsS env stgs r).2.1 = UNCHANGED) :
    (mediumRowsS env stgs r).2.2.total = r.2.2.total + (r.1.nnz - (mediumRowsS env stgs r).1.nnz) := by
  unfold mediumRowsS at h ⊢
  split
  · rename_i hp
    rw [if_pos hp] at h
    simp only at h ⊢
    rw [h]
    simp [Stats.total]
    ring
  · simp

theorem mediumColsS_total {env : Env} {stgs : Settings} {r : St × Status × Stats}
    (h : (mediumColsS env stgs r).2.1 = UNCHANGED) :
    (mediumColsS env stgs r).2.2.total = r.2.2.total + (r.1.nnz - (mediumColsS env stgs r).1.nnz) := by
  unfold mediumColsS at h ⊢
  split
  · rename_i hp
    rw [if_pos hp] at h
    simp only at h ⊢
    rw [h]
    simp [Stats.total]
    ring
  · simp

theorem runMediumS_total {env : Env} {stgs : Settings} {s : St} {t : Stats}
    (h : (runMediumS env stgs s t).2.1 = UNCHANGED) :
    (runMediumS env stgs s t).2.2.total = t.total + (s.nnz - (runMediumS env stgs s t).1.nnz) := by
  have h1 := mediumPropS_total (stgs := stgs) (s := s) (t := t)
  unfold runMediumS at h ⊢
  simp only at h ⊢
  generalize mediumPropS stgs s t = r at h h1 ⊢
  by_cases c1 : r.2.1 ≠ UNCHANGED
  · rw [if_pos c1] at h; exact absurd h c1
  rw [if_neg c1] at h ⊢
  have h2 := mediumRowsS_total (env := env) (stgs := stgs) (r := r)
  generalize mediumRowsS env stgs r = q at h h2 ⊢
  by_cases c2 : q.2.1 ≠ UNCHANGED
  · rw [if_pos c2] at h; exact absurd h c2
  rw [if_neg c2] at h ⊢
  rw [mediumColsS_total h, h2 (not_not.mp c2), h1 (not_not.mp c1)]
  ring

theorem mainLoopS_total (env : Env) (stgs : Settings) : ∀ (fuel : ℕ) (s : St) (c : Complexity)
    (b a : ℤ) (t : Stats), (mainLoopS env stgs fuel s c b a t).2.1 = UNCHANGED →
    (mainLoopS env stgs fuel s c b a t).2.2.2.total =
      t.total + (s.nnz - (mainLoopS env stgs fuel s c b a t).1.nnz)
  | 0, s, _, _, _, t, _ => by simp [mainLoopS]
  | fuel + 1, s, c, b, a, t, h => by
    unfold mainLoopS at h ⊢
    simp only at h ⊢
    generalize hr : runTrivial stgs s = r at h ⊢
    by_cases c1 : r.2 ≠ UNCHANGED
    · rw [if_pos c1] at h; exact absurd h c1
    rw [if_neg c1] at h ⊢
    generalize ht : ({ t with trivial := t.trivial + (s.nnz - r.1.nnz) } : Stats) = t' at h ⊢
    have ht' : t'.total = t.total + (s.nnz - r.1.nnz) := by
      rw [← ht]; simp [Stats.total]; ring
    have hq : fine (runPhaseS env stgs c r.1 t').2.1 →
        (runPhaseS env stgs c r.1 t').2.2.total = t'.total + (r.1.nnz - (runPhaseS env stgs c r.1 t').1.nnz) := by
      intro f
      cases c with
      | fast => simp only [runPhaseS, Stats.total]; ring
      | medium =>
        apply runMediumS_total
        have e := congrArg Prod.snd (runMediumS_erase env stgs r.1 t')
        simp only at e
        refine hasStatus_false ?_ f
        show (runMediumS env stgs r.1 t').2.1 = _ ∨ (runMediumS env stgs r.1 t').2.1 = _ ∨
          (runMediumS env stgs r.1 t').2.1 = _
        rw [e]
        exact runMedium_st env stgs r.1
    generalize runPhaseS env stgs c r.1 t' = q at h hq ⊢
    generalize (if c = .medium then q.1.nnz else a) = a' at h ⊢
    by_cases c2 : updateTermination a' b c q.2.1 (env.timeUp q.1.tick) = true
    · rw [if_pos c2] at h ⊢
      have h : q.2.1 = UNCHANGED := h
      rw [hq (by rw [h]; rfl), ht']
      show _ = t.total + (s.nnz - q.1.nnz)
      ring
    · rw [if_neg c2] at h ⊢
      have f : fine q.2.1 := by
        unfold updateTermination at c2
        simp only [Bool.or_eq_true, not_or, Bool.not_eq_true] at c2
        exact c2.1.1
      rw [mainLoopS_total env stgs fuel _ _ _ _ _ h, hq f, ht']
      show t.total + (s.nnz - r.1.nnz) + (r.1.nnz - q.1.nnz) + (q.1.nnz - _) = _
      ring

/-- Counters only grow. -/
structure Stats.Le (t t' : Stats) : Prop where
  trivial : t.trivial ≤ t'.trivial
  fast : t.fast ≤ t'.fast
  propagation : t.propagation ≤ t'.propagation
  parallelRows : t.parallelRows ≤ t'.parallelRows
  parallelCols : t.parallelCols ≤ t'.parallelCols

theorem Stats.Le.refl (t : Stats) : t.Le t := ⟨le_rfl, le_rfl, le_rfl, le_rfl, le_rfl⟩

theorem Stats.Le.trans {a b c : Stats} (h : a.Le b) (h' : b.Le c) : a.Le c :=
  ⟨h.1.trans h'.1, h.2.trans h'.2, h.3.trans h'.3, h.4.trans h'.4, h.5.trans h'.5⟩

/-- A group of explorers keeps the invariant and does not add nonzeros. -/
theorem GoodR.nnz {s : St} {r : St × Status} (h : GoodR Mode.all CE CE s r) (f : fine r.2)
    (o : r.1.asrt = true) (i : Inv s) (c : CE s) : Inv r.1 ∧ CE r.1 ∧ r.1.nnz ≤ s.nnz := by
  obtain ⟨r', c'⟩ := (h.2 f (ok_all.mpr o)).2 i c
  exact ⟨r'.inv i, c', r'.nnz_le i⟩

section
variable {env : Env} (hs : env.SortOK) {stgs : Settings}
include hs

theorem mediumPropS_good (s : St) (t : Stats) :
    GoodR Mode.all CE CE s ((mediumPropS stgs s t).1, (mediumPropS stgs s t).2.1) := by
  unfold mediumPropS
  split
  · simp only
    have g1 := (checkActivities_good Mode.all s).toR
    generalize checkActivities s = a at g1 ⊢
    have g2 := (propagatePrimal_good Mode.all stgs.finiteBoundTightening a.1).toR
    generalize propagatePrimal stgs.finiteBoundTightening a.1 = b at g2 ⊢
    have g3 := (runTrivial_good Mode.all stgs b.1).toR
    generalize runTrivial stgs b.1 = d at g3 ⊢
    exact ((g1.trans' g2).trans' g3).em
  · exact Good.toR (.refl _ _ _)

theorem mediumRowsS_good {r : St × Status × Stats} (h : r.2.1 = UNCHANGED) :
    GoodR Mode.all CE CE r.1 ((mediumRowsS env stgs r).1, (mediumRowsS env stgs r).2.1) := by
  unfold mediumRowsS
  split
  · exact Good.toR (removeParallelRows_good Mode.all rfl env hs r.1).emCE
  · exact Good.toR (.refl _ _ _)

theorem mediumColsS_good {r : St × Status × Stats} (h : r.2.1 = UNCHANGED) :
    GoodR Mode.all CE CE r.1 ((mediumColsS env stgs r).1, (mediumColsS env stgs r).2.1) := by
  unfold mediumColsS
  split
  · simp only
    have g := (removeParallelCols_good Mode.all rfl env hs r.1).emCE
    generalize removeParallelCols env r.1 = x at g ⊢
    have g2 := (runTrivial_good Mode.all stgs x.1).toR.em
    generalize runTrivial stgs x.1 = y at g2 ⊢
    exact GoodR.trans' (r := x) (Good.toR g) g2
  · exact Good.toR (.refl _ _ _)

theorem runMediumS_le {s : St} {t : Stats} (f : fine (runMediumS env stgs s t).2.1)
    (o : (runMediumS env stgs s t).1.asrt = true) (i : Inv s) (c : CE s) :
    t.Le (runMediumS env stgs s t).2.2 := by
  have g1 := mediumPropS_good hs (stgs := stgs) s t
  have l1 : (mediumPropS stgs s t).1.nnz ≤ s.nnz → t.Le (mediumPropS stgs s t).2.2 := by
    unfold mediumPropS
    intro h
    split
    · rename_i hp
      rw [if_pos hp] at h
      simp only at h ⊢
      split
      · exact .refl _
      · exact ⟨le_rfl, le_rfl, by simp only; linarith, le_rfl, le_rfl⟩
    · exact .refl _
  unfold runMediumS at f o ⊢
  simp only at f o ⊢
  generalize mediumPropS stgs s t = r at g1 l1 f o ⊢
  by_cases c1 : r.2.1 ≠ UNCHANGED
  · rw [if_pos c1] at f o ⊢
    exact l1 (g1.nnz f o i c).2.2
  rw [if_neg c1] at f o ⊢
  have g2 := mediumRowsS_good hs (stgs := stgs) (not_not.mp c1)
  have l2 : (mediumRowsS env stgs r).1.nnz ≤ r.1.nnz → r.2.2.Le (mediumRowsS env stgs r).2.2 := by
    unfold mediumRowsS
    intro h
    split
    · rename_i hp
      rw [if_pos hp] at h
      simp only at h ⊢
      split
      · exact .refl _
      · exact ⟨le_rfl, le_rfl, le_rfl, by simp only; linarith, le_rfl⟩
    · exact .refl _
  generalize mediumRowsS env stgs r = q at g2 l2 f o ⊢
  have fr : fine r.2.1 := by rw [not_not.mp c1]; rfl
  by_cases c2 : q.2.1 ≠ UNCHANGED
  · rw [if_pos c2] at f o ⊢
    obtain ⟨i1, c1', n1⟩ := g1.nnz fr (ok_all.mp (g2.1 (ok_all.mpr o))) i c
    exact (l1 n1).trans (l2 (g2.nnz f o i1 c1').2.2)
  rw [if_neg c2] at f o ⊢
  have g3 := mediumColsS_good hs (stgs := stgs) (not_not.mp c2)
  have l3 : (mediumColsS env stgs q).1.nnz ≤ q.1.nnz → q.2.2.Le (mediumColsS env stgs q).2.2 := by
    unfold mediumColsS
    intro h
    split
    · rename_i hp
      rw [if_pos hp] at h
      simp only at h ⊢
      split
      · exact .refl _
      · exact ⟨le_rfl, le_rfl, le_rfl, le_rfl, by simp only; linarith⟩
    · exact .refl _
  have fq : fine q.2.1 := by rw [not_not.mp c2]; rfl
  have oq := g3.1 (ok_all.mpr o)
  obtain ⟨i1, c1', n1⟩ := g1.nnz fr (ok_all.mp (g2.1 oq)) i c
  obtain ⟨i2, c2', n2⟩ := g2.nnz fq (ok_all.mp oq) i1 c1'
  exact ((l1 n1).trans (l2 n2)).trans (l3 (g3.nnz f o i2 c2').2.2)

theorem runPhase_good (c : Complexity) (s : St) : GoodR Mode.all CE CE s (runPhase env stgs c s) := by
  cases c with
  | fast => exact (runFast_good Mode.all env stgs (fun _ => rfl) s).em
  | medium => exact runMedium_good Mode.all env hs stgs (fun _ => rfl) (fun _ => rfl) s

theorem runPhaseS_le {c : Complexity} {s : St} {t : Stats} (f : fine (runPhaseS env stgs c s t).2.1)
    (o : (runPhaseS env stgs c s t).1.asrt = true) (i : Inv s) (ce : CE s) :
    t.Le (runPhaseS env stgs c s t).2.2 := by
  cases c with
  | fast =>
    have h := ((runFast_good Mode.all env stgs (fun _ => rfl) s).em.nnz f o i ce).2.2
    exact ⟨le_rfl, by simp only [runPhaseS]; linarith, le_rfl, le_rfl, le_rfl⟩
  | medium => exact runMediumS_le hs f o i ce

omit hs in
theorem runPhaseS_erase (c : Complexity) (s : St) (t : Stats) :
    ((runPhaseS env stgs c s t).1, (runPhaseS env stgs c s t).2.1) = runPhase env stgs c s := by
  cases c with
  | fast => rfl
  | medium => exact runMediumS_erase env stgs s t

theorem mainLoopS_le : ∀ (fuel : ℕ) (s : St) (c : Complexity)
    (b a : ℤ) (t : Stats), (mainLoopS env stgs fuel s c b a t).2.1 = UNCHANGED →
    (mainLoopS env stgs fuel s c b a t).1.asrt = true → Inv s → CE s →
    t.Le (mainLoopS env stgs fuel s c b a t).2.2.2
  | 0, s, _, _, _, t, _, _, _, _ => Stats.Le.refl t
  | fuel + 1, s, c, b, a, t, f, o, i, ce => by
    have g0 : GoodR Mode.all CE CE s (runTrivial stgs s) := (runTrivial_good Mode.all stgs s).toR.em
    unfold mainLoopS at f o ⊢
    simp only at f o ⊢
    generalize runTrivial stgs s = r at f o g0 ⊢
    by_cases c1 : r.2 ≠ UNCHANGED
    · rw [if_pos c1] at f; exact absurd f c1
    rw [if_neg c1] at f o ⊢
    have fr : fine r.2 := by rw [not_not.mp c1]; rfl
    generalize ht : ({ t with trivial := t.trivial + (s.nnz - r.1.nnz) } : Stats) = t' at f o ⊢
    have lt' : r.1.nnz ≤ s.nnz → t.Le t' := by
      intro h; rw [← ht]
      exact ⟨by simp only; linarith, le_rfl, le_rfl, le_rfl, le_rfl⟩
    have gq := runPhase_good hs (stgs := stgs) c r.1
    have lq := runPhaseS_le hs (stgs := stgs) (c := c) (s := r.1) (t := t')
    have eq := runPhaseS_erase (env := env) (stgs := stgs) c r.1 t'
    rw [← eq] at gq
    generalize runPhaseS env stgs c r.1 t' = q at f o gq lq ⊢
    generalize (if c = .medium then q.1.nnz else a) = a' at f o ⊢
    have tick : ∀ {s : St}, Inv s → CE s → Inv { s with tick := s.tick + 1 } ∧ CE { s with tick := s.tick + 1 } := by
      intro s i ce
      have sc : SameCore s { s with tick := s.tick + 1 } := by constructor <;> rfl
      exact ⟨⟨sc.gi i.gi, i.ston, i.dton⟩, ce⟩
    by_cases c2 : updateTermination a' b c q.2.1 (env.timeUp q.1.tick) = true
    · rw [if_pos c2] at f o ⊢
      have f : q.2.1 = UNCHANGED := f
      have o : q.1.asrt = true := o
      have or := ok_all.mp (gq.1 (ok_all.mpr o))
      obtain ⟨i1, ce1, n1⟩ := g0.nnz fr or i ce
      exact (lt' n1).trans (lq (by rw [f]; rfl) o i1 ce1)
    · rw [if_neg c2] at f o ⊢
      have fq : fine q.2.1 := by
        unfold updateTermination at c2
        simp only [Bool.or_eq_true, not_or, Bool.not_eq_true] at c2
        exact c2.1.1
      have oq : q.1.asrt = true := by
        have e := mainLoopS_erase env stgs fuel { q.1 with tick := q.1.tick + 1 }
          (updateComplexity c r.1.nnz q.1.nnz) (if c = .medium then a' else b) a' q.2.2
        have e1 := congrArg Prod.fst e
        have g := mainLoop_good Mode.all env hs stgs (fun _ => rfl) (fun _ => rfl) (fun _ => rfl) fuel
          { q.1 with tick := q.1.tick + 1 } (updateComplexity c r.1.nnz q.1.nnz)
          (if c = .medium then a' else b) a'
        have := g.1 (ok_all.mpr (by
          show (mainLoop env stgs fuel _ _ _ _).1.asrt = true
          rw [← e1]; exact o))
        exact ok_all.mp this
      have or := ok_all.mp (gq.1 (ok_all.mpr oq))
      obtain ⟨i1, ce1, n1⟩ := g0.nnz fr or i ce
      obtain ⟨i2, ce2, n2⟩ := gq.nnz fq oq i1 ce1
      have := mainLoopS_le fuel _ _ _ _ _ f o (tick i2 ce2).1 (tick i2 ce2).2
      exact ((lt' n1).trans (lq fq oq i1 ce1)).trans this

end

/-- `remove_redundant_bounds` does not touch the matrix. -/
theorem removeRedundantBounds_nnz (s : St) : (removeRedundantBounds s).nnz = s.nnz := by
  unfold removeRedundantBounds
  have : ∀ (l : List ℕ) (s : St), (l.foldl relaxCol s).nnz = s.nnz := by
    intro l
    induction l with
    | nil => intro s; rfl
    | cons k l ih =>
      intro s
      rw [List.foldl_cons, ih]
      unfold relaxCol
      simp only
      repeat' split
      all_goals rfl
  exact this _ _

/-- **C37, statistics.**  After a completed run the counters of removed nonzeros add up to the
difference between the number of nonzeros of the given problem and of the reduced problem (the
check of `run_debugger_stats_consistency_check`). -/
theorem C37_stats (env : Env) (stgs : Settings) (fuel : ℕ) (P : LP)
    (hf : (runPresolver env stgs fuel P).2.1 = UNCHANGED) :
    (runPresolverS env stgs fuel P).1 = runPresolver env stgs fuel P ∧
    ((∑ i ∈ Finset.range P.m, (P.A i).length : ℕ) : ℤ) - (runPresolver env stgs fuel P).1.nnz =
      (runPresolverS env stgs fuel P).2.total := by
  have e := runPresolverS_erase env stgs fuel P
  refine ⟨e, ?_⟩
  rw [← e] at hf ⊢
  have h0 : (initSt P).nnz = ((∑ i ∈ Finset.range P.m, (P.A i).length : ℕ) : ℤ) := by
    show ((List.range P.m).map (fun i => ((P.A i).length : ℤ))).sum = _
    rw [sum_range_eq, Nat.cast_sum]
  rw [← h0]
  have key := mainLoopS_total env stgs fuel (initSt P) .fast (initSt P).nnz (initSt P).nnz {}
  unfold runPresolverS at hf ⊢
  simp only at hf ⊢
  generalize mainLoopS env stgs fuel (initSt P) .fast (initSt P).nnz (initSt P).nnz {} = r at key hf ⊢
  by_cases c1 : r.2.1 ≠ UNCHANGED
  · rw [if_pos c1] at hf; exact absurd hf c1
  rw [if_neg c1] at hf ⊢
  have hn : (if stgs.relaxBounds = true then removeRedundantBounds r.1 else r.1).nnz = r.1.nnz := by
    split
    · exact removeRedundantBounds_nnz r.1
    · rfl
  simp only
  rw [hn, key (not_not.mp c1)]
  simp [Stats.total]

/-- **C37, no wrap-around.**  If the assertions of the code hold, no counter is ever decreased (the
subtractions of `size_t` values do not wrap), and the reduced problem has at most as many nonzeros
as the given one. -/
theorem C37_counters {P : LP} (hP : P.Valid) {env : Env} (hs : env.SortOK) (stgs : Settings) (fuel : ℕ)
    (hf : (runPresolver env stgs fuel P).2.1 = UNCHANGED)
    (ho : (runPresolver env stgs fuel P).1.asrt = true) :
    Stats.Le {} (runPresolverS env stgs fuel P).2 ∧
      (runPresolver env stgs fuel P).1.nnz ≤ ((∑ i ∈ Finset.range P.m, (P.A i).length : ℕ) : ℤ) := by
  obtain ⟨e, ht⟩ := C37_stats env stgs fuel P hf
  have hle : Stats.Le {} (runPresolverS env stgs fuel P).2 := by
    rw [← e] at hf ho
    have key := mainLoopS_le hs (stgs := stgs) fuel (initSt P) .fast (initSt P).nnz (initSt P).nnz {}
    unfold runPresolverS at hf ho ⊢
    simp only at hf ho ⊢
    generalize mainLoopS env stgs fuel (initSt P) .fast (initSt P).nnz (initSt P).nnz {} = r at key hf ho ⊢
    by_cases c1 : r.2.1 ≠ UNCHANGED
    · rw [if_pos c1] at hf; exact absurd hf c1
    rw [if_neg c1] at hf ho ⊢
    refine key (not_not.mp c1) ?_ (initSt_inv hP) (initSt_ce P)
    simp only at ho
    split at ho
    · exact ok_all.mp ((removeRedundantBounds_good Mode.all r.1).ok (ok_all.mpr ho))
    · exact ho
  refine ⟨hle, ?_⟩
  have : 0 ≤ (runPresolverS env stgs fuel P).2.total := by
    have h1 := hle.1; have h2 := hle.2; have h3 := hle.3; have h4 := hle.4; have h5 := hle.5
    unfold Stats.total
    simp only at h1 h2 h3 h4 h5
    linarith
  linarith

/-- Three rows, four columns; everything is removed, by the trivial explorers, by propagation and
by merging columns. -/
def exNnz : LP :=
  { m := 3, n := 4
    A := fun i => if i = 0 then [(0, 1), (1, 2), (2, 1)] else if i = 1 then [(2, 3)]
      else if i = 2 then [(0, 1), (1, 1), (3, 1)] else []
    lhs := fun i => if i = 1 then .fin 3 else .ninf, rhs := fun i => if i = 1 then .fin 3 else .fin 10
    lb := fun _ => .fin 0, ub := fun k => if k = 3 then .pinf else .fin 4
    c := fun k => if k = 0 then -1 else if k = 1 then -2 else 1 }

theorem exNnz_valid : exNnz.Valid := by
  constructor
  · intro i
    show SortedC (if i = 0 then [(0, 1), (1, 2), (2, 1)] else if i = 1 then [(2, 3)]
      else if i = 2 then [(0, 1), (1, 1), (3, 1)] else [])
    split_ifs <;> simp [SortedC]
  · intro i p hp
    have hp : p ∈ (if i = 0 then [(0, 1), (1, 2), (2, 1)] else if i = 1 then [(2, 3)]
      else if i = 2 then [(0, 1), (1, 1), (3, 1)] else [] : List Cell) := hp
    show i < 3 ∧ p.1 < 4 ∧ p.2 ≠ 0
    split_ifs at hp with h1 h2 h3 <;> simp at hp
    · rcases hp with rfl | rfl | rfl <;> refine ⟨by omega, by norm_num, by norm_num⟩
    · subst hp; refine ⟨by omega, by norm_num, by norm_num⟩
    · rcases hp with rfl | rfl | rfl <;> refine ⟨by omega, by norm_num, by norm_num⟩

example : (runPresolver envEx stgsAll 10 exNnz).2.1 = UNCHANGED ∧
    (runPresolver envEx stgsAll 10 exNnz).1.asrt = true ∧
    (runPresolverS envEx stgsAll 10 exNnz).2 =
      { trivial := 3, fast := 0, propagation := 2, parallelRows := 0, parallelCols := 2 } := by
  decide +kernel

/-- Removing the singleton row takes the number of nonzeros from seven to five. -/
example : ∃ s, Calls envEx stgsAll (initSt exNnz) s ∧
    (explCall envEx stgsAll .stonRows s).1.asrt = true ∧ s.nnz = 7 ∧
    (explCall envEx stgsAll .stonRows s).1.nnz = 5 :=
  ⟨(explCall envEx stgsAll .closeBounds (initSt exNnz)).1, .call .closeBounds .nil (by decide +kernel),
    by decide +kernel, by decide +kernel, by decide +kernel⟩

end Verif
