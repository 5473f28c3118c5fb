import Verif.Inv.RunTrivialGood
import Verif.Inv.StonColsGood
import Verif.Inv.ParRowsGood
import Verif.Inv.ParColsGood
import Verif.Inv.PropGood
import Verif.Inv.DtonGood
import Verif.Inv.Init

/-!
# A whole run of the presolver as elementary steps
-/

namespace Verif

theorem fine_or {a b : Status} : fine (a ||| b) ↔ fine a ∧ fine b := by
  have key : ∀ x : Status, fine x ↔ x &&& UNBNDORINFEAS = 0 := by
    intro x; unfold fine hasStatus; simp
  rw [key, key, key, Nat.and_or_distrib_right, Nat.or_eq_zero_iff]

/-- `Good` for a group of explorers that goes on after a bad status: the flags only get worse, and
if the status is fine the group consists of elementary steps. -/
def GoodR (μ : Mode) (I J : St → Prop) (s : St) (r : St × Status) : Prop :=
  (Ok μ r.1 → Ok μ s) ∧ (fine r.2 → Good μ I J s r.1)

section
variable {μ : Mode} {I J K : St → Prop} {s t u : St} {a b : Status}

theorem GoodX.toR {r : St × Status} (h : GoodX μ I J s r) : GoodR μ I J s r :=
  ⟨fun o => Good.ok h o, fun f => h.to_good f⟩

theorem Good.toR (h : Good μ I J s t) : GoodR μ I J s (t, a) := ⟨fun o => h.ok o, fun _ => h⟩

theorem GoodR.trans (h : GoodR μ I J s (t, a)) (h' : GoodR μ J K t (u, b)) :
    GoodR μ I K s (u, a ||| b) :=
  ⟨fun o => h.1 (h'.1 o), fun f => (h.2 (fine_or.mp f).1).trans (h'.2 (fine_or.mp f).2)⟩

theorem GoodR.trans' {r r' : St × Status} (h : GoodR μ I J s r) (h' : GoodR μ J K r.1 r') :
    GoodR μ I K s (r'.1, r.2 ||| r'.2) :=
  ⟨fun o => h.1 (h'.1 o), fun f => (h.2 (fine_or.mp f).1).trans (h'.2 (fine_or.mp f).2)⟩

theorem GoodR.then {r : St × Status} (h : GoodR μ I J s r) (h' : Good μ J K r.1 u) : GoodR μ I K s (u, r.2) :=
  ⟨fun o => h.1 (h'.ok o), fun f => (h.2 f).trans h'⟩

theorem GoodR.em {r : St × Status} (h : GoodR μ I J s r) :
    GoodR μ (fun s => I s ∧ Em s) (fun s => J s ∧ Em s) s r := ⟨h.1, fun f => (h.2 f).em⟩

/-- Empty rows and columns stay listed. -/
theorem Good.emCE (h : Good μ CE Clean s t) : Good μ CE CE s t := by
  intro o
  obtain ⟨o', k⟩ := h o
  refine ⟨o', fun i hi => ?_⟩
  obtain ⟨r, hj⟩ := k i hi
  exact ⟨r, hj, r.em hi.2⟩

end

theorem runFast_good (μ : Mode) (env : Env) (stgs : Settings) (hst : stgs.stonCols = true → μ.ston = true) (s : St) :
    GoodR μ Clean Clean s (runFast env stgs s) := by
  unfold runFast
  simp only
  have h1 : GoodR μ Clean Clean s (if stgs.stonCols then
      ((runTrivial stgs ((removeStonCols s).1.check (decide ((removeStonCols s).1.emptyRows = [])))).1,
        (removeStonCols s).2 |||
        (runTrivial stgs ((removeStonCols s).1.check (decide ((removeStonCols s).1.emptyRows = [])))).2)
      else (s, UNCHANGED)) := by
    split
    · rename_i hp
      refine GoodR.trans (J := Clean) (t := (removeStonCols s).1.check (decide ((removeStonCols s).1.emptyRows = [])))
        (Good.toR ((removeStonCols_good μ (hst hp) s).trans (.check _ _ (fun _ h => h)))) ?_
      exact (runTrivial_good μ stgs _).toR
    · exact Good.toR (.refl _ _ _)
  generalize (if stgs.stonCols then
      ((runTrivial stgs ((removeStonCols s).1.check (decide ((removeStonCols s).1.emptyRows = [])))).1,
        (removeStonCols s).2 |||
        (runTrivial stgs ((removeStonCols s).1.check (decide ((removeStonCols s).1.emptyRows = [])))).2)
      else (s, UNCHANGED)) = r at h1
  split
  · exact (h1.then (removeDtonRows_good μ env r.1)).trans (runTrivial_good μ stgs _).toR
  · exact h1

theorem runMedium_good (μ : Mode) (env : Env) (hs : env.SortOK) (stgs : Settings)
    (hr : stgs.parallelRows = true → μ.sideRec = true) (hc : stgs.parallelCols = true → μ.merge = true)
    (s : St) : GoodR μ CE CE s (runMedium env stgs s) := by
  unfold runMedium
  simp only
  have h1 : GoodR μ CE CE s (if stgs.primalPropagation then
      ((runTrivial stgs (propagatePrimal stgs.finiteBoundTightening (checkActivities s).1).1).1,
        (checkActivities s).2 ||| (propagatePrimal stgs.finiteBoundTightening (checkActivities s).1).2 |||
        (runTrivial stgs (propagatePrimal stgs.finiteBoundTightening (checkActivities s).1).1).2)
      else (s, UNCHANGED)) := by
    split
    · have g1 := (checkActivities_good μ s).toR
      generalize checkActivities s = a at g1 ⊢
      have g2 := (propagatePrimal_good μ stgs.finiteBoundTightening a.1).toR
      generalize propagatePrimal stgs.finiteBoundTightening a.1 = b at g2 ⊢
      have g3 := (runTrivial_good μ stgs b.1).toR
      generalize runTrivial stgs b.1 = d at g3 ⊢
      exact ((g1.trans' g2).trans' g3).em
    · exact Good.toR (.refl _ _ _)
  generalize (if stgs.primalPropagation then
      ((runTrivial stgs (propagatePrimal stgs.finiteBoundTightening (checkActivities s).1).1).1,
        (checkActivities s).2 ||| (propagatePrimal stgs.finiteBoundTightening (checkActivities s).1).2 |||
        (runTrivial stgs (propagatePrimal stgs.finiteBoundTightening (checkActivities s).1).1).2)
      else (s, UNCHANGED)) = r at h1
  split
  · exact h1
  · rename_i hu
    have hu : r.2 = UNCHANGED := by simpa using hu
    have h2 : GoodR μ CE CE s (if stgs.parallelRows then removeParallelRows env r.1 else r) := by
      split
      · rename_i hp
        have g := (removeParallelRows_good μ (hr hp) env hs r.1).emCE
        have := h1.trans (Good.toR (a := (removeParallelRows env r.1).2) g)
        rw [hu] at this
        rw [show (removeParallelRows env r.1) = ((removeParallelRows env r.1).1, (removeParallelRows env r.1).2) from rfl]
        rwa [zero_or] at this
      · exact h1
    generalize (if stgs.parallelRows then removeParallelRows env r.1 else r) = r2 at h2
    split
    · exact h2
    · rename_i hu2
      have hu2 : r2.2 = UNCHANGED := by simpa using hu2
      split
      · rename_i hp
        have g := (removeParallelCols_good μ (hc hp) env hs r2.1).emCE
        generalize removeParallelCols env r2.1 = x at g ⊢
        have g2 := (runTrivial_good μ stgs x.1).toR.em
        generalize runTrivial stgs x.1 = y at g2 ⊢
        have := (h2.trans' (r' := x) (Good.toR g)).trans' g2
        rw [hu2, zero_or] at this
        exact this
      · exact h2

theorem mainLoop_good (μ : Mode) (env : Env) (hs : env.SortOK) (stgs : Settings)
    (hr : stgs.parallelRows = true → μ.sideRec = true) (hc : stgs.parallelCols = true → μ.merge = true)
    (hst : stgs.stonCols = true → μ.ston = true)
    (fuel : ℕ) (s : St) (c : Complexity) (b a : ℤ) :
    GoodR μ CE CE s ((mainLoop env stgs fuel s c b a).1, (mainLoop env stgs fuel s c b a).2.1) := by
  induction fuel generalizing s c b a with
  | zero => exact Good.toR (.refl _ _ _)
  | succ fuel ih =>
    unfold mainLoop
    simp only
    have h1 : GoodR μ CE CE s (runTrivial stgs s) := (runTrivial_good μ stgs s).toR.em
    generalize runTrivial stgs s = r at h1
    split
    · exact h1
    · rename_i hu
      have hu : r.2 = UNCHANGED := by simpa using hu
      have key : ∀ q : St × Status, GoodR μ CE CE r.1 q → GoodR μ CE CE s
          ((if updateTermination (if c = .medium then q.1.nnz else a) b c q.2 (env.timeUp q.1.tick) = true then
            ({ q.1 with tick := q.1.tick + 1 }, q.2, true)
          else mainLoop env stgs fuel { q.1 with tick := q.1.tick + 1 } (updateComplexity c r.1.nnz q.1.nnz)
            (if c = .medium then (if c = .medium then q.1.nnz else a) else b)
            (if c = .medium then q.1.nnz else a)).1,
          (if updateTermination (if c = .medium then q.1.nnz else a) b c q.2 (env.timeUp q.1.tick) = true then
            ({ q.1 with tick := q.1.tick + 1 }, q.2, true)
          else mainLoop env stgs fuel { q.1 with tick := q.1.tick + 1 } (updateComplexity c r.1.nnz q.1.nnz)
            (if c = .medium then (if c = .medium then q.1.nnz else a) else b)
            (if c = .medium then q.1.nnz else a)).2.1) := by
        intro q h2
        have h3 := h1.trans' h2
        rw [hu, zero_or] at h3
        have sc : SameCore q.1 { q.1 with tick := q.1.tick + 1 } := by constructor <;> rfl
        have h4 : GoodR μ CE CE s ({ q.1 with tick := q.1.tick + 1 }, q.2) :=
          h3.then (.same sc rfl rfl rfl (fun o => ⟨o.1, o.2⟩) (fun _ h => h))
        generalize (if c = .medium then q.1.nnz else a) = a'
        generalize (if c = .medium then a' else b) = b'
        split
        · exact h4
        · rename_i ht
          have hq : fine q.2 := by
            unfold updateTermination at ht
            simp only [Bool.or_eq_true, not_or, Bool.not_eq_true] at ht
            exact ht.1.1
          have h5 := ih { q.1 with tick := q.1.tick + 1 } (updateComplexity c r.1.nnz q.1.nnz)
            b' a'
          exact ⟨fun o => h4.1 (h5.1 o), fun f => (h4.2 hq).trans (h5.2 f)⟩
      cases c with
      | fast => exact key _ (runFast_good μ env stgs hst r.1).em
      | medium => exact key _ (runMedium_good μ env hs stgs hr hc r.1)

theorem runPresolver_good (μ : Mode) (env : Env) (hs : env.SortOK) (stgs : Settings)
    (hr : stgs.parallelRows = true → μ.sideRec = true) (hc : stgs.parallelCols = true → μ.merge = true)
    (hst : stgs.stonCols = true → μ.ston = true)
    (fuel : ℕ) (P : LP) :
    GoodR μ CE CE (initSt P) ((runPresolver env stgs fuel P).1, (runPresolver env stgs fuel P).2.1) := by
  unfold runPresolver
  simp only
  have h := mainLoop_good μ env hs stgs hr hc hst fuel (initSt P) .fast (initSt P).nnz (initSt P).nnz
  generalize mainLoop env stgs fuel (initSt P) .fast (initSt P).nnz (initSt P).nnz = r at h
  split
  · exact h
  · simp only
    refine h.then ?_
    split
    · exact (removeRedundantBounds_good μ r.1).em
    · exact .refl _ _ _

theorem initSt_inv {P : LP} (h : P.Valid) : Inv (initSt P) := by
  refine ⟨initSt_gi h, fun i hi => ?_, fun i hi => ?_⟩
  · have hi : i ∈ (List.range P.m).filter (fun i => decide ((P.A i).length = 1)) := hi
    have := (List.mem_filter.mp hi).2
    simp at this
    exact this.le
  · have hi : i ∈ (List.range P.m).filter (fun i => decide ((P.A i).length = 2) && ((initSt P).rtag i).eq) := hi
    have := (List.mem_filter.mp hi).2
    simp at this
    exact this.1.le

theorem initSt_ce (P : LP) : CE (initSt P) := by
  refine ⟨⟨rfl, rfl, rfl⟩, fun i hi _ hA => ?_, fun k hk _ hA => ?_⟩
  · show i ∈ (List.range P.m).filter (fun i => decide ((P.A i).length = 0))
    have hA : P.A i = [] := hA
    have hi : i < P.m := hi
    simp [hA, hi]
  · show k ∈ (List.range P.n).filter (fun k => decide ((colCells P.m P.A k).length = 0))
    have hA : colCells P.m P.A k = [] := hA
    have hk : k < P.n := hk
    simp [hA, hk]

/-- A run whose status is neither `INFEASIBLE` nor `UNBNDORINFEAS` and in which all tracked
assertions held is a sequence of elementary steps; at its end nothing is waiting for deletion. -/
theorem runPresolver_run (μ : Mode) {env : Env} (hs : env.SortOK) {stgs : Settings}
    (hr : stgs.parallelRows = true → μ.sideRec = true) (hc : stgs.parallelCols = true → μ.merge = true)
    (hst : stgs.stonCols = true → μ.ston = true)
    {fuel : ℕ} {P : LP} (hP : P.Valid) (hf : fine (runPresolver env stgs fuel P).2.1)
    (o : Ok μ (runPresolver env stgs fuel P).1) :
    Run μ (initSt P) (runPresolver env stgs fuel P).1 ∧ CE (runPresolver env stgs fuel P).1 :=
  (((runPresolver_good μ env hs stgs hr hc hst fuel P).2 hf) o).2 (initSt_inv hP) (initSt_ce P)

end Verif
