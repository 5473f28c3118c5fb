import Verif.Inv.Reach
import Verif.Model.Trace

/-!
# Explorer calls in any order
-/

namespace Verif

/-- One explorer call as made by the driver, `/repo/src/core/Presolver.c:422-571`. -/
def explCall (env : Env) (stgs : Settings) : Expl → St → St × Status
  | .closeBounds, s => closeBounds s
  | .emptyCols, s => removeEmptyCols s
  | .dualFix, s => simpleDualFix s
  | .stonRows, s => removeStonRows s
  | .emptyRows, s => removeEmptyRows s
  | .stonCols, s => removeStonCols s
  | .dton, s => (removeDtonRows env s, UNCHANGED)
  | .checkActs, s => checkActivities s
  | .propagation, s => propagatePrimal stgs.finiteBoundTightening s
  | .parallelRows, s => removeParallelRows env s
  | .parallelCols, s => removeParallelCols env s

/-- `t` comes from `s` by explorer calls in some order, none of which found the problem infeasible
or unbounded. -/
inductive Calls (env : Env) (stgs : Settings) (s : St) : St → Prop
  | nil : Calls env stgs s s
  | call {t : St} (e : Expl) (h : Calls env stgs s t) (hf : fine (explCall env stgs e t).2) :
      Calls env stgs s (explCall env stgs e t).1

/-- The mode in which every elementary step is allowed. -/
def Mode.all : Mode := ⟨true, true, true, true, true⟩

theorem ok_all {s : St} : Ok Mode.all s ↔ s.asrt = true := by
  unfold Ok Mode.all; simp

/-- Elementary steps for every explorer call, whatever its status. -/
theorem explCall_good (env : Env) (hs : env.SortOK) (stgs : Settings) (e : Expl) (s : St) :
    Good Mode.all CE (fun t => fine (explCall env stgs e s).2 → CE t) s (explCall env stgs e s).1 := by
  have lift : ∀ r : St × Status, GoodX Mode.all Clean Clean s r →
      Good Mode.all CE (fun t => fine r.2 → CE t) s r.1 := by
    intro r h o
    obtain ⟨o', k⟩ := h o
    refine ⟨o', fun i hi => ?_⟩
    obtain ⟨r', hj⟩ := k i hi.1
    exact ⟨r', fun f => ⟨hj f, r'.em hi.2⟩⟩
  have lift' : ∀ r : St × Status, Good Mode.all CE Clean s r.1 →
      Good Mode.all CE (fun t => fine r.2 → CE t) s r.1 := by
    intro r h
    exact h.emCE.weaken (fun _ h => h) (fun _ h _ => h)
  have lift'' : ∀ r : St × Status, Good Mode.all Clean Clean s r.1 →
      Good Mode.all CE (fun t => fine r.2 → CE t) s r.1 := by
    intro r h
    exact lift' r (h.weaken (fun _ h => h.1) (fun _ h => h))
  cases e with
  | closeBounds => exact lift _ (closeBounds_good _ s)
  | emptyCols => exact lift'' _ (removeEmptyCols_good _ s)
  | dualFix => exact lift'' _ (simpleDualFix_good _ s)
  | stonRows =>
    refine lift _ ?_
    have h := removeStonRows_good Mode.all (long s) s
    exact h.weaken (fun _ h => ⟨h, le_rfl⟩) (fun _ h f => (h f).1)
  | emptyRows => exact lift'' _ (removeEmptyRows_good _ s)
  | stonCols => exact lift'' _ (removeStonCols_good _ rfl s)
  | dton => exact lift'' (removeDtonRows env s, UNCHANGED) (removeDtonRows_good _ env s)
  | checkActs => exact lift _ (checkActivities_good _ s)
  | propagation => exact lift _ (propagatePrimal_good _ _ s)
  | parallelRows => exact lift' _ (removeParallelRows_good _ rfl env hs s)
  | parallelCols => exact lift' _ (removeParallelCols_good _ rfl env hs s)

/-- States reached by explorer calls in any order satisfy the invariant. -/
theorem Calls.run {env : Env} (hs : env.SortOK) {stgs : Settings} {s t : St} (h : Calls env stgs s t)
    (o : t.asrt = true) (i : Inv s) (hce : CE s) : s.asrt = true ∧ Run Mode.all s t ∧ CE t := by
  induction h with
  | nil => exact ⟨o, .refl _ _, hce⟩
  | call e _ hf ih =>
    obtain ⟨o', k⟩ := explCall_good env hs stgs e _ (ok_all.mpr o)
    obtain ⟨h1, h2, h3⟩ := ih (ok_all.mp o')
    obtain ⟨h4, h5⟩ := k (h2.inv i) h3
    exact ⟨h1, h2.trans h4 i, h5 hf⟩

/-- Elementary steps do not add nonzeros. -/
theorem Run.nnz_le {μ : Mode} {s t : St} (h : Run μ s t) (i : Inv s) : t.nnz ≤ s.nnz := by
  have m := h.mono i
  rw [(h.inv i).gi.nnz, i.gi.nnz, m.m]
  exact Finset.sum_le_sum (fun r _ => by exact_mod_cast m.len r)

theorem Inv.nnz_nonneg {s : St} (i : Inv s) : 0 ≤ s.nnz := by
  rw [i.gi.nnz]; exact Finset.sum_nonneg (fun r _ => by positivity)

end Verif
