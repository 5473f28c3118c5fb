import Verif.Model.Loop
import Mathlib.Tactic.Linarith
import Mathlib.Tactic.NormNum

/-!
# C07: the main loop ends

The loop over arbitrary explorers ends by itself after at most `3 nnz + 2` rounds, whatever the
explorers do, as long as no call adds nonzeros.  The clock is arbitrary; in particular it may
never report that the time is over.
-/

namespace Verif

variable {σ : Type}

/-- No explorer call adds nonzeros, and a number of nonzeros is a number of nonzeros. -/
structure Phases.NoFill (ph : Phases σ) : Prop where
  pos : ∀ s, 0 ≤ ph.nnz s
  trivial : ∀ s, ph.nnz (ph.trivial s).1 ≤ ph.nnz s
  fast : ∀ s, ph.nnz (ph.fast s).1 ≤ ph.nnz s
  medium : ∀ s, ph.nnz (ph.medium s).1 ≤ ph.nnz s
  clock : ∀ s, ph.nnz (ph.clock s).2 = ph.nnz s

/-- What goes down in every round that is followed by another one. -/
def cBit : Complexity → ℤ
  | .fast => 1
  | .medium => 0

theorem presolveLoop_ends (ph : Phases σ) (h : ph.NoFill) : ∀ (fuel : ℕ) (s : σ) (c : Complexity) (b a : ℤ),
    ph.nnz s ≤ b → ph.nnz s + 2 * b + cBit c + 1 ≤ fuel →
    (presolveLoop ph fuel s c b a).2.2 = true ∧
      ∀ k, presolveLoop ph (fuel + k) s c b a = presolveLoop ph fuel s c b a
  | 0, s, c, b, a, hb, hf => by
    have := h.pos s
    cases c <;> simp only [cBit] at hf <;> push_cast at hf <;> omega
  | fuel + 1, s, c, b, a, hb, hf => by
    have e1 : ∀ f, presolveLoop ph (f + 1) s c b a =
      (if (ph.trivial s).2 ≠ UNCHANGED then ((ph.trivial s).1, (ph.trivial s).2, true)
      else
        let q := match c with
          | .fast => ph.fast (ph.trivial s).1
          | .medium => ph.medium (ph.trivial s).1
        let a' := if c = .medium then ph.nnz q.1 else a
        let t := ph.clock q.1
        if updateTermination a' b c q.2 t.1 then (t.2, q.2, true)
        else
          presolveLoop ph f t.2 (updateComplexity c (ph.nnz (ph.trivial s).1) (ph.nnz t.2))
            (if c = .medium then a' else b) a') := fun _ => rfl
    have e2 : ∀ k, fuel + 1 + k = fuel + k + 1 := fun k => by omega
    simp only [e2, e1]
    have ht := h.trivial s
    have hp := h.pos s
    by_cases h1 : (ph.trivial s).2 ≠ UNCHANGED
    · simp only [if_pos h1]
      simp
    · simp only [if_neg h1]
      generalize ph.trivial s = r at ht h1
      cases c with
      | fast =>
        have hq := h.fast r.1
        simp only [reduceCtorEq, if_false]
        generalize ph.fast r.1 = q at hq
        have hc := h.clock q.1
        have hpq := h.pos q.1
        generalize ph.clock q.1 = t at hc
        by_cases h2 : updateTermination a b .fast q.2 t.1 = true
        · simp only [if_pos h2]; simp
        · simp only [if_neg h2]
          refine presolveLoop_ends ph h fuel t.2 _ b a (by omega) ?_
          simp only [cBit] at hf
          push_cast at hf
          unfold updateComplexity
          simp only
          split
          · rename_i h3
            rw [hc] at h3
            have h4 : ph.nnz q.1 < ph.nnz r.1 := by
              by_contra hn
              have h5 : (ph.nnz r.1 : ℚ) ≤ (ph.nnz q.1 : ℚ) := by exact_mod_cast not_lt.mp hn
              have h6 : (0 : ℚ) ≤ (ph.nnz r.1 : ℚ) := by exact_mod_cast h.pos r.1
              linarith
            simp only [cBit]; omega
          · simp only [cBit]; omega
      | medium =>
        have hq := h.medium r.1
        simp only [if_true]
        generalize ph.medium r.1 = q at hq
        have hc := h.clock q.1
        have hpq := h.pos q.1
        generalize ph.clock q.1 = t at hc
        by_cases h2 : updateTermination (ph.nnz q.1) b .medium q.2 t.1 = true
        · simp only [if_pos h2]; simp
        · simp only [if_neg h2]
          refine presolveLoop_ends ph h fuel t.2 _ _ _ (by omega) ?_
          simp only [cBit] at hf
          push_cast at hf
          have h3 : ¬ (95 / 100 * (b : ℚ) ≤ (ph.nnz q.1 : ℚ)) := by
            intro hh
            apply h2
            simp [updateTermination, hh]
          have h4 : ph.nnz q.1 < b := by
            by_contra hn
            have h5 : (b : ℚ) ≤ (ph.nnz q.1 : ℚ) := by exact_mod_cast not_lt.mp hn
            have h6 : (0 : ℚ) ≤ (b : ℚ) := by exact_mod_cast (by omega : 0 ≤ b)
            apply h3
            linarith
          simp only [updateComplexity, cBit]; omega

/-- **C07**: the main loop of `run_presolver` ends by itself after at most `3 nnz + 2` rounds:
for every outcome of every explorer call that does not add nonzeros, whatever the clock says.
More rounds do not change the outcome. -/
theorem C07_main_loop (ph : Phases σ) (h : ph.NoFill) (s : σ) (fuel : ℕ)
    (hf : 3 * ph.nnz s + 2 ≤ fuel) :
    (presolveLoop ph fuel s .fast (ph.nnz s) (ph.nnz s)).2.2 = true ∧
      ∀ k, presolveLoop ph (fuel + k) s .fast (ph.nnz s) (ph.nnz s) =
        presolveLoop ph fuel s .fast (ph.nnz s) (ph.nnz s) := by
  refine presolveLoop_ends ph h fuel s .fast _ _ le_rfl ?_
  simp only [cBit]; omega

/-- Explorers on a counter of nonzeros: the fast ones remove a tenth, the medium ones half. -/
def halving : Phases ℕ where
  trivial := fun s => (s, UNCHANGED)
  fast := fun s => (s - s / 10, UNCHANGED)
  medium := fun s => (s / 2, UNCHANGED)
  nnz := fun s => s
  clock := fun s => (false, s)

example : halving.NoFill where
  pos := fun s => Int.natCast_nonneg s
  trivial := fun _ => le_rfl
  fast := fun s => by simp only [halving]; omega
  medium := fun s => by simp only [halving]; omega
  clock := fun _ => rfl

/-- Explorers that add nonzeros and remove them again. -/
def seesaw : Phases Bool where
  trivial := fun _ => (true, UNCHANGED)
  fast := fun _ => (false, UNCHANGED)
  medium := fun s => (s, UNCHANGED)
  nnz := fun s => if s then 2 else 0
  clock := fun s => (false, s)

/-- Without `NoFill` the claim is false: a loop over explorers that add nonzeros need not end. -/
theorem C07_needs_noFill : ∀ (fuel : ℕ) (s : Bool) (b a : ℤ),
    (presolveLoop seesaw fuel s .fast b a).2.2 = false
  | 0, _, _, _ => rfl
  | fuel + 1, s, b, a => by
    have h : presolveLoop seesaw (fuel + 1) s .fast b a = presolveLoop seesaw fuel false .fast b a := by
      have e : updateComplexity .fast 2 0 = .fast := by
        unfold updateComplexity; norm_num
      have e' : updateTermination a b .fast UNCHANGED false = false := by
        simp [updateTermination, hasStatus, UNCHANGED, UNBNDORINFEAS]
      rw [presolveLoop]
      simp [seesaw, e', e]
    rw [h]
    exact C07_needs_noFill fuel false b a

end Verif
