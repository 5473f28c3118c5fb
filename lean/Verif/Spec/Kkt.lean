import Verif.Spec.Problem
import Mathlib.Algebra.BigOperators.Ring.Finset
import Mathlib.Algebra.Order.BigOperators.Group.Finset

/-!
# Optimality conditions of the problem handed to `new_presolver`

Stated on the raw input with row duals `y` and reduced costs `z`; that they are sufficient for optimality
is proved here from the definitions alone (weak duality).
-/

namespace Verif

/-- `z = c - Aᵀ y`; a positive dual belongs to a row at its left side, a negative one to a row at its right
side; a positive reduced cost belongs to a column at its lower bound, a negative one to a column at its upper
bound. -/
structure LP.Kkt (P : LP) (x y z : ℕ → ℚ) : Prop where
  cost : ∀ k < P.n, z k = P.c k - P.colDot y k
  lhs : ∀ i < P.m, 0 < y i → P.lhs i = .fin (dot (P.A i) x)
  rhs : ∀ i < P.m, y i < 0 → P.rhs i = .fin (dot (P.A i) x)
  lb : ∀ k < P.n, 0 < z k → P.lb k = .fin (x k)
  ub : ∀ k < P.n, z k < 0 → P.ub k = .fin (x k)

theorem list_range_sum (n : ℕ) (f : ℕ → ℚ) : ((List.range n).map f).sum = ∑ k ∈ Finset.range n, f k := by
  induction n with
  | zero => rfl
  | succ n ih => rw [List.range_succ, List.map_append, List.sum_append, ih, Finset.sum_range_succ]; simp

/-- A row evaluated column by column. -/
theorem dot_by_cols (l : List (ℕ × ℚ)) (n : ℕ) (h : ∀ p ∈ l, p.1 < n) (x : ℕ → ℚ) :
    dot l x = ∑ k ∈ Finset.range n, ((l.filter (fun p => decide (p.1 = k))).map Prod.snd).sum * x k := by
  induction l with
  | nil => simp
  | cons p l ih =>
    rw [dot_cons, ih (fun p hp => h p (List.mem_cons_of_mem _ hp))]
    have hp := h p List.mem_cons_self
    have e : ∀ k ∈ Finset.range n, (((p :: l).filter (fun q => decide (q.1 = k))).map Prod.snd).sum * x k =
        (if k = p.1 then p.2 * x k else 0) + ((l.filter (fun q => decide (q.1 = k))).map Prod.snd).sum * x k := by
      intro k _
      rw [List.filter_cons]
      by_cases hk : p.1 = k
      · simp [hk]; ring
      · have : k ≠ p.1 := fun e => hk e.symm
        simp [hk, this]
    rw [Finset.sum_congr rfl e, Finset.sum_add_distrib, Finset.sum_ite_eq' (Finset.range n) p.1 (fun k => p.2 * x k),
      if_pos (Finset.mem_range.mpr hp)]

/-- Weak duality: no feasible point is better than a point that meets the optimality conditions. -/
theorem LP.Kkt.le {P : LP} {x y z : ℕ → ℚ} (h : P.Kkt x y z) (hA : ∀ i < P.m, ∀ p ∈ P.A i, p.1 < P.n)
    {w : ℕ → ℚ} (hw : P.Feasible w) : P.obj x ≤ P.obj w := by
  have obj : ∀ u : ℕ → ℚ, P.obj u = (∑ k ∈ Finset.range P.n, z k * u k) + ∑ i ∈ Finset.range P.m, y i * dot (P.A i) u := by
    intro u
    have e1 : ∀ i ∈ Finset.range P.m, y i * dot (P.A i) u = ∑ k ∈ Finset.range P.n,
        (((P.A i).filter (fun p => decide (p.1 = k))).map Prod.snd).sum * y i * u k := by
      intro i hi
      rw [dot_by_cols _ P.n (hA i (Finset.mem_range.mp hi)), Finset.mul_sum]
      exact Finset.sum_congr rfl (fun k _ => by ring)
    rw [Finset.sum_congr rfl e1, Finset.sum_comm, ← Finset.sum_add_distrib]
    unfold LP.obj
    rw [list_range_sum]
    refine Finset.sum_congr rfl (fun k hk => ?_)
    rw [← Finset.sum_mul, h.cost k (Finset.mem_range.mp hk)]
    unfold LP.colDot
    rw [list_range_sum]
    ring
  rw [obj x, obj w]
  refine add_le_add (Finset.sum_le_sum (fun k hk => ?_)) (Finset.sum_le_sum (fun i hi => ?_))
  · have hk := Finset.mem_range.mp hk
    obtain ⟨h1, h2⟩ := hw.col k hk
    rcases lt_trichotomy (z k) 0 with hz | hz | hz
    · rw [h.ub k hk hz, HiD_fin] at h2
      exact mul_le_mul_of_nonpos_left h2 hz.le
    · rw [hz, zero_mul, zero_mul]
    · rw [h.lb k hk hz, LoD_fin] at h1
      exact mul_le_mul_of_nonneg_left h1 hz.le
  · have hi := Finset.mem_range.mp hi
    obtain ⟨h1, h2⟩ := hw.row i hi
    rcases lt_trichotomy (y i) 0 with hz | hz | hz
    · rw [h.rhs i hi hz, HiD_fin] at h2
      exact mul_le_mul_of_nonpos_left h2 hz.le
    · rw [hz, zero_mul, zero_mul]
    · rw [h.lhs i hi hz, LoD_fin] at h1
      exact mul_le_mul_of_nonneg_left h1 hz.le

end Verif
