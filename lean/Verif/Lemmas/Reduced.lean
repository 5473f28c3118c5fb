import Verif.Model.Reduced
import Verif.Spec.Problem
import Verif.Lemmas.Bounds
import Mathlib.Algebra.BigOperators.Ring.Finset

/-!
# Indices of the reduced problem
-/

namespace Verif

theorem liveIdx_succ (size : ℕ → ℤ) (n : ℕ) :
    liveIdx size (n + 1) = if size n = -1 then liveIdx size n else liveIdx size n ++ [n] := by
  unfold liveIdx
  rw [List.range_succ, List.filter_append]
  by_cases h : size n = -1 <;> simp [h]

theorem mem_liveIdx {size : ℕ → ℤ} {n i : ℕ} : i ∈ liveIdx size n ↔ i < n ∧ size i ≠ -1 := by
  simp [liveIdx]

theorem liveIdx_sorted (size : ℕ → ℤ) (n : ℕ) : (liveIdx size n).Pairwise (· < ·) :=
  List.Pairwise.filter _ List.pairwise_lt_range

theorem idxMapOf_live {size : ℕ → ℤ} {i : ℕ} (h : size i ≠ -1) :
    idxMapOf size i = some (liveIdx size i).length := by
  unfold idxMapOf; rw [if_neg h]; rfl

theorem idxMapOf_gone {size : ℕ → ℤ} {i : ℕ} (h : size i = -1) : idxMapOf size i = none := by
  unfold idxMapOf; rw [if_pos h]

theorem liveIdx_take {size : ℕ → ℤ} {n i : ℕ} (h : i ≤ n) :
    ∃ l, liveIdx size n = liveIdx size i ++ l := by
  induction n with
  | zero => exact ⟨[], by rw [Nat.le_zero.mp h]; simp⟩
  | succ n ih =>
    rcases Nat.lt_or_ge n i with hlt | hle
    · have : i = n + 1 := by omega
      subst this; exact ⟨[], by simp⟩
    · obtain ⟨l, hl⟩ := ih hle
      rw [liveIdx_succ, hl]
      split
      · exact ⟨l, rfl⟩
      · exact ⟨l ++ [n], by rw [List.append_assoc]⟩

/-- The map and the list of present indices are inverse to each other. -/
theorem liveIdx_rank {size : ℕ → ℤ} {n i : ℕ} (hi : i < n) (h : size i ≠ -1) :
    (liveIdx size n)[(liveIdx size i).length]? = some i := by
  obtain ⟨l, hl⟩ := liveIdx_take (size := size) (show i + 1 ≤ n from hi)
  rw [hl, liveIdx_succ, if_neg h]
  simp

theorem liveIdx_rank_inv {size : ℕ → ℤ} {n t i : ℕ} (h : (liveIdx size n)[t]? = some i) :
    i < n ∧ size i ≠ -1 ∧ (liveIdx size i).length = t := by
  have hm := mem_liveIdx.mp (List.mem_of_getElem? h)
  refine ⟨hm.1, hm.2, ?_⟩
  have h2 := liveIdx_rank hm.1 hm.2
  have hnd : (liveIdx size n).Nodup := (liveIdx_sorted size n).imp (fun h => Nat.ne_of_lt h)
  obtain ⟨l1, e1⟩ := List.getElem?_eq_some_iff.mp h
  obtain ⟨l2, e2⟩ := List.getElem?_eq_some_iff.mp h2
  exact (List.Nodup.getElem_inj_iff hnd).mp (e2.trans e1.symm)

/-- A sum over the present indices, in the old and in the new numbering. -/
theorem sum_live (size : ℕ → ℤ) (n : ℕ) (f : ℕ → ℕ → ℚ) :
    ∑ t ∈ Finset.range (liveIdx size n).length, shrunk (liveIdx size n) 0 (fun k => f k t) t =
      ∑ k ∈ Finset.range n, if size k = -1 then 0 else f k (liveIdx size k).length := by
  induction n with
  | zero => simp [liveIdx]
  | succ n ih =>
    rw [Finset.sum_range_succ, ← ih, liveIdx_succ]
    by_cases h : size n = -1
    · simp [h]
    · rw [if_neg h, if_neg h, List.length_append, List.length_singleton, Finset.sum_range_succ]
      congr 1
      · refine Finset.sum_congr rfl (fun t ht => ?_)
        unfold shrunk
        rw [List.getElem?_append_left (Finset.mem_range.mp ht)]
      · unfold shrunk; simp

theorem LP.obj_eq (P : LP) (x : ℕ → ℚ) : P.obj x = ∑ k ∈ Finset.range P.n, P.c k * x k := by
  unfold LP.obj
  induction P.n with
  | zero => simp
  | succ n ih => rw [List.range_succ, Finset.sum_range_succ, ← ih]; simp

theorem reducedLP_obj (s : St) (x : ℕ → ℚ) : (reducedLP s).obj x =
    ∑ k ∈ Finset.range s.n, if s.colSize k = -1 then 0 else s.c k * x (liveIdx s.colSize k).length := by
  rw [LP.obj_eq, ← sum_live s.colSize s.n (fun k t => s.c k * x t)]
  refine Finset.sum_congr rfl (fun t ht => ?_)
  show shrunk _ 0 s.c t * x t = _
  unfold shrunk
  split <;> simp

end Verif
