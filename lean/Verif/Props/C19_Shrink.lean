import Verif.Model.Shrink
import Mathlib.Data.List.Range
import Mathlib.Data.List.Sort

/-!
# C10 (index maps) and C19 (in-place shrinking)

Specification: the survivors of `0..n-1` are `(List.range n).filter (not removed)`; the map
sends the `r`-th survivor to `r` and everything else to `-1`; shrinking an array yields the
survivors' entries, in order.
-/

namespace Verif

/-- Specification: surviving indices in increasing order. -/
def survivors (removed : ℕ → Bool) (n : ℕ) : List ℕ := (List.range n).filter fun i => !removed i

theorem survivors_succ (r : ℕ → Bool) (n : ℕ) :
    survivors r (n + 1) = survivors r n ++ (if r n then [] else [n]) := by
  unfold survivors
  rw [List.range_succ, List.filter_append]
  cases h : r n <;> simp [h]

theorem mem_survivors {r : ℕ → Bool} {n i : ℕ} : i ∈ survivors r n ↔ i < n ∧ r i = false := by
  simp [survivors]

theorem survivors_sorted (r : ℕ → Bool) (n : ℕ) : (survivors r n).Pairwise (· < ·) :=
  List.Pairwise.filter _ List.pairwise_lt_range

theorem survivors_nodup (r : ℕ → Bool) (n : ℕ) : (survivors r n).Nodup :=
  List.Nodup.filter _ List.nodup_range

theorem idxCount_eq (r : ℕ → Bool) (n : ℕ) : idxCount r n = (survivors r n).length := by
  induction n with
  | zero => rfl
  | succ n ih =>
    rw [survivors_succ, List.length_append, ← ih]
    unfold idxCount; rw [mapLoop]
    cases h : r n <;> simp

theorem idxMap_stable (r : ℕ → Bool) (n i : ℕ) (hi : i < n) :
    idxMap r n i = idxMap r (i + 1) i := by
  induction n with
  | zero => omega
  | succ n ih =>
    by_cases h : i = n
    · rw [h]
    · have h2 : i < n := by omega
      rw [← ih h2]
      unfold idxMap
      rw [mapLoop]
      cases h' : r n <;> simp [Function.update_of_ne h]

theorem idxMap_eq (r : ℕ → Bool) (n i : ℕ) (hi : i < n) :
    idxMap r n i = if r i then -1 else ((survivors r i).length : ℤ) := by
  rw [idxMap_stable r n i hi, ← idxCount_eq]
  unfold idxMap idxCount
  rw [mapLoop]
  cases h : r i <;> simp

/-- **C10 (maps).** For every survivor pattern: removed indices map to `-1`; the `r`-th
survivor (in increasing order) maps to `r`; the number of survivors is the reduced
dimension. -/
theorem C10_map_spec (removed : ℕ → Bool) (n : ℕ) :
    (∀ i < n, removed i = true → idxMap removed n i = -1) ∧
    (∀ (r : ℕ) (h : r < (survivors removed n).length),
        idxMap removed n ((survivors removed n)[r]) = r) ∧
    idxCount removed n = (survivors removed n).length := by
  refine ⟨fun i hi h => by rw [idxMap_eq _ _ _ hi]; simp [h], ?_, idxCount_eq _ _⟩
  intro r h
  induction n with
  | zero => simp [survivors] at h
  | succ n ih =>
    have key : ∀ (l : List ℕ) (hl : survivors removed (n + 1) = l) (h : r < l.length),
        idxMap removed (n + 1) l[r] = r := by
      intro l hl h
      rw [survivors_succ] at hl
      subst hl
      by_cases hr : r < (survivors removed n).length
      · rw [List.getElem_append_left hr]
        have hm : (survivors removed n)[r] ∈ survivors removed n := List.getElem_mem hr
        have hlt := (mem_survivors.mp hm).1
        rw [idxMap_stable _ _ _ (by omega), ← idxMap_stable _ n _ hlt]
        exact ih hr
      · have hrn : removed n = false := by
          cases hh : removed n
          · rfl
          · simp [hh] at h; omega
        simp only [hrn] at h ⊢
        have : r = (survivors removed n).length := by simp at h; omega
        subst this
        simp [idxMap_eq removed (n + 1) n (by omega), hrn]
    exact key _ rfl h

/-- **C10 (bijection).** The map restricted to survivors is strictly increasing, and onto
`0..n'-1`. -/
theorem C10_map_bijective (removed : ℕ → Bool) (n : ℕ) :
    (∀ i j, i < j → j < n → removed i = false → removed j = false →
        idxMap removed n i < idxMap removed n j) ∧
    (∀ i < n, removed i = false → 0 ≤ idxMap removed n i ∧
        idxMap removed n i < idxCount removed n) ∧
    (∀ r < idxCount removed n, ∃ i < n, removed i = false ∧ idxMap removed n i = r) := by
  have mono : ∀ i j, i ≤ j → (survivors removed i).length ≤ (survivors removed j).length := by
    intro i j hij
    induction hij with
    | refl => exact le_rfl
    | step _ ih => rw [Nat.succ_eq_add_one, survivors_succ, List.length_append]; omega
  refine ⟨?_, ?_, ?_⟩
  · intro i j hij hj hi' hj'
    rw [idxMap_eq _ _ _ (by omega), idxMap_eq _ _ _ hj]
    simp only [hi', hj']
    have h1 := mono (i + 1) j hij
    rw [survivors_succ] at h1
    simp [hi'] at h1
    simp; omega
  · intro i hi h
    rw [idxMap_eq _ _ _ hi, idxCount_eq]
    simp only [h]
    have h1 := mono (i + 1) n hi
    rw [survivors_succ] at h1
    simp [h] at h1
    simp; omega
  · intro r hr
    rw [idxCount_eq] at hr
    refine ⟨(survivors removed n)[r], ?_, ?_, (C10_map_spec removed n).2.1 r hr⟩
    · exact (mem_survivors.mp (List.getElem_mem hr)).1
    · exact (mem_survivors.mp (List.getElem_mem hr)).2

theorem ptrShrink_inv {α : Type} (r : ℕ → Bool) (n : ℕ) (ptr : ℕ → α) (map : ℕ → ℤ)
    (hmap : ∀ i < n, map i = idxMap r n i) (k : ℕ) (hk : k ≤ n) :
    (∀ (t : ℕ) (h : t < (survivors r k).length), ptrShrink ptr map k t = ptr (survivors r k)[t]) ∧
    (∀ t, (survivors r k).length ≤ t → ptrShrink ptr map k t = ptr t) := by
  induction k with
  | zero => simp [survivors, ptrShrink]
  | succ k ih =>
    obtain ⟨ih1, ih2⟩ := ih (by omega)
    have hlen : (survivors r k).length ≤ k := by
      unfold survivors; simpa using List.length_filter_le (fun i => !r i) (List.range k)
    have hpk : ptrShrink ptr map k k = ptr k := ih2 k hlen
    have hm := hmap k (by omega)
    rw [idxMap_eq _ _ _ (by omega)] at hm
    cases hr : r k with
    | true =>
      have hs : survivors r (k + 1) = survivors r k := by rw [survivors_succ]; simp [hr]
      have he : ptrShrink ptr map (k + 1) = ptrShrink ptr map k := by
        rw [ptrShrink]; simp [hm, hr]
      simp only [hs, he]
      exact ⟨ih1, ih2⟩
    | false =>
      have hm' : map k = ((survivors r k).length : ℤ) := by simpa [hr] using hm
      have hs : survivors r (k + 1) = survivors r k ++ [k] := by rw [survivors_succ]; simp [hr]
      have he : ptrShrink ptr map (k + 1) =
          Function.update (ptrShrink ptr map k) (survivors r k).length (ptr k) := by
        rw [ptrShrink]
        have : map k ≠ -1 := by rw [hm']; omega
        simp only [this, ne_eq, not_false_eq_true, if_true, hpk]
        simp [hm']
      constructor
      · intro t ht
        simp only [hs] at ht ⊢
        rw [he]
        by_cases h : t < (survivors r k).length
        · rw [Function.update_of_ne (by omega), List.getElem_append_left h]; exact ih1 t h
        · have : t = (survivors r k).length := by simp at ht; omega
          subst this; simp
      · intro t ht
        rw [hs, List.length_append] at ht
        rw [he, Function.update_of_ne (by simp at ht; omega)]
        exact ih2 t (by simp at ht; omega)

/-- **C19 (arrays).** For every survivor pattern and array: after in-place shrinking with the
survivor map, the first `n'` entries are exactly the survivors' entries, in order. -/
theorem C19_ptr_shrink {α : Type} (removed : ℕ → Bool) (n : ℕ) (ptr : ℕ → α) :
    (List.range (idxCount removed n)).map (ptrShrink ptr (idxMap removed n) n) =
      (survivors removed n).map ptr := by
  have h := (ptrShrink_inv removed n ptr (idxMap removed n) (fun _ _ => rfl) n le_rfl).1
  rw [idxCount_eq]
  apply List.ext_getElem
  · simp
  · intro t h1 h2
    simp at h1 ⊢
    exact h t h1

theorem shrinkIdx_inv (map : ℕ → ℤ) (data : ℕ → ℕ) (k : ℕ) :
    (shrinkIdxLoop map data k).2 ≤ k ∧
    (∀ t, (shrinkIdxLoop map data k).2 ≤ t → (shrinkIdxLoop map data k).1 t = data t) ∧
    (List.range (shrinkIdxLoop map data k).2).map (shrinkIdxLoop map data k).1 =
      (((List.range k).map data).filter fun i => map i ≠ -1).map fun i => (map i).toNat := by
  induction k with
  | zero => simp [shrinkIdxLoop]
  | succ k ih =>
    obtain ⟨ih1, ih2, ih3⟩ := ih
    rw [shrinkIdxLoop]
    generalize hd : shrinkIdxLoop map data k = p at ih1 ih2 ih3 ⊢
    obtain ⟨d, curr⟩ := p
    simp only at ih1 ih2 ih3 ⊢
    have hdk : d k = data k := ih2 k ih1
    rw [List.range_succ (n := k), List.map_append, List.filter_append, List.map_append, ← ih3, hdk]
    by_cases h : map (data k) = -1
    · simp only [h, ne_eq, not_true_eq_false, if_false]
      refine ⟨by omega, ih2, by simp [h]⟩
    · simp only [ne_eq, h, not_false_eq_true, if_true]
      refine ⟨by omega, ?_, ?_⟩
      · intro t ht
        rw [Function.update_of_ne (by omega)]
        exact ih2 t (by omega)
      · rw [List.range_succ, List.map_append]
        have : (List.range curr).map (Function.update d curr (map (data k)).toNat)
            = (List.range curr).map d := by
          apply List.map_congr_left
          intro t ht
          have := List.mem_range.mp ht
          rw [Function.update_of_ne (by omega)]
        rw [this]
        simp [h]

/-- **C19 (work lists).** A work list after clean-up holds exactly the renumbered surviving
members, in the original order. -/
theorem C19_shrink_idx_vector (map : ℕ → ℤ) (data : ℕ → ℕ) (len : ℕ) :
    shrinkIdxVector map data len =
      (((List.range len).map data).filter fun i => map i ≠ -1).map fun i => (map i).toNat :=
  (shrinkIdx_inv map data len).2.2

-- A concrete pattern: indices 1 and 3 of 0..4 removed.
example : let r : ℕ → Bool := fun i => i = 1 ∨ i = 3
    (List.range 5).map (idxMap r 5) = [0, -1, 1, -1, 2] ∧
    (List.range (idxCount r 5)).map (ptrShrink (fun i => 10 * i) (idxMap r 5) 5) = [0, 20, 40] ∧
    shrinkIdxVector (idxMap r 5) (fun i => 4 - i) 5 = [2, 1, 0] := by
  decide +kernel

end Verif
