import Verif.Model.Hash
import Mathlib.Algebra.BigOperators.Intervals
import Mathlib.Algebra.BigOperators.Ring.Finset
import Mathlib.Tactic.Ring
import Mathlib.Tactic.Linarith

/-!
# C36: what the hash functions compute

The support hash and the coefficient hash are 32-bit signed integers, congruent modulo `2^32` to a polynomial in 33
whose coefficients are the columns, respectively the rounded coefficients of the row after division by
the entry of largest absolute value.
-/

namespace Verif

/-- The values of a 32-bit `int`. -/
def IsI32 (z : ℤ) : Prop := -2 ^ 31 ≤ z ∧ z < 2 ^ 31

/-- The polynomial of the djb2 hash. -/
def djbPoly (f : ℕ → ℤ) (n : ℕ) : ℤ := 5381 * 33 ^ n + ∑ i ∈ Finset.range n, f i * 33 ^ (n - 1 - i)

theorem toI32_spec {z : ℤ} (h0 : 0 ≤ z) (h1 : z < 2 ^ 32) : IsI32 (toI32 z) ∧ (2 : ℤ) ^ 32 ∣ toI32 z - z := by
  unfold toI32 IsI32
  split
  · rename_i h
    exact ⟨⟨by omega, by omega⟩, ⟨0, by ring⟩⟩
  · rename_i h
    exact ⟨⟨by omega, by omega⟩, ⟨-1, by norm_num⟩⟩

theorem wrap32_spec (z : ℤ) : 0 ≤ wrap32 z ∧ wrap32 z < 2 ^ 32 ∧ (2 : ℤ) ^ 32 ∣ wrap32 z - z := by
  unfold wrap32
  refine ⟨Int.emod_nonneg _ (by norm_num), Int.emod_lt_of_pos _ (by norm_num), ?_⟩
  refine ⟨-(z / 4294967296), ?_⟩
  have := Int.mul_ediv_add_emod z 4294967296
  norm_num
  linarith

theorem djbPoly_succ (f : ℕ → ℤ) (n : ℕ) : djbPoly f (n + 1) = djbPoly f n * 33 + f n := by
  unfold djbPoly
  rw [Finset.sum_range_succ, add_mul, Finset.sum_mul]
  have e : ∑ i ∈ Finset.range n, f i * 33 ^ (n - 1 - i) * 33 = ∑ i ∈ Finset.range n, f i * 33 ^ (n + 1 - 1 - i) := by
    refine Finset.sum_congr rfl (fun i hi => ?_)
    have hi := Finset.mem_range.mp hi
    rw [mul_assoc, ← pow_succ]
    congr 2; omega
  rw [e]
  simp
  ring

theorem djb2_spec (l : List ℤ) (f : ℕ → ℤ) (hf : ∀ i (h : i < l.length), (2 : ℤ) ^ 32 ∣ l[i] - f i) :
    0 ≤ djb2 l ∧ djb2 l < 2 ^ 32 ∧ (2 : ℤ) ^ 32 ∣ djb2 l - djbPoly f l.length := by
  induction l using List.reverseRecOn with
  | nil => simp [djb2, djbPoly]
  | append_singleton l a ih =>
    have e : djb2 (l ++ [a]) = wrap32 (djb2 l * 33 + a) := by unfold djb2; rw [List.foldl_append]; rfl
    obtain ⟨h1, h2, h3⟩ := wrap32_spec (djb2 l * 33 + a)
    rw [e]
    refine ⟨h1, h2, ?_⟩
    have ih' := (ih (fun i h => by
      have := hf i (by rw [List.length_append]; omega)
      rwa [List.getElem_append_left h] at this)).2.2
    have ha := hf l.length (by simp)
    rw [List.getElem_concat_length rfl] at ha
    rw [List.length_append, List.length_singleton, djbPoly_succ]
    have : wrap32 (djb2 l * 33 + a) - (djbPoly f l.length * 33 + f l.length) =
        (wrap32 (djb2 l * 33 + a) - (djb2 l * 33 + a)) + (djb2 l - djbPoly f l.length) * 33 + (a - f l.length) := by ring
    rw [this]
    exact dvd_add (dvd_add h3 (Dvd.dvd.mul_right ih' 33)) ha

theorem hash_of_djb2 (l : List ℤ) (f : ℕ → ℤ) (hf : ∀ i (h : i < l.length), (2 : ℤ) ^ 32 ∣ l[i] - f i) :
    IsI32 (toI32 (djb2 l)) ∧ (2 : ℤ) ^ 32 ∣ toI32 (djb2 l) - djbPoly f l.length := by
  obtain ⟨h1, h2, h3⟩ := djb2_spec l f hf
  obtain ⟨h4, h5⟩ := toI32_spec h1 h2
  refine ⟨h4, ?_⟩
  have : toI32 (djb2 l) - djbPoly f l.length = (toI32 (djb2 l) - djb2 l) + (djb2 l - djbPoly f l.length) := by ring
  rw [this]
  exact dvd_add h5 h3

/-- **C36, support hash.** -/
theorem C36_hashSupp (l : List ℕ) :
    IsI32 (hashSuppC l) ∧ (2 : ℤ) ^ 32 ∣ hashSuppC l - djbPoly (fun i => (l.getD i 0 : ℕ)) l.length := by
  have h := hash_of_djb2 (l.map Int.ofNat) (fun i => (l.getD i 0 : ℕ)) (fun i h => by
    have hi : i < l.length := by simpa using h
    simp [List.getElem?_eq_getElem hi])
  rw [List.length_map] at h
  exact h

/-- Rounding to the nearest integer, halves away from zero. -/
def IsRound (q : ℚ) (z : ℤ) : Prop := (0 ≤ q → (z : ℚ) - 1 / 2 ≤ q ∧ q < z + 1 / 2) ∧ (q < 0 → (z : ℚ) - 1 / 2 < q ∧ q ≤ z + 1 / 2)

theorem cRound_spec (q : ℚ) : IsRound q (cRound q) := by
  unfold cRound
  constructor
  · intro h
    rw [if_pos h]
    have h1 := Int.floor_le (q + 1 / 2)
    have h2 := Int.lt_floor_add_one (q + 1 / 2)
    constructor <;> linarith
  · intro h
    rw [if_neg (not_le.mpr h)]
    have h1 := Int.floor_le (-q + 1 / 2)
    have h2 := Int.lt_floor_add_one (-q + 1 / 2)
    push_cast
    constructor <;> linarith

theorem maxFold_spec (l : List ℚ) (m : ℚ) :
    (m ≤ l.foldl (fun m v => if m < |v| then |v| else m) m) ∧
    (∀ v ∈ l, |v| ≤ l.foldl (fun m v => if m < |v| then |v| else m) m) ∧
    (l.foldl (fun m v => if m < |v| then |v| else m) m = m ∨ ∃ v ∈ l, l.foldl (fun m v => if m < |v| then |v| else m) m = |v|) := by
  induction l generalizing m with
  | nil => exact ⟨le_refl _, fun v hv => (by cases hv), .inl rfl⟩
  | cons a l ih =>
    rw [List.foldl_cons]
    obtain ⟨h1, h2, h3⟩ := ih (if m < |a| then |a| else m)
    have hm : m ≤ (if m < |a| then |a| else m) ∧ |a| ≤ (if m < |a| then |a| else m) := by
      split
      · rename_i h; exact ⟨h.le, le_refl _⟩
      · rename_i h; exact ⟨le_refl _, not_lt.mp h⟩
    refine ⟨hm.1.trans h1, fun v hv => ?_, ?_⟩
    · rcases List.mem_cons.mp hv with rfl | hv
      · exact hm.2.trans h1
      · exact h2 v hv
    · rcases h3 with h3 | ⟨v, hv, h3⟩
      · rw [h3]
        split
        · exact .inr ⟨a, List.mem_cons_self, rfl⟩
        · exact .inl rfl
      · exact .inr ⟨v, List.mem_cons_of_mem _ hv, h3⟩

/-- **C36, coefficient hash.**  `M` is the largest absolute value, `z i` the rounded coefficient. -/
theorem C36_hashCoef (a : ℚ) (l : List ℚ) :
    ∃ (M : ℚ) (z : ℕ → ℤ), (∀ v ∈ a :: l, |v| ≤ M) ∧ (∃ v ∈ a :: l, |v| = M) ∧
      (∀ i < (a :: l).length, IsRound ((a :: l).getD i 0 / (if 0 < a then M else -M) * 10 ^ 6) (z i)) ∧
      IsI32 (hashCoefC (a :: l)) ∧ (2 : ℤ) ^ 32 ∣ hashCoefC (a :: l) - djbPoly z (a :: l).length := by
  obtain ⟨h1, h2, h3⟩ := maxFold_spec l |a|
  refine ⟨maxAbs (a :: l), fun i => cRound ((a :: l).getD i 0 / (if 0 < a then maxAbs (a :: l) else -maxAbs (a :: l)) * 10 ^ 6),
    fun v hv => ?_, ?_, fun i _ => cRound_spec _, ?_⟩
  · rcases List.mem_cons.mp hv with rfl | hv
    · exact h1
    · exact h2 v hv
  · rcases h3 with h3 | ⟨v, hv, h3⟩
    · exact ⟨a, List.mem_cons_self, h3.symm⟩
    · exact ⟨v, List.mem_cons_of_mem _ hv, h3.symm⟩
  · have h := hash_of_djb2 ((normalize (a :: l)).map (fun v => wrap32 (cRound (v * 1000000))))
      (fun i => cRound ((a :: l).getD i 0 / (if 0 < a then maxAbs (a :: l) else -maxAbs (a :: l)) * 10 ^ 6)) (fun i h => by
        have hi : i < (a :: l).length := by simpa [normalize] using h
        have e : (a :: l).getD i 0 = (a :: l)[i] := by
          rw [List.getD_eq_getElem?_getD, List.getElem?_eq_getElem hi]; rfl
        simp only [normalize, List.getElem_map, e]
        have e2 : (a :: l)[i] * (if 0 < a then 1 / maxAbs (a :: l) else -1 / maxAbs (a :: l)) * 1000000 =
            (a :: l)[i] / (if 0 < a then maxAbs (a :: l) else -maxAbs (a :: l)) * 10 ^ 6 := by
          split
          · rw [mul_one_div]; norm_num
          · rw [div_neg, mul_div_assoc', mul_neg_one, neg_div]; norm_num
        rw [e2]
        exact (wrap32_spec _).2.2)
    have hl : ((normalize (a :: l)).map (fun v => wrap32 (cRound (v * 1000000)))).length = (a :: l).length := by
      simp [normalize]
    rw [hl] at h
    exact h

/-- Multiples have the same coefficient hash; a half is rounded away from zero. -/
example : hashCoefC [1, 2, -4] = hashCoefC [-3, -6, 12] ∧ hashCoefC [1, 2, -4] ≠ hashCoefC [1, 2, 4] ∧
    hashSuppC [0, 2] = 5859911 ∧ hashSuppC [7, 9, 12, 40, 100, 3] = 417155408 ∧ cRound (-1 / 2) = -1 ∧ cRound (5 / 2) = 3 := by
  refine ⟨by decide +kernel, by decide +kernel, by decide +kernel, by decide +kernel, by decide +kernel, by decide +kernel⟩

end Verif
