import Verif.Props.C17_ShiftRow
import Mathlib.Algebra.BigOperators.Intervals
import Mathlib.Algebra.Order.BigOperators.Group.Finset

/-!
# C17: making room in a row moves no more entries than the shift limit allows
-/

namespace Verif
open Mat
variable {α : Type}

theorem sumLen_add (A : Mat α) (c1 c2 r : ℕ) : sumLen A r (c1 + c2) = sumLen A r c1 + sumLen A (r + c1) c2 := by
  induction c1 generalizing c2 r with
  | zero => simp [sumLen]
  | succ c1 ih =>
    rw [show c1 + 1 + c2 = (c1 + c2) + 1 by omega, sumLen, ih, sumLen, show r + 1 + c1 = r + (c1 + 1) by omega]; omega

theorem sumLen_Ico (A : Mat α) (c r : ℕ) : sumLen A r c = ∑ i ∈ Finset.Ico r (r + c), (A.pe i - A.ps i) := by
  induction c with
  | zero => simp [sumLen]
  | succ c ih => rw [sumLen_snoc, ih, ← add_assoc, Finset.sum_Ico_succ_top (by omega)]

theorem moveRow_ps {A B : Mat α} {r dst : ℕ} (h : A.moveRow r dst = some B) {i : ℕ} (hi : i ≠ r) :
    B.ps i = A.ps i ∧ B.m = A.m := by
  unfold moveRow at h
  simp only at h
  split at h
  · cases hm : A.memmove dst (A.ps r) (A.pe r - A.ps r) with
    | none => rw [hm] at h; cases h
    | some C =>
      rw [hm] at h
      simp only [Option.map_some, Option.some.injEq] at h
      have hc : C.ps = A.ps ∧ C.m = A.m := by
        unfold memmove at hm
        split at hm
        · cases hm; exact ⟨rfl, rfl⟩
        · cases hm
      subst h
      exact ⟨by simp [setRange, hi, hc.1], hc.2⟩
  · simp only [Option.map_some, Option.some.injEq] at h
    subst h
    exact ⟨by simp [setRange, hi], rfl⟩

theorem leftLoop_ps {cnt : ℕ} : ∀ {A B : Mat α} {next r : ℕ}, leftLoop A next r cnt = some B →
    ∀ i, (i < r ∨ r + cnt ≤ i) → B.ps i = A.ps i := by
  induction cnt with
  | zero => intro A B next r h i _; cases h; rfl
  | succ cnt ih =>
    intro A B next r h i hi
    rw [leftLoop] at h
    cases hm : A.moveRow r next with
    | none => rw [hm] at h; cases h
    | some C =>
      rw [hm] at h
      rw [ih h i (by omega), (moveRow_ps hm (by omega)).1]

theorem rightLoop_ps {cnt : ℕ} : ∀ {A B : Mat α} {row e : ℕ}, rightLoop A row e cnt = some B →
    ∀ i, (i ≤ row ∨ row + cnt < i) → B.ps i = A.ps i := by
  induction cnt with
  | zero => intro A B row e h i _; cases h; rfl
  | succ cnt ih =>
    intro A B row e h i hi
    rw [rightLoop] at h
    split at h
    · cases h
    cases hm : A.moveRow (row + (cnt + 1)) (e - (A.pe (row + (cnt + 1)) - A.ps (row + (cnt + 1)))) with
    | none => rw [hm] at h; cases h
    | some C =>
      rw [hm] at h
      rw [ih h i (by omega), (moveRow_ps hm (by omega)).1]

/-- A direction is only chosen if the row in that direction can still be moved. -/
theorem shiftDir_room {A : Mat α} {pref : ℕ → ℕ → Bool} {l r : ℕ} {rm : ℤ} (h0 : 0 ≤ rm) {b : Bool}
    (h : shiftDir A pref l r rm = some b) :
    if b then (A.pe l : ℤ) - A.ps l ≤ rm else (A.pe r : ℤ) - A.ps r ≤ rm := by
  unfold shiftDir at h
  simp only at h
  repeat' split at h
  all_goals first
    | (cases h; done)
    | (cases h; simp only [if_true, Bool.false_eq_true, if_false]; omega)

/-- The rows between the planned ends hold no more entries than the limit. -/
theorem planLoop_budget {A : Mat α} {pref : ℕ → ℕ → Bool} (fuel : ℕ) :
    ∀ (l r : ℕ) (ms rm ls rs : ℤ) (p : Plan), 0 ≤ rm → l < A.m → r ≤ A.m → planLoop A pref fuel l r ms rm ls rs = some p →
      p.left ≤ l ∧ r ≤ p.right ∧ (sumLen A (p.left + 1) (l - p.left) + sumLen A r (p.right - r) : ℤ) ≤ rm ∨
      ∃ i < A.m, A.pe i < A.ps i := by
  induction fuel with
  | zero => intro _ _ _ _ _ _ _ _ _ _ h; simp [planLoop] at h
  | succ fuel ih =>
    intro l r ms rm ls rs p h0 hl hr hp
    rw [planLoop] at hp
    by_cases hms : ms > 0
    · simp only [hms, if_true] at hp
      by_cases hlr : l = 0 ∧ r = A.m
      · simp [hlr] at hp
      · simp only [hlr, if_false] at hp
        cases hd : shiftDir A pref l r rm with
        | none => simp [hd] at hp
        | some b =>
          have hroom := shiftDir_room h0 hd
          cases b with
          | true =>
            have hl0 := shiftDir_left hd
            simp only [hd] at hp
            simp only [if_true] at hroom
            rcases ih _ _ _ _ _ _ p (by omega) (by omega) hr hp with ⟨h1, h2, h3⟩ | h
            · by_cases hneg : A.pe l < A.ps l
              · exact .inr ⟨l, hl, hneg⟩
              refine .inl ⟨by omega, h2, ?_⟩
              have e : l - p.left = (l - 1 - p.left) + 1 := by omega
              rw [e, sumLen_snoc, show p.left + 1 + (l - 1 - p.left) = l by omega]
              push_cast
              omega
            · exact .inr h
          | false =>
            have hrm : r ≠ A.m := shiftDir_right hd
            simp only [hd] at hp
            simp only [Bool.false_eq_true, if_false] at hroom
            rcases ih _ _ _ _ _ _ p (by omega) hl (by omega) hp with ⟨h1, h2, h3⟩ | h
            · by_cases hneg : A.pe r < A.ps r
              · exact .inr ⟨r, by omega, hneg⟩
              refine .inl ⟨h1, by omega, ?_⟩
              have e : p.right - r = (p.right - (r + 1)) + 1 := by omega
              rw [e, sumLen]
              push_cast
              omega
            · exact .inr h
    · simp only [hms, if_false, Option.some.injEq] at hp
      subst hp
      exact .inl ⟨le_rfl, le_rfl, by simp [sumLen, h0]⟩

/-- **C17, the shift limit.**  Whatever `shift_row` answers, the rows whose storage it moved hold together no
more entries than the shift limit. -/
theorem C17_budget (A : Mat α) (hA : A.Layout) (pref : ℕ → ℕ → Bool) (row : ℕ) (hrow : row < A.m)
    (extraSpace maxShift : ℤ) (h0 : 0 ≤ maxShift) (b : Bool) (B : Mat α)
    (h : A.shiftRow pref row extraSpace maxShift = some (b, B)) :
    ((∑ i ∈ (Finset.range A.m).filter (fun i => B.ps i ≠ A.ps i), (A.rowOf i).length : ℕ) : ℤ) ≤ maxShift := by
  have none : B = A → ((∑ i ∈ (Finset.range A.m).filter (fun i => B.ps i ≠ A.ps i), (A.rowOf i).length : ℕ) : ℤ) ≤
      maxShift := by
    rintro rfl; simpa using h0
  unfold shiftRow at h
  simp only at h
  split at h
  · cases h; exact none rfl
  split at h
  · cases h; exact none rfl
  rename_i p hp
  split at h
  · cases h
  simp only [Option.bind_eq_bind, Option.bind_eq_some_iff] at h
  obtain ⟨C, hC, E, hE, h⟩ := h
  cases h
  rcases planLoop_budget _ _ _ _ _ _ _ _ h0 hrow hrow hp with ⟨h1, h2, h3⟩ | ⟨i, him, hi⟩
  · have e : (sumLen A (p.left + 1) (row - p.left) + sumLen A (row + 1) (p.right - (row + 1))) =
        sumLen A (p.left + 1) (p.right - (p.left + 1)) := by
      rw [show p.right - (p.left + 1) = (row - p.left) + (p.right - (row + 1)) by omega, sumLen_add,
        show p.left + 1 + (row - p.left) = row + 1 by omega]
    have hsub : (Finset.range A.m).filter (fun i => B.ps i ≠ A.ps i) ⊆
        Finset.Ico (p.left + 1) (p.left + 1 + (p.right - (p.left + 1))) := by
      intro i hi
      rw [Finset.mem_filter] at hi
      rw [Finset.mem_Ico]
      by_contra hc
      refine hi.2 ?_
      rw [rightLoop_ps hE i (by omega), leftLoop_ps hC i (by omega)]
    have hlen : ∀ i, (A.rowOf i).length = A.pe i - A.ps i := fun i => by simp [rowOf]
    have h4 : ∑ i ∈ (Finset.range A.m).filter (fun i => B.ps i ≠ A.ps i), (A.rowOf i).length ≤
        sumLen A (p.left + 1) (p.right - (p.left + 1)) := by
      rw [sumLen_Ico]
      simp only [hlen]
      exact Finset.sum_le_sum_of_subset_of_nonneg hsub (fun _ _ _ => Nat.zero_le _)
    rw [← e] at h4
    have : ((∑ i ∈ (Finset.range A.m).filter (fun i => B.ps i ≠ A.ps i), (A.rowOf i).length : ℕ) : ℤ) ≤
        ((sumLen A (p.left + 1) (row - p.left) + sumLen A (row + 1) (p.right - (row + 1)) : ℕ) : ℤ) := by
      exact_mod_cast h4
    push_cast at this ⊢
    exact this.trans h3
  · exact absurd (hA.le i him) (by omega)

/-- The limit bites: making five free cells behind row `1` of `exShift` moves the two entries of row `1` and the two of
row `2`; with the limit `4` this is done, with the limit `3` it is refused. -/
example : exShift.Layout ∧
    ((exShift.shiftRow (fun _ _ => true) 1 5 4).map fun r => (r.1, (List.range 4).map r.2.ps)) =
      some (true, [0, 2, 9, 12]) ∧
    ((exShift.shiftRow (fun _ _ => true) 1 5 3).map fun r => (r.1, (List.range 4).map r.2.ps)) =
      some (false, [0, 4, 7, 12]) := by
  refine ⟨⟨?_, ?_, ?_⟩, ?_, ?_⟩
  · intro i hi; have : i < 3 := hi; interval_cases i <;> decide
  · intro i hi; have : i < 3 := hi; interval_cases i <;> decide
  · decide
  · decide +kernel
  · decide +kernel

end Verif
