import Verif.Lemmas.Mat
import Mathlib.Tactic.Ring
import Mathlib.Tactic.IntervalCases

/-!
# C17: making room in a row never changes any row's contents
-/

namespace Verif
open Mat
variable {α : Type}

/-- **C17.** For every layout, row, requested space and shift limit, and whatever the
floating-point direction heuristics answer: `shift_row` never touches memory outside the
allocation; if it returns `false` the matrix is unchanged; if it returns `true` the rows are
still ordered, disjoint and inside the allocation, every row has exactly the same contents,
and the requested row is followed by at least the requested spare space. -/
theorem C17_shift_row (A : Mat α) (h : A.Layout) (pref : ℕ → ℕ → Bool) (row : ℕ) (hrow : row < A.m)
    (extraSpace maxShift : ℤ) :
    ∃ b B, A.shiftRow pref row extraSpace maxShift = some (b, B) ∧
      (b = false → B = A) ∧
      (b = true → B.Layout ∧ (∀ i < A.m, B.rowOf i = A.rowOf i) ∧
        extraSpace ≤ (B.ps (row + 1) : ℤ) - B.pe row) ∧
      B.m = A.m ∧ B.n = A.n ∧ B.nnz = A.nnz ∧ B.nAlloc = A.nAlloc ∧ B.ps A.m = A.ps A.m := by
  unfold shiftRow
  by_cases hm : extraSpace - ((A.ps (row + 1) : ℤ) - A.pe row) ≤ 0
  · simp only [hm, if_true]
    exact ⟨true, A, rfl, by simp, fun _ => ⟨h, fun _ _ => rfl, by omega⟩, rfl, rfl, rfl, rfl, rfl⟩
  · simp only [hm, if_false]
    cases hp : planLoop A pref (A.m + 1) row (row + 1)
        (extraSpace - ((A.ps (row + 1) : ℤ) - A.pe row)) maxShift 0 0 with
    | none => exact ⟨false, A, rfl, fun _ => rfl, by simp, rfl, rfl, rfl, rfl, rfl⟩
    | some p =>
      have hinv0 : PlanInv A row extraSpace row (row + 1)
          (extraSpace - ((A.ps (row + 1) : ℤ) - A.pe row)) 0 0 := by
        refine ⟨le_rfl, le_rfl, hrow, le_rfl, le_rfl, by omega, by omega, by omega, by omega, ?_⟩
        simp [newStart, newEnd]
      obtain ⟨m', -, hI, hm'⟩ := planLoop_inv h _ _ _ _ _ _ _ p hinv0 hp
      have hm0 := hm' (by omega)
      subst hm0
      obtain ⟨left, right, ls, rs⟩ := p
      simp only at hI ⊢
      have e1 := hI.left_le
      have e2 := hI.right_ge
      have e3 := hI.right_le
      have e4 := hI.ls_nonneg
      have e5 := hI.rs_nonneg
      have hleft : 0 ≤ (A.ps (left + 1) : ℤ) - ls ∧ (A.pe left : ℤ) ≤ (A.ps (left + 1) : ℤ) - ls := by
        by_cases hl : left < row
        · have := hI.ls_le hl; constructor <;> omega
        · have : left = row := by omega
          subst this
          by_cases h0 : ls = 0
          · subst h0; have := h.next left hrow; constructor <;> omega
          · -- `ls` is still the initial value when `left = row`; bound it by the gap
            exfalso
            -- the planning loop only changes `ls` when it decrements `left`
            have key : ∀ (fuel l r : ℕ) (ms rm ls rs : ℤ) (p : Plan), l ≤ left →
                (l = left → ls = 0) →
                planLoop A pref fuel l r ms rm ls rs = some p → (p.left = left → p.ls = 0) := by
              intro fuel
              induction fuel with
              | zero => intro _ _ _ _ _ _ _ _ _ h; simp [planLoop] at h
              | succ fuel ih =>
                intro l r ms rm ls rs p hl hls hp
                rw [planLoop] at hp
                by_cases hms : ms > 0
                · simp only [hms, if_true] at hp
                  by_cases hlr : l = 0 ∧ r = A.m
                  · simp [hlr] at hp
                  · simp only [hlr, if_false] at hp
                    cases hd : shiftDir A pref l r rm with
                    | none => simp [hd] at hp
                    | some b =>
                      cases b with
                      | true =>
                        have hl0 := shiftDir_left hd
                        simp only [hd] at hp
                        exact ih _ _ _ _ _ _ p (by omega) (by omega) hp
                      | false =>
                        simp only [hd] at hp
                        exact ih _ _ _ _ _ _ p hl hls hp
                · simp only [hms, if_false, Option.some.injEq] at hp
                  subst hp; exact hls
            exact h0 (key _ _ _ _ _ _ _ _ le_rfl (fun _ => rfl) hp rfl)
      have hns : ¬ ((A.ps (left + 1) : ℤ) - ls < 0) := by omega
      simp only [hns, if_false]
      obtain ⟨B, hB, hBL, hBm, hBn, hBz, hBa, hBrow, hBoth, hBend⟩ :=
        leftLoop_spec h (next := ((A.ps (left + 1) : ℤ) - ls).toNat) (r := left + 1)
          (cnt := row - left) (by omega)
          (Or.inr (by rw [show left + 1 - 1 = left by omega]; omega)) (by intro _; omega)
      rw [hB]
      simp only [Option.bind_eq_bind, Option.bind_some]
      -- the right loop
      have hrs : row + 1 < right → (rs : ℤ) ≤ (A.ps right : ℤ) - A.pe (right - 1) := hI.rs_le
      obtain ⟨C, hC, hCL, hCm, hCn, hCz, hCa, hCrow, hCoth, hCst⟩ :
          ∃ C, rightLoop B row ((B.pe (right - 1) : ℤ) + rs).toNat (right - (row + 1)) = some C ∧
            C.Layout ∧ C.m = B.m ∧ C.n = B.n ∧ C.nnz = B.nnz ∧ C.nAlloc = B.nAlloc ∧
            (∀ i < B.m, C.rowOf i = B.rowOf i) ∧
            (∀ i, (i ≤ row ∨ row + (right - (row + 1)) < i) → C.ps i = B.ps i ∧ C.pe i = B.pe i) ∧
            (0 < right - (row + 1) → (C.ps (row + 1) : ℤ) =
              ((B.pe (right - 1) : ℤ) + rs).toNat - sumLen B (row + 1) (right - (row + 1))) := by
        by_cases hr : row + 1 < right
        · have hpe : B.pe (right - 1) = A.pe (right - 1) := (hBoth (right - 1) (by omega)).2
          have hps : B.ps right = A.ps right := (hBoth right (by omega)).1
          have := hrs hr
          exact rightLoop_spec hBL (by omega)
            (by rw [show row + (right - (row + 1)) + 1 = right by omega, hps, hpe]; omega)
            (by intro _; rw [show row + (right - (row + 1)) = right - 1 by omega]; omega)
        · have h0 : right - (row + 1) = 0 := by omega
          rw [h0]
          exact ⟨B, rfl, hBL, rfl, rfl, rfl, rfl, fun _ _ => rfl, fun _ _ => ⟨rfl, rfl⟩, by omega⟩
      rw [hC]
      refine ⟨true, C, rfl, by simp, fun _ => ⟨hCL, ?_, ?_⟩, by omega, by omega, by omega, by omega, ?_⟩
      · intro i hi; rw [hCrow i (by omega), hBrow i hi]
      · have hend : (C.pe row : ℤ) = newEnd A row left ls := by
          rw [(hCoth row (by omega)).2]
          unfold newEnd
          by_cases hl : left = row
          · rw [if_pos hl, (hBoth row (by omega)).2]
          · rw [if_neg hl]
            have := hBend (by omega)
            rw [show left + 1 + (row - left) - 1 = row by omega] at this
            rw [this]; push_cast; omega
        have hst : (C.ps (row + 1) : ℤ) = newStart A row right rs := by
          unfold newStart
          by_cases hr : right = row + 1
          · rw [if_pos hr, (hCoth (row + 1) (by omega)).1, (hBoth (row + 1) (by omega)).1]
          · rw [if_neg hr, hCst (by omega)]
            rw [sumLen_congr (A := A) (B := B)]
            · rw [(hBoth (right - 1) (by omega)).2]; omega
            · intro i h1 h2
              rw [(hBoth i (by omega)).1, (hBoth i (by omega)).2]
        have := hI.total
        rw [hst, hend]; omega
      · rw [(hCoth A.m (by omega)).1, (hBoth A.m (by omega)).1]

/-- Free space between the start of the first row and the sentinel `p[m].start`. -/
def Mat.freeSpace (A : Mat α) : ℤ := (A.ps A.m : ℤ) - A.ps 0 - sumLen A 0 A.m

/-- **C17 (success).** `shift_row` does not give up needlessly: if the shift limit covers all
stored entries and the total free space between rows covers the request, it succeeds. -/
theorem C17_shift_row_succeeds (A : Mat α) (h : A.Layout) (pref : ℕ → ℕ → Bool) (row : ℕ)
    (hrow : row < A.m) (extraSpace maxShift : ℤ) (hfree : extraSpace ≤ A.freeSpace)
    (hmax : (sumLen A 0 A.m : ℤ) ≤ maxShift) :
    ∃ B, A.shiftRow pref row extraSpace maxShift = some (true, B) := by
  obtain ⟨b, B, hres, -⟩ := C17_shift_row A h pref row hrow extraSpace maxShift
  cases b with
  | true => exact ⟨B, hres⟩
  | false =>
    exfalso
    have add : ∀ (c1 c2 r : ℕ), sumLen A r (c1 + c2) = sumLen A r c1 + sumLen A (r + c1) c2 := by
      intro c1
      induction c1 with
      | zero => intro c2 r; simp [sumLen]
      | succ c1 ih =>
        intro c2 r
        rw [show c1 + 1 + c2 = (c1 + c2) + 1 by omega, sumLen, ih, sumLen,
          show r + 1 + c1 = r + (c1 + 1) by omega]; omega
    have hls : ∀ left, left < A.m → A.ps left ≤ A.pe left := fun l hl => h.le l hl
    -- the planning loop never returns `none` under these hypotheses
    have key : ∀ (fuel l r : ℕ) (ms rm ls rs : ℤ), l + (A.m - r) + 1 ≤ fuel →
        PlanInv A row extraSpace l r ms ls rs →
        (sumLen A 0 (l + 1) : ℤ) + sumLen A r (A.m - r) ≤ rm →
        planLoop A pref fuel l r ms rm ls rs ≠ none := by
      intro fuel
      induction fuel with
      | zero => intro l r _ _ _ _ hf; omega
      | succ fuel ih =>
        intro l r ms rm ls rs hf hI hrem hnone
        have hrl := hI.right_le
        have hll := hI.left_le
        have hrg := hI.right_ge
        rw [planLoop] at hnone
        by_cases hms : ms > 0
        · simp only [hms, if_true] at hnone
          have hlen : ∀ i, i < A.m → ((A.pe i - A.ps i : ℕ) : ℤ) = (A.pe i : ℤ) - A.ps i := by
            intro i hi; have := h.le i hi; omega
          by_cases hlr : l = 0 ∧ r = A.m
          · obtain ⟨h0, h1⟩ := hlr
            subst h0
            have ht := hI.total
            have hnE : newEnd A row 0 ls = (A.ps 0 : ℤ) + sumLen A 0 (row + 1) := by
              unfold newEnd
              by_cases hr0 : 0 = row
              · subst hr0; simp [sumLen, hlen 0 (by omega)]
              · rw [if_neg hr0, hI.ls_full (by omega) hms, sumLen, Nat.sub_zero]
                push_cast; rw [hlen 0 (by omega)]; ring
            have hnS : newStart A row r rs = (A.ps A.m : ℤ) - sumLen A (row + 1) (A.m - (row + 1)) := by
              unfold newStart
              by_cases hr0 : r = row + 1
              · rw [if_pos hr0, ← h1, hr0]; simp [sumLen]
              · rw [if_neg hr0, hI.rs_full (by omega) hms, h1]; ring
            have hsum := add (row + 1) (A.m - (row + 1)) 0
            rw [show row + 1 + (A.m - (row + 1)) = A.m by omega, Nat.zero_add] at hsum
            rw [hnE, hnS] at ht
            unfold freeSpace at hfree
            rw [hsum] at hfree
            push_cast at hfree
            omega
          · simp only [hlr, if_false] at hnone
            cases hd : shiftDir A pref l r rm with
            | none =>
              -- the decision is never "give up"
              have hA : l < A.m := by omega
              have s1 : (sumLen A 0 (l + 1) : ℤ) = sumLen A 0 l + ((A.pe l : ℤ) - A.ps l) := by
                rw [sumLen_snoc]; push_cast; rw [Nat.zero_add, hlen l hA]
              have s2 : r ≠ A.m → ((A.pe r : ℤ) - A.ps r) ≤ sumLen A r (A.m - r) := by
                intro hne
                rw [show A.m - r = (A.m - r - 1) + 1 by omega, sumLen]
                push_cast; rw [hlen r (by omega)]; omega
              have s3 := h.le l hA
              have s4 : r ≠ A.m → A.ps r ≤ A.pe r := fun hne => h.le r (by omega)
              unfold shiftDir at hd
              simp only at hd
              by_cases hl0 : l = 0
              · have hne : r ≠ A.m := fun e => hlr ⟨hl0, e⟩
                have := s2 hne
                simp only [hl0, if_true] at hd
                rw [if_pos ⟨hne, by omega⟩] at hd
                simp at hd
              · rw [if_neg hl0] at hd
                by_cases hrm : r = A.m
                · rw [if_pos hrm, if_pos ⟨hl0, by omega⟩] at hd; simp at hd
                · rw [if_neg hrm] at hd
                  have := s2 hrm
                  split at hd
                  · simp at hd
                  · split at hd
                    · simp at hd
                    · split at hd
                      · simp at hd
                      · rw [if_pos (by omega)] at hd; simp at hd
            | some b =>
              -- both continuations keep the invariant; reuse `planLoop_inv`'s argument
              cases b with
              | true =>
                have hl0 := shiftDir_left hd
                simp only [hd, hl0, if_false] at hnone
                have hgap : (0 : ℤ) ≤ (A.ps l : ℤ) - A.pe (l - 1) := by
                  have := h.pe_le_ps (i := l - 1) (j := l) (by omega) (by omega)
                  omega
                have hl := h.le l (by omega)
                have hkey : newEnd A row (l - 1) (min ms ((A.ps l : ℤ) - A.pe (l - 1))) =
                    newEnd A row l ls - min ms ((A.ps l : ℤ) - A.pe (l - 1)) := by
                  unfold newEnd
                  rw [if_neg (by omega)]
                  rw [show l - 1 + 1 = l by omega]
                  rw [show row - (l - 1) = (row - l) + 1 by omega, sumLen]
                  by_cases hlrow : l = row
                  · subst hlrow; simp [sumLen]; omega
                  · rw [if_neg hlrow, hI.ls_full (by omega) hms]; push_cast; omega
                refine ih _ _ _ _ _ _ (by omega) ?_ ?_ hnone
                · refine ⟨by omega, hrg, hrl, by omega, hI.rs_nonneg, ?_, hI.rs_le, ?_, ?_, ?_⟩
                  · intro _; rw [show l - 1 + 1 = l by omega]; omega
                  · intro _ _; rw [show l - 1 + 1 = l by omega]; omega
                  · intro h1 _; exact hI.rs_full h1 hms
                  · rw [hkey]; have := hI.total; omega
                · rw [sumLen_snoc, Nat.zero_add] at hrem
                  push_cast at hrem
                  rw [hlen l (by omega)] at hrem
                  rw [show l - 1 + 1 = l by omega]; omega
              | false =>
                have hr0 := shiftDir_right hd
                simp only [hd, hr0, if_false] at hnone
                have hl := h.le r (by omega)
                have hgap : (0 : ℤ) ≤ (A.ps (r + 1) : ℤ) - A.pe r := by
                  have := h.next r (by omega)
                  omega
                have hkey : newStart A row (r + 1) (min ms ((A.ps (r + 1) : ℤ) - A.pe r)) =
                    newStart A row r rs + min ms ((A.ps (r + 1) : ℤ) - A.pe r) := by
                  unfold newStart
                  rw [if_neg (by omega)]
                  rw [show r + 1 - 1 = r by omega]
                  rw [show r + 1 - (row + 1) = (r - (row + 1)) + 1 by omega, sumLen_snoc]
                  rw [show row + 1 + (r - (row + 1)) = r by omega]
                  by_cases hlrow : r = row + 1
                  · subst hlrow; simp [sumLen]; omega
                  · rw [if_neg hlrow, hI.rs_full (by omega) hms]; push_cast; omega
                refine ih _ _ _ _ _ _ (by omega) ?_ ?_ hnone
                · refine ⟨hI.left_le, by omega, by omega, hI.ls_nonneg, by omega, hI.ls_le, ?_, ?_, ?_, ?_⟩
                  · intro _; rw [show r + 1 - 1 = r by omega]; omega
                  · intro h1 _; exact hI.ls_full h1 hms
                  · intro _ _; rw [show r + 1 - 1 = r by omega]; omega
                  · rw [hkey]; have := hI.total; omega
                · rw [show A.m - r = (A.m - (r + 1)) + 1 by omega, sumLen.eq_2 A r] at hrem
                  push_cast at hrem
                  rw [hlen r (by omega)] at hrem
                  omega
        · simp [hms] at hnone
    unfold shiftRow at hres
    by_cases hm : extraSpace - ((A.ps (row + 1) : ℤ) - A.pe row) ≤ 0
    · simp [hm] at hres
    · simp only [hm, if_false] at hres
      cases hp : planLoop A pref (A.m + 1) row (row + 1)
          (extraSpace - ((A.ps (row + 1) : ℤ) - A.pe row)) maxShift 0 0 with
      | none =>
        refine key _ _ _ _ _ _ _ (by omega) ?_ ?_ hp
        · refine ⟨le_rfl, le_rfl, hrow, le_rfl, le_rfl, by omega, by omega, by omega, by omega, ?_⟩
          simp [newStart, newEnd]
        · have hsum := add (row + 1) (A.m - (row + 1)) 0
          rw [show row + 1 + (A.m - (row + 1)) = A.m by omega, Nat.zero_add] at hsum
          omega
      | some p =>
        rw [hp] at hres
        simp only at hres
        split at hres
        · simp at hres
        · cases hB : leftLoop A ((A.ps (p.left + 1) : ℤ) - p.ls).toNat (p.left + 1) (row - p.left) with
          | none => rw [hB] at hres; simp at hres
          | some B' =>
            rw [hB] at hres
            simp only [Option.bind_eq_bind, Option.bind_some] at hres
            cases hC : rightLoop B' row ((B'.pe (p.right - 1) : ℤ) + p.rs).toNat
                (p.right - (row + 1)) with
            | none => rw [hC] at hres; simp at hres
            | some C => rw [hC] at hres; simp at hres

/-- A concrete matrix with three rows (two entries each) and gaps on both sides of the
middle row. -/
def exShift : Mat ℕ :=
  { m := 3, n := 9, nnz := 6, nAlloc := 12, cell := fun k => (k, 100 + k)
    ps := fun i => [0, 4, 7, 12].getD i 0, pe := fun i => [2, 6, 9, 12].getD i 0 }

-- The hypotheses of the theorems hold, and both a left and a right shift really happen.
example : exShift.Layout ∧
    ((exShift.shiftRow (fun _ _ => true) 1 5 100).map fun r =>
      (r.1, (List.range 3).map r.2.rowOf, (List.range 4).map r.2.ps)) =
    some (true, [[(0, 100), (1, 101)], [(4, 104), (5, 105)], [(7, 107), (8, 108)]], [0, 2, 9, 12]) := by
  refine ⟨⟨?_, ?_, ?_⟩, ?_⟩
  · intro i hi; have : i < 3 := hi; interval_cases i <;> decide
  · intro i hi; have : i < 3 := hi; interval_cases i <;> decide
  · decide
  · decide +kernel

end Verif
