import Verif.Model.Mat

/-! Helper lemmas about matrix storage. -/

namespace Verif
namespace Mat
variable {α : Type}

theorem rowOf_congr {A B : Mat α} {i : ℕ} (hs : B.ps i = A.ps i) (he : B.pe i = A.pe i)
    (hc : ∀ k, A.ps i ≤ k → k < A.pe i → B.cell k = A.cell k) : B.rowOf i = A.rowOf i := by
  unfold rowOf
  rw [hs, he]
  apply List.map_congr_left
  intro k hk
  have := List.mem_range.mp hk
  exact hc _ (by omega) (by omega)

theorem Layout.ps_mono {A : Mat α} (h : A.Layout) : ∀ {i j : ℕ}, i ≤ j → j ≤ A.m → A.ps i ≤ A.ps j := by
  intro i j hij
  induction hij with
  | refl => intro _; exact le_rfl
  | @step j hij ih =>
    intro hj
    have h1 := h.le j (by omega)
    have h2 := h.next j (by omega)
    have := ih (by omega)
    show A.ps i ≤ A.ps (j + 1)
    omega

theorem Layout.pe_le_ps {A : Mat α} (h : A.Layout) {i j : ℕ} (hij : i < j) (hj : j ≤ A.m) :
    A.pe i ≤ A.ps j := by
  have h1 := h.next i (by omega)
  have h2 := h.ps_mono (i := i + 1) (j := j) hij hj
  omega

theorem Layout.pe_le_alloc {A : Mat α} (h : A.Layout) {i : ℕ} (hi : i < A.m) : A.pe i ≤ A.nAlloc :=
  le_trans (h.pe_le_ps hi le_rfl) h.alloc

/-- Moving one row to a place between its neighbours changes nothing but its position. -/
theorem moveRow_spec {A : Mat α} (h : A.Layout) {r dst : ℕ} (hr : r < A.m)
    (hlo : r = 0 ∨ A.pe (r - 1) ≤ dst) (hhi : dst + (A.pe r - A.ps r) ≤ A.ps (r + 1)) :
    ∃ B, A.moveRow r dst = some B ∧ B.Layout ∧ B.m = A.m ∧ B.n = A.n ∧ B.nnz = A.nnz ∧
      B.nAlloc = A.nAlloc ∧ (∀ i < A.m, B.rowOf i = A.rowOf i) ∧
      (∀ i, i ≠ r → B.ps i = A.ps i ∧ B.pe i = A.pe i) ∧ B.ps r = dst ∧
      B.pe r = dst + (A.pe r - A.ps r) := by
  have hle := h.le r hr
  have hnx := h.next r hr
  have hal : A.ps (r + 1) ≤ A.nAlloc := le_trans (h.ps_mono hr le_rfl) h.alloc
  -- the matrix after the (possibly skipped) memmove
  obtain ⟨C, hC, hCc⟩ : ∃ C, (if A.pe r - A.ps r > 0 then A.memmove dst (A.ps r) (A.pe r - A.ps r)
      else some A) = some C ∧ C = { A with cell := fun k =>
        if dst ≤ k ∧ k < dst + (A.pe r - A.ps r) then A.cell (A.ps r + (k - dst)) else A.cell k } := by
    by_cases hl : A.pe r - A.ps r > 0
    · refine ⟨_, ?_, rfl⟩
      rw [if_pos hl, memmove, if_pos (by omega)]
    · refine ⟨A, by rw [if_neg hl], ?_⟩
      have h0 : A.pe r - A.ps r = 0 := by omega
      cases A
      simp only [Mat.mk.injEq, true_and, and_true] at *
      funext k
      rw [if_neg (by omega)]
  refine ⟨C.setRange r dst (dst + (A.pe r - A.ps r)), ?_, ?_, ?_, ?_, ?_, ?_, ?_, ?_, ?_, ?_⟩
  · simp only [moveRow, hC, Option.map_some]
  · subst hCc
    refine ⟨?_, ?_, ?_⟩
    · intro i hi
      by_cases hir : i = r
      · subst hir; simp [setRange]
      · simp only [setRange, Function.update_of_ne hir]; exact h.le i hi
    · intro i hi
      simp only [setRange] at hi ⊢
      by_cases hir : i = r
      · subst hir
        rw [Function.update_self, Function.update_of_ne (by omega)]; omega
      · rw [Function.update_of_ne hir]
        by_cases hi1 : i + 1 = r
        · rw [hi1, Function.update_self]
          have : r - 1 = i := by omega
          rw [this] at hlo
          omega
        · rw [Function.update_of_ne hi1]; exact h.next i hi
    · simp only [setRange]
      rw [Function.update_of_ne (by omega)]; exact h.alloc
  · subst hCc; rfl
  · subst hCc; rfl
  · subst hCc; rfl
  · subst hCc; rfl
  · intro i hi
    subst hCc
    by_cases hir : i = r
    · subst hir
      simp only [rowOf, setRange, Function.update_self]
      rw [show dst + (A.pe i - A.ps i) - dst = A.pe i - A.ps i by omega]
      apply List.map_congr_left
      intro k hk
      have := List.mem_range.mp hk
      rw [if_pos (by omega)]
      congr 1; omega
    · apply rowOf_congr
      · simp [setRange, hir]
      · simp [setRange, hir]
      · intro k hk1 hk2
        simp only [setRange]
        rw [if_neg]
        intro hcon
        rcases Nat.lt_or_gt_of_ne hir with hlt | hgt
        · have h1 : A.pe i ≤ A.pe (r - 1) := by
            by_cases hh : i = r - 1
            · rw [hh]
            · have a := h.pe_le_ps (i := i) (j := r - 1) (by omega) (by omega)
              have b := h.le (r - 1) (by omega)
              omega
          omega
        · have h1 := h.ps_mono (i := r + 1) (j := i) (by omega) (by omega)
          omega
  · intro i hi
    subst hCc
    simp [setRange, hi]
  · simp [setRange]
  · simp [setRange]

/-- Sum of the lengths of rows `r .. r+cnt-1`. -/
def sumLen (A : Mat α) (r : ℕ) : ℕ → ℕ
  | 0 => 0
  | cnt + 1 => (A.pe r - A.ps r) + sumLen A (r + 1) cnt

theorem sumLen_congr {A B : Mat α} {r cnt : ℕ}
    (h : ∀ i, r ≤ i → i < r + cnt → B.pe i - B.ps i = A.pe i - A.ps i) :
    sumLen B r cnt = sumLen A r cnt := by
  induction cnt generalizing r with
  | zero => rfl
  | succ cnt ih =>
    rw [sumLen, sumLen, h r le_rfl (by omega), ih (fun i h1 h2 => h i (by omega) (by omega))]

theorem sumLen_snoc (A : Mat α) (r cnt : ℕ) :
    sumLen A r (cnt + 1) = sumLen A r cnt + (A.pe (r + cnt) - A.ps (r + cnt)) := by
  induction cnt generalizing r with
  | zero => simp [sumLen]
  | succ cnt ih =>
    rw [sumLen, ih (r + 1), sumLen, show r + 1 + cnt = r + (cnt + 1) by omega]; omega

theorem Layout.sumLen_le {A : Mat α} (h : A.Layout) {r cnt : ℕ} (hr : r + (cnt + 1) ≤ A.m) :
    A.ps r + sumLen A r (cnt + 1) ≤ A.pe (r + cnt) := by
  induction cnt with
  | zero => have := h.le r (by omega); simp [sumLen]; omega
  | succ cnt ih =>
    have h1 := ih (by omega)
    rw [sumLen_snoc]
    have h2 := h.next (r + cnt) (by omega)
    have h3 := h.le (r + (cnt + 1)) (by omega)
    rw [show r + cnt + 1 = r + (cnt + 1) by omega] at h2
    omega

/-- What the packing loops guarantee. -/
theorem leftLoop_spec {A : Mat α} (h : A.Layout) {next r cnt : ℕ} (hr : r + cnt ≤ A.m)
    (hlo : r = 0 ∨ A.pe (r - 1) ≤ next) (hhi : 0 < cnt → next ≤ A.ps r) :
    ∃ B, leftLoop A next r cnt = some B ∧ B.Layout ∧ B.m = A.m ∧ B.n = A.n ∧ B.nnz = A.nnz ∧
      B.nAlloc = A.nAlloc ∧ (∀ i < A.m, B.rowOf i = A.rowOf i) ∧
      (∀ i, (i < r ∨ r + cnt ≤ i) → B.ps i = A.ps i ∧ B.pe i = A.pe i) ∧
      (0 < cnt → B.pe (r + cnt - 1) = next + sumLen A r cnt) := by
  induction cnt generalizing A next r with
  | zero =>
    exact ⟨A, rfl, h, rfl, rfl, rfl, rfl, fun _ _ => rfl, fun _ _ => ⟨rfl, rfl⟩, fun h => absurd h (by omega)⟩
  | succ cnt ih =>
    have hle := h.le r (by omega)
    have hnx := h.next r (by omega)
    have hh := hhi (by omega)
    obtain ⟨B, hB, hBL, hm, hn, hz, ha, hrow, hoth, hps, hpe⟩ :=
      moveRow_spec h (r := r) (dst := next) (by omega) hlo (by omega)
    have hB1 : 0 < cnt → next + (A.pe r - A.ps r) ≤ B.ps (r + 1) := by
      intro _
      rw [(hoth (r + 1) (by omega)).1]; omega
    obtain ⟨C, hC, hCL, hm', hn', hz', ha', hrow', hoth', hend'⟩ :=
      ih hBL (next := next + (A.pe r - A.ps r)) (r := r + 1) (by omega)
        (Or.inr (by simp [hpe])) hB1
    refine ⟨C, ?_, hCL, by omega, by omega, by omega, by omega, ?_, ?_, ?_⟩
    · simp only [leftLoop, hB, Option.bind_eq_bind, Option.bind_some, hC]
    · intro i hi; rw [hrow' i (by omega), hrow i hi]
    · intro i hi
      have h1 := hoth' i (by omega)
      have h2 := hoth i (by omega)
      exact ⟨h1.1.trans h2.1, h1.2.trans h2.2⟩
    · intro _
      rcases Nat.eq_zero_or_pos cnt with h0 | h0
      · subst h0
        have h1 := (hoth' r (by omega)).2
        simp only [sumLen]
        rw [show r + (0 + 1) - 1 = r by omega, h1, hpe]; omega
      · have h1 := hend' h0
        rw [show r + (cnt + 1) - 1 = r + 1 + cnt - 1 by omega, h1]
        rw [sumLen_congr (A := A) (B := B) (r := r + 1) (cnt := cnt)]
        · simp only [sumLen]; omega
        · intro i hi1 hi2
          rw [(hoth i (by omega)).1, (hoth i (by omega)).2]

theorem rightLoop_spec {A : Mat α} (h : A.Layout) {row nextEnd cnt : ℕ} (hr : row + cnt < A.m)
    (hhi : nextEnd ≤ A.ps (row + cnt + 1)) (hlo : 0 < cnt → A.pe (row + cnt) ≤ nextEnd) :
    ∃ B, rightLoop A row nextEnd cnt = some B ∧ B.Layout ∧ B.m = A.m ∧ B.n = A.n ∧ B.nnz = A.nnz ∧
      B.nAlloc = A.nAlloc ∧ (∀ i < A.m, B.rowOf i = A.rowOf i) ∧
      (∀ i, (i ≤ row ∨ row + cnt < i) → B.ps i = A.ps i ∧ B.pe i = A.pe i) ∧
      (0 < cnt → (B.ps (row + 1) : ℤ) = nextEnd - sumLen A (row + 1) cnt) := by
  induction cnt generalizing A nextEnd with
  | zero =>
    exact ⟨A, rfl, h, rfl, rfl, rfl, rfl, fun _ _ => rfl, fun _ _ => ⟨rfl, rfl⟩, fun h => absurd h (by omega)⟩
  | succ cnt ih =>
    have hle := h.le (row + (cnt + 1)) (by omega)
    have hprev := h.next (row + cnt) (by omega)
    have hlo' := hlo (by omega)
    rw [show row + cnt + 1 = row + (cnt + 1) by omega] at hprev
    obtain ⟨B, hB, hBL, hm, hn, hz, ha, hrow, hoth, hps, hpe⟩ :=
      moveRow_spec h (r := row + (cnt + 1))
        (dst := nextEnd - (A.pe (row + (cnt + 1)) - A.ps (row + (cnt + 1)))) (by omega)
        (Or.inr (by rw [show row + (cnt + 1) - 1 = row + cnt by omega]; omega)) (by omega)
    obtain ⟨C, hC, hCL, hm', hn', hz', ha', hrow', hoth', hst'⟩ :=
      ih hBL (nextEnd := nextEnd - (A.pe (row + (cnt + 1)) - A.ps (row + (cnt + 1)))) (by omega)
        (by rw [show row + cnt + 1 = row + (cnt + 1) by omega, hps])
        (by intro _; rw [(hoth (row + cnt) (by omega)).2]; omega)
    refine ⟨C, ?_, hCL, by omega, by omega, by omega, by omega, ?_, ?_, ?_⟩
    · have hnl : ¬ nextEnd < A.pe (row + (cnt + 1)) - A.ps (row + (cnt + 1)) := by omega
      simp only [rightLoop, hB, Option.bind_eq_bind, Option.bind_some, hC, if_neg hnl]
    · intro i hi; rw [hrow' i (by omega), hrow i hi]
    · intro i hi
      have h1 := hoth' i (by omega)
      have h2 := hoth i (by omega)
      exact ⟨h1.1.trans h2.1, h1.2.trans h2.2⟩
    · intro _
      rcases Nat.eq_zero_or_pos cnt with h0 | h0
      · subst h0
        have h1 := (hoth' (row + 1) (by omega)).1
        simp only [sumLen]
        simp only [Nat.zero_add] at hps hlo' hle ⊢
        rw [h1, hps]; omega
      · have h1 := hst' h0
        rw [h1, sumLen_congr (A := A) (B := B) (r := row + 1) (cnt := cnt), sumLen_snoc]
        · rw [show row + 1 + cnt = row + (cnt + 1) by omega]; omega
        · intro i hi1 hi2
          rw [(hoth i (by omega)).1, (hoth i (by omega)).2]

/-- Position of the end of row `row` after executing the planned left shift. -/
def newEnd (A : Mat α) (row left : ℕ) (ls : ℤ) : ℤ :=
  if left = row then A.pe row else A.ps (left + 1) - ls + sumLen A (left + 1) (row - left)

/-- Position of the start of row `row+1` after executing the planned right shift. -/
def newStart (A : Mat α) (row right : ℕ) (rs : ℤ) : ℤ :=
  if right = row + 1 then A.ps (row + 1) else A.pe (right - 1) + rs - sumLen A (row + 1) (right - (row + 1))

/-- Invariant of the planning loop. -/
structure PlanInv (A : Mat α) (row : ℕ) (extra : ℤ) (left right : ℕ) (missing ls rs : ℤ) : Prop where
  left_le : left ≤ row
  right_ge : row + 1 ≤ right
  right_le : right ≤ A.m
  ls_nonneg : 0 ≤ ls
  rs_nonneg : 0 ≤ rs
  ls_le : left < row → ls ≤ (A.ps (left + 1) : ℤ) - A.pe left
  rs_le : row + 1 < right → rs ≤ (A.ps right : ℤ) - A.pe (right - 1)
  ls_full : left < row → missing > 0 → ls = (A.ps (left + 1) : ℤ) - A.pe left
  rs_full : row + 1 < right → missing > 0 → rs = (A.ps right : ℤ) - A.pe (right - 1)
  total : missing = extra - (newStart A row right rs - newEnd A row left ls)

theorem shiftDir_left {A : Mat α} {pref left right rem} (h : shiftDir A pref left right rem = some true) :
    left ≠ 0 := by
  unfold shiftDir at h
  intro h0
  simp only [h0, if_true] at h
  split at h <;> simp at h

theorem shiftDir_right {A : Mat α} {pref left right rem} (h : shiftDir A pref left right rem = some false) :
    right ≠ A.m := by
  unfold shiftDir at h
  intro h0
  subst h0
  by_cases hl : left = 0
  · simp [hl] at h
  · simp [hl] at h

theorem planLoop_inv {A : Mat α} (h : A.Layout) {pref : ℕ → ℕ → Bool} {row : ℕ} {extra : ℤ}
    (fuel : ℕ) : ∀ (left right : ℕ) (missing remaining ls rs : ℤ) (p : Plan),
    PlanInv A row extra left right missing ls rs →
    planLoop A pref fuel left right missing remaining ls rs = some p →
    ∃ missing', missing' ≤ 0 ∧ PlanInv A row extra p.left p.right missing' p.ls p.rs ∧
      (missing > 0 → missing' = 0) := by
  induction fuel with
  | zero => intro _ _ _ _ _ _ _ _ h; simp [planLoop] at h
  | succ fuel ih =>
    intro left right missing remaining ls rs p hinv hp
    rw [planLoop] at hp
    by_cases hm : missing > 0
    · simp only [hm, if_true] at hp
      by_cases hlr : left = 0 ∧ right = A.m
      · simp [hlr] at hp
      · simp only [hlr, if_false] at hp
        cases hd : shiftDir A pref left right remaining with
        | none => simp [hd] at hp
        | some b =>
          cases b with
          | true =>
            have hl0 := shiftDir_left hd
            simp only [hd, hl0, if_false] at hp
            have hgap : (0 : ℤ) ≤ (A.ps left : ℤ) - A.pe (left - 1) := by
              have := h.pe_le_ps (i := left - 1) (j := left) (by omega)
                (by have := hinv.left_le; have := hinv.right_ge; have := hinv.right_le; omega)
              omega
            have hle := hinv.left_le
            have hrl := hinv.right_le
            have hrg := hinv.right_ge
            have hl := h.le left (by omega)
            have key : newEnd A row (left - 1)
                (min missing ((A.ps left : ℤ) - A.pe (left - 1))) =
                newEnd A row left ls - min missing ((A.ps left : ℤ) - A.pe (left - 1)) := by
              unfold newEnd
              rw [if_neg (by omega)]
              rw [show left - 1 + 1 = left by omega]
              rw [show row - (left - 1) = (row - left) + 1 by omega, sumLen]
              by_cases hlrow : left = row
              · subst hlrow; simp [sumLen]; omega
              · rw [if_neg hlrow, hinv.ls_full (by omega) hm]; push_cast; omega
            have hinv' : PlanInv A row extra (left - 1) right
                (missing - min missing ((A.ps left : ℤ) - A.pe (left - 1)))
                (min missing ((A.ps left : ℤ) - A.pe (left - 1))) rs := by
              refine ⟨by omega, hrg, hrl, by omega, hinv.rs_nonneg, ?_, hinv.rs_le, ?_, ?_, ?_⟩
              · intro _; rw [show left - 1 + 1 = left by omega]; omega
              · intro _ _; rw [show left - 1 + 1 = left by omega]; omega
              · intro h1 _; exact hinv.rs_full h1 hm
              · rw [key]; have := hinv.total; omega
            obtain ⟨m', h1, h2, h3⟩ := ih _ _ _ _ _ _ p hinv' hp
            refine ⟨m', h1, h2, fun _ => ?_⟩
            by_cases hmm : missing - min missing ((A.ps left : ℤ) - A.pe (left - 1)) > 0
            · exact h3 hmm
            · cases fuel with
              | zero => simp [planLoop] at hp
              | succ f =>
                rw [planLoop] at hp
                simp only [hmm, if_false, Option.some.injEq] at hp
                subst hp
                have t2 := h2.total
                have := hinv.total
                simp only at t2
                rw [key] at t2
                omega
          | false =>
            have hr0 := shiftDir_right hd
            simp only [hd, hr0, if_false] at hp
            have hrl := hinv.right_le
            have hrg := hinv.right_ge
            have hl := h.le right (by omega)
            have hgap : (0 : ℤ) ≤ (A.ps (right + 1) : ℤ) - A.pe right := by
              have := h.next right (by omega)
              omega
            have key : newStart A row (right + 1)
                (min missing ((A.ps (right + 1) : ℤ) - A.pe right)) =
                newStart A row right rs + min missing ((A.ps (right + 1) : ℤ) - A.pe right) := by
              unfold newStart
              rw [if_neg (by omega)]
              rw [show right + 1 - 1 = right by omega]
              rw [show right + 1 - (row + 1) = (right - (row + 1)) + 1 by omega, sumLen_snoc]
              rw [show row + 1 + (right - (row + 1)) = right by omega]
              by_cases hlrow : right = row + 1
              · subst hlrow; simp [sumLen]; omega
              · rw [if_neg hlrow, hinv.rs_full (by omega) hm]; push_cast; omega
            have hinv' : PlanInv A row extra left (right + 1)
                (missing - min missing ((A.ps (right + 1) : ℤ) - A.pe right)) ls
                (min missing ((A.ps (right + 1) : ℤ) - A.pe right)) := by
              refine ⟨hinv.left_le, by omega, by omega, hinv.ls_nonneg, by omega, hinv.ls_le, ?_, ?_, ?_, ?_⟩
              · intro _; rw [show right + 1 - 1 = right by omega]; omega
              · intro h1 _; exact hinv.ls_full h1 hm
              · intro _ _; rw [show right + 1 - 1 = right by omega]; omega
              · rw [key]; have := hinv.total; omega
            obtain ⟨m', h1, h2, h3⟩ := ih _ _ _ _ _ _ p hinv' hp
            refine ⟨m', h1, h2, fun _ => ?_⟩
            by_cases hmm : missing - min missing ((A.ps (right + 1) : ℤ) - A.pe right) > 0
            · exact h3 hmm
            · cases fuel with
              | zero => simp [planLoop] at hp
              | succ f =>
                rw [planLoop] at hp
                simp only [hmm, if_false, Option.some.injEq] at hp
                subst hp
                have t2 := h2.total
                have := hinv.total
                simp only at t2
                rw [key] at t2
                omega
    · simp only [hm, if_false, Option.some.injEq] at hp
      subst hp
      exact ⟨missing, by omega, hinv, fun h => absurd h hm⟩

/-- The fuel `m + 1` given to the planning loop is never exhausted. -/
theorem planLoop_fuel {A : Mat α} {pref : ℕ → ℕ → Bool} (fuel : ℕ) :
    ∀ (left right : ℕ) (missing remaining ls rs : ℤ), right ≤ A.m → left + (A.m - right) + 1 ≤ fuel →
    ∀ fuel' ≥ fuel, planLoop A pref fuel' left right missing remaining ls rs =
      planLoop A pref fuel left right missing remaining ls rs := by
  induction fuel with
  | zero => intro left right _ _ _ _ _ h; omega
  | succ fuel ih =>
    intro left right missing remaining ls rs hrm hf fuel' hf'
    obtain ⟨g, rfl⟩ : ∃ g, fuel' = g + 1 := ⟨fuel' - 1, by omega⟩
    rw [planLoop, planLoop]
    by_cases hm : missing > 0
    · simp only [hm, if_true]
      by_cases hlr : left = 0 ∧ right = A.m
      · simp [hlr]
      · simp only [hlr, if_false]
        cases hd : shiftDir A pref left right remaining with
        | none => rfl
        | some b =>
          cases b with
          | true =>
            have hl0 := shiftDir_left hd
            exact ih _ _ _ _ _ _ hrm (by omega) _ (by omega)
          | false =>
            have hr0 := shiftDir_right hd
            exact ih _ _ _ _ _ _ (by omega) (by omega) _ (by omega)
    · simp [hm]

end Mat
end Verif
