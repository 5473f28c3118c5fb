import Verif.Model.Activity
import Verif.Spec.LP

/-! # Lemmas about activities -/

namespace Verif

/-- A fold over doubles whose every step adds a finite number. -/
theorem foldl_fin {α : Type} (step : D → α → D) (g : α → ℚ) (l : List α)
    (h : ∀ p ∈ l, ∀ a, step (.fin a) p = .fin (a + g p)) (a : ℚ) :
    l.foldl step (.fin a) = .fin (a + (l.map g).sum) := by
  induction l generalizing a with
  | nil => simp
  | cons p l ih =>
    rw [List.foldl_cons, h p List.mem_cons_self, ih (fun q hq => h q (List.mem_cons_of_mem _ hq))]
    simp [add_assoc]

/-- The term has an unbounded contribution to the minimal activity. -/
def unbMin (ctag : ℕ → CTag) (p : Cell) : Bool :=
  if 0 < p.2 then (ctag p.1).lbInf else (ctag p.1).ubInf

/-- The term has an unbounded contribution to the maximal activity. -/
def unbMax (ctag : ℕ → CTag) (p : Cell) : Bool :=
  if 0 < p.2 then (ctag p.1).ubInf else (ctag p.1).lbInf

/-- Finite contribution to the minimal activity. -/
def minTerm (lb ub : ℕ → D) (p : Cell) : ℚ :=
  if 0 < p.2 then p.2 * (lb p.1).toQ else p.2 * (ub p.1).toQ

/-- Finite contribution to the maximal activity. -/
def maxTerm (lb ub : ℕ → D) (p : Cell) : ℚ :=
  if 0 < p.2 then p.2 * (ub p.1).toQ else p.2 * (lb p.1).toQ

theorem foldl_count {α : Type} (f : ℤ → α → ℤ) (b : α → Bool)
    (h : ∀ k p, f k p = if b p then k + 1 else k) (l : List α) (k : ℤ) :
    l.foldl f k = k + (l.countP b : ℤ) := by
  induction l generalizing k with
  | nil => simp
  | cons p l ih =>
    rw [List.foldl_cons, ih, h]
    by_cases hb : b p = true
    · rw [if_pos hb, List.countP_cons_of_pos hb]; push_cast; ring
    · rw [if_neg hb, List.countP_cons_of_neg hb]

theorem countInfMin_eq (ctag : ℕ → CTag) (cells : List Cell) :
    countInfMin ctag cells = (cells.countP (unbMin ctag) : ℤ) := by
  unfold countInfMin
  rw [foldl_count _ (unbMin ctag)]
  · simp
  · intro k p; unfold unbMin; split <;> rfl

theorem countInfMax_eq (ctag : ℕ → CTag) (cells : List Cell) :
    countInfMax ctag cells = (cells.countP (unbMax ctag) : ℤ) := by
  unfold countInfMax
  rw [foldl_count _ (unbMax ctag)]
  · simp
  · intro k p; unfold unbMax; split <;> rfl

/-- Bounds that are not tagged infinite are finite, for the columns of a row. -/
def ColsOK (ctag : ℕ → CTag) (lb ub : ℕ → D) (cells : List Cell) : Prop :=
  ∀ p ∈ cells, FinIf (ctag p.1).lbInf (lb p.1) ∧ FinIf (ctag p.1).ubInf (ub p.1)

theorem FinIf.eq {inf : Bool} {d : D} (h : FinIf inf d) (hi : inf = false) : d = .fin d.toQ := by
  obtain ⟨a, rfl⟩ := h hi; rfl

theorem minActNoTags_eq {ctag : ℕ → CTag} {lb ub : ℕ → D} {cells : List Cell}
    (hok : ColsOK ctag lb ub cells) (h : ∀ p ∈ cells, unbMin ctag p = false) :
    minActNoTags lb ub cells = .fin ((cells.map (minTerm lb ub)).sum) := by
  unfold minActNoTags
  rw [foldl_fin _ (minTerm lb ub)]
  · simp
  · intro p hp a
    have hu := h p hp
    unfold unbMin at hu
    unfold minTerm
    split at hu
    · rename_i h0
      rw [if_pos h0, if_pos h0, (hok p hp).1.eq hu]; rfl
    · rename_i h0
      rw [if_neg h0, if_neg h0, (hok p hp).2.eq hu]; rfl

theorem maxActNoTags_eq {ctag : ℕ → CTag} {lb ub : ℕ → D} {cells : List Cell}
    (hok : ColsOK ctag lb ub cells) (h : ∀ p ∈ cells, unbMax ctag p = false) :
    maxActNoTags lb ub cells = .fin ((cells.map (maxTerm lb ub)).sum) := by
  unfold maxActNoTags
  rw [foldl_fin _ (maxTerm lb ub)]
  · simp
  · intro p hp a
    have hu := h p hp
    unfold unbMax at hu
    unfold maxTerm
    split at hu
    · rename_i h0
      rw [if_pos h0, if_pos h0, (hok p hp).2.eq hu]; rfl
    · rename_i h0
      rw [if_neg h0, if_neg h0, (hok p hp).1.eq hu]; rfl

theorem minActTags_eq {ctag : ℕ → CTag} {lb ub : ℕ → D} {cells : List Cell}
    (hok : ColsOK ctag lb ub cells) :
    minActTags ctag lb ub cells =
      .fin ((cells.map (fun p => if unbMin ctag p then 0 else minTerm lb ub p)).sum) := by
  unfold minActTags
  rw [foldl_fin _ (fun p => if unbMin ctag p then 0 else minTerm lb ub p)]
  · simp
  · intro p hp a
    unfold unbMin minTerm
    by_cases h0 : 0 < p.2
    · simp only [h0, if_true]
      cases h1 : (ctag p.1).lbInf
      · rw [(hok p hp).1.eq h1]; simp
      · simp
    · simp only [h0, if_false]
      cases h1 : (ctag p.1).ubInf
      · rw [(hok p hp).2.eq h1]; simp
      · simp

theorem maxActTags_eq {ctag : ℕ → CTag} {lb ub : ℕ → D} {cells : List Cell}
    (hok : ColsOK ctag lb ub cells) :
    maxActTags ctag lb ub cells =
      .fin ((cells.map (fun p => if unbMax ctag p then 0 else maxTerm lb ub p)).sum) := by
  unfold maxActTags
  rw [foldl_fin _ (fun p => if unbMax ctag p then 0 else maxTerm lb ub p)]
  · simp
  · intro p hp a
    unfold unbMax maxTerm
    by_cases h0 : 0 < p.2
    · simp only [h0, if_true]
      cases h1 : (ctag p.1).ubInf
      · rw [(hok p hp).2.eq h1]; simp
      · simp
    · simp only [h0, if_false]
      cases h1 : (ctag p.1).lbInf
      · rw [(hok p hp).1.eq h1]; simp
      · simp

/-- `x` is within the bounds of column `k`. -/
def InCol (ctag : ℕ → CTag) (lb ub : ℕ → D) (x : ℕ → ℚ) (k : ℕ) : Prop :=
  Lo (ctag k).lbInf (lb k) (x k) ∧ Hi (ctag k).ubInf (ub k) (x k)

theorem Lo.le {d : D} {v : ℚ} {inf : Bool} (h : Lo inf d v) (hi : inf = false) : d.toQ ≤ v := by
  rcases h with h | ⟨a, rfl, h⟩
  · simp [h] at hi
  · exact h

theorem Hi.le {d : D} {v : ℚ} {inf : Bool} (h : Hi inf d v) (hi : inf = false) : v ≤ d.toQ := by
  rcases h with h | ⟨a, rfl, h⟩
  · simp [h] at hi
  · exact h

theorem minTerm_le {ctag : ℕ → CTag} {lb ub : ℕ → D} {x : ℕ → ℚ} {p : Cell}
    (hx : InCol ctag lb ub x p.1) (h : unbMin ctag p = false) :
    minTerm lb ub p ≤ p.2 * x p.1 := by
  unfold unbMin at h; unfold minTerm
  split at h
  · rename_i h0; rw [if_pos h0]
    exact mul_le_mul_of_nonneg_left (hx.1.le h) h0.le
  · rename_i h0; rw [if_neg h0]
    exact mul_le_mul_of_nonpos_left (hx.2.le h) (not_lt.mp h0)

theorem le_maxTerm {ctag : ℕ → CTag} {lb ub : ℕ → D} {x : ℕ → ℚ} {p : Cell}
    (hx : InCol ctag lb ub x p.1) (h : unbMax ctag p = false) :
    p.2 * x p.1 ≤ maxTerm lb ub p := by
  unfold unbMax at h; unfold maxTerm
  split at h
  · rename_i h0; rw [if_pos h0]
    exact mul_le_mul_of_nonneg_left (hx.2.le h) h0.le
  · rename_i h0; rw [if_neg h0]
    exact mul_le_mul_of_nonpos_left (hx.1.le h) (not_lt.mp h0)

end Verif
