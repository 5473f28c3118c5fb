import Verif.Lemmas.Act

/-!
# C21: row activities are the exact extreme values of the row over the box

`actInit` is `Activity_init`.  The statements speak about the values of the row (`dot`) over
all points within the bounds; "unbounded" is stated with an arbitrary threshold.
-/

namespace Verif

open Classical in
/-- Number of cells whose term can be made smaller than any threshold within the bounds. -/
noncomputable def nUnboundedBelow (ctag : ℕ → CTag) (lb ub : ℕ → D) (cells : List Cell) : ℕ :=
  cells.countP (fun p => decide (∀ M : ℚ, ∃ v, Lo (ctag p.1).lbInf (lb p.1) v ∧
    Hi (ctag p.1).ubInf (ub p.1) v ∧ p.2 * v < M))

open Classical in
/-- Number of cells whose term can be made larger than any threshold within the bounds. -/
noncomputable def nUnboundedAbove (ctag : ℕ → CTag) (lb ub : ℕ → D) (cells : List Cell) : ℕ :=
  cells.countP (fun p => decide (∀ M : ℚ, ∃ v, Lo (ctag p.1).lbInf (lb p.1) v ∧
    Hi (ctag p.1).ubInf (ub p.1) v ∧ M < p.2 * v))

/-- Given a value within the bounds, go below any threshold when there is no lower bound. -/
theorem exists_small {t : CTag} {lb ub : D} {v0 : ℚ} (h : Hi t.ubInf ub v0) (hi : t.lbInf = true)
    (M : ℚ) : ∃ v, Lo t.lbInf lb v ∧ Hi t.ubInf ub v ∧ v < M := by
  refine ⟨min v0 (M - 1), Or.inl hi, ?_, ?_⟩
  · rcases h with h | ⟨a, rfl, h⟩
    · exact Or.inl h
    · exact Or.inr ⟨a, rfl, (min_le_left _ _).trans h⟩
  · have := min_le_right v0 (M - 1); linarith

theorem exists_large {t : CTag} {lb ub : D} {v0 : ℚ} (h : Lo t.lbInf lb v0) (hi : t.ubInf = true)
    (M : ℚ) : ∃ v, Lo t.lbInf lb v ∧ Hi t.ubInf ub v ∧ M < v := by
  refine ⟨max v0 (M + 1), ?_, Or.inl hi, ?_⟩
  · rcases h with h | ⟨a, rfl, h⟩
    · exact Or.inl h
    · exact Or.inr ⟨a, rfl, h.trans (le_max_left _ _)⟩
  · have := le_max_right v0 (M + 1); linarith

theorem unbMin_iff {ctag : ℕ → CTag} {lb ub : ℕ → D} {p : Cell} {v0 : ℚ} (hp : p.2 ≠ 0)
    (h0 : Lo (ctag p.1).lbInf (lb p.1) v0 ∧ Hi (ctag p.1).ubInf (ub p.1) v0) :
    unbMin ctag p = true ↔ ∀ M : ℚ, ∃ v, Lo (ctag p.1).lbInf (lb p.1) v ∧
      Hi (ctag p.1).ubInf (ub p.1) v ∧ p.2 * v < M := by
  constructor
  · intro h M
    unfold unbMin at h
    split at h
    · rename_i hpos
      obtain ⟨v, h1, h2, h3⟩ := exists_small (lb := lb p.1) h0.2 h (M / p.2)
      refine ⟨v, h1, h2, ?_⟩
      rw [mul_comm]; exact (lt_div_iff₀ hpos).mp h3
    · rename_i hpos
      have hneg : p.2 < 0 := lt_of_le_of_ne (not_lt.mp hpos) hp
      obtain ⟨v, h1, h2, h3⟩ := exists_large (ub := ub p.1) h0.1 h (M / p.2)
      refine ⟨v, h1, h2, ?_⟩
      rw [mul_comm]; exact (div_lt_iff_of_neg hneg).mp h3
  · intro h
    by_contra hc
    have hc : unbMin ctag p = false := by simpa using hc
    obtain ⟨v, h1, h2, h3⟩ := h (minTerm lb ub p)
    have := minTerm_le (ctag := ctag) (lb := lb) (ub := ub) (x := fun _ => v) (p := p) ⟨h1, h2⟩ hc
    exact absurd h3 (not_lt.mpr this)

theorem unbMax_iff {ctag : ℕ → CTag} {lb ub : ℕ → D} {p : Cell} {v0 : ℚ} (hp : p.2 ≠ 0)
    (h0 : Lo (ctag p.1).lbInf (lb p.1) v0 ∧ Hi (ctag p.1).ubInf (ub p.1) v0) :
    unbMax ctag p = true ↔ ∀ M : ℚ, ∃ v, Lo (ctag p.1).lbInf (lb p.1) v ∧
      Hi (ctag p.1).ubInf (ub p.1) v ∧ M < p.2 * v := by
  constructor
  · intro h M
    unfold unbMax at h
    split at h
    · rename_i hpos
      obtain ⟨v, h1, h2, h3⟩ := exists_large (ub := ub p.1) h0.1 h (M / p.2)
      refine ⟨v, h1, h2, ?_⟩
      rw [mul_comm]; exact (div_lt_iff₀ hpos).mp h3
    · rename_i hpos
      have hneg : p.2 < 0 := lt_of_le_of_ne (not_lt.mp hpos) hp
      obtain ⟨v, h1, h2, h3⟩ := exists_small (lb := lb p.1) h0.2 h (M / p.2)
      refine ⟨v, h1, h2, ?_⟩
      rw [mul_comm]; exact (lt_div_iff_of_neg hneg).mp h3
  · intro h
    by_contra hc
    have hc : unbMax ctag p = false := by simpa using hc
    obtain ⟨v, h1, h2, h3⟩ := h (maxTerm lb ub p)
    have := le_maxTerm (ctag := ctag) (lb := lb) (ub := ub) (x := fun _ => v) (p := p) ⟨h1, h2⟩ hc
    exact absurd h3 (not_lt.mpr this)

theorem sum_minTerm_le {ctag : ℕ → CTag} {lb ub : ℕ → D} {cells : List Cell} {x : ℕ → ℚ}
    (hx : ∀ p ∈ cells, InCol ctag lb ub x p.1) (h : ∀ p ∈ cells, unbMin ctag p = false) :
    (cells.map (minTerm lb ub)).sum ≤ dot cells x := by
  induction cells with
  | nil => simp
  | cons p l ih =>
    have h1 := minTerm_le (hx p List.mem_cons_self) (h p List.mem_cons_self)
    have h2 := ih (fun q hq => hx q (List.mem_cons_of_mem _ hq))
      (fun q hq => h q (List.mem_cons_of_mem _ hq))
    simp only [List.map_cons, List.sum_cons, dot_cons]; linarith

theorem le_sum_maxTerm {ctag : ℕ → CTag} {lb ub : ℕ → D} {cells : List Cell} {x : ℕ → ℚ}
    (hx : ∀ p ∈ cells, InCol ctag lb ub x p.1) (h : ∀ p ∈ cells, unbMax ctag p = false) :
    dot cells x ≤ (cells.map (maxTerm lb ub)).sum := by
  induction cells with
  | nil => simp
  | cons p l ih =>
    have h1 := le_maxTerm (hx p List.mem_cons_self) (h p List.mem_cons_self)
    have h2 := ih (fun q hq => hx q (List.mem_cons_of_mem _ hq))
      (fun q hq => h q (List.mem_cons_of_mem _ hq))
    simp only [List.map_cons, List.sum_cons, dot_cons]; linarith

/-- A point that takes prescribed values at the columns of a row. -/
theorem exists_point (cells : List Cell) (hnd : (cells.map Prod.fst).Nodup) (w : Cell → ℚ) :
    ∃ x : ℕ → ℚ, ∀ p ∈ cells, x p.1 = w p := by
  induction cells with
  | nil => exact ⟨fun _ => 0, by simp⟩
  | cons p l ih =>
    simp only [List.map_cons, List.nodup_cons] at hnd
    obtain ⟨x, hx⟩ := ih hnd.2
    refine ⟨fun k => if k = p.1 then w p else x k, ?_⟩
    intro q hq
    rcases List.mem_cons.mp hq with rfl | hq
    · simp
    · have : q.1 ≠ p.1 := fun e => hnd.1 (e ▸ List.mem_map_of_mem hq)
      simp [this, hx q hq]

theorem dot_eq_sum {cells : List Cell} {x : ℕ → ℚ} {g : Cell → ℚ}
    (h : ∀ p ∈ cells, p.2 * x p.1 = g p) : dot cells x = (cells.map g).sum := by
  unfold dot; congr 1; exact List.map_congr_left h

/-- **C21 (minimum).**  For a row with distinct columns and nonzero coefficients over a nonempty
box: the number of infinite contributions is the number of terms that are unbounded below; if it
is zero the stored minimum is finite, is a lower bound of the row over the box and is attained;
otherwise the row is unbounded below over the box. -/
theorem C21_min_activity (ctag : ℕ → CTag) (lb ub : ℕ → D) (cells : List Cell)
    (hok : ColsOK ctag lb ub cells) (hnz : ∀ p ∈ cells, p.2 ≠ 0)
    (hnd : (cells.map Prod.fst).Nodup)
    (x0 : ℕ → ℚ) (hx0 : ∀ p ∈ cells, InCol ctag lb ub x0 p.1) :
    (actInit ctag lb ub cells).nInfMin = nUnboundedBelow ctag lb ub cells ∧
    ((actInit ctag lb ub cells).nInfMin = 0 → ∃ q, (actInit ctag lb ub cells).min = .fin q ∧
      (∀ x, (∀ p ∈ cells, InCol ctag lb ub x p.1) → q ≤ dot cells x) ∧
      ∃ x, (∀ p ∈ cells, InCol ctag lb ub x p.1) ∧ dot cells x = q) ∧
    ((actInit ctag lb ub cells).nInfMin ≠ 0 →
      ∀ M : ℚ, ∃ x, (∀ p ∈ cells, InCol ctag lb ub x p.1) ∧ dot cells x < M) := by
  have hcount : (actInit ctag lb ub cells).nInfMin = (cells.countP (unbMin ctag) : ℤ) :=
    countInfMin_eq ctag cells
  refine ⟨?_, ?_, ?_⟩
  · rw [hcount]
    unfold nUnboundedBelow
    congr 1
    apply List.countP_congr
    intro p hp
    rw [unbMin_iff (hnz p hp) (hx0 p hp)]
    simp
  · intro h0
    have hall : ∀ p ∈ cells, unbMin ctag p = false := by
      rw [hcount] at h0
      have := List.countP_eq_zero.mp (by exact_mod_cast h0)
      intro p hp; simpa using this p hp
    refine ⟨(cells.map (minTerm lb ub)).sum, ?_, fun x hx => sum_minTerm_le hx hall, ?_⟩
    · have : (actInit ctag lb ub cells).min = minActNoTags lb ub cells := by
        have h0' : countInfMin ctag cells = 0 := h0
        simp [actInit, h0']
      rw [this, minActNoTags_eq hok hall]
    · obtain ⟨x, hx⟩ := exists_point cells hnd
        (fun p => if 0 < p.2 then (lb p.1).toQ else (ub p.1).toQ)
      have hle : ∀ p ∈ cells, (ctag p.1).lbInf = false → (ctag p.1).ubInf = false →
          (lb p.1).toQ ≤ (ub p.1).toQ := fun p hp h1 h2 =>
        ((hx0 p hp).1.le h1).trans ((hx0 p hp).2.le h2)
      refine ⟨x, ?_, dot_eq_sum ?_⟩
      · intro p hp
        have hu := hall p hp
        have hxp := hx p hp
        unfold unbMin at hu
        by_cases hpos : 0 < p.2
        · simp only [hpos, if_true] at hu hxp
          refine ⟨Or.inr ⟨_, (hok p hp).1.eq hu, hxp.ge⟩, ?_⟩
          cases h2 : (ctag p.1).ubInf
          · exact Or.inr ⟨_, (hok p hp).2.eq h2, hxp ▸ hle p hp hu h2⟩
          · simp
        · simp only [hpos, if_false] at hu hxp
          refine ⟨?_, Or.inr ⟨_, (hok p hp).2.eq hu, hxp.le⟩⟩
          cases h2 : (ctag p.1).lbInf
          · exact Or.inr ⟨_, (hok p hp).1.eq h2, hxp ▸ hle p hp h2 hu⟩
          · simp
      · intro p hp
        rw [hx p hp]; unfold minTerm
        split <;> rfl
  · intro hne M
    have hpos : 0 < cells.countP (unbMin ctag) := by
      rcases Nat.eq_zero_or_pos (cells.countP (unbMin ctag)) with h | h
      · exact absurd (by rw [hcount, h]; rfl) hne
      · exact h
    obtain ⟨p, hp, hpu⟩ := List.countP_pos_iff.mp hpos
    obtain ⟨v, h1, h2, h3⟩ := (unbMin_iff (hnz p hp) (hx0 p hp)).mp hpu
      (M - dot cells x0 + p.2 * x0 p.1)
    refine ⟨fun k => if k = p.1 then v else x0 k, ?_, ?_⟩
    · intro q hq
      by_cases he : q.1 = p.1
      · unfold InCol; simp only [he, if_true]; exact ⟨h1, h2⟩
      · have := hx0 q hq; unfold InCol at *; simpa [he] using this
    · rw [dot_update_mem hnd (a := p.2) (by simpa using hp)]
      linarith

/-- **C21 (maximum).** -/
theorem C21_max_activity (ctag : ℕ → CTag) (lb ub : ℕ → D) (cells : List Cell)
    (hok : ColsOK ctag lb ub cells) (hnz : ∀ p ∈ cells, p.2 ≠ 0)
    (hnd : (cells.map Prod.fst).Nodup)
    (x0 : ℕ → ℚ) (hx0 : ∀ p ∈ cells, InCol ctag lb ub x0 p.1) :
    (actInit ctag lb ub cells).nInfMax = nUnboundedAbove ctag lb ub cells ∧
    ((actInit ctag lb ub cells).nInfMax = 0 → ∃ q, (actInit ctag lb ub cells).max = .fin q ∧
      (∀ x, (∀ p ∈ cells, InCol ctag lb ub x p.1) → dot cells x ≤ q) ∧
      ∃ x, (∀ p ∈ cells, InCol ctag lb ub x p.1) ∧ dot cells x = q) ∧
    ((actInit ctag lb ub cells).nInfMax ≠ 0 →
      ∀ M : ℚ, ∃ x, (∀ p ∈ cells, InCol ctag lb ub x p.1) ∧ M < dot cells x) := by
  have hcount : (actInit ctag lb ub cells).nInfMax = (cells.countP (unbMax ctag) : ℤ) :=
    countInfMax_eq ctag cells
  refine ⟨?_, ?_, ?_⟩
  · rw [hcount]
    unfold nUnboundedAbove
    congr 1
    apply List.countP_congr
    intro p hp
    rw [unbMax_iff (hnz p hp) (hx0 p hp)]
    simp
  · intro h0
    have hall : ∀ p ∈ cells, unbMax ctag p = false := by
      rw [hcount] at h0
      have := List.countP_eq_zero.mp (by exact_mod_cast h0)
      intro p hp; simpa using this p hp
    refine ⟨(cells.map (maxTerm lb ub)).sum, ?_, fun x hx => le_sum_maxTerm hx hall, ?_⟩
    · have : (actInit ctag lb ub cells).max = maxActNoTags lb ub cells := by
        have h0' : countInfMax ctag cells = 0 := h0
        simp [actInit, h0']
      rw [this, maxActNoTags_eq hok hall]
    · obtain ⟨x, hx⟩ := exists_point cells hnd
        (fun p => if 0 < p.2 then (ub p.1).toQ else (lb p.1).toQ)
      have hle : ∀ p ∈ cells, (ctag p.1).lbInf = false → (ctag p.1).ubInf = false →
          (lb p.1).toQ ≤ (ub p.1).toQ := fun p hp h1 h2 =>
        ((hx0 p hp).1.le h1).trans ((hx0 p hp).2.le h2)
      refine ⟨x, ?_, dot_eq_sum ?_⟩
      · intro p hp
        have hu := hall p hp
        have hxp := hx p hp
        unfold unbMax at hu
        by_cases hpos : 0 < p.2
        · simp only [hpos, if_true] at hu hxp
          refine ⟨?_, Or.inr ⟨_, (hok p hp).2.eq hu, hxp.le⟩⟩
          cases h2 : (ctag p.1).lbInf
          · exact Or.inr ⟨_, (hok p hp).1.eq h2, hxp ▸ hle p hp h2 hu⟩
          · simp
        · simp only [hpos, if_false] at hu hxp
          refine ⟨Or.inr ⟨_, (hok p hp).1.eq hu, hxp.ge⟩, ?_⟩
          cases h2 : (ctag p.1).ubInf
          · exact Or.inr ⟨_, (hok p hp).2.eq h2, hxp ▸ hle p hp hu h2⟩
          · simp
      · intro p hp
        rw [hx p hp]; unfold maxTerm
        split <;> rfl
  · intro hne M
    have hpos : 0 < cells.countP (unbMax ctag) := by
      rcases Nat.eq_zero_or_pos (cells.countP (unbMax ctag)) with h | h
      · exact absurd (by rw [hcount, h]; rfl) hne
      · exact h
    obtain ⟨p, hp, hpu⟩ := List.countP_pos_iff.mp hpos
    obtain ⟨v, h1, h2, h3⟩ := (unbMax_iff (hnz p hp) (hx0 p hp)).mp hpu
      (M - dot cells x0 + p.2 * x0 p.1)
    refine ⟨fun k => if k = p.1 then v else x0 k, ?_, ?_⟩
    · intro q hq
      by_cases he : q.1 = p.1
      · unfold InCol; simp only [he, if_true]; exact ⟨h1, h2⟩
      · have := hx0 q hq; unfold InCol at *; simpa [he] using this
    · rw [dot_update_mem hnd (a := p.2) (by simpa using hp)]
      linarith

/-- The hypotheses of C21 are met by `2 x0 - 3 x1` with `x0 ∈ [1,4]`, `x1 ∈ [-1, 5]`. -/
example : ∃ q, (actInit (fun _ => {}) (fun k => .fin (if k = 0 then 1 else -1))
      (fun k => .fin (if k = 0 then 4 else 5)) [(0, 2), (1, -3)]).min = .fin q ∧
    ∃ x, dot [(0, 2), (1, -3)] x = q := by
  have h := C21_min_activity (fun _ => {}) (fun k => .fin (if k = 0 then 1 else -1))
    (fun k => .fin (if k = 0 then 4 else 5)) [(0, 2), (1, -3)]
    (by intro p _; exact ⟨by simp, by simp⟩) (by simp) (by simp) (fun k => if k = 0 then 1 else 0)
    (by intro p hp; simp at hp; rcases hp with rfl | rfl <;> norm_num [InCol])
  obtain ⟨q, h1, _, x, _, h3⟩ := h.2.1 (by decide)
  exact ⟨q, h1, x, h3⟩

end Verif
