import Verif.Lemmas.Frame
import Mathlib.Algebra.BigOperators.Group.Finset.Basic
import Mathlib.Algebra.BigOperators.Intervals

/-! # `update_lb` and `update_ub` -/

namespace Verif

/-- `v` is within the bounds of column `k` (a fixed column has finite bounds). -/
def ColIn (s : St) (k : ℕ) (v : ℚ) : Prop :=
  Lo (effTag (s.ctag k)).lbInf (s.lb k) v ∧ Hi (effTag (s.ctag k)).ubInf (s.ub k) v

/-- `v` is within the bounds of column `k` up to `ε`. -/
def ColInTol (ε : ℚ) (s : St) (k : ℕ) (v : ℚ) : Prop :=
  Lo (effTag (s.ctag k)).lbInf (s.lb k) (v + ε) ∧ Hi (effTag (s.ctag k)).ubInf (s.ub k) (v - ε)

/-- Bounds of column `k` that are not tagged infinite are finite. -/
def ColFin (s : St) (k : ℕ) : Prop :=
  FinIf (s.ctag k).lbInf (s.lb k) ∧ FinIf (s.ctag k).ubInf (s.ub k)

/-- The rows that are still part of the problem hold at `x` and the columns that are still part of
the problem are within their bounds. -/
def FeasPt (s : St) (x : ℕ → ℚ) : Prop :=
  (∀ i < s.m, (s.rtag i).inactive = false → RowOK s i x) ∧
  (∀ k < s.n, s.colSize k ≠ -1 → (s.ctag k).subst = false → ColIn s k (x k))

/-- Objective of the columns `0..n-1` at `x` (without the offset). -/
def objective (s : St) (x : ℕ → ℚ) : ℚ := ∑ j ∈ Finset.range s.n, s.c j * x j

/-- The point `x` with the value of column `k` replaced by `v`. -/
def setAt (x : ℕ → ℚ) (k : ℕ) (v : ℚ) : ℕ → ℚ := fun j => if j = k then v else x j

@[simp] theorem setAt_same (x : ℕ → ℚ) (k : ℕ) (v : ℚ) : setAt x k v k = v := by simp [setAt]
@[simp] theorem setAt_ne (x : ℕ → ℚ) {j k : ℕ} (v : ℚ) (h : j ≠ k) : setAt x k v j = x j := by
  simp [setAt, h]

theorem objective_setAt (s : St) (x : ℕ → ℚ) {k : ℕ} (hk : k < s.n) (v : ℚ) :
    objective s (setAt x k v) = objective s x + s.c k * (v - x k) := by
  unfold objective
  have h : k ∈ Finset.range s.n := Finset.mem_range.mpr hk
  rw [← Finset.add_sum_erase _ _ h, ← Finset.add_sum_erase (a := k) _ _ h]
  have : ∑ j ∈ (Finset.range s.n).erase k, s.c j * setAt x k v j =
      ∑ j ∈ (Finset.range s.n).erase k, s.c j * x j :=
    Finset.sum_congr rfl (fun j hj => by rw [setAt_ne x v (Finset.ne_of_mem_erase hj)])
  rw [this]
  simp
  ring

theorem ColIn.tol {ε : ℚ} (hε : 0 ≤ ε) {s : St} {k : ℕ} {v : ℚ} (h : ColIn s k v) :
    ColInTol ε s k v := ⟨h.1.mono (by linarith), h.2.mono (by linarith)⟩

theorem sameRows_check' (s : St) (b : Bool) : SameRows s (s.check b) := by
  constructor <;> simp [St.check]

/-- The three ways `update_ub` ends. -/
theorem updateUb_cases (s : St) (k : ℕ) (nb : D) (row : ℕ) :
    let r := updateUb s k nb row
    SameRows s r.1 ∧
    ((r.2 = INFEASIBLE ∧ r.1.lb = s.lb ∧ r.1.ub = s.ub ∧ r.1.ctag = s.ctag ∧ r.1.log = s.log ∧
        r.1.fixedCols = s.fixedCols ∧ r.1.act = s.act ∧
        (s.ctag k).lbInf = false ∧ D.le nb (D.sub (s.lb k) (.fin FEAS_TOL)) = true) ∨
     (r.2 = UNCHANGED ∧ r.1.lb = s.lb ∧ r.1.ub = upd s.ub k nb ∧
        r.1.ctag = upd s.ctag k { s.ctag k with ubInf := false } ∧
        r.1.log = .boundChangeTheRow row (s.A row) 1 :: .boundChangeNoRow k nb (s.lb k) true :: s.log ∧
        r.1.fixedCols = s.fixedCols ∧
        (!(s.ctag k).lbInf && D.le nb (D.sub (s.lb k) (.fin FEAS_TOL))) = false ∧
        ((s.ctag k).ubInf || D.le nb (D.sub (s.ub k) (.fin FEAS_TOL))) = true) ∨
     (r.2 = UNCHANGED ∧ r.1.lb = s.lb ∧ r.1.ub = s.ub ∧ r.1.ctag = s.ctag ∧ r.1.log = s.log ∧
        r.1.fixedCols = s.fixedCols ∧ r.1.act = s.act ∧
        (s.ctag k).ubInf = false ∧ D.le nb (D.sub (s.ub k) (.fin FEAS_TOL)) = false)) := by
  intro r
  obtain ⟨hr⟩ : Nonempty (r = updateUb s k nb row) := ⟨rfl⟩
  clear_value r
  unfold updateUb at hr
  simp only at hr
  have sr := sameRows_check' s (!(s.ctag k).inactive)
  have e1 : (s.check (!(s.ctag k).inactive)).lb = s.lb := rfl
  have e2 : (s.check (!(s.ctag k).inactive)).ub = s.ub := rfl
  have e3 : (s.check (!(s.ctag k).inactive)).ctag = s.ctag := rfl
  have e4 : (s.check (!(s.ctag k).inactive)).log = s.log := rfl
  have e5 : (s.check (!(s.ctag k).inactive)).fixedCols = s.fixedCols := rfl
  have e6 : (s.check (!(s.ctag k).inactive)).act = s.act := rfl
  generalize s.check (!(s.ctag k).inactive) = s0 at hr sr e1 e2 e3 e4 e5 e6
  split at hr
  · rename_i h
    simp only [e1, e2, e3] at h
    simp only [Bool.and_eq_true, Bool.not_eq_true'] at h
    subst hr
    exact ⟨sr, Or.inl ⟨rfl, e1, e2, e3, e4, e5, e6, h.1, h.2⟩⟩
  rename_i hn
  simp only [e1, e2, e3] at hn
  split at hr
  · rename_i h
    simp only [e1, e2, e3] at h
    have h1 := updActsBoundChange_same ({ s0 with ub := upd s0.ub k nb })
      (s0.AT k) (s.ub k) nb (!(s0.ctag k).ubInf) false
    have hs : SameRows s0 { s0 with ub := upd s0.ub k nb } := by constructor <;> rfl
    generalize updActsBoundChange ({ s0 with ub := upd s0.ub k nb })
      (s0.AT k) (s.ub k) nb (!(s0.ctag k).ubInf) false = u at h1 hr
    have f1 := h1.lb
    have f2 := h1.ub
    have f3 := h1.ctag
    have f4 := h1.log
    have f5 := h1.fixedCols
    have f6 := h1.A
    simp only at f1 f2 f3 f4 f5 f6
    subst hr
    refine ⟨?_, Or.inr (Or.inl ⟨rfl, ?_, ?_, ?_, ?_, ?_, by simpa using hn, h⟩)⟩
    · refine ((sr.trans hs).trans h1.toSameRows).trans ?_
      constructor <;> simp [St.save]
    · simp only [St.save]; rw [f1, e1]
    · simp only [St.save]; rw [f2, e2]
    · simp only [St.save]; rw [f3, e3]
    · simp only [St.save]; rw [f4, e4, f6, sr.A]
    · simp only [St.save]; rw [f5, e5]
  · rename_i h
    simp only [e1, e2, e3] at h
    simp only [Bool.or_eq_true, not_or, Bool.not_eq_true] at h
    subst hr
    exact ⟨sr, Or.inr (Or.inr ⟨rfl, e1, e2, e3, e4, e5, e6, h.1, h.2⟩)⟩

/-- The three ways `update_lb` ends. -/
theorem updateLb_cases (s : St) (k : ℕ) (nb : D) (row : ℕ) :
    let r := updateLb s k nb row
    SameRows s r.1 ∧
    ((r.2 = INFEASIBLE ∧ r.1.lb = s.lb ∧ r.1.ub = s.ub ∧ r.1.ctag = s.ctag ∧ r.1.log = s.log ∧
        r.1.fixedCols = s.fixedCols ∧ r.1.act = s.act ∧
        (s.ctag k).ubInf = false ∧ D.le (D.add (s.ub k) (.fin FEAS_TOL)) nb = true) ∨
     (r.2 = UNCHANGED ∧ r.1.ub = s.ub ∧ r.1.lb = upd s.lb k nb ∧
        r.1.ctag = upd s.ctag k { s.ctag k with lbInf := false } ∧
        r.1.log = .boundChangeTheRow row (s.A row) 1 :: .boundChangeNoRow k nb (s.ub k) false :: s.log ∧
        r.1.fixedCols = s.fixedCols ∧
        (!(s.ctag k).ubInf && D.le (D.add (s.ub k) (.fin FEAS_TOL)) nb) = false ∧
        ((s.ctag k).lbInf || D.le (D.add (s.lb k) (.fin FEAS_TOL)) nb) = true) ∨
     (r.2 = UNCHANGED ∧ r.1.lb = s.lb ∧ r.1.ub = s.ub ∧ r.1.ctag = s.ctag ∧ r.1.log = s.log ∧
        r.1.fixedCols = s.fixedCols ∧ r.1.act = s.act ∧
        (s.ctag k).lbInf = false ∧ D.le (D.add (s.lb k) (.fin FEAS_TOL)) nb = false)) := by
  intro r
  obtain ⟨hr⟩ : Nonempty (r = updateLb s k nb row) := ⟨rfl⟩
  clear_value r
  unfold updateLb at hr
  simp only at hr
  have sr := sameRows_check' s (!(s.ctag k).inactive)
  have e1 : (s.check (!(s.ctag k).inactive)).lb = s.lb := rfl
  have e2 : (s.check (!(s.ctag k).inactive)).ub = s.ub := rfl
  have e3 : (s.check (!(s.ctag k).inactive)).ctag = s.ctag := rfl
  have e4 : (s.check (!(s.ctag k).inactive)).log = s.log := rfl
  have e5 : (s.check (!(s.ctag k).inactive)).fixedCols = s.fixedCols := rfl
  have e6 : (s.check (!(s.ctag k).inactive)).act = s.act := rfl
  generalize s.check (!(s.ctag k).inactive) = s0 at hr sr e1 e2 e3 e4 e5 e6
  split at hr
  · rename_i h
    simp only [e1, e2, e3] at h
    simp only [Bool.and_eq_true, Bool.not_eq_true'] at h
    subst hr
    exact ⟨sr, Or.inl ⟨rfl, e1, e2, e3, e4, e5, e6, h.1, h.2⟩⟩
  rename_i hn
  simp only [e1, e2, e3] at hn
  split at hr
  · rename_i h
    simp only [e1, e2, e3] at h
    have h1 := updActsBoundChange_same ({ s0 with lb := upd s0.lb k nb })
      (s0.AT k) (s.lb k) nb (!(s0.ctag k).lbInf) true
    have hs : SameRows s0 { s0 with lb := upd s0.lb k nb } := by constructor <;> rfl
    generalize updActsBoundChange ({ s0 with lb := upd s0.lb k nb })
      (s0.AT k) (s.lb k) nb (!(s0.ctag k).lbInf) true = u at h1 hr
    have f1 := h1.lb
    have f2 := h1.ub
    have f3 := h1.ctag
    have f4 := h1.log
    have f5 := h1.fixedCols
    have f6 := h1.A
    simp only at f1 f2 f3 f4 f5 f6
    subst hr
    refine ⟨?_, Or.inr (Or.inl ⟨rfl, ?_, ?_, ?_, ?_, ?_, by simpa using hn, h⟩)⟩
    · refine ((sr.trans hs).trans h1.toSameRows).trans ?_
      constructor <;> simp [St.save]
    · simp only [St.save]; rw [f2, e2]
    · simp only [St.save]; rw [f1, e1]
    · simp only [St.save]; rw [f3, e3]
    · simp only [St.save]; rw [f4, e4, f6, sr.A]
    · simp only [St.save]; rw [f5, e5]
  · rename_i h
    simp only [e1, e2, e3] at h
    simp only [Bool.or_eq_true, not_or, Bool.not_eq_true] at h
    subst hr
    exact ⟨sr, Or.inr (Or.inr ⟨rfl, e1, e2, e3, e4, e5, e6, h.1, h.2⟩)⟩

/-- Meaning of a bound change: the new bounds of column `k` are the old ones intersected with the
values that satisfy `P`, up to the feasibility tolerance. -/
structure Tightened (s s' : St) (k : ℕ) (P : ℚ → Prop) : Prop where
  rows : SameRows s s'
  others : ∀ j, j ≠ k → s'.lb j = s.lb j ∧ s'.ub j = s.ub j ∧ s'.ctag j = s.ctag j
  fixed : (s'.ctag k).fixed = (s.ctag k).fixed ∧ (s'.ctag k).subst = (s.ctag k).subst
  fin : ColFin s' k
  fixedCols : s'.fixedCols = s.fixedCols
  keep : ∀ v, ColIn s k v → P v → ColIn s' k v
  old : ∀ v, ColIn s' k v → ColIn s k v
  new : ∀ v, ColIn s' k v → ∃ w, P w ∧ |v - w| ≤ FEAS_TOL

/-- **update_ub** with a finite new bound. -/
theorem updateUb_sound (s : St) (k : ℕ) (b : ℚ) (row : ℕ) (hact : (s.ctag k).inactive = false)
    (hf : ColFin s k) :
    let r := updateUb s k (.fin b) row
    (r.2 = INFEASIBLE ∧ ∀ v, ColIn s k v → ¬ v ≤ b) ∨
    (r.2 = UNCHANGED ∧ Tightened s r.1 k (fun v => v ≤ b)) := by
  have hε := FEAS_TOL_pos
  intro r
  have hfx : (s.ctag k).fixed = false ∧ (s.ctag k).subst = false := by
    simpa [CTag.inactive] using hact
  have het : effTag (s.ctag k) = s.ctag k := effTag_active hact
  obtain ⟨sr, h | h | h⟩ := updateUb_cases s k (.fin b) row
  · left
    obtain ⟨h1, _, _, _, _, _, _, h2, h3⟩ := h
    refine ⟨h1, ?_⟩
    intro v hv hb
    obtain ⟨l, e⟩ := hf.1 h2
    unfold ColIn at hv; rw [het] at hv
    have := hv.1.le h2
    rw [e] at h3 this
    simp only [D.sub_fin, D.le_fin, decide_eq_true_eq, D.toQ_fin] at h3 this
    linarith
  · right
    obtain ⟨h1, h2, h3, h4, _, h5, h6, h7⟩ := h
    have h2 : r.1.lb = s.lb := h2
    have h3 : r.1.ub = upd s.ub k (.fin b) := h3
    have h4 : r.1.ctag = _ := h4
    have het' : effTag (r.1.ctag k) = { s.ctag k with ubInf := false } := by
      rw [h4, upd_same]; unfold effTag; simp [hfx.1]
    refine ⟨h1, sr, ?_, ?_, ?_, h5, ?_, ?_, ?_⟩
    · intro j hj; rw [h2, h3, h4]; simp [hj]
    · rw [h4]; simp
    · unfold ColFin; rw [h2, h3, h4]; simp; exact hf.1
    · intro v hv hb
      unfold ColIn at hv ⊢; rw [het] at hv; rw [het', h2, h3]
      exact ⟨hv.1, by simpa using hb⟩
    · intro v hv
      unfold ColIn at hv ⊢; rw [het'] at hv; rw [het]; rw [h2, h3] at hv
      refine ⟨hv.1, ?_⟩
      have hb : v ≤ b := by simpa using hv.2
      cases hi : (s.ctag k).ubInf
      · obtain ⟨u, e⟩ := hf.2 hi
        rw [hi, e] at h7
        simp only [D.sub_fin, D.le_fin, Bool.false_or, decide_eq_true_eq] at h7
        rw [e]; simp; linarith
      · simp
    · intro v hv
      unfold ColIn at hv; rw [het', h2, h3] at hv
      exact ⟨v, by simpa using hv.2, by simpa using hε.le⟩
  · right
    obtain ⟨h1, h2, h3, h4, _, h5, _, h6, h7⟩ := h
    have h2 : r.1.lb = s.lb := h2
    have h3 : r.1.ub = s.ub := h3
    have h4 : r.1.ctag = s.ctag := h4
    obtain ⟨u, e⟩ := hf.2 h6
    have hEq : ∀ v, ColIn r.1 k v ↔ ColIn s k v := by
      intro v; unfold ColIn; rw [h2, h3, h4]
    refine ⟨h1, sr, ?_, ?_, ?_, h5, ?_, ?_, ?_⟩
    · intro j hj; rw [h2, h3, h4]; simp
    · rw [h4]; simp
    · unfold ColFin; rw [h2, h3, h4]; exact hf
    · intro v hv _; exact (hEq v).mpr hv
    · intro v hv; exact (hEq v).mp hv
    · intro v hv
      have hv := (hEq v).mp hv
      unfold ColIn at hv; rw [het] at hv
      have := hv.2.le h6
      rw [e] at h7 this
      simp only [D.sub_fin, D.le_fin, decide_eq_false_iff_not, not_le, D.toQ_fin] at h7 this
      refine ⟨min v b, min_le_right _ _, ?_⟩
      rcases le_total v b with hvb | hvb
      · rw [min_eq_left hvb]; simpa using hε.le
      · rw [min_eq_right hvb, abs_of_nonneg (by linarith)]; linarith

/-- **update_lb** with a finite new bound. -/
theorem updateLb_sound (s : St) (k : ℕ) (b : ℚ) (row : ℕ) (hact : (s.ctag k).inactive = false)
    (hf : ColFin s k) :
    let r := updateLb s k (.fin b) row
    (r.2 = INFEASIBLE ∧ ∀ v, ColIn s k v → ¬ b ≤ v) ∨
    (r.2 = UNCHANGED ∧ Tightened s r.1 k (fun v => b ≤ v)) := by
  have hε := FEAS_TOL_pos
  intro r
  have hfx : (s.ctag k).fixed = false ∧ (s.ctag k).subst = false := by
    simpa [CTag.inactive] using hact
  have het : effTag (s.ctag k) = s.ctag k := effTag_active hact
  obtain ⟨sr, h | h | h⟩ := updateLb_cases s k (.fin b) row
  · left
    obtain ⟨h1, _, _, _, _, _, _, h2, h3⟩ := h
    refine ⟨h1, ?_⟩
    intro v hv hb
    obtain ⟨l, e⟩ := hf.2 h2
    unfold ColIn at hv; rw [het] at hv
    have := hv.2.le h2
    rw [e] at h3 this
    simp only [D.add_fin, D.le_fin, decide_eq_true_eq, D.toQ_fin] at h3 this
    linarith
  · right
    obtain ⟨h1, h2, h3, h4, _, h5, h6, h7⟩ := h
    have h2 : r.1.ub = s.ub := h2
    have h3 : r.1.lb = upd s.lb k (.fin b) := h3
    have h4 : r.1.ctag = _ := h4
    have het' : effTag (r.1.ctag k) = { s.ctag k with lbInf := false } := by
      rw [h4, upd_same]; unfold effTag; simp [hfx.1]
    refine ⟨h1, sr, ?_, ?_, ?_, h5, ?_, ?_, ?_⟩
    · intro j hj; rw [h2, h3, h4]; simp [hj]
    · rw [h4]; simp
    · unfold ColFin; rw [h2, h3, h4]; simp; exact hf.2
    · intro v hv hb
      unfold ColIn at hv ⊢; rw [het] at hv; rw [het', h2, h3]
      exact ⟨by simpa using hb, hv.2⟩
    · intro v hv
      unfold ColIn at hv ⊢; rw [het'] at hv; rw [het]; rw [h2, h3] at hv
      refine ⟨?_, hv.2⟩
      have hb : b ≤ v := by simpa using hv.1
      cases hi : (s.ctag k).lbInf
      · obtain ⟨u, e⟩ := hf.1 hi
        rw [hi, e] at h7
        simp only [D.add_fin, D.le_fin, Bool.false_or, decide_eq_true_eq] at h7
        rw [e]; simp; linarith
      · simp
    · intro v hv
      unfold ColIn at hv; rw [het', h2, h3] at hv
      exact ⟨v, by simpa using hv.1, by simpa using hε.le⟩
  · right
    obtain ⟨h1, h2, h3, h4, _, h5, _, h6, h7⟩ := h
    have h2 : r.1.lb = s.lb := h2
    have h3 : r.1.ub = s.ub := h3
    have h4 : r.1.ctag = s.ctag := h4
    obtain ⟨u, e⟩ := hf.1 h6
    have hEq : ∀ v, ColIn r.1 k v ↔ ColIn s k v := by
      intro v; unfold ColIn; rw [h2, h3, h4]
    refine ⟨h1, sr, ?_, ?_, ?_, h5, ?_, ?_, ?_⟩
    · intro j hj; rw [h2, h3, h4]; simp
    · rw [h4]; simp
    · unfold ColFin; rw [h2, h3, h4]; exact hf
    · intro v hv _; exact (hEq v).mpr hv
    · intro v hv; exact (hEq v).mp hv
    · intro v hv
      have hv := (hEq v).mp hv
      unfold ColIn at hv; rw [het] at hv
      have := hv.1.le h6
      rw [e] at h7 this
      simp only [D.add_fin, D.le_fin, decide_eq_false_iff_not, not_le, D.toQ_fin] at h7 this
      refine ⟨max v b, le_max_right _ _, ?_⟩
      rcases le_total b v with hvb | hvb
      · rw [max_eq_left hvb]; simpa using hε.le
      · rw [max_eq_right hvb, abs_of_nonpos (by linarith)]; linarith

end Verif
