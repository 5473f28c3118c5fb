import Verif.Model.ParRows
import Verif.Lemmas.Feas
import Verif.Lemmas.Sides

/-! # Lemmas on merging parallel rows -/

namespace Verif

/-- An upper side: absent and stored as `+inf`, or a number. -/
def HiForm (inf : Bool) (d : D) : Prop := (inf = true ∧ d = .pinf) ∨ (inf = false ∧ ∃ a, d = .fin a)
/-- A lower side: absent and stored as `-inf`, or a number. -/
def LoForm (inf : Bool) (d : D) : Prop := (inf = true ∧ d = .ninf) ∨ (inf = false ∧ ∃ a, d = .fin a)

/-- What is required of a row in a group. -/
structure RowForm (s : St) (i : ℕ) : Prop where
  lhs : LoForm (s.rtag i).lhsInf (s.lhs i)
  rhs : HiForm (s.rtag i).rhsInf (s.rhs i)
  eq : (s.rtag i).eq = true → (s.rtag i).lhsInf = false ∧ (s.rtag i).rhsInf = false ∧ s.lhs i = s.rhs i
  nz : firstCoef (s.A i) ≠ 0

/-- Row `i` holds when the common direction of the group has value `t`. -/
def RowAt (s : St) (i : ℕ) (t : ℚ) : Prop :=
  Sides (s.rtag i) (s.lhs i) (s.rhs i) (firstCoef (s.A i) * t)

/-- Row `i` holds up to `ε` times its scale. -/
def RowAtTol (s : St) (ε : ℚ) (i : ℕ) (t : ℚ) : Prop :=
  SidesTol (|firstCoef (s.A i)| * ε) (s.rtag i) (s.lhs i) (s.rhs i) (firstCoef (s.A i) * t)

theorem RowAt.tol {s : St} {i : ℕ} {t ε : ℚ} (hε : 0 ≤ ε) (h : RowAt s i t) : RowAtTol s ε i t :=
  Sides.tol (mul_nonneg (abs_nonneg _) hε) h

/-- The sides collected for the remaining row, as a set of values of it. -/
def PIn (p : ParRow) (v : ℚ) : Prop := Lo p.lhsInf p.newLhs v ∧ Hi p.rhsInf p.newRhs v

theorem eq_RowAt {s : St} {i : ℕ} {t b : ℚ} (h : RowForm s i) (he : (s.rtag i).eq = true)
    (hb : s.rhs i = .fin b) : RowAt s i t ↔ firstCoef (s.A i) * t = b := by
  obtain ⟨h1, h2, h3⟩ := h.eq he
  unfold RowAt Sides
  rw [h1, h2, h3, hb]
  simp only [Lo_fin, Hi_fin]
  constructor
  · rintro ⟨a, b⟩; linarith
  · rintro rfl; simp

theorem mul_div_scale {f g t : ℚ} (hg : g ≠ 0) (hf : f ≠ 0) : g * t * (f / g) = f * t := by
  field_simp

/-- Upper half of `parTighten`. -/
def tightHi (p : ParRow) (o : ℕ) (ρ : ℚ) (ti : Bool) (r : D) : ParRow :=
  if !ti && (p.rhsInf || D.lt r p.newRhs) then
    { p with rhsIdx := o, rhsRatio := ρ, newRhs := r, rhsInf := false } else p

/-- Lower half of `parTighten`. -/
def tightLo (p : ParRow) (o : ℕ) (ρ : ℚ) (ti : Bool) (l : D) : ParRow :=
  if !ti && (p.lhsInf || D.lt p.newLhs l) then
    { p with lhsIdx := o, lhsRatio := ρ, newLhs := l, lhsInf := false } else p

theorem tightHi_iff {p : ParRow} {o : ℕ} {ρ : ℚ} {ti : Bool} {r : D}
    (hr : FinIf p.rhsInf p.newRhs) (h : FinIf ti r) :
    let p' := tightHi p o ρ ti r
    (∀ v, Hi p'.rhsInf p'.newRhs v ↔ Hi p.rhsInf p.newRhs v ∧ Hi ti r v) ∧
    FinIf p'.rhsInf p'.newRhs ∧ p'.rem = p.rem ∧ p'.isEq = p.isEq ∧
    p'.lhsInf = p.lhsInf ∧ p'.newLhs = p.newLhs := by
  intro p'
  rcases ti with _ | _
  · obtain ⟨q, rfl⟩ := h rfl
    by_cases hc : (p.rhsInf || D.lt (.fin q) p.newRhs) = true
    · have e : p' = { p with rhsIdx := o, rhsRatio := ρ, newRhs := .fin q, rhsInf := false } := by
        simp only [p', tightHi, hc, Bool.not_false, Bool.true_and, if_true]
      rw [e]
      refine ⟨fun v => ?_, by simp, rfl, rfl, rfl, rfl⟩
      simp only [Hi_fin]
      refine ⟨fun hv => ⟨?_, hv⟩, fun hv => hv.2⟩
      rcases hi : p.rhsInf with _ | _
      · obtain ⟨b, hb⟩ := hr hi
        rw [hi, hb] at hc
        simp at hc
        rw [hb, Hi_fin]; linarith
      · simp
    · have e : p' = p := by
        simp only [p', tightHi, hc, Bool.not_false, Bool.true_and]; rfl
      rw [e]
      refine ⟨fun v => ?_, hr, rfl, rfl, rfl, rfl⟩
      refine ⟨fun hv => ⟨hv, ?_⟩, fun hv => hv.1⟩
      simp only [Bool.or_eq_true, not_or, Bool.not_eq_true] at hc
      obtain ⟨b, hb⟩ := hr hc.1
      rw [hb] at hc hv
      rw [hc.1] at hv
      simp at hc hv ⊢
      linarith
  · have e : p' = p := by simp [p', tightHi]
    rw [e]
    simp [hr]

theorem tightLo_iff {p : ParRow} {o : ℕ} {ρ : ℚ} {ti : Bool} {l : D}
    (hl : FinIf p.lhsInf p.newLhs) (h : FinIf ti l) :
    let p' := tightLo p o ρ ti l
    (∀ v, Lo p'.lhsInf p'.newLhs v ↔ Lo p.lhsInf p.newLhs v ∧ Lo ti l v) ∧
    FinIf p'.lhsInf p'.newLhs ∧ p'.rem = p.rem ∧ p'.isEq = p.isEq ∧
    p'.rhsInf = p.rhsInf ∧ p'.newRhs = p.newRhs := by
  intro p'
  rcases ti with _ | _
  · obtain ⟨q, rfl⟩ := h rfl
    by_cases hc : (p.lhsInf || D.lt p.newLhs (.fin q)) = true
    · have e : p' = { p with lhsIdx := o, lhsRatio := ρ, newLhs := .fin q, lhsInf := false } := by
        simp only [p', tightLo, hc, Bool.not_false, Bool.true_and, if_true]
      rw [e]
      refine ⟨fun v => ?_, by simp, rfl, rfl, rfl, rfl⟩
      simp only [Lo_fin]
      refine ⟨fun hv => ⟨?_, hv⟩, fun hv => hv.2⟩
      rcases hi : p.lhsInf with _ | _
      · obtain ⟨b, hb⟩ := hl hi
        rw [hi, hb] at hc
        simp at hc
        rw [hb, Lo_fin]; linarith
      · simp
    · have e : p' = p := by
        simp only [p', tightLo, hc, Bool.not_false, Bool.true_and]; rfl
      rw [e]
      refine ⟨fun v => ?_, hl, rfl, rfl, rfl, rfl⟩
      refine ⟨fun hv => ⟨hv, ?_⟩, fun hv => hv.1⟩
      simp only [Bool.or_eq_true, not_or, Bool.not_eq_true] at hc
      obtain ⟨b, hb⟩ := hl hc.1
      rw [hb] at hc hv
      rw [hc.1] at hv
      simp at hc hv ⊢
      linarith
  · have e : p' = p := by simp [p', tightLo]
    rw [e]
    simp [hl]

theorem Hi_scale {inf : Bool} {d : D} {ρ w : ℚ} (h : FinIf inf d) (hp : 0 < ρ) :
    Hi inf (D.smul ρ d) (ρ * w) ↔ Hi inf d w := by
  rcases inf with _ | _
  · obtain ⟨a, rfl⟩ := h rfl
    simp [mul_le_mul_iff_right₀ hp]
  · simp

theorem Lo_scale {inf : Bool} {d : D} {ρ w : ℚ} (h : FinIf inf d) (hp : 0 < ρ) :
    Lo inf (D.smul ρ d) (ρ * w) ↔ Lo inf d w := by
  rcases inf with _ | _
  · obtain ⟨a, rfl⟩ := h rfl
    simp [mul_le_mul_iff_right₀ hp]
  · simp

theorem Lo_scale_neg {inf : Bool} {d : D} {ρ w : ℚ} (h : FinIf inf d) (hp : ρ < 0) :
    Lo inf (D.smul ρ d) (ρ * w) ↔ Hi inf d w := by
  rcases inf with _ | _
  · obtain ⟨a, rfl⟩ := h rfl
    simp [mul_le_mul_left_of_neg hp]
  · simp

theorem Hi_scale_neg {inf : Bool} {d : D} {ρ w : ℚ} (h : FinIf inf d) (hp : ρ < 0) :
    Hi inf (D.smul ρ d) (ρ * w) ↔ Lo inf d w := by
  rcases inf with _ | _
  · obtain ⟨a, rfl⟩ := h rfl
    simp [mul_le_mul_left_of_neg hp]
  · simp

theorem FinIf.smul {inf : Bool} {d : D} (h : FinIf inf d) (ρ : ℚ) : FinIf inf (D.smul ρ d) := by
  intro hi
  obtain ⟨a, rfl⟩ := h hi
  exact ⟨_, rfl⟩

theorem LoForm.fin {inf : Bool} {d : D} (h : LoForm inf d) : FinIf inf d := by
  rcases h with ⟨rfl, _⟩ | ⟨_, a, rfl⟩ <;> simp
theorem HiForm.fin {inf : Bool} {d : D} (h : HiForm inf d) : FinIf inf d := by
  rcases h with ⟨rfl, _⟩ | ⟨_, a, rfl⟩ <;> simp

/-- The side of row `i` that limits the direction from below, seen from a row with first
coefficient `f`. -/
def DLo (s : St) (f : ℚ) (i : ℕ) (t : ℚ) : Prop :=
  if 0 < f / firstCoef (s.A i) then Lo (s.rtag i).lhsInf (s.lhs i) (firstCoef (s.A i) * t)
  else Hi (s.rtag i).rhsInf (s.rhs i) (firstCoef (s.A i) * t)

/-- The side of row `i` that limits the direction from above. -/
def DHi (s : St) (f : ℚ) (i : ℕ) (t : ℚ) : Prop :=
  if 0 < f / firstCoef (s.A i) then Hi (s.rtag i).rhsInf (s.rhs i) (firstCoef (s.A i) * t)
  else Lo (s.rtag i).lhsInf (s.lhs i) (firstCoef (s.A i) * t)

theorem RowAt_iff (s : St) (f : ℚ) (i : ℕ) (t : ℚ) : RowAt s i t ↔ DLo s f i t ∧ DHi s f i t := by
  unfold RowAt Sides DLo DHi
  split
  · rfl
  · exact and_comm

/-- A violation by `TOL` of the row with first coefficient `f` is one of `|f i / f| TOL` in row `i`. -/
theorem RowAtTol_of {s : St} {f ε δ : ℚ} {i : ℕ} {t : ℚ} (hf : f ≠ 0)
    (hi : firstCoef (s.A i) ≠ 0) (hε : |f| * ε = δ)
    (h1 : DLo s f i (t + δ / f)) (h2 : DHi s f i (t - δ / f)) : RowAtTol s ε i t := by
  unfold DLo at h1
  unfold DHi at h2
  unfold RowAtTol SidesTol
  have hε' : ε = δ / |f| := by
    have := abs_pos.mpr hf; field_simp; linarith
  generalize firstCoef (s.A i) = g at *
  by_cases hp : 0 < f / g
  · rw [if_pos hp] at h1 h2
    have e : |g| * ε = g * (δ / f) := by
      rw [hε']
      rcases lt_or_gt_of_ne hf with h | h
      · have : g < 0 := by
          by_contra hc
          have hg : 0 < g := lt_of_le_of_ne (not_lt.mp hc) (Ne.symm hi)
          have := div_neg_of_neg_of_pos h hg; linarith
        rw [abs_of_neg h, abs_of_neg this]; field_simp
      · have : 0 < g := by
          by_contra hc
          have hg : g < 0 := lt_of_le_of_ne (not_lt.mp hc) hi
          have := div_neg_of_pos_of_neg h hg; linarith
        rw [abs_of_pos h, abs_of_pos this]
    rw [e]
    refine ⟨?_, ?_⟩
    · rw [← mul_add]; exact h1
    · rw [← mul_sub]; exact h2
  · rw [if_neg hp] at h1 h2
    have e : |g| * ε = - (g * (δ / f)) := by
      rw [hε']
      rcases lt_or_gt_of_ne hf with h | h
      · have : 0 < g := by
          by_contra hc
          have hg : g < 0 := lt_of_le_of_ne (not_lt.mp hc) hi
          exact hp (div_pos_of_neg_of_neg h hg)
        rw [abs_of_neg h, abs_of_pos this]; field_simp
      · have : g < 0 := by
          by_contra hc
          have hg : 0 < g := lt_of_le_of_ne (not_lt.mp hc) (Ne.symm hi)
          exact hp (div_pos h hg)
        rw [abs_of_pos h, abs_of_neg this]; ring
    rw [e]
    refine ⟨?_, ?_⟩
    · rw [← sub_eq_add_neg, ← mul_sub]; exact h2
    · rw [sub_neg_eq_add, ← mul_add]; exact h1

/-- Tightening adds exactly the sides of the other row. -/
theorem parTighten_iff {s : St} {p : ParRow} {o : ℕ} {f : ℚ} (h : RowForm s o)
    (hf : f ≠ 0) (hl : FinIf p.lhsInf p.newLhs) (hr : FinIf p.rhsInf p.newRhs) :
    let p' := parTighten s p o (f / firstCoef (s.A o))
    (∀ t, (Lo p'.lhsInf p'.newLhs (f * t) ↔ Lo p.lhsInf p.newLhs (f * t) ∧ DLo s f o t) ∧
      (Hi p'.rhsInf p'.newRhs (f * t) ↔ Hi p.rhsInf p.newRhs (f * t) ∧ DHi s f o t)) ∧
    FinIf p'.lhsInf p'.newLhs ∧ FinIf p'.rhsInf p'.newRhs ∧ p'.rem = p.rem ∧ p'.isEq = p.isEq := by
  have hg := h.nz
  have hrho : f / firstCoef (s.A o) ≠ 0 := div_ne_zero hf hg
  have hv : ∀ t, f * t = f / firstCoef (s.A o) * (firstCoef (s.A o) * t) := by
    intro t; field_simp
  unfold DLo DHi
  generalize f / firstCoef (s.A o) = ρ at hrho hv ⊢
  have hL := h.lhs.fin
  have hR := h.rhs.fin
  rcases lt_or_gt_of_ne hrho with hneg | hpos
  · have hn : ¬ 0 < ρ := by linarith
    have e : parTighten s p o ρ = tightHi (tightLo p o ρ (s.rtag o).rhsInf (D.smul ρ (s.rhs o))) o ρ
        (s.rtag o).lhsInf (D.smul ρ (s.lhs o)) := by
      unfold parTighten; simp only [if_neg hn]; rfl
    rw [e]
    obtain ⟨a1, a2, a3, a4, a5, a6⟩ := tightLo_iff (o := o) (ρ := ρ) hl (hR.smul ρ)
    generalize tightLo p o ρ (s.rtag o).rhsInf (D.smul ρ (s.rhs o)) = p1 at *
    obtain ⟨b1, b2, b3, b4, b5, b6⟩ := tightHi_iff (p := p1) (o := o) (ρ := ρ)
      (by rw [a5, a6]; exact hr) (hL.smul ρ)
    generalize tightHi p1 o ρ (s.rtag o).lhsInf (D.smul ρ (s.lhs o)) = p2 at *
    refine ⟨fun t => ?_, by rw [b5, b6]; exact a2, b2, b3.trans a3, b4.trans a4⟩
    rw [b5, b6, b1, a1, a5, a6, hv t, Hi_scale_neg hL hneg, Lo_scale_neg hR hneg, if_neg hn, if_neg hn]
    tauto
  · have e : parTighten s p o ρ = tightLo (tightHi p o ρ (s.rtag o).rhsInf (D.smul ρ (s.rhs o))) o ρ
        (s.rtag o).lhsInf (D.smul ρ (s.lhs o)) := by
      unfold parTighten; simp only [if_pos hpos]; rfl
    rw [e]
    obtain ⟨a1, a2, a3, a4, a5, a6⟩ := tightHi_iff (o := o) (ρ := ρ) hr (hR.smul ρ)
    generalize tightHi p o ρ (s.rtag o).rhsInf (D.smul ρ (s.rhs o)) = p1 at *
    obtain ⟨b1, b2, b3, b4, b5, b6⟩ := tightLo_iff (p := p1) (o := o) (ρ := ρ)
      (by rw [a5, a6]; exact hl) (hL.smul ρ)
    generalize tightLo p1 o ρ (s.rtag o).lhsInf (D.smul ρ (s.lhs o)) = p2 at *
    refine ⟨fun t => ?_, b2, by rw [b5, b6]; exact a2, b3.trans a3, b4.trans a4⟩
    rw [b5, b6, b1, a1, a5, a6, hv t, Hi_scale hR hpos, Lo_scale hL hpos, if_pos hpos, if_pos hpos]
    tauto

/-- An equality against an inequality: the test is exact. -/
theorem parInfeas_iff {s : St} {p : ParRow} {o : ℕ} {f t b : ℚ} (h : RowForm s o)
    (hf : f ≠ 0) (hb : p.newRhs = .fin b) (ht : f * t = b) :
    parInfeas s p o (f / firstCoef (s.A o)) = false ↔ RowAt s o t := by
  have hg := h.nz
  have hrho : f / firstCoef (s.A o) ≠ 0 := div_ne_zero hf hg
  have hv : f * t = f / firstCoef (s.A o) * (firstCoef (s.A o) * t) := by field_simp
  have hL := h.lhs.fin
  have hR := h.rhs.fin
  unfold RowAt Sides parInfeas
  rw [hb]
  rw [ht] at hv
  generalize f / firstCoef (s.A o) = ρ at hrho hv ⊢
  generalize firstCoef (s.A o) * t = w at hv ⊢
  subst hv
  rcases lt_or_gt_of_ne hrho with hneg | hpos
  · have hn : ¬ 0 < ρ := by linarith
    rw [← Lo_scale_neg (w := w) hR hneg, ← Hi_scale_neg (w := w) hL hneg]
    rcases hi : (s.rtag o).lhsInf with _ | _ <;> rcases hi' : (s.rtag o).rhsInf with _ | _
    · obtain ⟨a, ha⟩ := hL hi
      obtain ⟨c, hc⟩ := hR hi'
      simp [ha, hc, hneg, hn, hi, hi']; try tauto
    · obtain ⟨a, ha⟩ := hL hi
      simp [ha, hneg, hn, hi, hi']
    · obtain ⟨c, hc⟩ := hR hi'
      simp [hc, hneg, hn, hi, hi']
    · simp [hi, hi']
  · have hn : ¬ ρ < 0 := by linarith
    rw [← Lo_scale (w := w) hL hpos, ← Hi_scale (w := w) hR hpos]
    rcases hi : (s.rtag o).lhsInf with _ | _ <;> rcases hi' : (s.rtag o).rhsInf with _ | _
    · obtain ⟨a, ha⟩ := hL hi
      obtain ⟨c, hc⟩ := hR hi'
      simp [ha, hc, hpos, hn, hi, hi']; try tauto
    · obtain ⟨a, ha⟩ := hL hi
      simp [ha, hpos, hn, hi, hi']
    · obtain ⟨c, hc⟩ := hR hi'
      simp [hc, hpos, hn, hi, hi']
    · simp [hi, hi']

/-- Loop invariant of `process_single_bin`; `done` are the rows seen so far. -/
structure PInv (s : St) (done : List ℕ) (p : ParRow) : Prop where
  rem : p.rem ∈ done
  isEq : p.isEq = (s.rtag p.rem).eq
  eqRhs : p.isEq = true → p.newRhs = s.rhs p.rem
  fin : p.isEq = false → FinIf p.lhsInf p.newLhs ∧ FinIf p.rhsInf p.newRhs
  ineq : p.isEq = false → ∀ i ∈ done, (s.rtag i).eq = false
  allLo : p.isEq = false → ∀ t, Lo p.lhsInf p.newLhs (firstCoef (s.A p.rem) * t) ↔
    ∀ i ∈ done, DLo s (firstCoef (s.A p.rem)) i t
  allHi : p.isEq = false → ∀ t, Hi p.rhsInf p.newRhs (firstCoef (s.A p.rem) * t) ↔
    ∀ i ∈ done, DHi s (firstCoef (s.A p.rem)) i t

theorem PInv.all {s : St} {done : List ℕ} {p : ParRow} (h : PInv s done p) (he : p.isEq = false) (t : ℚ) :
    PIn p (firstCoef (s.A p.rem) * t) ↔ ∀ i ∈ done, RowAt s i t := by
  unfold PIn
  rw [h.allLo he, h.allHi he]
  constructor
  · rintro ⟨h1, h2⟩ i hi; exact (RowAt_iff s _ i t).mpr ⟨h1 i hi, h2 i hi⟩
  · intro hh
    exact ⟨fun i hi => ((RowAt_iff s _ i t).mp (hh i hi)).1, fun i hi => ((RowAt_iff s _ i t).mp (hh i hi)).2⟩

/-- What the remaining equality still guarantees about the rows seen so far. -/
def EqCovers (s : St) (done : List ℕ) (r : ℕ) : Prop :=
  ∀ t, RowAt s r t → ∀ i ∈ done, RowAtTol s (FEAS_TOL / |firstCoef (s.A r)|) i t

theorem eq_tol {s : St} {r o : ℕ} {t b c : ℚ} (hr : RowForm s r) (ho : RowForm s o)
    (he : (s.rtag o).eq = true) (hb : firstCoef (s.A r) * t = b) (hc : s.rhs o = .fin c)
    (h : |b - firstCoef (s.A r) / firstCoef (s.A o) * c| ≤ FEAS_TOL) :
    RowAtTol s (FEAS_TOL / |firstCoef (s.A r)|) o t := by
  obtain ⟨h1, h2, h3⟩ := ho.eq he
  have hr0 := abs_pos.mpr hr.nz
  have ho0 := abs_pos.mpr ho.nz
  have key : |firstCoef (s.A o) * t - c| ≤ |firstCoef (s.A o)| * (FEAS_TOL / |firstCoef (s.A r)|) := by
    have e : firstCoef (s.A o) * t - c =
        firstCoef (s.A o) / firstCoef (s.A r) * (b - firstCoef (s.A r) / firstCoef (s.A o) * c) := by
      rw [← hb]
      have := hr.nz; have := ho.nz
      field_simp
    rw [e, abs_mul, abs_div]
    calc |firstCoef (s.A o)| / |firstCoef (s.A r)| * _
        ≤ |firstCoef (s.A o)| / |firstCoef (s.A r)| * FEAS_TOL :=
          mul_le_mul_of_nonneg_left h (by positivity)
      _ = _ := by ring
  unfold RowAtTol SidesTol
  rw [h1, h2, h3, hc, Lo_fin, Hi_fin]
  rw [abs_le] at key
  constructor <;> linarith

/-- One step of the loop: infeasibility is reported only if two rows exclude each other, and the
invariant is kept. -/
theorem parRowStep_inv {s : St} {done : List ℕ} {p : ParRow} {i : ℕ} (h : PInv s done p)
    (hd : ∀ j ∈ done, RowForm s j) (hi : RowForm s i) :
    match parRowStep s p i with
    | none => ∀ t, ¬ (RowAt s p.rem t ∧ RowAt s i t)
    | some p' => PInv s (done ++ [i]) p' ∧
        (p.isEq = true → p'.rem = p.rem ∧ (EqCovers s done p.rem → EqCovers s (done ++ [i]) p'.rem)) ∧
        (p.isEq = false → p'.isEq = true → p'.rem = i ∧ EqCovers s [p.rem, i] i) ∧
        (p'.isEq = false → p.isEq = false ∧ (s.rtag i).eq = false) := by
  have hr := hd _ h.rem
  have hε := FEAS_TOL_pos
  by_cases hsw : (!p.isEq && (s.rtag i).eq) = true
  · -- swap
    simp only [Bool.and_eq_true, Bool.not_eq_true'] at hsw
    obtain ⟨hpe, hie⟩ := hsw
    have hre : (s.rtag p.rem).eq = false := by rw [← h.isEq]; exact hpe
    obtain ⟨i1, i2, i3⟩ := hi.eq hie
    obtain ⟨b, hb⟩ := hi.rhs.fin i2
    have e : parRowStep s p i = if parInfeas s { p with rem := i, isEq := true, newRhs := s.rhs i, newLhs := s.lhs i }
        p.rem (firstCoef (s.A i) / firstCoef (s.A p.rem)) then none else
        some { p with rem := i, isEq := true, newRhs := s.rhs i, newLhs := s.lhs i } := by
      unfold parRowStep parSwap
      simp [hpe, hie, hre]
    rw [e]
    have key : ∀ t, RowAt s i t → (parInfeas s { p with rem := i, isEq := true, newRhs := s.rhs i, newLhs := s.lhs i }
        p.rem (firstCoef (s.A i) / firstCoef (s.A p.rem)) = false ↔ RowAt s p.rem t) := by
      intro t ht
      exact parInfeas_iff hr hi.nz hb ((eq_RowAt hi hie hb).mp ht)
    split
    · rename_i hc
      split at hc
      · rename_i hh
        rintro t ⟨t1, t2⟩
        rw [(key t t2).mpr t1] at hh; cases hh
      · cases hc
    · rename_i p' hc
      split at hc
      · cases hc
      · rename_i hh
        have hh := Bool.eq_false_iff.mpr hh
        simp only [Option.some.injEq] at hc
        subst hc
        refine ⟨⟨by simp, hie.symm, fun _ => rfl, by simp, by simp, by simp, by simp⟩, ?_, ?_, by simp⟩
        · intro h; rw [hpe] at h; cases h
        · intro _ _
          refine ⟨rfl, fun t ht j hj => ?_⟩
          simp only [List.mem_cons, List.not_mem_nil, or_false] at hj
          rcases hj with rfl | rfl
          · exact ((key t ht).mp hh).tol (by positivity)
          · exact ht.tol (by positivity)
  · have hsw := Bool.eq_false_iff.mpr hsw
    have e : parSwap s p i = (p, i) := by unfold parSwap; rw [hsw]; rfl
    by_cases hpe : p.isEq = true
    · have hre : (s.rtag p.rem).eq = true := by rw [← h.isEq]; exact hpe
      obtain ⟨i1, i2, i3⟩ := hr.eq hre
      obtain ⟨b, hb⟩ := hr.rhs.fin i2
      by_cases hie : (s.rtag i).eq = true
      · obtain ⟨j1, j2, j3⟩ := hi.eq hie
        obtain ⟨c, hc⟩ := hi.rhs.fin j2
        have e2 : parRowStep s p i = if isEqualFeasTol p.newRhs
            (D.smul (firstCoef (s.A p.rem) / firstCoef (s.A i)) (s.rhs i)) then some p else none := by
          unfold parRowStep; rw [e]; simp [hpe, hie]
        rw [e2, h.eqRhs hpe, hb, hc]
        simp only [D.smul_fin, isEqualFeasTol_fin]
        split
        · rename_i hh
          split at hh
          · cases hh
          · rename_i hn
            rintro t ⟨t1, t2⟩
            rw [eq_RowAt hr hre hb] at t1
            rw [eq_RowAt hi hie hc] at t2
            apply hn
            rw [← t1, ← t2]
            have := hi.nz
            rw [show firstCoef (s.A p.rem) * t - firstCoef (s.A p.rem) / firstCoef (s.A i) *
              (firstCoef (s.A i) * t) = 0 by field_simp; ring]
            simpa using hε.le
        · rename_i p' hh
          split at hh
          · rename_i hn
            simp only [Option.some.injEq] at hh
            subst hh
            have hn : |b - firstCoef (s.A p.rem) / firstCoef (s.A i) * c| ≤ FEAS_TOL := by
              simpa using hn
            refine ⟨⟨by simp [h.rem], h.isEq, h.eqRhs, h.fin, fun h' => by simp [hpe] at h',
              fun h' => by simp [hpe] at h', fun h' => by simp [hpe] at h'⟩, ?_, fun h' => by simp [hpe] at h', fun h' => by simp [hpe] at h'⟩
            intro _
            refine ⟨rfl, fun hcov t ht j hj => ?_⟩
            rcases List.mem_append.mp hj with hj | hj
            · exact hcov t ht j hj
            · simp only [List.mem_cons, List.not_mem_nil, or_false] at hj
              subst hj
              exact eq_tol hr hi hie ((eq_RowAt hr hre hb).mp ht) hc hn
          · cases hh
      · have hie := Bool.eq_false_iff.mpr hie
        have e2 : parRowStep s p i = if parInfeas s p i (firstCoef (s.A p.rem) / firstCoef (s.A i))
            then none else some p := by
          unfold parRowStep; rw [e]; simp [hpe, hie]
        have key : ∀ t, RowAt s p.rem t →
            (parInfeas s p i (firstCoef (s.A p.rem) / firstCoef (s.A i)) = false ↔ RowAt s i t) := by
          intro t ht
          exact parInfeas_iff hi hr.nz (by rw [h.eqRhs hpe, hb]) ((eq_RowAt hr hre hb).mp ht)
        rw [e2]
        split
        · rename_i hh
          split at hh
          · rename_i hn
            rintro t ⟨t1, t2⟩
            rw [(key t t1).mpr t2] at hn; cases hn
          · cases hh
        · rename_i p' hh
          split at hh
          · cases hh
          · rename_i hn
            have hn := Bool.eq_false_iff.mpr hn
            simp only [Option.some.injEq] at hh
            subst hh
            refine ⟨⟨by simp [h.rem], h.isEq, h.eqRhs, h.fin, fun h' => by simp [hpe] at h',
              fun h' => by simp [hpe] at h', fun h' => by simp [hpe] at h'⟩, ?_, fun h' => by simp [hpe] at h', fun h' => by simp [hpe] at h'⟩
            intro _
            refine ⟨rfl, fun hcov t ht j hj => ?_⟩
            rcases List.mem_append.mp hj with hj | hj
            · exact hcov t ht j hj
            · simp only [List.mem_cons, List.not_mem_nil, or_false] at hj
              subst hj
              exact ((key t ht).mp hn).tol (by positivity)
    · have hpe := Bool.eq_false_iff.mpr hpe
      have hie : (s.rtag i).eq = false := by
        cases hh : (s.rtag i).eq
        · rfl
        · rw [hpe, hh] at hsw; cases hsw
      have e2 : parRowStep s p i =
          some (parTighten s p i (firstCoef (s.A p.rem) / firstCoef (s.A i))) := by
        unfold parRowStep; rw [e]; simp [hpe]
      rw [e2]
      obtain ⟨f1, f2⟩ := h.fin hpe
      obtain ⟨a1, a2, a3, a4, a5⟩ := parTighten_iff (s := s) (o := i) hi hr.nz f1 f2
      generalize parTighten s p i (firstCoef (s.A p.rem) / firstCoef (s.A i)) = p' at *
      simp only
      refine ⟨⟨by simp [a4, h.rem], by rw [a4, a5]; exact h.isEq, fun h' => ?_, fun _ => ⟨a2, a3⟩, ?_, ?_, ?_⟩,
        fun h' => ?_, fun _ h' => ?_, fun _ => ⟨hpe, hie⟩⟩
      · rw [a5, hpe] at h'; cases h'
      · intro _ j hj
        rcases List.mem_append.mp hj with hj | hj
        · exact h.ineq hpe j hj
        · simp only [List.mem_cons, List.not_mem_nil, or_false] at hj
          rw [hj]; exact hie
      · intro _ t
        rw [a4, (a1 t).1, h.allLo hpe]
        simp only [List.mem_append, List.mem_cons, List.not_mem_nil, or_false]
        constructor
        · rintro ⟨h1, h2⟩ j (hj | rfl)
          · exact h1 j hj
          · exact h2
        · intro hh; exact ⟨fun j hj => hh j (Or.inl hj), hh i (Or.inr rfl)⟩
      · intro _ t
        rw [a4, (a1 t).2, h.allHi hpe]
        simp only [List.mem_append, List.mem_cons, List.not_mem_nil, or_false]
        constructor
        · rintro ⟨h1, h2⟩ j (hj | rfl)
          · exact h1 j hj
          · exact h2
        · intro hh; exact ⟨fun j hj => hh j (Or.inl hj), hh i (Or.inr rfl)⟩
      · rw [hpe] at h'; cases h'
      · rw [a5, hpe] at h'; cases h'

/-- First half of `parApply`. -/
def parApplyR (s : St) (p : ParRow) : St × Status :=
  if !p.rhsInf && !D.eqb p.newRhs (s.rhs p.rem) then
      changeRhs s p.rem p.newRhs p.rhsIdx p.rhsRatio else (s, UNCHANGED)

/-- Second half of `parApply`. -/
def parApplyL (s : St) (p : ParRow) : St × Status :=
  if !p.lhsInf && !D.eqb p.newLhs (s.lhs p.rem) then
      changeLhs s p.rem p.newLhs p.lhsIdx p.lhsRatio
    else (s, UNCHANGED)

theorem parApply_eq {s : St} {p : ParRow} (h : p.isEq = false) : parApply s p =
    if (parApplyR s p).2 = INFEASIBLE then parApplyR s p else parApplyL (parApplyR s p).1 p := by
  unfold parApply parApplyR parApplyL
  rw [h]; rfl

/-- Only the sides of row `k` changed. -/
structure OnlyRow (s s' : St) (k : ℕ) : Prop where
  frame : SideFrame s s'
  lhs : ∀ i, i ≠ k → s'.lhs i = s.lhs i
  rhs : ∀ i, i ≠ k → s'.rhs i = s.rhs i
  rtag : ∀ i, i ≠ k → s'.rtag i = s.rtag i
  act : (s'.rtag k).inactive = (s.rtag k).inactive

theorem OnlyRow.refl (s : St) (k : ℕ) : OnlyRow s s k :=
  ⟨.refl s, fun _ _ => rfl, fun _ _ => rfl, fun _ _ => rfl, rfl⟩

theorem OnlyRow.trans {a b c : St} {k : ℕ} (h : OnlyRow a b k) (h' : OnlyRow b c k) : OnlyRow a c k :=
  ⟨h.frame.trans h'.frame, fun i hi => (h'.lhs i hi).trans (h.lhs i hi),
    fun i hi => (h'.rhs i hi).trans (h.rhs i hi), fun i hi => (h'.rtag i hi).trans (h.rtag i hi),
    h'.act.trans h.act⟩

theorem parApplyR_sound {s : St} {p : ParRow} (hform : HiForm (s.rtag p.rem).rhsInf (s.rhs p.rem))
    (hlf : LoForm (s.rtag p.rem).lhsInf (s.lhs p.rem)) (hfin : FinIf p.rhsInf p.newRhs)
    (hinf : p.rhsInf = true → (s.rtag p.rem).rhsInf = true) :
    let r := parApplyR s p
    OnlyRow s r.1 p.rem ∧ r.1.lhs = s.lhs ∧ (r.1.rtag p.rem).lhsInf = (s.rtag p.rem).lhsInf ∧
    (r.2 = INFEASIBLE → ∀ v, ¬ (Hi p.rhsInf p.newRhs v ∧ Lo (s.rtag p.rem).lhsInf (s.lhs p.rem) v)) ∧
    (r.2 ≠ INFEASIBLE →
      HiForm (r.1.rtag p.rem).rhsInf (r.1.rhs p.rem) ∧
      (∀ v, Hi p.rhsInf p.newRhs v → Hi (r.1.rtag p.rem).rhsInf (r.1.rhs p.rem) (v - FEAS_TOL)) ∧
      (∀ v, Hi (r.1.rtag p.rem).rhsInf (r.1.rhs p.rem) v → Hi p.rhsInf p.newRhs (v - FEAS_TOL)) ∧
      ((∀ v, Hi p.rhsInf p.newRhs v → Hi (r.1.rtag p.rem).rhsInf (r.1.rhs p.rem) v) ∨
        ∃ a, (s.rtag p.rem).lhsInf = false ∧ s.lhs p.rem = .fin a ∧ r.1.rhs p.rem = .fin a ∧
          ∃ q, p.rhsInf = false ∧ p.newRhs = .fin q ∧ q ≤ a + FEAS_TOL)) := by
  intro r
  have hε := FEAS_TOL_pos
  have hr : r = parApplyR s p := rfl
  clear_value r
  unfold parApplyR at hr
  by_cases hc : (!p.rhsInf && !D.eqb p.newRhs (s.rhs p.rem)) = true
  · rw [if_pos hc] at hr
    have hp : p.rhsInf = false := by
      simp only [Bool.and_eq_true, Bool.not_eq_true'] at hc; exact hc.1
    obtain ⟨q, hq⟩ := hfin hp
    obtain ⟨F, hl, hcase⟩ := changeRhs_cases s p.rem p.newRhs p.rhsIdx p.rhsRatio
    rw [← hr] at F hl hcase
    clear hr
    rw [hq] at hcase
    rw [hp, hq]
    rcases hcase with ⟨h1, h2, h3, _, _, _, _, h4, h5⟩ | ⟨h1, _, _, _, hnc, hcase⟩
    · refine ⟨⟨F, fun i _ => by rw [hl], fun i _ => by rw [h2], fun i _ => by rw [h3], by rw [h3]⟩,
        hl, by rw [h3], ?_, fun h => absurd h1 h⟩
      rintro _ v ⟨v1, v2⟩
      rcases hlf with ⟨h6, _⟩ | ⟨h6, a, ha⟩
      · rw [h4] at h6; cases h6
      · rw [h6, ha, Lo_fin] at v2
        rw [ha] at h5
        simp only [Hi_fin] at v1
        simp only [D.add_fin, D.le_fin, decide_eq_true_eq] at h5
        linarith
    · rcases hcase with ⟨h4, h5, h6, h7, _⟩ | ⟨h5, h6, h7, _⟩
      · rcases hlf with ⟨h8, _⟩ | ⟨h8, a, ha⟩
        · rw [h4] at h8; cases h8
        rw [ha] at h5 h6
        simp only [isEqualFeasTol_fin, decide_eq_true_eq] at h5
        rw [abs_le] at h5
        refine ⟨⟨F, fun i _ => by rw [hl], fun i hi => by rw [h6, upd_ne _ _ hi],
          fun i hi => by rw [h7, upd_ne _ _ hi], by rw [h7, upd_same]⟩, hl, by rw [h7, upd_same],
          fun h => (by rw [h1] at h; cases h), fun _ => ?_⟩
        rw [h7, h6, upd_same, upd_same]
        refine ⟨Or.inr ⟨rfl, a, rfl⟩, fun v hv => ?_, fun v hv => ?_,
          Or.inr ⟨a, h8, ha, rfl, q, rfl, rfl, by linarith⟩⟩
        · simp only [Hi_fin] at hv ⊢; linarith
        · simp only [Hi_fin] at hv ⊢; linarith
      · refine ⟨⟨F, fun i _ => by rw [hl], fun i hi => by rw [h6, upd_ne _ _ hi],
          fun i hi => by rw [h7, upd_ne _ _ hi], by rw [h7, upd_same]⟩, hl, by rw [h7, upd_same],
          fun h => (by rw [h1] at h; cases h), fun _ => ?_⟩
        rw [h7, h6, upd_same, upd_same]
        refine ⟨Or.inr ⟨rfl, q, rfl⟩, fun v hv => ?_, fun v hv => ?_, Or.inl fun v hv => hv⟩
        · simp only [Hi_fin] at hv ⊢; linarith
        · simp only [Hi_fin] at hv ⊢; linarith
  · rw [if_neg hc] at hr
    subst hr
    refine ⟨.refl _ _, rfl, rfl, fun h => (by cases h), fun _ => ⟨hform, ?_⟩⟩
    simp only
    have : ∀ v, Hi p.rhsInf p.newRhs v ↔ Hi (s.rtag p.rem).rhsInf (s.rhs p.rem) v := by
      intro v
      rcases hp : p.rhsInf with _ | _
      · obtain ⟨q, hq⟩ := hfin hp
        rw [hp, hq] at hc
        rw [hq]
        rcases hform with ⟨h1, h2⟩ | ⟨h1, a, h2⟩
        · rw [h2] at hc; exact absurd rfl hc
        · rw [h2] at hc
          simp only [Bool.not_false, Bool.true_and, D.eqb_fin, Bool.not_eq_true', decide_eq_false_iff_not,
            not_not] at hc
          rw [h1, h2, hc]
      · rw [hinf hp]; simp
    refine ⟨fun v hv => ((this v).mp hv).mono (by linarith), fun v hv => ((this v).mpr hv).mono (by linarith),
      Or.inl fun v hv => (this v).mp hv⟩

theorem parApplyL_sound {s : St} {p : ParRow} (hform : HiForm (s.rtag p.rem).rhsInf (s.rhs p.rem))
    (hlf : LoForm (s.rtag p.rem).lhsInf (s.lhs p.rem)) (hfin : FinIf p.lhsInf p.newLhs)
    (hinf : p.lhsInf = true → (s.rtag p.rem).lhsInf = true) :
    let r := parApplyL s p
    OnlyRow s r.1 p.rem ∧ r.1.rhs = s.rhs ∧ (r.1.rtag p.rem).rhsInf = (s.rtag p.rem).rhsInf ∧
    (r.2 = INFEASIBLE → ∃ l b, p.lhsInf = false ∧ p.newLhs = .fin l ∧ (s.rtag p.rem).rhsInf = false ∧
      s.rhs p.rem = .fin b ∧ b ≤ l - FEAS_TOL) ∧
    (r.2 ≠ INFEASIBLE →
      LoForm (r.1.rtag p.rem).lhsInf (r.1.lhs p.rem) ∧
      (∀ v, Lo p.lhsInf p.newLhs v → Lo (r.1.rtag p.rem).lhsInf (r.1.lhs p.rem) (v + FEAS_TOL)) ∧
      (∀ v, Lo (r.1.rtag p.rem).lhsInf (r.1.lhs p.rem) v → Lo p.lhsInf p.newLhs (v + FEAS_TOL))) := by
  intro r
  have hε := FEAS_TOL_pos
  have hr : r = parApplyL s p := rfl
  clear_value r
  unfold parApplyL at hr
  by_cases hc : (!p.lhsInf && !D.eqb p.newLhs (s.lhs p.rem)) = true
  · rw [if_pos hc] at hr
    have hp : p.lhsInf = false := by
      simp only [Bool.and_eq_true, Bool.not_eq_true'] at hc; exact hc.1
    obtain ⟨q, hq⟩ := hfin hp
    obtain ⟨F, hl, hcase⟩ := changeLhs_cases s p.rem p.newLhs p.lhsIdx p.lhsRatio
    rw [← hr] at F hl hcase
    clear hr
    rw [hq] at hcase
    rw [hp, hq]
    rcases hcase with ⟨h1, h2, h3, _, _, _, _, h4, h5⟩ | ⟨h1, _, _, _, hnc, hcase⟩
    · refine ⟨⟨F, fun i _ => by rw [h2], fun i _ => by rw [hl], fun i _ => by rw [h3], by rw [h3]⟩,
        hl, by rw [h3], ?_, fun h => absurd h1 h⟩
      intro _
      rcases hform with ⟨h6, _⟩ | ⟨h6, a, ha⟩
      · rw [h4] at h6; cases h6
      · rw [ha] at h5
        simp only [D.sub_fin, D.le_fin, decide_eq_true_eq] at h5
        exact ⟨q, a, rfl, rfl, h6, ha, h5⟩
    · rcases hcase with ⟨h4, h5, h6, h7, _⟩ | ⟨h5, h6, h7, _⟩
      · rcases hform with ⟨h8, _⟩ | ⟨h8, a, ha⟩
        · rw [h4] at h8; cases h8
        rw [ha] at h5 h6
        simp only [isEqualFeasTol_fin, decide_eq_true_eq] at h5
        rw [abs_le] at h5
        refine ⟨⟨F, fun i hi => by rw [h6, upd_ne _ _ hi], fun i _ => by rw [hl],
          fun i hi => by rw [h7, upd_ne _ _ hi], by rw [h7, upd_same]⟩, hl, by rw [h7, upd_same],
          fun h => (by rw [h1] at h; cases h), fun _ => ?_⟩
        rw [h7, h6, upd_same, upd_same]
        refine ⟨Or.inr ⟨rfl, a, rfl⟩, fun v hv => ?_, fun v hv => ?_⟩
        · simp only [Lo_fin] at hv ⊢; linarith
        · simp only [Lo_fin] at hv ⊢; linarith
      · refine ⟨⟨F, fun i hi => by rw [h6, upd_ne _ _ hi], fun i _ => by rw [hl],
          fun i hi => by rw [h7, upd_ne _ _ hi], by rw [h7, upd_same]⟩, hl, by rw [h7, upd_same],
          fun h => (by rw [h1] at h; cases h), fun _ => ?_⟩
        rw [h7, h6, upd_same, upd_same]
        refine ⟨Or.inr ⟨rfl, q, rfl⟩, fun v hv => ?_, fun v hv => ?_⟩
        · simp only [Lo_fin] at hv ⊢; linarith
        · simp only [Lo_fin] at hv ⊢; linarith
  · rw [if_neg hc] at hr
    subst hr
    refine ⟨.refl _ _, rfl, rfl, fun h => (by cases h), fun _ => ⟨hlf, ?_⟩⟩
    simp only
    have : ∀ v, Lo p.lhsInf p.newLhs v ↔ Lo (s.rtag p.rem).lhsInf (s.lhs p.rem) v := by
      intro v
      rcases hp : p.lhsInf with _ | _
      · obtain ⟨q, hq⟩ := hfin hp
        rw [hp, hq] at hc
        rw [hq]
        rcases hlf with ⟨h1, h2⟩ | ⟨h1, a, h2⟩
        · rw [h2] at hc; exact absurd rfl hc
        · rw [h2] at hc
          simp only [Bool.not_false, Bool.true_and, D.eqb_fin, Bool.not_eq_true', decide_eq_false_iff_not,
            not_not] at hc
          rw [h1, h2, hc]
      · rw [hinf hp]; simp
    exact ⟨fun v hv => ((this v).mp hv).mono (by linarith), fun v hv => ((this v).mpr hv).mono (by linarith)⟩

theorem PIn_inf {p : ParRow} {s : St} (hl : FinIf p.lhsInf p.newLhs) (hr : FinIf p.rhsInf p.newRhs)
    (h : ∀ v, PIn p v → Sides (s.rtag p.rem) (s.lhs p.rem) (s.rhs p.rem) v) :
    (p.rhsInf = true → (s.rtag p.rem).rhsInf = true) ∧
    (p.lhsInf = true → (s.rtag p.rem).lhsInf = true) := by
  constructor
  · intro hi
    by_contra hc
    have key : ∃ v0, ∀ v, v0 ≤ v → PIn p v := by
      rcases hli : p.lhsInf with _ | _
      · obtain ⟨l, e⟩ := hl hli
        exact ⟨l, fun v hv => ⟨by rw [hli, e, Lo_fin]; exact hv, by rw [hi]; simp⟩⟩
      · exact ⟨0, fun v _ => ⟨by rw [hli]; simp, by rw [hi]; simp⟩⟩
    obtain ⟨v0, hv⟩ := key
    rcases (h v0 (hv v0 le_rfl)).2 with h1 | ⟨a, e, _⟩
    · exact hc h1
    · rcases (h (max v0 (a + 1)) (hv _ (le_max_left _ _))).2 with h1 | ⟨a', e', h3⟩
      · exact hc h1
      · rw [e] at e'; cases e'
        have := le_max_right v0 (a + 1); linarith
  · intro hi
    by_contra hc
    have key : ∃ v0, ∀ v, v ≤ v0 → PIn p v := by
      rcases hli : p.rhsInf with _ | _
      · obtain ⟨l, e⟩ := hr hli
        exact ⟨l, fun v hv => ⟨by rw [hi]; simp, by rw [hli, e, Hi_fin]; exact hv⟩⟩
      · exact ⟨0, fun v _ => ⟨by rw [hi]; simp, by rw [hli]; simp⟩⟩
    obtain ⟨v0, hv⟩ := key
    rcases (h v0 (hv v0 le_rfl)).1 with h1 | ⟨a, e, _⟩
    · exact hc h1
    · rcases (h (min v0 (a - 1)) (hv _ (min_le_left _ _))).1 with h1 | ⟨a', e', h3⟩
      · exact hc h1
      · rw [e] at e'; cases e'
        have := min_le_right v0 (a - 1); linarith

/-- The sides put on the remaining inequality. -/
theorem parApply_sound {s : St} {p : ParRow} (he : p.isEq = false) (hform : RowForm s p.rem)
    (hl : FinIf p.lhsInf p.newLhs) (hr : FinIf p.rhsInf p.newRhs)
    (h : ∀ v, PIn p v → Sides (s.rtag p.rem) (s.lhs p.rem) (s.rhs p.rem) v) :
    let r := parApply s p
    OnlyRow s r.1 p.rem ∧
    (r.2 = INFEASIBLE → (∀ v, ¬ PIn p v) ∨
      ∃ a, s.lhs p.rem = .fin a ∧ ∀ v, PIn p v → v = a + FEAS_TOL) ∧
    (r.2 ≠ INFEASIBLE → ∀ v,
      (PIn p v → SidesTol FEAS_TOL (r.1.rtag p.rem) (r.1.lhs p.rem) (r.1.rhs p.rem) v) ∧
      (Sides (r.1.rtag p.rem) (r.1.lhs p.rem) (r.1.rhs p.rem) v →
        Lo p.lhsInf p.newLhs (v + FEAS_TOL) ∧ Hi p.rhsInf p.newRhs (v - FEAS_TOL))) := by
  have hε := FEAS_TOL_pos
  obtain ⟨i1, i2⟩ := PIn_inf hl hr h
  obtain ⟨a1, a2, a3, a4, a5⟩ := parApplyR_sound hform.rhs hform.lhs hr i1
  intro r
  have er : r = parApply s p := rfl
  clear_value r
  rw [parApply_eq he] at er
  generalize parApplyR s p = u at *
  by_cases hu : u.2 = INFEASIBLE
  · rw [if_pos hu] at er
    subst er
    exact ⟨a1, fun _ => Or.inl fun v hv => a4 hu v ⟨hv.2, (h v hv).1⟩, fun h => absurd hu h⟩
  · rw [if_neg hu] at er
    obtain ⟨c1, c2, c3, c4⟩ := a5 hu
    obtain ⟨b1, b2, b3, b4, b5⟩ := parApplyL_sound (s := u.1) (p := p) c1
      (by rw [a2, a3]; exact hform.lhs) hl (by rw [a3]; exact i2)
    rw [← er] at b1 b2 b3 b4 b5
    refine ⟨a1.trans b1, fun hinf => ?_, fun hinf v => ?_⟩
    · obtain ⟨l, b, d1, d2, d3, d4, d5⟩ := b4 hinf
      have dl : ∀ v, PIn p v → l ≤ v := by
        intro v hv
        have := hv.1
        rw [d1, d2, Lo_fin] at this; exact this
      rcases c4 with c4 | ⟨a, e1, e2, e3, q, e4, e5, e6⟩
      · left
        intro v hv
        have := c4 v hv.2
        rw [d3, d4, Hi_fin] at this
        have := dl v hv
        linarith
      · right
        refine ⟨a, e2, fun v hv => ?_⟩
        rw [e3] at d4
        cases d4
        have h1 := dl v hv
        have h2 := hv.2
        rw [e4, e5, Hi_fin] at h2
        linarith
    · obtain ⟨d1, d2, d3⟩ := b5 hinf
      refine ⟨fun hv => ⟨d2 v hv.1, ?_⟩, fun hv => ⟨d3 v hv.1, ?_⟩⟩
      · rw [b2, b3]; exact c2 v hv.2
      · have := hv.2; rw [b2, b3] at this; exact c3 v this

end Verif
