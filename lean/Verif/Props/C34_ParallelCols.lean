import Verif.Model.Driver
import Verif.Lemmas.DtonBounds
import Verif.Lemmas.EnvEx
import Verif.Lemmas.ParRow
import Verif.Spec.Problem
import Mathlib.Tactic.IntervalCases

/-!
# C34: parallel columns are merged into their sum and split back within bounds
-/

namespace Verif

/-- `v` is within the bounds `lb`, `ub` (absent when the tag says so). -/
def Within (t : CTag) (lb ub : D) (v : ℚ) : Prop := Lo t.lbInf lb v ∧ Hi t.ubInf ub v

/-- Bounds that are present are finite. -/
def FinBox (t : CTag) (lb ub : D) : Prop := FinIf t.lbInf lb ∧ FinIf t.ubInf ub

/-- Tag and bounds of `ratio * x_k`. -/
def scaledTag (r : ℚ) (t : CTag) : CTag :=
  if 0 < r then t else { t with lbInf := t.ubInf, ubInf := t.lbInf }
/-- Lower bound of `ratio * x_k`. -/
def scaledLb (r : ℚ) (lb ub : D) : D := if 0 < r then D.smul r lb else D.smul r ub
/-- Upper bound of `ratio * x_k`. -/
def scaledUb (r : ℚ) (lb ub : D) : D := if 0 < r then D.smul r ub else D.smul r lb

theorem scaled_within {r : ℚ} (hr : r ≠ 0) {t : CTag} {lb ub : D} (h : FinBox t lb ub) (v : ℚ) :
    Within (scaledTag r t) (scaledLb r lb ub) (scaledUb r lb ub) (r * v) ↔ Within t lb ub v := by
  unfold Within scaledTag scaledLb scaledUb
  by_cases hp : 0 < r
  · simp only [if_pos hp]
    rw [Lo_scale h.1 hp, Hi_scale h.2 hp]
  · have hn : r < 0 := lt_of_le_of_ne (not_lt.mp hp) hr
    simp only [if_neg hp]
    rw [Lo_scale_neg h.2 hn, Hi_scale_neg h.1 hn]
    exact and_comm

theorem scaled_fin {r : ℚ} {t : CTag} {lb ub : D} (h : FinBox t lb ub) :
    FinBox (scaledTag r t) (scaledLb r lb ub) (scaledUb r lb ub) := by
  unfold FinBox scaledTag scaledLb scaledUb
  by_cases hp : 0 < r
  · simp only [if_pos hp]; exact ⟨h.1.smul r, h.2.smul r⟩
  · simp only [if_neg hp]; exact ⟨h.2.smul r, h.1.smul r⟩

theorem merge_eq (r : ℚ) (tj tk : CTag) (lbj ubj lbk ubk : D) :
    (mergeTag r tj tk).lbInf = (tj.lbInf || (scaledTag r tk).lbInf) ∧
    (mergeTag r tj tk).ubInf = (tj.ubInf || (scaledTag r tk).ubInf) ∧
    mergeLb r lbj tj lbk ubk tk = (if tj.lbInf || (scaledTag r tk).lbInf then .ninf
      else D.add lbj (scaledLb r lbk ubk)) ∧
    mergeUb r ubj tj lbk ubk tk = (if tj.ubInf || (scaledTag r tk).ubInf then .pinf
      else D.add ubj (scaledUb r lbk ubk)) := by
  unfold mergeTag mergeLb mergeUb scaledTag scaledLb scaledUb
  by_cases hp : 0 < r <;> simp [hp]

theorem Within_finbox {t : CTag} {lb ub : D} (h : FinBox t lb ub) : ∃ (L U : Option ℚ),
    (t.lbInf = true ∧ L = none ∨ t.lbInf = false ∧ ∃ a, L = some a ∧ lb = .fin a) ∧
    (t.ubInf = true ∧ U = none ∨ t.ubInf = false ∧ ∃ a, U = some a ∧ ub = .fin a) := by
  have h1 : ∃ L : Option ℚ, (t.lbInf = true ∧ L = none ∨ t.lbInf = false ∧ ∃ a, L = some a ∧ lb = .fin a) := by
    rcases hl : t.lbInf with _ | _
    · obtain ⟨a, e⟩ := h.1 hl; exact ⟨some a, Or.inr ⟨rfl, a, rfl, e⟩⟩
    · exact ⟨none, Or.inl ⟨rfl, rfl⟩⟩
  have h2 : ∃ U : Option ℚ, (t.ubInf = true ∧ U = none ∨ t.ubInf = false ∧ ∃ a, U = some a ∧ ub = .fin a) := by
    rcases hl : t.ubInf with _ | _
    · obtain ⟨a, e⟩ := h.2 hl; exact ⟨some a, Or.inr ⟨rfl, a, rfl, e⟩⟩
    · exact ⟨none, Or.inl ⟨rfl, rfl⟩⟩
  obtain ⟨L, h1⟩ := h1
  obtain ⟨U, h2⟩ := h2
  exact ⟨L, U, h1, h2⟩

/-- **C34 (range).** The bounds of the merged column describe exactly the values
`x_j + ratio * x_k` can take when both variables range over their (nonempty) bounds. -/
theorem C34_range (r : ℚ) (hr : r ≠ 0) (tj tk : CTag) (lbj ubj lbk ubk : D)
    (hj : FinBox tj lbj ubj) (hk : FinBox tk lbk ubk)
    (hjn : ∃ u, Within tj lbj ubj u) (hkn : ∃ v, Within tk lbk ubk v) (w : ℚ) :
    Within (mergeTag r tj tk) (mergeLb r lbj tj lbk ubk tk) (mergeUb r ubj tj lbk ubk tk) w ↔
      ∃ u v, Within tj lbj ubj u ∧ Within tk lbk ubk v ∧ u + r * v = w := by
  obtain ⟨e1, e2, e3, e4⟩ := merge_eq r tj tk lbj ubj lbk ubk
  have hks := scaled_fin (r := r) hk
  have key : (∃ u v, Within tj lbj ubj u ∧ Within tk lbk ubk v ∧ u + r * v = w) ↔
      ∃ u y, Within tj lbj ubj u ∧
        Within (scaledTag r tk) (scaledLb r lbk ubk) (scaledUb r lbk ubk) y ∧ u + y = w := by
    constructor
    · rintro ⟨u, v, h1, h2, h3⟩
      exact ⟨u, r * v, h1, (scaled_within hr hk v).mpr h2, h3⟩
    · rintro ⟨u, y, h1, h2, h3⟩
      refine ⟨u, y / r, h1, (scaled_within hr hk _).mp ?_, ?_⟩
      · rw [mul_div_cancel₀ y hr]; exact h2
      · rw [mul_div_cancel₀ y hr]; exact h3
  rw [key]
  have hkn' : ∃ y, Within (scaledTag r tk) (scaledLb r lbk ubk) (scaledUb r lbk ubk) y := by
    obtain ⟨v, hv⟩ := hkn
    exact ⟨r * v, (scaled_within hr hk v).mpr hv⟩
  have hW : Within (mergeTag r tj tk) (mergeLb r lbj tj lbk ubk tk) (mergeUb r ubj tj lbk ubk tk) w ↔
      Lo (tj.lbInf || (scaledTag r tk).lbInf) (D.add lbj (scaledLb r lbk ubk)) w ∧
      Hi (tj.ubInf || (scaledTag r tk).ubInf) (D.add ubj (scaledUb r lbk ubk)) w := by
    unfold Within
    rw [e1, e2, e3, e4]
    constructor
    · rintro ⟨h1, h2⟩
      constructor
      · split at h1
        · rename_i hh; rw [hh]; simp
        · exact h1
      · split at h2
        · rename_i hh; rw [hh]; simp
        · exact h2
    · rintro ⟨h1, h2⟩
      constructor
      · split
        · rename_i hh; rw [hh]; simp
        · exact h1
      · split
        · rename_i hh; rw [hh]; simp
        · exact h2
  rw [hW]
  clear key hW e1 e2 e3 e4 hkn hk hr
  obtain ⟨u0, hu0⟩ := hjn
  obtain ⟨y0, hy0⟩ := hkn'
  generalize scaledUb r lbk ubk = ubk' at *
  generalize scaledLb r lbk ubk = lbk' at *
  generalize scaledTag r tk = tk at *
  clear lbk ubk
  rename' lbk' => lbk, ubk' => ubk
  constructor
  · rintro ⟨h1, h2⟩
    by_cases hl : tj.lbInf = false
    · obtain ⟨a, ea⟩ := hj.1 hl
      subst ea
      have hau : a ≤ u0 := by simpa [Within, hl] using hu0.1
      have hJ : ∀ u, a ≤ u → Hi tj.ubInf ubj u → Within tj (.fin a) ubj u :=
        fun u h h' => ⟨by simpa [hl] using h, h'⟩
      by_cases hx : Hi tk.ubInf ubk (w - a)
      · refine ⟨a, w - a, hJ a le_rfl (Hi.mono hu0.2 hau), ⟨?_, hx⟩, by ring⟩
        by_cases hkl : tk.lbInf = false
        · obtain ⟨b, eb⟩ := hks.1 hkl
          rw [eb] at h1 ⊢
          rw [hl, hkl] at h1
          rw [hkl]
          simp only [Bool.or_self, D.add, Lo_fin] at h1 ⊢
          linarith
        · simp [Bool.not_eq_false _ ▸ hkl]
      · by_cases hku : tk.ubInf = false
        · obtain ⟨b, eb⟩ := hks.2 hku
          rw [eb, hku, Hi_fin] at hx
          push Not at hx
          refine ⟨w - b, b, hJ _ (by linarith) ?_, ⟨?_, by rw [eb, hku]; simp⟩, by ring⟩
          · by_cases hju : tj.ubInf = false
            · obtain ⟨d, ed⟩ := hj.2 hju
              rw [ed, eb, hju, hku] at h2
              simp only [Bool.or_self, D.add, Hi_fin] at h2
              rw [ed, hju, Hi_fin]; linarith
            · rw [Bool.not_eq_false] at hju; rw [hju]; simp
          · have := hy0.2
            rw [eb, hku, Hi_fin] at this
            exact Lo.mono hy0.1 this
        · rw [Bool.not_eq_false] at hku; rw [hku] at hx; simp at hx
    · rw [Bool.not_eq_false] at hl
      by_cases hju : tj.ubInf = false
      · obtain ⟨d, ed⟩ := hj.2 hju
        subst ed
        by_cases hx : Lo tk.lbInf lbk (w - d)
        · refine ⟨d, w - d, ⟨by rw [hl]; simp, by rw [hju]; simp⟩, ⟨hx, ?_⟩, by ring⟩
          by_cases hku : tk.ubInf = false
          · obtain ⟨b, eb⟩ := hks.2 hku
            rw [eb, hju, hku] at h2
            simp only [Bool.or_self, D.add, Hi_fin] at h2
            rw [eb, hku, Hi_fin]; linarith
          · rw [Bool.not_eq_false] at hku; rw [hku]; simp
        · by_cases hkl : tk.lbInf = false
          · obtain ⟨b, eb⟩ := hks.1 hkl
            rw [eb, hkl, Lo_fin] at hx
            push Not at hx
            refine ⟨w - b, b, ⟨by rw [hl]; simp, by rw [hju, Hi_fin]; linarith⟩,
              ⟨by rw [eb, hkl]; simp, ?_⟩, by ring⟩
            have := hy0.1
            rw [eb, hkl, Lo_fin] at this
            exact Hi.mono hy0.2 this
          · rw [Bool.not_eq_false] at hkl; rw [hkl] at hx; simp at hx
      · rw [Bool.not_eq_false] at hju
        exact ⟨w - y0, y0, ⟨by rw [hl]; simp, by rw [hju]; simp⟩, hy0, by ring⟩
  · rintro ⟨u, y, hu, hy, rfl⟩
    constructor
    · by_cases hl : tj.lbInf = false
      · by_cases hkl : tk.lbInf = false
        · obtain ⟨a, ea⟩ := hj.1 hl
          obtain ⟨b, eb⟩ := hks.1 hkl
          have q1 := hu.1
          have q2 := hy.1
          rw [ea, hl, Lo_fin] at q1
          rw [eb, hkl, Lo_fin] at q2
          rw [ea, eb, hl, hkl]
          simp only [Bool.or_self, D.add, Lo_fin]; linarith
        · rw [Bool.not_eq_false] at hkl; rw [hkl]; simp
      · rw [Bool.not_eq_false] at hl; rw [hl]; simp
    · by_cases hl : tj.ubInf = false
      · by_cases hkl : tk.ubInf = false
        · obtain ⟨a, ea⟩ := hj.2 hl
          obtain ⟨b, eb⟩ := hks.2 hkl
          have q1 := hu.2
          have q2 := hy.2
          rw [ea, hl, Hi_fin] at q1
          rw [eb, hkl, Hi_fin] at q2
          rw [ea, eb, hl, hkl]
          simp only [Bool.or_self, D.add, Hi_fin]; linarith
        · rw [Bool.not_eq_false] at hkl; rw [hkl]; simp
      · rw [Bool.not_eq_false] at hl; rw [hl]; simp

/-- The value tried for `x_j` (`parTry`) lies within the bounds of `j`, except that when the
merged column is free on both sides the code tries `0` whatever the bounds of `j` are. -/
def TryOK (r : ℚ) (tj tk : CTag) (lbj ubj : D) : Prop :=
  (mergeTag r tj tk).lbInf = true → (mergeTag r tj tk).ubInf = true → Within tj lbj ubj 0

theorem parTry_within (r : ℚ) (tj tk : CTag) (lbj ubj : D)
    (hj : FinBox tj lbj ubj) (hjn : ∃ u, Within tj lbj ubj u) (hz : TryOK r tj tk lbj ubj) :
    ∃ x, parTry (mergeTag r tj tk) lbj ubj = .fin x ∧ Within tj lbj ubj x := by
  obtain ⟨e1, e2, -, -⟩ := merge_eq r tj tk lbj ubj lbj ubj
  obtain ⟨u0, hu0⟩ := hjn
  unfold parTry
  rcases h1 : (mergeTag r tj tk).lbInf with _ | _
  · have hl : tj.lbInf = false := by rw [h1] at e1; simpa using (Bool.or_eq_false_iff.mp e1.symm).1
    obtain ⟨a, ea⟩ := hj.1 hl
    refine ⟨a, by simp [ea], ?_, ?_⟩
    · rw [ea, hl]; simp
    · have := hu0.1
      rw [ea, hl, Lo_fin] at this
      exact Hi.mono hu0.2 this
  · rcases h2 : (mergeTag r tj tk).ubInf with _ | _
    · have hl : tj.ubInf = false := by rw [h2] at e2; simpa using (Bool.or_eq_false_iff.mp e2.symm).1
      obtain ⟨a, ea⟩ := hj.2 hl
      refine ⟨a, by simp [ea], ?_, ?_⟩
      · have := hu0.2
        rw [ea, hl, Hi_fin] at this
        exact Lo.mono hu0.1 this
      · rw [ea, hl]; simp
    · exact ⟨0, by simp, hz h1 h2⟩

/-- Moving `r * x_k` to one of its bounds keeps `x_j` within bounds. -/
theorem split_core (tj : CTag) (lbj ubj : D) (tk : CTag) (lbk ubk : D)
    (hj : FinBox tj lbj ubj) (w xj : ℚ) (hx : Within tj lbj ubj xj)
    (h1 : Lo (tj.lbInf || tk.lbInf) (D.add lbj lbk) w)
    (h2 : Hi (tj.ubInf || tk.ubInf) (D.add ubj ubk) w) :
    (∀ b, tk.lbInf = false → lbk = .fin b → w - xj < b → Within tj lbj ubj (w - b)) ∧
    (∀ b, tk.ubInf = false → ubk = .fin b → b < w - xj → Within tj lbj ubj (w - b)) := by
  constructor
  · intro b hb eb hlt
    refine ⟨?_, Hi.mono hx.2 (by linarith)⟩
    by_cases hl : tj.lbInf = false
    · obtain ⟨a, ea⟩ := hj.1 hl
      rw [ea, eb, hl, hb] at h1
      simp only [Bool.or_self, D.add, Lo_fin] at h1
      rw [ea, hl, Lo_fin]; linarith
    · rw [Bool.not_eq_false] at hl; rw [hl]; simp
  · intro b hb eb hlt
    refine ⟨Lo.mono hx.1 (by linarith), ?_⟩
    by_cases hl : tj.ubInf = false
    · obtain ⟨a, ea⟩ := hj.2 hl
      rw [ea, eb, hl, hb] at h2
      simp only [Bool.or_self, D.add, Hi_fin] at h2
      rw [ea, hl, Hi_fin]; linarith
    · rw [Bool.not_eq_false] at hl; rw [hl]; simp

/-- Within the bounds up to the absolute tolerance `tol`. -/
def WithinTol (tol : ℚ) (t : CTag) (lb ub : D) (v : ℚ) : Prop :=
  Lo t.lbInf lb (v + tol) ∧ Hi t.ubInf ub (v - tol)

theorem merged_within (r : ℚ) (tj tk : CTag) (lbj ubj lbk ubk : D) (w : ℚ) :
    Within (mergeTag r tj tk) (mergeLb r lbj tj lbk ubk tk) (mergeUb r ubj tj lbk ubk tk) w →
      Lo (tj.lbInf || (scaledTag r tk).lbInf) (D.add lbj (scaledLb r lbk ubk)) w ∧
      Hi (tj.ubInf || (scaledTag r tk).ubInf) (D.add ubj (scaledUb r lbk ubk)) w := by
  obtain ⟨e1, e2, e3, e4⟩ := merge_eq r tj tk lbj ubj lbk ubk
  unfold Within
  rw [e1, e2, e3, e4]
  rintro ⟨h1, h2⟩
  constructor
  · split at h1
    · rename_i hh; rw [hh]; simp
    · exact h1
  · split at h2
    · rename_i hh; rw [hh]; simp
    · exact h2

/-- **C34 (split).** A value `w` of the merged column is split by postsolve into `x_j`, `x_k` with
`x_j + ratio * x_k = w`, where `x_j` satisfies its own bounds exactly and `x_k` up to the
feasibility tolerance.  Partial: the code saves the tag `j` has *after* the merge, so when the
merged column is free on both sides the statement needs `0` to be within the bounds of `j`
(`TryOK`); `C34_split_fails` shows that it is false otherwise. -/
theorem C34_split_partial (r : ℚ) (hr : r ≠ 0) (tj tk : CTag) (lbj ubj lbk ubk : D)
    (hj : FinBox tj lbj ubj) (hk : FinBox tk lbk ubk)
    (hjn : ∃ u, Within tj lbj ubj u) (hkn : ∃ v, Within tk lbk ubk v)
    (hz : TryOK r tj tk lbj ubj) (w : ℚ)
    (hw : Within (mergeTag r tj tk) (mergeLb r lbj tj lbk ubk tk) (mergeUb r ubj tj lbk ubk tk) w) :
    ∃ u v, parSplit (.fin w) (mergeTag r tj tk) tk lbj ubj lbk ubk r = (.fin u, .fin v) ∧
      u + r * v = w ∧ Within tj lbj ubj u ∧ WithinTol FEAS_TOL tk lbk ubk v := by
  obtain ⟨xj, ex, hxj⟩ := parTry_within r tj tk lbj ubj hj hjn hz
  obtain ⟨h1, h2⟩ := merged_within r tj tk lbj ubj lbk ubk w hw
  obtain ⟨c1, c2⟩ := split_core tj lbj ubj _ _ _ hj w xj hxj h1 h2
  obtain ⟨v0, hv0⟩ := hkn
  have hT := FEAS_TOL_pos
  have hdiv : D.divq (D.sub (.fin w) (.fin xj)) r = .fin ((w - xj) / r) := by
    simp [D.sub, D.neg, D.add, D.divq_fin hr, sub_eq_add_neg]
  unfold parSplit
  simp only [ex, hdiv]
  set xk := (w - xj) / r with hxk
  have hrx : r * xk = w - xj := mul_div_cancel₀ _ hr
  have tolOf : ∀ v, Within tk lbk ubk v → WithinTol FEAS_TOL tk lbk ubk v :=
    fun v h => ⟨Lo.mono h.1 (by linarith), Hi.mono h.2 (by linarith)⟩
  by_cases ha : tk.lbInf = false ∧ ∃ b, lbk = .fin b ∧ xk + FEAS_TOL ≤ b
  · obtain ⟨hl, b, eb, hb⟩ := ha
    rw [if_pos (by simp [hl, eb, D.add, D.le, hb])]
    refine ⟨w - r * b, b, by simp [eb, D.smul, D.sub, D.neg, D.add, sub_eq_add_neg], by ring, ?_, ?_⟩
    · have hlt : xk < b := by linarith
      simp only [scaledTag, scaledLb, scaledUb] at c1 c2
      by_cases hp : 0 < r
      · simp only [if_pos hp] at c1
        refine c1 (r * b) hl (by simp [eb, D.smul]) ?_
        rw [← hrx]; exact mul_lt_mul_of_pos_left hlt hp
      · have hn : r < 0 := lt_of_le_of_ne (not_lt.mp hp) hr
        simp only [if_neg hp] at c2
        refine c2 (r * b) hl (by simp [eb, D.smul]) ?_
        rw [← hrx]; exact mul_lt_mul_of_neg_left hlt hn
    · apply tolOf
      have := hv0.1
      rw [eb, hl, Lo_fin] at this
      exact ⟨by rw [eb, hl]; simp, Hi.mono hv0.2 this⟩
  · have hlo : Lo tk.lbInf lbk (xk + FEAS_TOL) := by
      by_cases hl : tk.lbInf = false
      · obtain ⟨b, eb⟩ := hk.1 hl
        rw [eb, hl, Lo_fin]
        by_contra hc
        exact ha ⟨hl, b, eb, (not_le.mp hc).le⟩
      · rw [Bool.not_eq_false] at hl; rw [hl]; simp
    rw [if_neg (by
      intro hc
      rw [Bool.and_eq_true] at hc
      have hl : tk.lbInf = false := by simpa using hc.1
      obtain ⟨b, eb⟩ := hk.1 hl
      exact ha ⟨hl, b, eb, by simpa [eb, D.add, D.le] using hc.2⟩)]
    by_cases hb : tk.ubInf = false ∧ ∃ b, ubk = .fin b ∧ b + FEAS_TOL ≤ xk
    · obtain ⟨hl, b, eb, hb⟩ := hb
      rw [if_pos (by simp [hl, eb, D.add, D.le, hb])]
      refine ⟨w - r * b, b, by simp [eb, D.smul, D.sub, D.neg, D.add, sub_eq_add_neg], by ring, ?_, ?_⟩
      · have hlt : b < xk := by linarith
        simp only [scaledTag, scaledLb, scaledUb] at c1 c2
        by_cases hp : 0 < r
        · simp only [if_pos hp] at c2
          refine c2 (r * b) hl (by simp [eb, D.smul]) ?_
          rw [← hrx]; exact mul_lt_mul_of_pos_left hlt hp
        · have hn : r < 0 := lt_of_le_of_ne (not_lt.mp hp) hr
          simp only [if_neg hp] at c1
          refine c1 (r * b) hl (by simp [eb, D.smul]) ?_
          rw [← hrx]; exact mul_lt_mul_of_neg_left hlt hn
      · apply tolOf
        have := hv0.2
        rw [eb, hl, Hi_fin] at this
        exact ⟨Lo.mono hv0.1 this, by rw [eb, hl]; simp⟩
    · have hhi : Hi tk.ubInf ubk (xk - FEAS_TOL) := by
        by_cases hl : tk.ubInf = false
        · obtain ⟨b, eb⟩ := hk.2 hl
          rw [eb, hl, Hi_fin]
          by_contra hc
          exact hb ⟨hl, b, eb, by linarith [not_le.mp hc]⟩
        · rw [Bool.not_eq_false] at hl; rw [hl]; simp
      rw [if_neg (by
        intro hc
        rw [Bool.and_eq_true] at hc
        have hl : tk.ubInf = false := by simpa using hc.1
        obtain ⟨b, eb⟩ := hk.2 hl
        exact hb ⟨hl, b, eb, by simpa [eb, D.add, D.le] using hc.2⟩)]
      exact ⟨xj, xk, rfl, by rw [hrx]; ring, hxj, hlo, hhi⟩

/-- A column that is merged away: tag, bounds and ratio. -/
structure Merged where
  tag : CTag
  lb : D
  ub : D
  r : ℚ

/-- Tag and bounds of a column. -/
structure Box where
  tag : CTag
  lb : D
  ub : D

/-- The box of `j` after one merge. -/
def Box.merge (J : Box) (K : Merged) : Box :=
  ⟨mergeTag K.r J.tag K.tag, mergeLb K.r J.lb J.tag K.lb K.ub K.tag,
    mergeUb K.r J.ub J.tag K.lb K.ub K.tag⟩

/-- The values postsolve gives to the merged columns and finally to `j` when the chain of merges
`Ks` (oldest first) is undone newest first, starting from the value `w` of the merged column. -/
def unmerge (J : Box) : List Merged → D → D × List D
  | [], w => (w, [])
  | K :: Ks, w =>
    let r := unmerge (J.merge K) Ks w
    let v := parSplit r.1 (J.merge K).tag K.tag J.lb J.ub K.lb K.ub K.r
    (v.1, v.2 :: r.2)

/-- Every merge of the chain meets the hypotheses of `C34_split_partial`. -/
def ChainOK (J : Box) : List Merged → Prop
  | [] => True
  | K :: Ks => K.r ≠ 0 ∧ FinBox K.tag K.lb K.ub ∧ (∃ v, Within K.tag K.lb K.ub v) ∧
      TryOK K.r J.tag K.tag J.lb J.ub ∧ ChainOK (J.merge K) Ks

/-- Weighted sum of the values of the merged columns. -/
def chainSum : List Merged → List ℚ → ℚ
  | K :: Ks, v :: vs => K.r * v + chainSum Ks vs
  | _, _ => 0

/-- The box of the last merge. -/
def Box.mergeAll (J : Box) (Ks : List Merged) : Box := Ks.foldl Box.merge J

theorem FinBox_merge (r : ℚ) (tj tk : CTag) (lbj ubj lbk ubk : D)
    (hj : FinBox tj lbj ubj) (hk : FinBox tk lbk ubk) :
    FinBox (mergeTag r tj tk) (mergeLb r lbj tj lbk ubk tk) (mergeUb r ubj tj lbk ubk tk) := by
  obtain ⟨e1, e2, e3, e4⟩ := merge_eq r tj tk lbj ubj lbk ubk
  have hks := scaled_fin (r := r) hk
  constructor
  · intro h
    rw [e1] at h
    rw [e3, if_neg (by simp [h])]
    obtain ⟨ha, hb⟩ := Bool.or_eq_false_iff.mp h
    obtain ⟨a, ea⟩ := hj.1 ha
    obtain ⟨b, eb⟩ := hks.1 hb
    exact ⟨a + b, by rw [ea, eb]; rfl⟩
  · intro h
    rw [e2] at h
    rw [e4, if_neg (by simp [h])]
    obtain ⟨ha, hb⟩ := Bool.or_eq_false_iff.mp h
    obtain ⟨a, ea⟩ := hj.2 ha
    obtain ⟨b, eb⟩ := hks.2 hb
    exact ⟨a + b, by rw [ea, eb]; rfl⟩

/-- **C34 (chains).** Any number of columns merged one after the other into the same column: every
value of the final merged column is split into values with the same weighted sum, `x_j` within its
original bounds exactly, each merged column within its bounds up to the tolerance (the tolerances
do not add up).  Partial because of `TryOK`. -/
theorem C34_chain_partial (Ks : List Merged) : ∀ (J : Box), FinBox J.tag J.lb J.ub →
    (∃ u, Within J.tag J.lb J.ub u) → ChainOK J Ks → ∀ w : ℚ,
    Within (J.mergeAll Ks).tag (J.mergeAll Ks).lb (J.mergeAll Ks).ub w →
    ∃ u vs, unmerge J Ks (.fin w) = (.fin u, vs.map D.fin) ∧ vs.length = Ks.length ∧
      u + chainSum Ks vs = w ∧ Within J.tag J.lb J.ub u ∧
      List.Forall₂ (fun K v => WithinTol FEAS_TOL K.tag K.lb K.ub v) Ks vs := by
  induction Ks with
  | nil =>
    intro J _ _ _ w hw
    exact ⟨w, [], rfl, rfl, by simp [chainSum], hw, List.Forall₂.nil⟩
  | cons K Ks ih =>
    rintro J hJ hJn ⟨hr, hK, hKn, hz, hc⟩ w hw
    have hJ' : FinBox (J.merge K).tag (J.merge K).lb (J.merge K).ub := FinBox_merge _ _ _ _ _ _ _ hJ hK
    have hJn' : ∃ u, Within (J.merge K).tag (J.merge K).lb (J.merge K).ub u := by
      obtain ⟨u, hu⟩ := hJn
      obtain ⟨v, hv⟩ := hKn
      exact ⟨u + K.r * v, (C34_range K.r hr _ _ _ _ _ _ hJ hK ⟨u, hu⟩ ⟨v, hv⟩ _).mpr ⟨u, v, hu, hv, rfl⟩⟩
    obtain ⟨u', vs, e, hlen, hsum, hu', hvs⟩ := ih (J.merge K) hJ' hJn' hc w hw
    obtain ⟨u, v, es, huv, hu, hv⟩ := C34_split_partial K.r hr _ _ _ _ _ _ hJ hK hJn hKn hz u' hu'
    refine ⟨u, v :: vs, ?_, by simp [hlen], ?_, hu, List.Forall₂.cons hv hvs⟩
    · simp only [unmerge, e]
      rw [show (J.merge K).tag = mergeTag K.r J.tag K.tag from rfl, es]
      rfl
    · simp only [chainSum]
      rw [← hsum, ← huv]; ring

/-- Two merges into `x_j ∈ [0, 1]`: `x_a ∈ [-1, 2]` with ratio `2`, `x_b ≥ 3` with ratio `-1`. -/
example : ChainOK ⟨⟨false, false, false, false⟩, .fin 0, .fin 1⟩
    [⟨⟨false, false, false, false⟩, .fin (-1), .fin 2, 2⟩, ⟨⟨false, true, false, false⟩, .fin 3, .pinf, -1⟩] := by
  refine ⟨by norm_num, ⟨by simp, by simp⟩, ⟨0, by norm_num [Within]⟩, ?_, by norm_num [Box.merge],
    ⟨by simp, by simp⟩, ⟨3, by norm_num [Within]⟩, ?_, trivial⟩
  · intro h; norm_num [mergeTag] at h
  · intro _ h; norm_num [mergeTag, Box.merge] at h

/-- Row `i` when `x_j` carries the merged value and the cells of column `k` are dropped. -/
theorem dot_merge {l : List Cell} {j k : ℕ} (hjk : j ≠ k) {r : ℚ}
    (hp : coefAt k l = r * coefAt j l) (x : ℕ → ℚ) :
    dot (without k l) (setAt x j (x j + r * x k)) = dot l x := by
  have e1 := dot_without k l x
  have e2 := dot_without j (without k l) x
  have e3 := dot_without j (without k l) (setAt x j (x j + r * x k))
  have e4 : dot (without j (without k l)) (setAt x j (x j + r * x k)) =
      dot (without j (without k l)) x := by
    apply dot_congr
    intro p hp
    have : p.1 ≠ j := by
      have := (List.mem_filter.mp hp).2
      simpa using this
    simp [setAt, this]
  rw [coefAt_without hjk] at e2 e3
  rw [e3, e4, e1, e2, hp]
  simp [setAt]
  ring

/-- Hypotheses of the merge of column `k` into column `j`: both are active and within nonempty
bounds, the cells of `k` are `r` times those of `j` in every remaining row, and so is the cost. -/
structure ParReady (s : St) (j k : ℕ) (r : ℚ) : Prop where
  ne : j ≠ k
  r0 : r ≠ 0
  jn : j < s.n
  kn : k < s.n
  jact : (s.ctag j).inactive = false
  kact : (s.ctag k).inactive = false
  jgone : s.colSize j ≠ -1
  kgone : s.colSize k ≠ -1
  jfin : FinBox (s.ctag j) (s.lb j) (s.ub j)
  kfin : FinBox (s.ctag k) (s.lb k) (s.ub k)
  jne : ∃ u, Within (s.ctag j) (s.lb j) (s.ub j) u
  kne : ∃ v, Within (s.ctag k) (s.lb k) (s.ub k) v
  rows : ∀ i < s.m, (s.rtag i).inactive = false → coefAt k (s.A i) = r * coefAt j (s.A i)
  cost : s.c k = r * s.c j

/-- The point of the merged problem that belongs to `x`. -/
def mergedPt (x : ℕ → ℚ) (j k : ℕ) (r : ℚ) : ℕ → ℚ := setAt (setAt x j (x j + r * x k)) k 0

theorem dot_mergedPt {l : List Cell} {j k : ℕ} (hjk : j ≠ k) {r : ℚ}
    (hp : coefAt k l = r * coefAt j l) (x : ℕ → ℚ) : dot l (mergedPt x j k r) = dot l x := by
  rw [← dot_merge hjk hp x, dot_without k l]
  simp only [mergedPt, setAt_same, mul_zero, add_zero]
  apply dot_congr
  intro p hp
  have : p.1 ≠ k := (mem_without.mp hp).2
  rw [setAt_ne _ _ this]

theorem mergeCols_fields (s : St) (j k : ℕ) (r : ℚ) (hjk : j ≠ k) :
    (mergeCols s j k r).m = s.m ∧ (mergeCols s j k r).n = s.n ∧ (mergeCols s j k r).A = s.A ∧
    (mergeCols s j k r).lhs = s.lhs ∧ (mergeCols s j k r).rhs = s.rhs ∧
    (mergeCols s j k r).rtag = s.rtag ∧ (mergeCols s j k r).c = s.c ∧
    (mergeCols s j k r).off = s.off ∧ (mergeCols s j k r).colSize = s.colSize ∧
    (mergeCols s j k r).lb = upd s.lb j (mergeLb r (s.lb j) (s.ctag j) (s.lb k) (s.ub k) (s.ctag k)) ∧
    (mergeCols s j k r).ub = upd s.ub j (mergeUb r (s.ub j) (s.ctag j) (s.lb k) (s.ub k) (s.ctag k)) ∧
    (mergeCols s j k r).ctag = upd (upd s.ctag j (mergeTag r (s.ctag j) (s.ctag k))) k
      { s.ctag k with subst := true } ∧
    (mergeCols s j k r).log = .parallelCol j k (mergeTag r (s.ctag j) (s.ctag k))
      { s.ctag k with subst := true } (s.lb j) (s.ub j) (s.lb k) (s.ub k) r :: s.log := by
  refine ⟨rfl, rfl, rfl, rfl, rfl, rfl, rfl, rfl, rfl, rfl, rfl, ?_, ?_⟩
  · simp [mergeCols, setColToSubstituted, St.save, St.check, upd_ne _ _ (Ne.symm hjk)]
  · simp [mergeCols, setColToSubstituted, St.save, St.check, upd_ne _ _ (Ne.symm hjk), upd_ne _ _ hjk]

theorem mergeTag_active {r : ℚ} {tj tk : CTag} (h : tj.inactive = false) :
    (mergeTag r tj tk).inactive = false := by
  unfold mergeTag; split <;> exact h

theorem subst_of_active {t : CTag} (h : t.inactive = false) : t.subst = false := by
  simpa [CTag.inactive] using (Bool.or_eq_false_iff.mp h).2

/-- **C34 (merge and postsolve).** Merging column `k` into `j` keeps the problem: every feasible
point goes over to a feasible point of the same objective value, and every feasible point `y` of
the merged problem is brought back by the saved record to a point of the same objective value that
satisfies all rows, all bounds, and those of `k` up to the feasibility tolerance.
Partial because of `TryOK`, see `C34_split_partial`. -/
theorem C34_merge_partial (s : St) (j k : ℕ) (r : ℚ) (h : ParReady s j k r) :
    (∀ x, FeasPt s x → FeasPt (mergeCols s j k r) (mergedPt x j k r) ∧
      objective (mergeCols s j k r) (mergedPt x j k r) = objective s x) ∧
    (TryOK r (s.ctag j) (s.ctag k) (s.lb j) (s.ub j) →
      ∃ rec, (mergeCols s j k r).log = rec :: s.log ∧
      ∀ (y : ℕ → ℚ) (σ : Sol), FeasPt (mergeCols s j k r) y → y k = 0 →
        (∀ t < s.n, t ≠ k → σ.x t = .fin (y t)) →
        ∃ x : ℕ → ℚ, (∀ t < s.n, (retRec σ rec).x t = .fin (x t)) ∧
          x j + r * x k = y j ∧
          (∀ i < s.m, (s.rtag i).inactive = false → RowOK s i x) ∧
          (∀ t < s.n, t ≠ k → s.colSize t ≠ -1 → (s.ctag t).subst = false → ColIn s t (x t)) ∧
          ColInTol FEAS_TOL s k (x k) ∧ objective s x = objective (mergeCols s j k r) y) := by
  obtain ⟨em, en, eA, el, er, et, ec, eo, es, elb, eub, ect, elog⟩ := mergeCols_fields s j k r h.ne
  have hne := h.ne
  have hobj : ∀ x, objective s (mergedPt x j k r) = objective s x := by
    intro x
    rw [mergedPt, objective_setAt s _ h.kn, objective_setAt s _ h.jn, setAt_ne _ _ (Ne.symm hne), h.cost]
    ring
  have hobj' : ∀ x, objective (mergeCols s j k r) x = objective s x := by
    intro x; unfold objective; rw [en, ec]
  have hrow : ∀ i x, RowOK (mergeCols s j k r) i x ↔ RowOK s i x := by
    intro i x; unfold RowOK; rw [eA, el, er, et]
  have hcolT : ∀ t x, t ≠ j → t ≠ k → (ColIn (mergeCols s j k r) t x ↔ ColIn s t x) := by
    intro t x h1 h2
    unfold ColIn
    rw [ect, elb, eub, upd_ne _ _ h2, upd_ne _ _ h1, upd_ne _ _ h1, upd_ne _ _ h1]
  have hcolJ : ∀ x, ColIn (mergeCols s j k r) j x ↔
      Within (mergeTag r (s.ctag j) (s.ctag k))
        (mergeLb r (s.lb j) (s.ctag j) (s.lb k) (s.ub k) (s.ctag k))
        (mergeUb r (s.ub j) (s.ctag j) (s.lb k) (s.ub k) (s.ctag k)) x := by
    intro x
    unfold ColIn Within
    rw [ect, elb, eub, upd_ne _ _ hne, upd_same, upd_same, upd_same,
      effTag_active (mergeTag_active h.jact)]
  constructor
  · rintro x ⟨hr, hc⟩
    refine ⟨⟨?_, ?_⟩, by rw [hobj', hobj]⟩
    · intro i hi hia
      rw [em] at hi
      rw [et] at hia
      rw [hrow]
      have := hr i hi hia
      unfold RowOK at this ⊢
      rw [dot_mergedPt hne (h.rows i hi hia)]
      exact this
    · intro t ht htg hts
      rw [en] at ht
      rw [es] at htg
      by_cases e2 : t = k
      · subst e2
        rw [ect, upd_same] at hts
        exact absurd hts (by simp)
      · by_cases e1 : t = j
        · subst e1
          rw [hcolJ, mergedPt, setAt_ne _ _ hne, setAt_same,
            C34_range r h.r0 _ _ _ _ _ _ h.jfin h.kfin h.jne h.kne]
          refine ⟨x t, x k, ?_, ?_, rfl⟩
          · have := hc t h.jn h.jgone (subst_of_active h.jact)
            unfold ColIn at this
            rw [effTag_active h.jact] at this
            exact this
          · have := hc k h.kn h.kgone (subst_of_active h.kact)
            unfold ColIn at this
            rw [effTag_active h.kact] at this
            exact this
        · rw [hcolT t _ e1 e2, mergedPt, setAt_ne _ _ e2, setAt_ne _ _ e1]
          refine hc t ht htg ?_
          rw [ect, upd_ne _ _ e2, upd_ne _ _ e1] at hts
          exact hts
  · intro hz
    refine ⟨_, elog, ?_⟩
    rintro y σ ⟨hr, hc⟩ hyk hσ
    have hw := hc j (by rw [en]; exact h.jn) (by rw [es]; exact h.jgone)
      (by rw [ect, upd_ne _ _ hne, upd_same]; exact subst_of_active (mergeTag_active h.jact))
    rw [hcolJ] at hw
    obtain ⟨u, v, esp, huv, hu, hv⟩ := C34_split_partial r h.r0 _ _ _ _ _ _ h.jfin h.kfin h.jne h.kne
      hz (y j) hw
    have esp' : parSplit (.fin (y j)) (mergeTag r (s.ctag j) (s.ctag k))
        { s.ctag k with subst := true } (s.lb j) (s.ub j) (s.lb k) (s.ub k) r = (.fin u, .fin v) := esp
    set x := setAt (setAt y j u) k v with hx
    have hxj : x j = u := by rw [hx, setAt_ne _ _ hne, setAt_same]
    have hxk : x k = v := by rw [hx, setAt_same]
    have hxt : ∀ t, t ≠ j → t ≠ k → x t = y t := by
      intro t h1 h2
      rw [hx, setAt_ne _ _ h2, setAt_ne _ _ h1]
    have hmp : mergedPt x j k r = y := by
      funext t
      unfold mergedPt
      by_cases e2 : t = k
      · subst e2; rw [setAt_same, hyk]
      · rw [setAt_ne _ _ e2]
        by_cases e1 : t = j
        · subst e1; rw [setAt_same, hxj, hxk, huv]
        · rw [setAt_ne _ _ e1, hxt t e1 e2]
    refine ⟨x, ?_, by rw [hxj, hxk, huv], ?_, ?_, ?_, ?_⟩
    · intro t ht
      simp only [retRec, retParallelCol]
      rw [hσ j h.jn hne, esp']
      by_cases e2 : t = k
      · subst e2; rw [upd_same, hxk]
      · rw [upd_ne _ _ e2]
        by_cases e1 : t = j
        · subst e1; rw [upd_same, hxj]
        · rw [upd_ne _ _ e1, hσ t ht e2, hxt t e1 e2]
    · intro i hi hia
      have := (hrow i y).mp (hr i (by rw [em]; exact hi) (by rw [et]; exact hia))
      unfold RowOK at this ⊢
      rw [← dot_mergedPt hne (h.rows i hi hia), hmp]
      exact this
    · intro t ht e2 htg hts
      by_cases e1 : t = j
      · subst e1
        rw [hxj]
        unfold ColIn
        rw [effTag_active h.jact]
        exact hu
      · rw [hxt t e1 e2, ← hcolT t _ e1 e2]
        refine hc t (by rw [en]; exact ht) (by rw [es]; exact htg) ?_
        rw [ect, upd_ne _ _ e2, upd_ne _ _ e1]
        exact hts
    · rw [hxk]
      unfold ColInTol
      rw [effTag_active h.kact]
      exact hv
    · rw [hobj', ← hmp, hobj]

/-- Columns `0` and `1` of `x0 + 2 x1 + x2 ≤ 10`, `2 x0 + 4 x1 - x2 ≤ 8`, cost `x0 + 2 x1`, with
`0 ≤ x0 ≤ 3` and `-1 ≤ x1 ≤ 1`. -/
def exPar : St := initSt
  { m := 2, n := 3
    A := ofList [[(0, 1), (1, 2), (2, 1)], [(0, 2), (1, 4), (2, -1)]] []
    lhs := ofList [.ninf, .ninf] .ninf
    rhs := ofList [.fin 10, .fin 8] .pinf
    lb := ofList [.fin 0, .fin (-1), .fin 0] .ninf
    ub := ofList [.fin 3, .fin 1, .pinf] .pinf
    c := ofList [1, 2, 0] 0 }

theorem exPar_ready : ParReady exPar 0 1 2 where
  ne := by decide
  r0 := by norm_num
  jn := by decide
  kn := by decide
  jact := by decide +kernel
  kact := by decide +kernel
  jgone := by decide +kernel
  kgone := by decide +kernel
  jfin := ⟨fun _ => ⟨0, by decide +kernel⟩, fun _ => ⟨3, by decide +kernel⟩⟩
  kfin := ⟨fun _ => ⟨-1, by decide +kernel⟩, fun _ => ⟨1, by decide +kernel⟩⟩
  jne := ⟨0, Or.inr ⟨0, by decide +kernel, by norm_num⟩, Or.inr ⟨3, by decide +kernel, by norm_num⟩⟩
  kne := ⟨0, Or.inr ⟨-1, by decide +kernel, by norm_num⟩, Or.inr ⟨1, by decide +kernel, by norm_num⟩⟩
  rows := by
    intro i hi _
    change i < 2 at hi
    interval_cases i <;> decide +kernel
  cost := by decide +kernel

/-- The hypotheses of `C34_merge_partial` are met by `exPar`; the merged column has bounds
`[-2, 5]`. -/
example : ParReady exPar 0 1 2 ∧
    TryOK 2 (exPar.ctag 0) (exPar.ctag 1) (exPar.lb 0) (exPar.ub 0) ∧
    (mergeCols exPar 0 1 2).lb 0 = .fin (-2) ∧ (mergeCols exPar 0 1 2).ub 0 = .fin 5 := by
  refine ⟨exPar_ready, ?_, by decide +kernel, by decide +kernel⟩
  intro hh
  exact absurd hh (by decide +kernel)

/-- `1 ≤ x0 + x1 + x3 ≤ 10`, `1 ≤ x0 + x1 + x2 + 2 x3 ≤ 10`, `2 ≤ x1 ≤ 3`, `0 ≤ x2 ≤ 1`, `x0` and
`x3` free, cost `x2`. -/
def lpParCols : LP :=
  { m := 2, n := 4
    A := ofList [[(0, 1), (1, 1), (3, 1)], [(0, 1), (1, 1), (2, 1), (3, 2)]] []
    lhs := ofList [.fin 1, .fin 1] .ninf
    rhs := ofList [.fin 10, .fin 10] .pinf
    lb := ofList [.ninf, .fin 2, .fin 0, .ninf] .ninf
    ub := ofList [.pinf, .fin 3, .fin 1, .pinf] .pinf
    c := ofList [0, 0, 1, 0] 0 }

/-- **Negation of C34 (and of C02).** Columns 0 and 1 are merged into a free column.  The record
keeps the tag "free on both sides" for column 1, so postsolve tries `x1 = 0` and keeps it: from the
optimal point `(5, 0, 0)` of the reduced problem it returns `x = (5, 0, 0, 0)`, although `x1 ≥ 2` and
the problem has feasible points. -/
theorem C34_split_fails :
    (∃ x, lpParCols.Feasible x) ∧
    (runPresolver envEx stgsAll 10 lpParCols).2 = (UNCHANGED, true) ∧
    (runPresolver envEx stgsAll 10 lpParCols).1.undef = false ∧
    (runPresolver envEx stgsAll 10 lpParCols).1.asrt = true ∧
    (List.range 4).map (runPresolver envEx stgsAll 10 lpParCols).1.colSize = [-1, 2, 1, 2] ∧
    (postsolve (runPresolver envEx stgsAll 10 lpParCols).1 (ofList [.fin 5, .fin 0, .fin 0] .nan)
      (fun _ => .fin 0) (fun _ => .fin 0)).map (fun σ => (σ.x 0, σ.x 1, σ.x 2, σ.x 3)) =
      some (.fin 5, .fin 0, .fin 0, .fin 0) ∧
    ¬ Lo false (lpParCols.lb 1) 0 := by
  refine ⟨⟨fun k => if k = 1 then 2 else 0, ⟨fun i hi => ?_, fun k hk => ?_⟩⟩, by decide +kernel,
    by decide +kernel, by decide +kernel, by decide +kernel, by decide +kernel, ?_⟩
  · change i < 2 at hi
    interval_cases i <;> norm_num [lpParCols, ofList]
  · change k < 4 at hk
    interval_cases k <;> norm_num [lpParCols, ofList]
  · norm_num [lpParCols, ofList]

end Verif
