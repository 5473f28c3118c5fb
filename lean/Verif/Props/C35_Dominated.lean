import Verif.Props.C34_ParallelCols

/-!
# C35: dominated parallel columns are fixed without losing optimality
-/

namespace Verif

/-- Column `k` is `r` times column `j` in every remaining row; the costs are arbitrary. -/
structure DomReady (s : St) (j k : ℕ) (r : ℚ) : Prop where
  ne : j ≠ k
  r0 : r ≠ 0
  jn : j < s.n
  kn : k < s.n
  jact : (s.ctag j).inactive = false
  kact : (s.ctag k).inactive = false
  jgone : s.colSize j ≠ -1
  kgone : s.colSize k ≠ -1
  jfin : FinBox (s.ctag j) (s.lb j) (s.ub j)
  kfin : FinBox (s.ctag k) (s.lb k) (s.ub k)
  rows : ∀ i < s.m, (s.rtag i).inactive = false → coefAt k (s.A i) = r * coefAt j (s.A i)

/-- Fixing column `q` at `b` is safe, looking only at columns `q` and `o`: every feasible point is
matched by one with `x_q = b` that is equal elsewhere and strictly better unless `x_q = b` already. -/
def FixSafe (s : St) (q o : ℕ) (b : ℚ) : Prop :=
  ∀ x, FeasPt s x → ∃ x', FeasPt s x' ∧ x' q = b ∧ (∀ t, t ≠ q → t ≠ o → x' t = x t) ∧
    objective s x' ≤ objective s x ∧ (x q ≠ b → objective s x' < objective s x)

/-- The objective is unbounded below on the feasible points, if there are any. -/
def NoOptimum (s : St) : Prop :=
  ∀ x, FeasPt s x → ∀ M : ℚ, ∃ x', FeasPt s x' ∧ objective s x' < M

/-- What the code does with the decision: fix `q` at its lower bound, or report
"unbounded or infeasible" if that bound is infinite. -/
def LowerOK (s : St) (q o : ℕ) : Prop :=
  ((s.ctag q).lbInf = false → ∃ b, s.lb q = .fin b ∧ FixSafe s q o b) ∧
  ((s.ctag q).lbInf = true → NoOptimum s)

/-- The same for the upper bound. -/
def UpperOK (s : St) (q o : ℕ) : Prop :=
  ((s.ctag q).ubInf = false → ∃ b, s.ub q = .fin b ∧ FixSafe s q o b) ∧
  ((s.ctag q).ubInf = true → NoOptimum s)

/-- Trade `t` units of `x_k` for `r * t` units of `x_j`. -/
def trade (x : ℕ → ℚ) (j k : ℕ) (r t : ℚ) : ℕ → ℚ := setAt (setAt x j (x j + r * t)) k (x k - t)

theorem trade_j {x : ℕ → ℚ} {j k : ℕ} (h : j ≠ k) (r t : ℚ) : trade x j k r t j = x j + r * t := by
  rw [trade, setAt_ne _ _ h, setAt_same]
theorem trade_k {x : ℕ → ℚ} {j k : ℕ} (r t : ℚ) : trade x j k r t k = x k - t := by
  rw [trade, setAt_same]
theorem trade_o {x : ℕ → ℚ} {j k o : ℕ} (h1 : o ≠ j) (h2 : o ≠ k) (r t : ℚ) :
    trade x j k r t o = x o := by rw [trade, setAt_ne _ _ h2, setAt_ne _ _ h1]

theorem trade_obj {s : St} {j k : ℕ} {r : ℚ} (h : DomReady s j k r) (x : ℕ → ℚ) (t : ℚ) :
    objective s (trade x j k r t) = objective s x - (s.c k - r * s.c j) * t := by
  rw [trade, objective_setAt s _ h.kn, objective_setAt s _ h.jn, setAt_ne _ _ (Ne.symm h.ne)]
  ring

theorem trade_feas {s : St} {j k : ℕ} {r : ℚ} (h : DomReady s j k r) {x : ℕ → ℚ} (hx : FeasPt s x)
    {t : ℚ} (hj : Within (s.ctag j) (s.lb j) (s.ub j) (x j + r * t))
    (hk : Within (s.ctag k) (s.lb k) (s.ub k) (x k - t)) : FeasPt s (trade x j k r t) := by
  constructor
  · intro i hi hia
    have hr := hx.1 i hi hia
    unfold RowOK at hr ⊢
    have e : dot (s.A i) (trade x j k r t) = dot (s.A i) x := by
      rw [← dot_mergedPt h.ne (h.rows i hi hia) (trade x j k r t),
        ← dot_mergedPt h.ne (h.rows i hi hia) x]
      congr 1
      funext o
      unfold mergedPt
      by_cases e2 : o = k
      · subst e2; rw [setAt_same, setAt_same]
      · rw [setAt_ne _ _ e2, setAt_ne _ _ e2]
        by_cases e1 : o = j
        · subst e1; rw [setAt_same, setAt_same, trade_j h.ne, trade_k]; ring
        · rw [setAt_ne _ _ e1, setAt_ne _ _ e1, trade_o e1 e2]
    rw [e]; exact hr
  · intro o ho hog hos
    by_cases e2 : o = k
    · subst e2
      rw [trade_k]; unfold ColIn; rw [effTag_active h.kact]; exact hk
    · by_cases e1 : o = j
      · subst e1
        rw [trade_j h.ne]; unfold ColIn; rw [effTag_active h.jact]; exact hj
      · rw [trade_o e1 e2]; exact hx.2 o ho hog hos

theorem feas_j {s : St} {j k : ℕ} {r : ℚ} (h : DomReady s j k r) {x : ℕ → ℚ} (hx : FeasPt s x) :
    Within (s.ctag j) (s.lb j) (s.ub j) (x j) := by
  have := hx.2 j h.jn h.jgone (subst_of_active h.jact)
  unfold ColIn at this; rw [effTag_active h.jact] at this; exact this

theorem feas_k {s : St} {j k : ℕ} {r : ℚ} (h : DomReady s j k r) {x : ℕ → ℚ} (hx : FeasPt s x) :
    Within (s.ctag k) (s.lb k) (s.ub k) (x k) := by
  have := hx.2 k h.kn h.kgone (subst_of_active h.kact)
  unfold ColIn at this; rw [effTag_active h.kact] at this; exact this

/-- Unbounded trade in the direction `d` that lowers the objective. -/
theorem noOptimum_of {s : St} {j k : ℕ} {r : ℚ} (h : DomReady s j k r) (d : ℚ)
    (hd : 0 < (s.c k - r * s.c j) * d)
    (hj : ∀ x t, FeasPt s x → 0 ≤ t → Within (s.ctag j) (s.lb j) (s.ub j) (x j + r * (d * t)))
    (hk : ∀ x t, FeasPt s x → 0 ≤ t → Within (s.ctag k) (s.lb k) (s.ub k) (x k - d * t)) :
    NoOptimum s := by
  intro x hx M
  set g := (s.c k - r * s.c j) * d with hg
  set t := max 0 ((objective s x - M + 1) / g) with ht
  have ht0 : 0 ≤ t := le_max_left _ _
  refine ⟨trade x j k r (d * t), trade_feas h hx (hj x t hx ht0) (hk x t hx ht0), ?_⟩
  rw [trade_obj h]
  have h1 : (objective s x - M + 1) / g ≤ t := le_max_right _ _
  rw [div_le_iff₀ hd] at h1
  have : (s.c k - r * s.c j) * (d * t) = t * g := by rw [hg]; ring
  rw [this]; linarith

/-- Trading until `x_k = b`. -/
theorem fixSafe_k {s : St} {j k : ℕ} {r : ℚ} (h : DomReady s j k r) (b : ℚ)
    (hkb : ∀ x, FeasPt s x → Within (s.ctag k) (s.lb k) (s.ub k) b)
    (hj : ∀ x, FeasPt s x → Within (s.ctag j) (s.lb j) (s.ub j) (x j + r * (x k - b)))
    (hg : ∀ x, FeasPt s x → x k ≠ b → 0 < (s.c k - r * s.c j) * (x k - b)) : FixSafe s k j b := by
  intro x hx
  refine ⟨trade x j k r (x k - b), trade_feas h hx (hj x hx) (by
    rw [show x k - (x k - b) = b by ring]; exact hkb x hx), by rw [trade_k]; ring,
    fun t h1 h2 => trade_o h2 h1 _ _, ?_, ?_⟩
  · rw [trade_obj h]
    by_cases e : x k = b
    · rw [e]; simp
    · linarith [hg x hx e]
  · intro e; rw [trade_obj h]; linarith [hg x hx e]

/-- Trading until `x_j = b`. -/
theorem fixSafe_j {s : St} {j k : ℕ} {r : ℚ} (h : DomReady s j k r) (b : ℚ)
    (hjb : ∀ x, FeasPt s x → Within (s.ctag j) (s.lb j) (s.ub j) b)
    (hk : ∀ x, FeasPt s x → Within (s.ctag k) (s.lb k) (s.ub k) (x k - (b - x j) / r))
    (hg : ∀ x, FeasPt s x → x j ≠ b → 0 < (s.c k - r * s.c j) * ((b - x j) / r)) :
    FixSafe s j k b := by
  intro x hx
  have hm : x j + r * ((b - x j) / r) = b := by rw [mul_div_cancel₀ _ h.r0]; ring
  refine ⟨trade x j k r ((b - x j) / r), trade_feas h hx (by rw [hm]; exact hjb x hx) (hk x hx),
    by rw [trade_j h.ne, hm], fun t h1 h2 => trade_o h1 h2 _ _, ?_, ?_⟩
  · rw [trade_obj h]
    by_cases e : x j = b
    · rw [e]; simp
    · linarith [hg x hx e]
  · intro e; rw [trade_obj h]; linarith [hg x hx e]

theorem Within.lower {t : CTag} {lb ub : D} {a v : ℚ} (h : Within t lb ub v) (hl : t.lbInf = false)
    (e : lb = .fin a) : a ≤ v ∧ Within t lb ub a := by
  have h1 := h.1
  rw [e, hl, Lo_fin] at h1
  exact ⟨h1, by rw [e, hl]; simp, Hi.mono h.2 h1⟩

theorem Within.upper {t : CTag} {lb ub : D} {a v : ℚ} (h : Within t lb ub v) (hl : t.ubInf = false)
    (e : ub = .fin a) : v ≤ a ∧ Within t lb ub a := by
  have h1 := h.2
  rw [e, hl, Hi_fin] at h1
  exact ⟨h1, Lo.mono h.1 h1, by rw [e, hl]; simp⟩

theorem Within.up {t : CTag} {lb ub : D} {v w : ℚ} (h : Within t lb ub v) (hu : t.ubInf = true)
    (hw : v ≤ w) : Within t lb ub w := ⟨Lo.mono h.1 hw, by rw [hu]; simp⟩

theorem Within.down {t : CTag} {lb ub : D} {v w : ℚ} (h : Within t lb ub v) (hu : t.lbInf = true)
    (hw : w ≤ v) : Within t lb ub w := ⟨by rw [hu]; simp, Hi.mono h.2 hw⟩

/-- **C35.** For two parallel columns whose costs are not parallel, whatever the code decides is
right: the column it fixes can be fixed at that bound without losing anything (every feasible
point is matched by one on the bound that is no worse, and strictly better unless it was there
already), and when the bound is infinite the objective is unbounded on the feasible points. -/
theorem C35_dominated (s : St) (j k : ℕ) (r : ℚ) (h : DomReady s j k r) (hc : s.c k ≠ r * s.c j) :
    match parColDecide r (s.c j) (s.c k) (s.ctag j) (s.ctag k) with
    | .nothing => True
    | .kLower => LowerOK s k j
    | .kUpper => UpperOK s k j
    | .jLower => LowerOK s j k
    | .jUpper => UpperOK s j k := by
  unfold parColDecide
  by_cases hlt : r * s.c j < s.c k
  · have hg : 0 < s.c k - r * s.c j := by linarith
    rw [if_pos hlt]
    by_cases hp : 0 < r
    · rw [if_pos hp]
      by_cases hu : (s.ctag j).ubInf = true
      · rw [if_pos hu]
        refine ⟨fun hl => ?_, fun hl => ?_⟩
        · obtain ⟨b, eb⟩ := h.kfin.1 hl
          refine ⟨b, eb, fixSafe_k h b (fun x hx => ((feas_k h hx).lower hl eb).2) (fun x hx => ?_)
            (fun x hx e => ?_)⟩
          · have := ((feas_k h hx).lower hl eb).1
            exact (feas_j h hx).up hu (by nlinarith)
          · have := ((feas_k h hx).lower hl eb).1
            exact mul_pos hg (sub_pos.mpr (lt_of_le_of_ne this (Ne.symm e)))
        · exact noOptimum_of h 1 (by linarith) (fun x t hx ht => (feas_j h hx).up hu (by nlinarith))
            (fun x t hx ht => (feas_k h hx).down hl (by linarith))
      · rw [if_neg hu]
        by_cases hl : (s.ctag k).lbInf = true
        · rw [if_pos hl]
          refine ⟨fun hu => ?_, fun hu' => absurd hu' hu⟩
          obtain ⟨b, eb⟩ := h.jfin.2 hu
          refine ⟨b, eb, fixSafe_j h b (fun x hx => ((feas_j h hx).upper hu eb).2) (fun x hx => ?_)
            (fun x hx e => ?_)⟩
          · have := ((feas_j h hx).upper hu eb).1
            exact (feas_k h hx).down hl (by linarith [div_nonneg (sub_nonneg.mpr this) hp.le])
          · have := ((feas_j h hx).upper hu eb).1
            exact mul_pos hg (div_pos (sub_pos.mpr (lt_of_le_of_ne this e)) hp)
        · rw [if_neg hl]; trivial
    · have hn : r < 0 := lt_of_le_of_ne (not_lt.mp hp) h.r0
      rw [if_neg hp]
      by_cases hu : (s.ctag j).lbInf = true
      · rw [if_pos hu]
        refine ⟨fun hl => ?_, fun hl => ?_⟩
        · obtain ⟨b, eb⟩ := h.kfin.1 hl
          refine ⟨b, eb, fixSafe_k h b (fun x hx => ((feas_k h hx).lower hl eb).2) (fun x hx => ?_)
            (fun x hx e => ?_)⟩
          · have := ((feas_k h hx).lower hl eb).1
            exact (feas_j h hx).down hu (by nlinarith)
          · have := ((feas_k h hx).lower hl eb).1
            exact mul_pos hg (sub_pos.mpr (lt_of_le_of_ne this (Ne.symm e)))
        · exact noOptimum_of h 1 (by linarith) (fun x t hx ht => (feas_j h hx).down hu (by nlinarith))
            (fun x t hx ht => (feas_k h hx).down hl (by linarith))
      · rw [if_neg hu]
        by_cases hl : (s.ctag k).lbInf = true
        · rw [if_pos hl]
          refine ⟨fun hu => ?_, fun hu' => absurd hu' hu⟩
          obtain ⟨b, eb⟩ := h.jfin.1 hu
          refine ⟨b, eb, fixSafe_j h b (fun x hx => ((feas_j h hx).lower hu eb).2) (fun x hx => ?_)
            (fun x hx e => ?_)⟩
          · have := ((feas_j h hx).lower hu eb).1
            exact (feas_k h hx).down hl (by
              linarith [div_nonneg_of_nonpos (sub_nonpos.mpr this) hn.le])
          · have := ((feas_j h hx).lower hu eb).1
            exact mul_pos hg (div_pos_of_neg_of_neg (sub_neg.mpr (lt_of_le_of_ne this (Ne.symm e))) hn)
        · rw [if_neg hl]; trivial
  · have hg : s.c k - r * s.c j < 0 := by
      have := lt_of_le_of_ne (not_lt.mp hlt) hc
      linarith
    rw [if_neg hlt]
    by_cases hp : 0 < r
    · rw [if_pos hp]
      by_cases hu : (s.ctag j).lbInf = true
      · rw [if_pos hu]
        refine ⟨fun hl => ?_, fun hl => ?_⟩
        · obtain ⟨b, eb⟩ := h.kfin.2 hl
          refine ⟨b, eb, fixSafe_k h b (fun x hx => ((feas_k h hx).upper hl eb).2) (fun x hx => ?_)
            (fun x hx e => ?_)⟩
          · have := ((feas_k h hx).upper hl eb).1
            exact (feas_j h hx).down hu (by nlinarith)
          · have := ((feas_k h hx).upper hl eb).1
            exact mul_pos_of_neg_of_neg hg (sub_neg.mpr (lt_of_le_of_ne this e))
        · exact noOptimum_of h (-1) (by linarith)
            (fun x t hx ht => (feas_j h hx).down hu (by nlinarith))
            (fun x t hx ht => (feas_k h hx).up hl (by linarith))
      · rw [if_neg hu]
        by_cases hl : (s.ctag k).ubInf = true
        · rw [if_pos hl]
          refine ⟨fun hu => ?_, fun hu' => absurd hu' hu⟩
          obtain ⟨b, eb⟩ := h.jfin.1 hu
          refine ⟨b, eb, fixSafe_j h b (fun x hx => ((feas_j h hx).lower hu eb).2) (fun x hx => ?_)
            (fun x hx e => ?_)⟩
          · have := ((feas_j h hx).lower hu eb).1
            exact (feas_k h hx).up hl (by
              linarith [div_nonpos_of_nonpos_of_nonneg (sub_nonpos.mpr this) hp.le])
          · have := ((feas_j h hx).lower hu eb).1
            exact mul_pos_of_neg_of_neg hg
              (div_neg_of_neg_of_pos (sub_neg.mpr (lt_of_le_of_ne this (Ne.symm e))) hp)
        · rw [if_neg hl]; trivial
    · have hn : r < 0 := lt_of_le_of_ne (not_lt.mp hp) h.r0
      rw [if_neg hp]
      by_cases hu : (s.ctag j).ubInf = true
      · rw [if_pos hu]
        refine ⟨fun hl => ?_, fun hl => ?_⟩
        · obtain ⟨b, eb⟩ := h.kfin.2 hl
          refine ⟨b, eb, fixSafe_k h b (fun x hx => ((feas_k h hx).upper hl eb).2) (fun x hx => ?_)
            (fun x hx e => ?_)⟩
          · have := ((feas_k h hx).upper hl eb).1
            exact (feas_j h hx).up hu (by nlinarith)
          · have := ((feas_k h hx).upper hl eb).1
            exact mul_pos_of_neg_of_neg hg (sub_neg.mpr (lt_of_le_of_ne this e))
        · exact noOptimum_of h (-1) (by linarith)
            (fun x t hx ht => (feas_j h hx).up hu (by nlinarith))
            (fun x t hx ht => (feas_k h hx).up hl (by linarith))
      · rw [if_neg hu]
        by_cases hl : (s.ctag k).ubInf = true
        · rw [if_pos hl]
          refine ⟨fun hu => ?_, fun hu' => absurd hu' hu⟩
          obtain ⟨b, eb⟩ := h.jfin.2 hu
          refine ⟨b, eb, fixSafe_j h b (fun x hx => ((feas_j h hx).upper hu eb).2) (fun x hx => ?_)
            (fun x hx e => ?_)⟩
          · have := ((feas_j h hx).upper hu eb).1
            exact (feas_k h hx).up hl (by
              linarith [div_nonpos_of_nonneg_of_nonpos (sub_nonneg.mpr this) hn.le])
          · have := ((feas_j h hx).upper hu eb).1
            exact mul_pos_of_neg_of_neg hg
              (div_neg_of_pos_of_neg (sub_pos.mpr (lt_of_le_of_ne this e)) hn)
        · rw [if_neg hl]; trivial

/-- **C35 (step of the loop).** One step of the inner loop on columns `j`, `k` with different costs:
it reports "unbounded or infeasible" only if there is no optimum, and otherwise does nothing or
fixes one of the two columns at a value where fixing it is safe. -/
theorem C35_step (s : St) (j k : ℕ) (rec : Bool)
    (h : DomReady s j k (firstCoef (s.AT k) / firstCoef (s.AT j)))
    (hj0 : firstCoef (s.AT j) ≠ 0)
    (hc : isEqualFeasTol (.fin (s.c k * firstCoef (s.AT j))) (.fin (s.c j * firstCoef (s.AT k))) = false) :
    ∃ s1, core s1 = core s ∧ ∀ res, parColInner j (s.c j) (firstCoef (s.AT j)) [k] s rec = res →
      (res = (s1, rec, true) ∧ NoOptimum s) ∨ res = (s1, rec, false) ∨
      (∃ q o b, (q = j ∧ o = k ∨ q = k ∧ o = j) ∧
        res = ((fixCol s1 q (.fin b) (s.c q)).1, rec, false) ∧ FixSafe s q o b) := by
  set r := firstCoef (s.AT k) / firstCoef (s.AT j) with hr
  have hck : s.c k ≠ r * s.c j := by
    intro e
    rw [e, hr, show firstCoef (s.AT k) / firstCoef (s.AT j) * s.c j * firstCoef (s.AT j) =
      s.c j * firstCoef (s.AT k) by field_simp, isEqualFeasTol_fin] at hc
    simp [FEAS_TOL_pos.le] at hc
  have hd := C35_dominated s j k r h hck
  refine ⟨(s.check (decide (r ≠ 0))).check (!(s.ctag j).inactive && decide (s.c k ≠ r * s.c j)), rfl, ?_⟩
  intro res hres
  generalize hs1 : (s.check (decide (r ≠ 0))).check
    (!(s.ctag j).inactive && decide (s.c k ≠ r * s.c j)) = s1
  have f1 : s1.ctag = s.ctag := by rw [← hs1]; rfl
  have f2 : s1.lb = s.lb := by rw [← hs1]; rfl
  have f3 : s1.ub = s.ub := by rw [← hs1]; rfl
  have hres' : (match parColDecide r (s.c j) (s.c k) (s1.ctag j) (s1.ctag k) with
        | .nothing => (s1, rec, false)
        | .kLower =>
          if (s1.ctag k).lbInf then (s1, rec, true)
          else ((fixCol s1 k (s1.lb k) (s.c k)).1, rec, false)
        | .kUpper =>
          if (s1.ctag k).ubInf then (s1, rec, true)
          else ((fixCol s1 k (s1.ub k) (s.c k)).1, rec, false)
        | .jLower =>
          if (s1.ctag j).lbInf then (s1, rec, true)
          else ((fixCol s1 j (s1.lb j) (s.c j)).1, rec, false)
        | .jUpper =>
          if (s1.ctag j).ubInf then (s1, rec, true)
          else ((fixCol s1 j (s1.ub j) (s.c j)).1, rec, false)) = res := by
    rw [← hres, ← hs1]
    symm
    have e0 := h.kact
    unfold parColInner
    simp only [e0, hc, Bool.false_eq_true, if_false, parColInner]
    rfl
  rw [f1, f2, f3] at hres'
  revert hd hres'
  cases parColDecide r (s.c j) (s.c k) (s.ctag j) (s.ctag k) with
  | nothing => intro _ e; exact Or.inr (Or.inl e.symm)
  | kLower =>
    intro hd e
    simp only at hd e
    cases hb : (s.ctag k).lbInf with
    | true => rw [hb, if_pos rfl] at e; exact Or.inl ⟨e.symm, hd.2 hb⟩
    | false =>
      obtain ⟨b, eb, hs⟩ := hd.1 hb
      rw [hb, if_neg (by simp), eb] at e
      exact Or.inr (Or.inr ⟨k, j, b, Or.inr ⟨rfl, rfl⟩, e.symm, hs⟩)
  | kUpper =>
    intro hd e
    simp only at hd e
    cases hb : (s.ctag k).ubInf with
    | true => rw [hb, if_pos rfl] at e; exact Or.inl ⟨e.symm, hd.2 hb⟩
    | false =>
      obtain ⟨b, eb, hs⟩ := hd.1 hb
      rw [hb, if_neg (by simp), eb] at e
      exact Or.inr (Or.inr ⟨k, j, b, Or.inr ⟨rfl, rfl⟩, e.symm, hs⟩)
  | jLower =>
    intro hd e
    simp only at hd e
    cases hb : (s.ctag j).lbInf with
    | true => rw [hb, if_pos rfl] at e; exact Or.inl ⟨e.symm, hd.2 hb⟩
    | false =>
      obtain ⟨b, eb, hs⟩ := hd.1 hb
      rw [hb, if_neg (by simp), eb] at e
      exact Or.inr (Or.inr ⟨j, k, b, Or.inl ⟨rfl, rfl⟩, e.symm, hs⟩)
  | jUpper =>
    intro hd e
    simp only at hd e
    cases hb : (s.ctag j).ubInf with
    | true => rw [hb, if_pos rfl] at e; exact Or.inl ⟨e.symm, hd.2 hb⟩
    | false =>
      obtain ⟨b, eb, hs⟩ := hd.1 hb
      rw [hb, if_neg (by simp), eb] at e
      exact Or.inr (Or.inr ⟨j, k, b, Or.inl ⟨rfl, rfl⟩, e.symm, hs⟩)

/-- `x0 + 2 x1 + x2 ≤ 10`, `2 x0 + 4 x1 - x2 ≤ 8`, cost `x0 + 3 x1`, `x0 ≥ 0`, `-1 ≤ x1 ≤ 1`:
column 1 costs more than twice column 0, which has no upper bound. -/
def exDom : St := initSt
  { m := 2, n := 3
    A := ofList [[(0, 1), (1, 2), (2, 1)], [(0, 2), (1, 4), (2, -1)]] []
    lhs := ofList [.ninf, .ninf] .ninf
    rhs := ofList [.fin 10, .fin 8] .pinf
    lb := ofList [.fin 0, .fin (-1), .fin 0] .ninf
    ub := ofList [.pinf, .fin 1, .pinf] .pinf
    c := ofList [1, 3, 0] 0 }

theorem exDom_ready : DomReady exDom 0 1 2 where
  ne := by decide
  r0 := by norm_num
  jn := by decide
  kn := by decide
  jact := by decide +kernel
  kact := by decide +kernel
  jgone := by decide +kernel
  kgone := by decide +kernel
  jfin := ⟨fun _ => ⟨0, by decide +kernel⟩, fun h => absurd h (by decide +kernel)⟩
  kfin := ⟨fun _ => ⟨-1, by decide +kernel⟩, fun _ => ⟨1, by decide +kernel⟩⟩
  rows := by
    intro i hi _
    change i < 2 at hi
    interval_cases i <;> decide +kernel

/-- The hypotheses of `C35_dominated` and `C35_step` are met; column 1 is fixed at its lower bound. -/
example : DomReady exDom 0 1 (firstCoef (exDom.AT 1) / firstCoef (exDom.AT 0)) ∧
    firstCoef (exDom.AT 0) ≠ 0 ∧ exDom.c 1 ≠ 2 * exDom.c 0 ∧
    isEqualFeasTol (.fin (exDom.c 1 * firstCoef (exDom.AT 0)))
      (.fin (exDom.c 0 * firstCoef (exDom.AT 1))) = false ∧
    parColDecide 2 (exDom.c 0) (exDom.c 1) (exDom.ctag 0) (exDom.ctag 1) = .kLower := by
  refine ⟨?_, by decide +kernel, by decide +kernel, by decide +kernel, by decide +kernel⟩
  rw [show firstCoef (exDom.AT 1) / firstCoef (exDom.AT 0) = 2 by decide +kernel]
  exact exDom_ready

end Verif
