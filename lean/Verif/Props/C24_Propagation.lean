import Verif.Lemmas.Frame
import Verif.Lemmas.EnvEx

/-!
# C24: bound tightening never cuts off a feasible point

Primal propagation (`bound_tightening_single_row_rhs/lhs`).  A value whose distance to the bound
it is fixed at is negligible in every row of its column is moved to that bound; every other
feasible point stays feasible unchanged.
-/

namespace Verif

/-- `s'` keeps the feasible value `x k` of column `k`: nothing else changes, and either `x k` is
within the new bounds or the column was fixed at a value `w` so close to `x k` that no row of
the column changes by more than the feasibility tolerance.  Unless the ghost flag `near` says that
a column was fixed for the tolerance only, `w` is `x k`. -/
structure KeepsCol (s s' : St) (k : ℕ) (x : ℕ → ℚ) : Prop where
  rows : SameRows s s'
  others : ∀ j, j ≠ k → s'.lb j = s.lb j ∧ s'.ub j = s.ub j ∧ s'.ctag j = s.ctag j
  here : ∃ w, InCol (effTags s') s'.lb s'.ub (upd x k w) k ∧
    (∀ p ∈ s.AT k, |p.2 * (w - x k)| ≤ FEAS_TOL) ∧
    (s'.fixedCols = s.fixedCols ∨ s'.near = false → w = x k)

theorem getMaxAbs_le (cells : List Cell) : (∀ p ∈ cells, |p.2| ≤ getMaxAbs cells) ∧ 0 ≤ getMaxAbs cells := by
  unfold getMaxAbs
  have : ∀ (l : List Cell) (m : ℚ), m ≤ l.foldl (fun mx p => if |p.2| < mx then mx else |p.2|) m ∧
      ∀ p ∈ l, |p.2| ≤ l.foldl (fun mx p => if |p.2| < mx then mx else |p.2|) m := by
    intro l
    induction l with
    | nil => intro m; simp
    | cons q l ih =>
      intro m
      rw [List.foldl_cons]
      obtain ⟨h1, h2⟩ := ih (if |q.2| < m then m else |q.2|)
      have hm : m ≤ if |q.2| < m then m else |q.2| := by split <;> [rfl; exact not_lt.mp ‹_›]
      have hq : |q.2| ≤ if |q.2| < m then m else |q.2| := by split <;> [exact le_of_lt ‹_›; rfl]
      refine ⟨hm.trans h1, ?_⟩
      intro p hp
      rcases List.mem_cons.mp hp with rfl | hp
      · exact hq.trans h1
      · exact h2 p hp
  exact ⟨(this cells 0).2, (this cells 0).1⟩

theorem sameRows_check (s : St) (b : Bool) : SameRows s (s.check b) := by
  constructor <;> simp [St.check]
theorem sameRows_save (s : St) (r : Rec) : SameRows s (s.save r) := by
  constructor <;> simp [St.save]
theorem sameRows_fuzz (s : St) (b : Bool) : SameRows s (s.fuzz b) := by
  constructor <;> simp [St.fuzz]

theorem noteAltered_near (s : St) (i : ℕ) (alt : Altered) : (noteAltered s i alt).near = s.near := by
  unfold noteAltered
  simp only
  split
  · split <;> rfl
  · rfl

theorem updActsFixedCol_near (s : St) (cells : List Cell) (oldUb oldLb val : D) (b1 b2 b3 b4 : Bool) :
    (updActsFixedCol s cells oldUb oldLb val b1 b2 b3 b4).near = s.near := by
  unfold updActsFixedCol
  induction cells generalizing s with
  | nil => rfl
  | cons p l ih =>
    rw [List.foldl_cons, ih]
    unfold updActsFixedColStep
    simp only
    rw [noteAltered_near]

theorem fixCol_near (s : St) (k : ℕ) (v : D) (ck : ℚ) : (fixCol s k v ck).1.near = s.near := by
  unfold fixCol
  simp only
  split
  · rfl
  · simp only
    rw [updActsFixedCol_near]
    simp only [St.save, St.check, setColToFixed]

/-- The four ways `update_ub_within_propagation` ends. -/
theorem propUb_cases (fbt : Bool) (s : St) (k : ℕ) (b : ℚ) :
    let r := propUb fbt s k (.fin b)
    SameRows s r.1 ∧
    ((r.2 = INFEASIBLE ∧ (s.ctag k).lbInf = false ∧ D.le (.fin b) (D.sub (s.lb k) (.fin FEAS_TOL)) = true) ∨
     (r.2 = REDUCED ∧ (s.ctag k).lbInf = false ∧
        (D.le (.fin b) (s.lb k) || D.le (D.smul (getMaxAbs (s.AT k)) (D.sub (.fin b) (s.lb k)))
          (.fin FEAS_TOL)) = true ∧
        ∃ t, t.lb = s.lb ∧ t.ub = s.ub ∧ t.ctag = s.ctag ∧ t.fixedCols = s.fixedCols ∧
          t.near = (s.near || (!D.le (.fin b) (s.lb k))) ∧ r.1 = (fixCol t k (s.lb k) (s.c k)).1) ∨
     (r.2 = REDUCED ∧ r.1.lb = s.lb ∧ r.1.fixedCols = s.fixedCols ∧
        (∃ b', b ≤ b' ∧ r.1.ub = upd s.ub k (.fin b')) ∧
        r.1.ctag = upd s.ctag k { s.ctag k with ubInf := false }) ∨
     (r.2 = UNCHANGED ∧ r.1.lb = s.lb ∧ r.1.ub = s.ub ∧ r.1.ctag = s.ctag ∧
        r.1.fixedCols = s.fixedCols)) := by
  intro r
  obtain ⟨hr⟩ : Nonempty (r = propUb fbt s k (.fin b)) := ⟨rfl⟩
  clear_value r
  unfold propUb at hr
  simp only at hr
  have sc : SameRows s ((s.check (!D.isInf (.fin b) && !(s.ctag k).inactive)).check
      (((s.ctag k).ubInf || D.le (.fin b) (s.ub k)) && !isHuge (.fin b))) :=
    (sameRows_check _ _).trans (sameRows_check _ _)
  split at hr
  · rename_i h
    simp only [Bool.and_eq_true, Bool.not_eq_true'] at h
    subst hr
    exact ⟨sc, Or.inl ⟨rfl, h.1, h.2⟩⟩
  split at hr
  · rename_i h
    simp only [Bool.and_eq_true, Bool.not_eq_true'] at h
    subst hr
    refine ⟨?_, Or.inr (Or.inl ⟨rfl, h.1, h.2, _, ?_, ?_, ?_, ?_, ?_, rfl⟩)⟩
    · exact ((sc.trans (sameRows_save _ _)).trans (sameRows_fuzz _ _)).trans (fixCol_cases _ _ _ _).1
    all_goals simp [St.check, St.save, St.fuzz]
  split at hr
  · subst hr
    have h1 := updActsBoundChange_same
      ({ ((s.check (!D.isInf (.fin b) && !(s.ctag k).inactive)).check
          (((s.ctag k).ubInf || D.le (.fin b) (s.ub k)) && !isHuge (.fin b))) with
        ctag := upd s.ctag k { s.ctag k with ubInf := false }
        ub := upd s.ub k (if isIntegral (.fin b) = true then D.fin b
          else D.add (.fin b) (D.smul BOUND_MARGINAL (D.abs (.fin b)))) })
      (s.AT k) (s.ub k) (if isIntegral (.fin b) = true then D.fin b
          else D.add (.fin b) (D.smul BOUND_MARGINAL (D.abs (.fin b)))) (!(s.ctag k).ubInf) false
    refine ⟨?_, Or.inr (Or.inr (Or.inl ⟨rfl, ?_, ?_, ?_, ?_⟩))⟩
    · refine SameRows.trans ?_ (sameRows_save _ _)
      refine SameRows.trans ?_ h1.toSameRows
      constructor <;> simp [St.check]
    · exact h1.lb
    · exact h1.fixedCols
    · refine ⟨if isIntegral (.fin b) = true then b else b + BOUND_MARGINAL * |b|, ?_, ?_⟩
      · split
        · exact le_rfl
        · have h2 : 0 ≤ BOUND_MARGINAL := by norm_num [BOUND_MARGINAL, FEAS_TOL]
          have := mul_nonneg h2 (abs_nonneg b); linarith
      · refine h1.ub.trans ?_
        simp only
        congr 1
        split <;> simp
    · exact h1.ctag
  · subst hr
    exact ⟨sc, Or.inr (Or.inr (Or.inr ⟨rfl, by simp [St.check]⟩))⟩

/-- The four ways `update_lb_within_propagation` ends. -/
theorem propLb_cases (fbt : Bool) (s : St) (k : ℕ) (b : ℚ) :
    let r := propLb fbt s k (.fin b)
    SameRows s r.1 ∧
    ((r.2 = INFEASIBLE ∧ (s.ctag k).ubInf = false ∧ D.le (D.add (s.ub k) (.fin FEAS_TOL)) (.fin b) = true) ∨
     (r.2 = REDUCED ∧ (s.ctag k).ubInf = false ∧
        (D.le (s.ub k) (.fin b) || D.le (D.smul (getMaxAbs (s.AT k)) (D.sub (s.ub k) (.fin b)))
          (.fin FEAS_TOL)) = true ∧
        ∃ t, t.lb = s.lb ∧ t.ub = s.ub ∧ t.ctag = s.ctag ∧ t.fixedCols = s.fixedCols ∧
          t.near = (s.near || (!D.le (s.ub k) (.fin b))) ∧ r.1 = (fixCol t k (s.ub k) (s.c k)).1) ∨
     (r.2 = REDUCED ∧ r.1.ub = s.ub ∧ r.1.fixedCols = s.fixedCols ∧
        (∃ b', b' ≤ b ∧ r.1.lb = upd s.lb k (.fin b')) ∧
        r.1.ctag = upd s.ctag k { s.ctag k with lbInf := false }) ∨
     (r.2 = UNCHANGED ∧ r.1.lb = s.lb ∧ r.1.ub = s.ub ∧ r.1.ctag = s.ctag ∧
        r.1.fixedCols = s.fixedCols)) := by
  intro r
  obtain ⟨hr⟩ : Nonempty (r = propLb fbt s k (.fin b)) := ⟨rfl⟩
  clear_value r
  unfold propLb at hr
  simp only at hr
  have sc : SameRows s ((s.check (!D.isInf (.fin b) && !(s.ctag k).inactive)).check
      (((s.ctag k).lbInf || D.le (s.lb k) (.fin b)) && !isHuge (.fin b))) :=
    (sameRows_check _ _).trans (sameRows_check _ _)
  split at hr
  · rename_i h
    simp only [Bool.and_eq_true, Bool.not_eq_true'] at h
    subst hr
    exact ⟨sc, Or.inl ⟨rfl, h.1, h.2⟩⟩
  split at hr
  · rename_i h
    simp only [Bool.and_eq_true, Bool.not_eq_true'] at h
    subst hr
    refine ⟨?_, Or.inr (Or.inl ⟨rfl, h.1, h.2, _, ?_, ?_, ?_, ?_, ?_, rfl⟩)⟩
    · exact ((sc.trans (sameRows_save _ _)).trans (sameRows_fuzz _ _)).trans (fixCol_cases _ _ _ _).1
    all_goals simp [St.check, St.save, St.fuzz]
  split at hr
  · subst hr
    have h1 := updActsBoundChange_same
      ({ ((s.check (!D.isInf (.fin b) && !(s.ctag k).inactive)).check
          (((s.ctag k).lbInf || D.le (s.lb k) (.fin b)) && !isHuge (.fin b))) with
        ctag := upd s.ctag k { s.ctag k with lbInf := false }
        lb := upd s.lb k (if isIntegral (.fin b) = true then D.fin b
          else D.sub (.fin b) (D.smul BOUND_MARGINAL (D.abs (.fin b)))) })
      (s.AT k) (s.lb k) (if isIntegral (.fin b) = true then D.fin b
          else D.sub (.fin b) (D.smul BOUND_MARGINAL (D.abs (.fin b)))) (!(s.ctag k).lbInf) true
    refine ⟨?_, Or.inr (Or.inr (Or.inl ⟨rfl, ?_, ?_, ?_, ?_⟩))⟩
    · refine SameRows.trans ?_ (sameRows_save _ _)
      refine SameRows.trans ?_ h1.toSameRows
      constructor <;> simp [St.check]
    · exact h1.ub
    · exact h1.fixedCols
    · refine ⟨if isIntegral (.fin b) = true then b else b - BOUND_MARGINAL * |b|, ?_, ?_⟩
      · split
        · exact le_rfl
        · have h2 : 0 ≤ BOUND_MARGINAL := by norm_num [BOUND_MARGINAL, FEAS_TOL]
          have := mul_nonneg h2 (abs_nonneg b); linarith
      · refine h1.lb.trans ?_
        simp only
        congr 1
        split <;> simp
    · exact h1.ctag
  · subst hr
    exact ⟨sc, Or.inr (Or.inr (Or.inr ⟨rfl, by simp [St.check]⟩))⟩

/-- A valid upper bound `b` handed to `update_ub_within_propagation` is processed soundly. -/
theorem propUb_sound (fbt : Bool) (s : St) (k : ℕ) (b : ℚ) (x : ℕ → ℚ)
    (hact : (s.ctag k).inactive = false)
    (hl : FinIf (s.ctag k).lbInf (s.lb k)) (hx : InCol s.ctag s.lb s.ub x k) (hb : x k ≤ b) :
    let r := propUb fbt s k (.fin b)
    (r.2 = UNCHANGED ∨ r.2 = REDUCED) ∧ KeepsCol s r.1 k x := by
  have hε := FEAS_TOL_pos
  intro r
  obtain ⟨sr, h | h | h | h⟩ := propUb_cases fbt s k b
  · exfalso
    obtain ⟨_, h2, h3⟩ := h
    obtain ⟨l, e⟩ := hl h2
    have h4 := hx.1.le h2
    rw [e] at h3 h4
    simp only [D.sub_fin, D.le_fin, decide_eq_true_eq, D.toQ_fin] at h3 h4
    linarith
  · obtain ⟨h1, h2, h3, t, t1, t2, t3, t4, t5, h4⟩ := h
    obtain ⟨l, e⟩ := hl h2
    have h5 := hx.1.le h2
    rw [e] at h3 h5
    simp only [D.sub_fin, D.le_fin, D.smul_fin, Bool.or_eq_true, decide_eq_true_eq, D.toQ_fin] at h3 h5
    refine ⟨Or.inr h1, ?_⟩
    change KeepsCol s r.1 k x
    have hr1 : r.1 = (fixCol t k (s.lb k) (s.c k)).1 := h4
    obtain ⟨_, c⟩ := fixCol_cases t k (s.lb k) (s.c k)
    rw [← hr1] at c
    rcases c with ⟨_, _, _, _, _, _, _, c⟩ | ⟨_, c1, c2, c3, _, c4, _⟩
    · exfalso
      simp only [t1, t2, t3, e, Bool.or_eq_true, Bool.and_eq_true, Bool.not_eq_true'] at c
      rcases c with ⟨ca, cb⟩ | ⟨ca, cb⟩
      · have h6 := hx.2
        rcases h6 with h6 | ⟨u, eu, h6⟩
        · simp [h6] at ca
        · rw [eu] at cb
          simp only [D.add_fin, D.le_fin, decide_eq_true_eq] at cb
          linarith
      · simp only [D.sub_fin, D.le_fin, decide_eq_true_eq] at cb
        linarith
    · refine ⟨sr, ?_, l, ?_, ?_, ?_⟩
      · intro j hj; rw [c1, c2, c3, t1, t2, t3]; simp [hj]
      · unfold InCol effTags
        rw [c1, c2, c3]
        simp [effTag, e]
      · intro p hp
        have hd : 0 ≤ x k - l := by linarith
        have : |p.2 * (l - x k)| = |p.2| * (x k - l) := by
          rw [abs_mul, abs_sub_comm, abs_of_nonneg hd]
        rw [this]
        obtain ⟨m1, m2⟩ := getMaxAbs_le (s.AT k)
        rcases h3 with h3 | h3
        · have : x k - l = 0 := by linarith
          rw [this]; simpa using hε.le
        · calc |p.2| * (x k - l) ≤ getMaxAbs (s.AT k) * (x k - l) :=
                mul_le_mul_of_nonneg_right (m1 p hp) hd
            _ ≤ getMaxAbs (s.AT k) * (b - l) := mul_le_mul_of_nonneg_left (by linarith) m2
            _ ≤ FEAS_TOL := h3
      · rintro (hf | hf)
        · rw [c4, t4] at hf; simp at hf
        · rw [hr1, fixCol_near, t5, e, D.le_fin, Bool.or_eq_false_iff, Bool.not_eq_false', decide_eq_true_eq] at hf
          linarith [hf.2]
  · obtain ⟨h1, h2, h3, ⟨b', h4, h5⟩, h6⟩ := h
    refine ⟨Or.inr h1, sr, ?_, x k, ?_, ?_, fun _ => rfl⟩
    · intro j hj; rw [show r.1.lb = _ from h2, show r.1.ub = _ from h5, show r.1.ctag = _ from h6]; simp [hj]
    · unfold InCol effTags
      rw [show r.1.lb = _ from h2, show r.1.ub = _ from h5, show r.1.ctag = _ from h6]
      have hf : (s.ctag k).fixed = false := by
        simp only [CTag.inactive, Bool.or_eq_false_iff] at hact; exact hact.1
      simp only [upd_same, effTag, hf, Bool.false_eq_true, if_false]
      exact ⟨hx.1, Or.inr ⟨b', rfl, hb.trans h4⟩⟩
    · intro p _; simpa using hε.le
  · obtain ⟨h1, h2, h3, h4, h5⟩ := h
    refine ⟨Or.inl h1, sr, ?_, x k, ?_, ?_, fun _ => rfl⟩
    · intro j hj; rw [show r.1.lb = _ from h2, show r.1.ub = _ from h3, show r.1.ctag = _ from h4]; simp
    · unfold InCol effTags
      rw [show r.1.lb = _ from h2, show r.1.ub = _ from h3, show r.1.ctag = _ from h4]
      simp only [upd_same, effTag_active hact]
      exact hx
    · intro p _; simpa using hε.le

/-- A valid lower bound `b` handed to `update_lb_within_propagation` is processed soundly. -/
theorem propLb_sound (fbt : Bool) (s : St) (k : ℕ) (b : ℚ) (x : ℕ → ℚ)
    (hact : (s.ctag k).inactive = false)
    (hu : FinIf (s.ctag k).ubInf (s.ub k)) (hx : InCol s.ctag s.lb s.ub x k) (hb : b ≤ x k) :
    let r := propLb fbt s k (.fin b)
    (r.2 = UNCHANGED ∨ r.2 = REDUCED) ∧ KeepsCol s r.1 k x := by
  have hε := FEAS_TOL_pos
  intro r
  obtain ⟨sr, h | h | h | h⟩ := propLb_cases fbt s k b
  · exfalso
    obtain ⟨_, h2, h3⟩ := h
    obtain ⟨l, e⟩ := hu h2
    have h4 := hx.2.le h2
    rw [e] at h3 h4
    simp only [D.add_fin, D.le_fin, decide_eq_true_eq, D.toQ_fin] at h3 h4
    linarith
  · obtain ⟨h1, h2, h3, t, t1, t2, t3, t4, t5, h4⟩ := h
    obtain ⟨l, e⟩ := hu h2
    have h5 := hx.2.le h2
    rw [e] at h3 h5
    simp only [D.sub_fin, D.le_fin, D.smul_fin, Bool.or_eq_true, decide_eq_true_eq, D.toQ_fin] at h3 h5
    refine ⟨Or.inr h1, ?_⟩
    change KeepsCol s r.1 k x
    have hr1 : r.1 = (fixCol t k (s.ub k) (s.c k)).1 := h4
    obtain ⟨_, c⟩ := fixCol_cases t k (s.ub k) (s.c k)
    rw [← hr1] at c
    rcases c with ⟨_, _, _, _, _, _, _, c⟩ | ⟨_, c1, c2, c3, _, c4, _⟩
    · exfalso
      simp only [t1, t2, t3, e, Bool.or_eq_true, Bool.and_eq_true, Bool.not_eq_true'] at c
      rcases c with ⟨ca, cb⟩ | ⟨ca, cb⟩
      · simp only [D.add_fin, D.le_fin, decide_eq_true_eq] at cb
        linarith
      · have h6 := hx.1
        rcases h6 with h6 | ⟨u, eu, h6⟩
        · simp [h6] at ca
        · rw [eu] at cb
          simp only [D.sub_fin, D.le_fin, decide_eq_true_eq] at cb
          linarith
    · refine ⟨sr, ?_, l, ?_, ?_, ?_⟩
      · intro j hj; rw [c1, c2, c3, t1, t2, t3]; simp [hj]
      · unfold InCol effTags
        rw [c1, c2, c3]
        simp [effTag, e]
      · intro p hp
        have hd : 0 ≤ l - x k := by linarith
        have : |p.2 * (l - x k)| = |p.2| * (l - x k) := by
          rw [abs_mul, abs_of_nonneg hd]
        rw [this]
        obtain ⟨m1, m2⟩ := getMaxAbs_le (s.AT k)
        rcases h3 with h3 | h3
        · have : l - x k = 0 := by linarith
          rw [this]; simpa using hε.le
        · calc |p.2| * (l - x k) ≤ getMaxAbs (s.AT k) * (l - x k) :=
                mul_le_mul_of_nonneg_right (m1 p hp) hd
            _ ≤ getMaxAbs (s.AT k) * (l - b) := mul_le_mul_of_nonneg_left (by linarith) m2
            _ ≤ FEAS_TOL := h3
      · rintro (hf | hf)
        · rw [c4, t4] at hf; simp at hf
        · rw [hr1, fixCol_near, t5, e, D.le_fin, Bool.or_eq_false_iff, Bool.not_eq_false', decide_eq_true_eq] at hf
          linarith [hf.2]
  · obtain ⟨h1, h2, h3, ⟨b', h4, h5⟩, h6⟩ := h
    refine ⟨Or.inr h1, sr, ?_, x k, ?_, ?_, fun _ => rfl⟩
    · intro j hj; rw [show r.1.ub = _ from h2, show r.1.lb = _ from h5, show r.1.ctag = _ from h6]; simp [hj]
    · unfold InCol effTags
      rw [show r.1.ub = _ from h2, show r.1.lb = _ from h5, show r.1.ctag = _ from h6]
      have hf : (s.ctag k).fixed = false := by
        simp only [CTag.inactive, Bool.or_eq_false_iff] at hact; exact hact.1
      simp only [upd_same, effTag, hf, Bool.false_eq_true, if_false]
      exact ⟨Or.inr ⟨b', rfl, h4.trans hb⟩, hx.2⟩
    · intro p _; simpa using hε.le
  · obtain ⟨h1, h2, h3, h4, h5⟩ := h
    refine ⟨Or.inl h1, sr, ?_, x k, ?_, ?_, fun _ => rfl⟩
    · intro j hj; rw [show r.1.lb = _ from h2, show r.1.ub = _ from h3, show r.1.ctag = _ from h4]; simp
    · unfold InCol effTags
      rw [show r.1.lb = _ from h2, show r.1.ub = _ from h3, show r.1.ctag = _ from h4]
      simp only [upd_same, effTag_active hact]
      exact hx
    · intro p _; simpa using hε.le

/-! ### The bounds derived from a row -/

theorem rest_min {ctag : ℕ → CTag} {lb ub : ℕ → D} {l1 l2 : List Cell} {k : ℕ} {q : ℚ}
    {x : ℕ → ℚ} (hx : ∀ p ∈ l1 ++ (k, q) :: l2, InCol ctag lb ub x p.1)
    (hu : ∀ p ∈ l1 ++ l2, unbMin ctag p = false) :
    ((l1 ++ l2).map (minTerm lb ub)).sum + q * x k ≤ dot (l1 ++ (k, q) :: l2) x := by
  have h := sum_minTerm_le (ctag := ctag) (lb := lb) (ub := ub) (x := x) (cells := l1 ++ l2)
    (fun p hp => hx p (by simp at hp ⊢; tauto)) hu
  simp only [dot_append, dot_cons] at h ⊢
  linarith

theorem rest_max {ctag : ℕ → CTag} {lb ub : ℕ → D} {l1 l2 : List Cell} {k : ℕ} {q : ℚ}
    {x : ℕ → ℚ} (hx : ∀ p ∈ l1 ++ (k, q) :: l2, InCol ctag lb ub x p.1)
    (hu : ∀ p ∈ l1 ++ l2, unbMax ctag p = false) :
    dot (l1 ++ (k, q) :: l2) x ≤ ((l1 ++ l2).map (maxTerm lb ub)).sum + q * x k := by
  have h := le_sum_maxTerm (ctag := ctag) (lb := lb) (ub := ub) (x := x) (cells := l1 ++ l2)
    (fun p hp => hx p (by simp at hp ⊢; tauto)) hu
  simp only [dot_append, dot_cons] at h ⊢
  linarith

theorem hasStatus_or_ok {st r : Status} (h : r = UNCHANGED ∨ r = REDUCED) :
    hasStatus (st ||| r) INFEASIBLE = hasStatus st INFEASIBLE := by
  have e : r &&& INFEASIBLE = 0 := by rcases h with rfl | rfl <;> rfl
  unfold hasStatus
  rw [Nat.and_or_distrib_right, e, Nat.or_zero]

/-- What one attempted bound change may do: no new `INFEASIBLE`, the point is kept. -/
def PropKeeps (acc r : PropAcc) (k : ℕ) (x : ℕ → ℚ) : Prop :=
  hasStatus r.2.1 INFEASIBLE = hasStatus acc.2.1 INFEASIBLE ∧ KeepsCol acc.1 r.1 k x

theorem keepsCol_refl {s : St} {k : ℕ} {x : ℕ → ℚ} (h : InCol (effTags s) s.lb s.ub x k) :
    KeepsCol s s k x :=
  ⟨.refl s, fun _ _ => ⟨rfl, rfl, rfl⟩, x k, by simpa [InCol] using h,
    fun p _ => by simpa using FEAS_TOL_pos.le, fun _ => rfl⟩

theorem propTryUb_keeps (fbt : Bool) (acc : PropAcc) (k : ℕ) (b : ℚ) (x : ℕ → ℚ)
    (hact : (acc.1.ctag k).inactive = false)
    (hl : FinIf (acc.1.ctag k).lbInf (acc.1.lb k)) (hx : InCol acc.1.ctag acc.1.lb acc.1.ub x k)
    (hb : x k ≤ b) : PropKeeps acc (propTryUb fbt acc k (.fin b)) k x := by
  unfold propTryUb
  simp only
  split
  · obtain ⟨h1, h2⟩ := propUb_sound fbt acc.1 k b x hact hl hx hb
    exact ⟨hasStatus_or_ok h1, h2⟩
  · refine ⟨rfl, keepsCol_refl ?_⟩
    unfold InCol effTags; rw [effTag_active hact]; exact hx

theorem propTryLb_keeps (fbt : Bool) (acc : PropAcc) (k : ℕ) (b : ℚ) (x : ℕ → ℚ)
    (hact : (acc.1.ctag k).inactive = false)
    (hu : FinIf (acc.1.ctag k).ubInf (acc.1.ub k)) (hx : InCol acc.1.ctag acc.1.lb acc.1.ub x k)
    (hb : b ≤ x k) : PropKeeps acc (propTryLb fbt acc k (.fin b)) k x := by
  unfold propTryLb
  simp only
  split
  · obtain ⟨h1, h2⟩ := propLb_sound fbt acc.1 k b x hact hu hx hb
    exact ⟨hasStatus_or_ok h1, h2⟩
  · refine ⟨rfl, keepsCol_refl ?_⟩
    unfold InCol effTags; rw [effTag_active hact]; exact hx

/-- What the theorems below assume about row `i`: distinct columns, nonzero coefficients, finite
bounds where they are not tagged infinite, an exact activity, a point that is within the bounds. -/
structure RowReady (s : St) (i : ℕ) (x : ℕ → ℚ) : Prop where
  nodup : ((s.A i).map Prod.fst).Nodup
  nz : ∀ p ∈ s.A i, p.2 ≠ 0
  cols : ColsOK (effTags s) s.lb s.ub (s.A i)
  act : Recomputed (s.act i) (effTags s) s.lb s.ub (s.A i)
  box : ∀ p ∈ s.A i, InCol (effTags s) s.lb s.ub x p.1

/-- **C24 (right side, all contributions finite).**  One cell of `bound_tightening_single_row_rhs`:
a point within the bounds whose row value respects the right side is kept. -/
theorem C24_rhs_cell (fbt : Bool) (i : ℕ) (acc : PropAcc) (p : Cell) (x : ℕ → ℚ)
    (hp : p ∈ acc.1.A i) (h : RowReady acc.1 i x) (hr : ∃ b, acc.1.rhs i = .fin b ∧ dot (acc.1.A i) x ≤ b)
    (h0 : (acc.1.act i).nInfMin = 0) : PropKeeps acc (propRhsCell fbt i acc p) p.1 x := by
  obtain ⟨k, q⟩ := p
  obtain ⟨rhs, er, hrow⟩ := hr
  obtain ⟨l1, l2, e, n1, n2⟩ := split_col h.nodup hp
  have ha := (recomputed_iff h.cols).mp h.act
  have hmin := ha.min h0
  have hunb := countP_zero_all (ha.nmin.symm.trans h0)
  unfold propRhsCell
  simp only
  split
  · exact ⟨rfl, keepsCol_refl (h.box _ hp)⟩
  rename_i hact
  have hact : (acc.1.ctag k).inactive = false := by simpa using hact
  have et : effTags acc.1 k = acc.1.ctag k := effTag_active hact
  have hx : InCol acc.1.ctag acc.1.lb acc.1.ub x k := by
    have := h.box _ hp; unfold InCol at this ⊢; rwa [et] at this
  have hc : FinIf (acc.1.ctag k).lbInf (acc.1.lb k) ∧ FinIf (acc.1.ctag k).ubInf (acc.1.ub k) := by
    have := h.cols _ hp; rwa [et] at this
  have hq : q ≠ 0 := h.nz _ hp
  have hu := hunb _ hp
  have hrest := rest_min (x := x) (lb := acc.1.lb) (ub := acc.1.ub) (ctag := effTags acc.1) (k := k) (q := q)
    (l1 := l1) (l2 := l2) (fun p' hp' => h.box p' (by rw [e]; exact hp'))
    (fun p' hp' => hunb p' (by rw [e]; simp at hp' ⊢; tauto))
  rw [← e] at hrest
  have hsum : ((acc.1.A i).map (minTerm acc.1.lb acc.1.ub)).sum =
      ((l1 ++ l2).map (minTerm acc.1.lb acc.1.ub)).sum + minTerm acc.1.lb acc.1.ub (k, q) := by
    rw [e]; simp; ring
  rw [hmin, er, D.sub_fin, D.divq_fin hq]
  unfold unbMin at hu
  by_cases hpos : 0 < q
  · rw [if_pos hpos]
    simp only [hpos, if_true, et] at hu
    obtain ⟨l, el⟩ := hc.1 hu
    rw [el, D.add_fin]
    apply propTryUb_keeps fbt acc k _ x hact hc.1 hx
    have ht : minTerm acc.1.lb acc.1.ub (k, q) = q * l := by simp [minTerm, hpos, el]
    rw [hsum, ht]
    have : x k - l ≤ (rhs - (((l1 ++ l2).map (minTerm acc.1.lb acc.1.ub)).sum + q * l)) / q := by
      rw [le_div_iff₀ hpos]; linarith
    linarith
  · rw [if_neg hpos]
    have hneg : q < 0 := lt_of_le_of_ne (not_lt.mp hpos) hq
    simp only [hpos, if_false, et] at hu
    obtain ⟨l, el⟩ := hc.2 hu
    rw [el, D.add_fin]
    apply propTryLb_keeps fbt acc k _ x hact hc.2 hx
    have ht : minTerm acc.1.lb acc.1.ub (k, q) = q * l := by simp [minTerm, hpos, el]
    rw [hsum, ht]
    have : (rhs - (((l1 ++ l2).map (minTerm acc.1.lb acc.1.ub)).sum + q * l)) / q ≤ x k - l := by
      rw [div_le_iff_of_neg hneg]; linarith
    linarith

/-- **C24 (left side, all contributions finite).** -/
theorem C24_lhs_cell (fbt : Bool) (i : ℕ) (acc : PropAcc) (p : Cell) (x : ℕ → ℚ)
    (hp : p ∈ acc.1.A i) (h : RowReady acc.1 i x) (hr : ∃ b, acc.1.lhs i = .fin b ∧ b ≤ dot (acc.1.A i) x)
    (h0 : (acc.1.act i).nInfMax = 0) : PropKeeps acc (propLhsCell fbt i acc p) p.1 x := by
  obtain ⟨k, q⟩ := p
  obtain ⟨lhs, er, hrow⟩ := hr
  obtain ⟨l1, l2, e, n1, n2⟩ := split_col h.nodup hp
  have ha := (recomputed_iff h.cols).mp h.act
  have hmax := ha.max h0
  have hunb := countP_zero_all (ha.nmax.symm.trans h0)
  unfold propLhsCell
  simp only
  split
  · exact ⟨rfl, keepsCol_refl (h.box _ hp)⟩
  rename_i hact
  have hact : (acc.1.ctag k).inactive = false := by simpa using hact
  have et : effTags acc.1 k = acc.1.ctag k := effTag_active hact
  have hx : InCol acc.1.ctag acc.1.lb acc.1.ub x k := by
    have := h.box _ hp; unfold InCol at this ⊢; rwa [et] at this
  have hc : FinIf (acc.1.ctag k).lbInf (acc.1.lb k) ∧ FinIf (acc.1.ctag k).ubInf (acc.1.ub k) := by
    have := h.cols _ hp; rwa [et] at this
  have hq : q ≠ 0 := h.nz _ hp
  have hu := hunb _ hp
  have hrest := rest_max (x := x) (lb := acc.1.lb) (ub := acc.1.ub) (ctag := effTags acc.1) (k := k) (q := q)
    (l1 := l1) (l2 := l2) (fun p' hp' => h.box p' (by rw [e]; exact hp'))
    (fun p' hp' => hunb p' (by rw [e]; simp at hp' ⊢; tauto))
  rw [← e] at hrest
  have hsum : ((acc.1.A i).map (maxTerm acc.1.lb acc.1.ub)).sum =
      ((l1 ++ l2).map (maxTerm acc.1.lb acc.1.ub)).sum + maxTerm acc.1.lb acc.1.ub (k, q) := by
    rw [e]; simp; ring
  rw [hmax, er, D.sub_fin, D.divq_fin hq]
  unfold unbMax at hu
  by_cases hpos : 0 < q
  · rw [if_pos hpos]
    simp only [hpos, if_true, et] at hu
    obtain ⟨l, el⟩ := hc.2 hu
    rw [el, D.add_fin]
    apply propTryLb_keeps fbt acc k _ x hact hc.2 hx
    have ht : maxTerm acc.1.lb acc.1.ub (k, q) = q * l := by simp [maxTerm, hpos, el]
    rw [hsum, ht]
    have : (lhs - (((l1 ++ l2).map (maxTerm acc.1.lb acc.1.ub)).sum + q * l)) / q ≤ x k - l := by
      rw [div_le_iff₀ hpos]; linarith
    linarith
  · rw [if_neg hpos]
    have hneg : q < 0 := lt_of_le_of_ne (not_lt.mp hpos) hq
    simp only [hpos, if_false, et] at hu
    obtain ⟨l, el⟩ := hc.1 hu
    rw [el, D.add_fin]
    apply propTryUb_keeps fbt acc k _ x hact hc.1 hx
    have ht : maxTerm acc.1.lb acc.1.ub (k, q) = q * l := by simp [maxTerm, hpos, el]
    rw [hsum, ht]
    have : x k - l ≤ (lhs - (((l1 ++ l2).map (maxTerm acc.1.lb acc.1.ub)).sum + q * l)) / q := by
      rw [le_div_iff_of_neg hneg]; linarith
    linarith

/-- The only unbounded term of a row. -/
theorem others_bounded {f : Cell → Bool} {l1 l2 : List Cell} {c : Cell}
    (h1 : ((l1 ++ c :: l2).countP f : ℤ) = 1) (hc : f c = true) : ∀ p ∈ l1 ++ l2, f p = false := by
  have h2 : (l1 ++ c :: l2).countP f = l1.countP f + l2.countP f + 1 := by
    rw [List.countP_append, List.countP_cons, if_pos hc]; omega
  have h3 : ((l1 ++ l2).countP f : ℤ) = 0 := by
    rw [List.countP_append]; rw [h2] at h1; push_cast at h1 ⊢; linarith
  exact countP_zero_all h3

theorem minActOneTag_eq {ctag : ℕ → CTag} {lb ub : ℕ → D} {l1 l2 : List Cell} {k : ℕ} {q : ℚ}
    (h1 : NoCol k l1) (h2 : NoCol k l2) (hok : ColsOK ctag lb ub (l1 ++ (k, q) :: l2))
    (hu : ∀ p ∈ l1 ++ l2, unbMin ctag p = false) :
    minActOneTag lb ub (l1 ++ (k, q) :: l2) k = .fin (((l1 ++ l2).map (minTerm lb ub)).sum) := by
  have := minActNoTags_eq (ctag := ctag) (lb := lb) (ub := ub) (cells := l1 ++ l2)
    (fun p hp => hok p (by simp at hp ⊢; tauto)) hu
  rw [← this]
  unfold minActOneTag minActNoTags
  rw [List.foldl_append, List.foldl_cons, List.foldl_append, if_pos rfl]
  have hf : ∀ (l : List Cell), NoCol k l → ∀ a : D, l.foldl (fun a p => if p.1 = k then a
      else if 0 < p.2 then D.add a (D.smul p.2 (lb p.1)) else D.add a (D.smul p.2 (ub p.1))) a =
      l.foldl (fun a p => if 0 < p.2 then D.add a (D.smul p.2 (lb p.1)) else D.add a (D.smul p.2 (ub p.1))) a := by
    intro l hl
    induction l with
    | nil => intro a; rfl
    | cons c l ih =>
      intro a
      rw [List.foldl_cons, List.foldl_cons, if_neg (hl c List.mem_cons_self)]
      exact ih (fun p hp => hl p (List.mem_cons_of_mem _ hp)) _
  rw [hf l1 h1, hf l2 h2]

theorem maxActOneTag_eq {ctag : ℕ → CTag} {lb ub : ℕ → D} {l1 l2 : List Cell} {k : ℕ} {q : ℚ}
    (h1 : NoCol k l1) (h2 : NoCol k l2) (hok : ColsOK ctag lb ub (l1 ++ (k, q) :: l2))
    (hu : ∀ p ∈ l1 ++ l2, unbMax ctag p = false) :
    maxActOneTag lb ub (l1 ++ (k, q) :: l2) k = .fin (((l1 ++ l2).map (maxTerm lb ub)).sum) := by
  have := maxActNoTags_eq (ctag := ctag) (lb := lb) (ub := ub) (cells := l1 ++ l2)
    (fun p hp => hok p (by simp at hp ⊢; tauto)) hu
  rw [← this]
  unfold maxActOneTag maxActNoTags
  rw [List.foldl_append, List.foldl_cons, List.foldl_append, if_pos rfl]
  have hf : ∀ (l : List Cell), NoCol k l → ∀ a : D, l.foldl (fun a p => if p.1 = k then a
      else if 0 < p.2 then D.add a (D.smul p.2 (ub p.1)) else D.add a (D.smul p.2 (lb p.1))) a =
      l.foldl (fun a p => if 0 < p.2 then D.add a (D.smul p.2 (ub p.1)) else D.add a (D.smul p.2 (lb p.1))) a := by
    intro l hl
    induction l with
    | nil => intro a; rfl
    | cons c l ih =>
      intro a
      rw [List.foldl_cons, List.foldl_cons, if_neg (hl c List.mem_cons_self)]
      exact ih (fun p hp => hl p (List.mem_cons_of_mem _ hp)) _
  rw [hf l1 h1, hf l2 h2]

theorem keepsCol_check {s s' : St} {b : Bool} {k : ℕ} {x : ℕ → ℚ} (h : KeepsCol (s.check b) s' k x) :
    KeepsCol s s' k x := by
  refine ⟨(sameRows_check s b).trans h.rows, ?_, ?_⟩
  · intro j hj; exact h.others j hj
  · exact h.here

/-- **C24 (right side, one infinite contribution).**  `bound_tightening_single_row_rhs` when the
row has exactly one unbounded term: it tightens (at most) the column of that term, and every point
within the bounds that satisfies the row is kept. -/
theorem C24_rhs_one_infinite (fbt : Bool) (i : ℕ) (acc : PropAcc) (x : ℕ → ℚ)
    (h : RowReady acc.1 i x) (hf : FinIf (acc.1.rtag i).rhsInf (acc.1.rhs i))
    (hrow : Hi (acc.1.rtag i).rhsInf (acc.1.rhs i) (dot (acc.1.A i) x))
    (hact : ∀ p ∈ acc.1.A i, (acc.1.ctag p.1).inactive = true → (acc.1.ctag p.1).fixed = true)
    (h1 : (acc.1.act i).nInfMin = 1) :
    ∃ k, PropKeeps acc (propRhs fbt i acc) k x := by
  have ha := (recomputed_iff h.cols).mp h.act
  have hcnt := ha.nmin.symm.trans h1
  -- the unbounded cell
  obtain ⟨⟨k, q⟩, hp, hunb⟩ : ∃ p ∈ acc.1.A i, unbMin (effTags acc.1) p = true := by
    by_contra hc
    push Not at hc
    have : (acc.1.A i).countP (unbMin (effTags acc.1)) = 0 :=
      List.countP_eq_zero.mpr (fun p hp => by simpa using hc p hp)
    rw [this] at hcnt; simp at hcnt
  have hq : q ≠ 0 := h.nz _ hp
  have hfix : (acc.1.ctag k).inactive = false := by
    by_contra hc
    have := hact _ hp (by simpa using hc)
    unfold unbMin effTags effTag at hunb
    simp [this] at hunb
  have et : effTags acc.1 k = acc.1.ctag k := effTag_active hfix
  unfold propRhs
  simp only
  rw [if_neg (by rw [h1]; simp)]
  by_cases hg : ((!(acc.1.rtag i).rhsInf || decide ((acc.1.act i).nInfMax = 0)) &&
      decide ((acc.1.act i).nInfMin = 1)) = true
  swap
  · rw [if_neg hg]; exact ⟨k, rfl, keepsCol_refl (h.box _ hp)⟩
  rw [if_pos hg]
  simp only [h1, decide_true, Bool.and_true, Bool.or_eq_true, Bool.not_eq_true', decide_eq_true_eq] at hg
  -- the search finds that cell
  have hfind : propFind (fun p => ((decide (0 < p.2) && (acc.1.ctag p.1).lbInf) ||
      (decide (p.2 < 0) && (acc.1.ctag p.1).ubInf)) && !(acc.1.ctag p.1).inactive) (acc.1.A i) =
      some (k, q) := by
    have hok : ∀ p ∈ acc.1.A i, (((decide (0 < p.2) && (acc.1.ctag p.1).lbInf) ||
      (decide (p.2 < 0) && (acc.1.ctag p.1).ubInf)) && !(acc.1.ctag p.1).inactive) =
        unbMin (effTags acc.1) p := by
      intro p hp'
      have hz := h.nz p hp'
      cases hi : (acc.1.ctag p.1).inactive
      · unfold unbMin effTags; rw [effTag_active hi]
        rcases lt_or_gt_of_ne hz with hz | hz
        · simp [hz, not_lt.mpr hz.le]
        · simp [hz, not_lt.mpr hz.le]
      · have := hact p hp' hi
        unfold unbMin effTags effTag
        simp [this]
    obtain ⟨l1, l2, e, _, _⟩ := split_col h.nodup hp
    have hoth := others_bounded (l1 := l1) (l2 := l2) (c := (k, q)) (by rw [← e]; exact hcnt) hunb
    unfold propFind
    rw [e, List.find?_append, List.find?_eq_none.mpr]
    · rw [Option.none_or, List.find?_cons_of_pos]
      rw [hok _ hp]; exact hunb
    · intro p hp'
      rw [hok p (by rw [e]; simp [hp']), hoth p (by simp [hp'])]
      simp
  rw [hfind]
  simp only
  refine ⟨k, ?_⟩
  obtain ⟨l1, l2, e, n1, n2⟩ := split_col h.nodup hp
  have hoth := others_bounded (l1 := l1) (l2 := l2) (c := (k, q)) (by rw [← e]; exact hcnt) hunb
  have hrest := rest_min (x := x) (lb := acc.1.lb) (ub := acc.1.ub) (ctag := effTags acc.1) (k := k) (q := q)
    (l1 := l1) (l2 := l2) (fun p' hp' => h.box p' (by rw [e]; exact hp')) hoth
  rw [← e] at hrest
  have hone : minActOneTag acc.1.lb acc.1.ub (acc.1.A i) k =
      .fin (((l1 ++ l2).map (minTerm acc.1.lb acc.1.ub)).sum) := by
    have := minActOneTag_eq (ctag := effTags acc.1) n1 n2 (q := q) (by rw [← e]; exact h.cols) hoth
    rwa [← e] at this
  obtain ⟨V, eV, hV⟩ : ∃ V, (if (acc.1.rtag i).rhsInf then (acc.1.act i).max else acc.1.rhs i) = .fin V ∧
      dot (acc.1.A i) x ≤ V := by
    cases hi : (acc.1.rtag i).rhsInf
    · obtain ⟨b, e⟩ := hf hi
      refine ⟨b, by simp [e], ?_⟩
      have := hrow.le hi; rwa [e] at this
    · rw [hi] at hg
      have h0 : (acc.1.act i).nInfMax = 0 := by simpa using hg
      obtain ⟨V, e, hV⟩ := le_act_max h.cols h.act h0
      exact ⟨V, by simp [e], hV x h.box⟩
  rw [eV, hone, D.sub_fin, D.divq_fin hq]
  have hx : InCol acc.1.ctag acc.1.lb acc.1.ub x k := by
    have := h.box _ hp; unfold InCol at this ⊢; rwa [et] at this
  have hc : FinIf (acc.1.ctag k).lbInf (acc.1.lb k) ∧ FinIf (acc.1.ctag k).ubInf (acc.1.ub k) := by
    have := h.cols _ hp; rwa [et] at this
  by_cases hpos : 0 < q
  · rw [if_pos hpos]
    have := propTryUb_keeps fbt (acc.1.check (((decide (0 < q) && (acc.1.ctag k).lbInf) ||
      (decide (q < 0) && (acc.1.ctag k).ubInf)) && !(acc.1.ctag k).inactive), acc.2) k
      ((V - ((l1 ++ l2).map (minTerm acc.1.lb acc.1.ub)).sum) / q) x hfix hc.1 hx
      (by rw [le_div_iff₀ hpos]; linarith)
    exact ⟨this.1, keepsCol_check this.2⟩
  · rw [if_neg hpos]
    have hneg : q < 0 := lt_of_le_of_ne (not_lt.mp hpos) hq
    have := propTryLb_keeps fbt (acc.1.check (((decide (0 < q) && (acc.1.ctag k).lbInf) ||
      (decide (q < 0) && (acc.1.ctag k).ubInf)) && !(acc.1.ctag k).inactive), acc.2) k
      ((V - ((l1 ++ l2).map (minTerm acc.1.lb acc.1.ub)).sum) / q) x hfix hc.2 hx
      (by rw [div_le_iff_of_neg hneg]; linarith)
    exact ⟨this.1, keepsCol_check this.2⟩

/-- **C24 (left side, one infinite contribution).** -/
theorem C24_lhs_one_infinite (fbt : Bool) (i : ℕ) (acc : PropAcc) (x : ℕ → ℚ)
    (h : RowReady acc.1 i x) (hf : FinIf (acc.1.rtag i).lhsInf (acc.1.lhs i))
    (hrow : Lo (acc.1.rtag i).lhsInf (acc.1.lhs i) (dot (acc.1.A i) x))
    (hact : ∀ p ∈ acc.1.A i, (acc.1.ctag p.1).inactive = true → (acc.1.ctag p.1).fixed = true)
    (h1 : (acc.1.act i).nInfMax = 1) :
    ∃ k, PropKeeps acc (propLhs fbt i acc) k x := by
  have ha := (recomputed_iff h.cols).mp h.act
  have hcnt := ha.nmax.symm.trans h1
  obtain ⟨⟨k, q⟩, hp, hunb⟩ : ∃ p ∈ acc.1.A i, unbMax (effTags acc.1) p = true := by
    by_contra hc
    push Not at hc
    have : (acc.1.A i).countP (unbMax (effTags acc.1)) = 0 :=
      List.countP_eq_zero.mpr (fun p hp => by simpa using hc p hp)
    rw [this] at hcnt; simp at hcnt
  have hq : q ≠ 0 := h.nz _ hp
  have hfix : (acc.1.ctag k).inactive = false := by
    by_contra hc
    have := hact _ hp (by simpa using hc)
    unfold unbMax effTags effTag at hunb
    simp [this] at hunb
  have et : effTags acc.1 k = acc.1.ctag k := effTag_active hfix
  unfold propLhs
  simp only
  rw [if_neg (by rw [h1]; simp)]
  by_cases hg : ((!(acc.1.rtag i).lhsInf || decide ((acc.1.act i).nInfMin = 0)) &&
      decide ((acc.1.act i).nInfMax = 1)) = true
  swap
  · rw [if_neg hg]; exact ⟨k, rfl, keepsCol_refl (h.box _ hp)⟩
  rw [if_pos hg]
  simp only [h1, decide_true, Bool.and_true, Bool.or_eq_true, Bool.not_eq_true', decide_eq_true_eq] at hg
  have hfind : propFind (fun p => ((decide (0 < p.2) && (acc.1.ctag p.1).ubInf) ||
      (decide (p.2 < 0) && (acc.1.ctag p.1).lbInf)) && !(acc.1.ctag p.1).inactive) (acc.1.A i) =
      some (k, q) := by
    have hok : ∀ p ∈ acc.1.A i, (((decide (0 < p.2) && (acc.1.ctag p.1).ubInf) ||
      (decide (p.2 < 0) && (acc.1.ctag p.1).lbInf)) && !(acc.1.ctag p.1).inactive) =
        unbMax (effTags acc.1) p := by
      intro p hp'
      have hz := h.nz p hp'
      cases hi : (acc.1.ctag p.1).inactive
      · unfold unbMax effTags; rw [effTag_active hi]
        rcases lt_or_gt_of_ne hz with hz | hz
        · simp [hz, not_lt.mpr hz.le]
        · simp [hz, not_lt.mpr hz.le]
      · have := hact p hp' hi
        unfold unbMax effTags effTag
        simp [this]
    obtain ⟨l1, l2, e, _, _⟩ := split_col h.nodup hp
    have hoth := others_bounded (l1 := l1) (l2 := l2) (c := (k, q)) (by rw [← e]; exact hcnt) hunb
    unfold propFind
    rw [e, List.find?_append, List.find?_eq_none.mpr]
    · rw [Option.none_or, List.find?_cons_of_pos]
      rw [hok _ hp]; exact hunb
    · intro p hp'
      rw [hok p (by rw [e]; simp [hp']), hoth p (by simp [hp'])]
      simp
  rw [hfind]
  simp only
  refine ⟨k, ?_⟩
  obtain ⟨l1, l2, e, n1, n2⟩ := split_col h.nodup hp
  have hoth := others_bounded (l1 := l1) (l2 := l2) (c := (k, q)) (by rw [← e]; exact hcnt) hunb
  have hrest := rest_max (x := x) (lb := acc.1.lb) (ub := acc.1.ub) (ctag := effTags acc.1) (k := k) (q := q)
    (l1 := l1) (l2 := l2) (fun p' hp' => h.box p' (by rw [e]; exact hp')) hoth
  rw [← e] at hrest
  have hone : maxActOneTag acc.1.lb acc.1.ub (acc.1.A i) k =
      .fin (((l1 ++ l2).map (maxTerm acc.1.lb acc.1.ub)).sum) := by
    have := maxActOneTag_eq (ctag := effTags acc.1) n1 n2 (q := q) (by rw [← e]; exact h.cols) hoth
    rwa [← e] at this
  obtain ⟨V, eV, hV⟩ : ∃ V, (if (acc.1.rtag i).lhsInf then (acc.1.act i).min else acc.1.lhs i) = .fin V ∧
      V ≤ dot (acc.1.A i) x := by
    cases hi : (acc.1.rtag i).lhsInf
    · obtain ⟨b, e⟩ := hf hi
      refine ⟨b, by simp [e], ?_⟩
      have := hrow.le hi; rwa [e] at this
    · rw [hi] at hg
      have h0 : (acc.1.act i).nInfMin = 0 := by simpa using hg
      obtain ⟨V, e, hV⟩ := act_min_le h.cols h.act h0
      exact ⟨V, by simp [e], hV x h.box⟩
  rw [eV, hone, D.sub_fin, D.divq_fin hq]
  have hx : InCol acc.1.ctag acc.1.lb acc.1.ub x k := by
    have := h.box _ hp; unfold InCol at this ⊢; rwa [et] at this
  have hc : FinIf (acc.1.ctag k).lbInf (acc.1.lb k) ∧ FinIf (acc.1.ctag k).ubInf (acc.1.ub k) := by
    have := h.cols _ hp; rwa [et] at this
  by_cases hpos : 0 < q
  · rw [if_pos hpos]
    have := propTryLb_keeps fbt (acc.1.check (((decide (0 < q) && (acc.1.ctag k).ubInf) ||
      (decide (q < 0) && (acc.1.ctag k).lbInf)) && !(acc.1.ctag k).inactive), acc.2) k
      ((V - ((l1 ++ l2).map (maxTerm acc.1.lb acc.1.ub)).sum) / q) x hfix hc.2 hx
      (by rw [div_le_iff₀ hpos]; linarith)
    exact ⟨this.1, keepsCol_check this.2⟩
  · rw [if_neg hpos]
    have hneg : q < 0 := lt_of_le_of_ne (not_lt.mp hpos) hq
    have := propTryUb_keeps fbt (acc.1.check (((decide (0 < q) && (acc.1.ctag k).ubInf) ||
      (decide (q < 0) && (acc.1.ctag k).lbInf)) && !(acc.1.ctag k).inactive), acc.2) k
      ((V - ((l1 ++ l2).map (maxTerm acc.1.lb acc.1.ub)).sum) / q) x hfix hc.1 hx
      (by rw [le_div_iff_of_neg hneg]; linarith)
    exact ⟨this.1, keepsCol_check this.2⟩

/-- **C24 (consequence for the rows).**  The point that replaces `x` differs from it in one column
and changes the value of every row by at most the feasibility tolerance; it is `x` itself unless a
column was fixed because its bounds agree up to the tolerance only (ghost flag `near`). -/
theorem C24_kept_point (s s' : St) (k : ℕ) (x : ℕ → ℚ) (h : KeepsCol s s' k x)
    (hnd : ∀ i, ((s.A i).map Prod.fst).Nodup)
    (hagree : ∀ i a, (k, a) ∈ s.A i → (i, a) ∈ s.AT k) :
    ∃ w, (∀ j, InCol (effTags s) s.lb s.ub x j → InCol (effTags s') s'.lb s'.ub (upd x k w) j) ∧
      (∀ i, |dot (s'.A i) (upd x k w) - dot (s.A i) x| ≤ FEAS_TOL) ∧
      (s'.fixedCols = s.fixedCols ∨ s'.near = false → w = x k) := by
  obtain ⟨w, h1, h2, h3⟩ := h.here
  refine ⟨w, ?_, ?_, h3⟩
  · intro j hj
    by_cases e : j = k
    · rw [e]; exact h1
    · obtain ⟨a, b, c⟩ := h.others j e
      unfold InCol effTags at hj ⊢
      rw [a, b, c, upd_ne _ _ e]; exact hj
  · intro i
    rw [h.rows.A]
    by_cases hc : ∃ a, (k, a) ∈ s.A i
    · obtain ⟨a, ha⟩ := hc
      obtain ⟨l1, l2, e, n1, n2⟩ := split_col (hnd i) ha
      rw [e]
      simp only [dot_append, dot_cons, upd_same]
      rw [dot_congr (l := l1) (x := upd x k w) (y := x) (fun p hp => upd_ne _ _ (n1 p hp)),
        dot_congr (l := l2) (x := upd x k w) (y := x) (fun p hp => upd_ne _ _ (n2 p hp))]
      have := h2 _ (hagree i a ha)
      have e2 : dot l1 x + (a * w + dot l2 x) - (dot l1 x + (a * x k + dot l2 x)) = a * (w - x k) := by ring
      rw [e2]; exact this
    · rw [dot_congr (l := s.A i) (x := upd x k w) (y := x)]
      · simpa using FEAS_TOL_pos.le
      · intro p hp
        refine upd_ne _ _ (fun e => hc ⟨p.2, ?_⟩)
        rw [← e]; exact hp

/-! ### Examples -/

/-- Row `x0 + 2 x1 ≤ 8`, `x0 ≥ 1`, `x1 ≥ 1`, no upper bounds. -/
def exProp : St := initSt
  { m := 1, n := 2, A := ofList [[(0, 1), (1, 2)]] [], lhs := fun _ => .ninf
    rhs := fun _ => .fin 8, lb := fun _ => .fin 1, ub := fun _ => .pinf, c := fun _ => 0 }

theorem exProp_ready : RowReady exProp 0 (fun _ => 2) where
  nodup := by decide +kernel
  nz := by decide +kernel
  cols := by
    intro p _
    refine ⟨fun _ => ⟨1, rfl⟩, fun h => ?_⟩
    exact absurd h (by decide +revert)
  act := by unfold Recomputed; decide +kernel
  box := by
    intro p _
    exact ⟨Or.inr ⟨1, rfl, by norm_num⟩, Or.inl (by decide +revert)⟩

/-- The right side gives `x1 ≤ 7/2`, relaxed a little; `x = (2, 2)` is kept. -/
example : (∃ b, ((propRhsCell true 0 (exProp, UNCHANGED, 0) (1, 2)).1.ub 1) = .fin b ∧ 7 / 2 ≤ b) ∧
    PropKeeps (exProp, UNCHANGED, 0) (propRhsCell true 0 (exProp, UNCHANGED, 0) (1, 2)) 1 (fun _ => 2) :=
  ⟨⟨7 / 2 + BOUND_MARGINAL * (7 / 2), by decide +kernel, by norm_num [BOUND_MARGINAL, FEAS_TOL]⟩,
   C24_rhs_cell true 0 _ (1, 2) _ (by decide +kernel) exProp_ready
    ⟨8, rfl, by norm_num [exProp, initSt, ofList, dot]⟩ (by decide +kernel)⟩

end Verif
