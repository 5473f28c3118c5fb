import Verif.Lemmas.Bounds
import Verif.Lemmas.EnvEx
import Verif.Model.Driver

/-!
# C26: a singleton row becomes bounds of its column

`remove_stonrow` (`/repo/src/explorers/SimpleReductions.c:124-217`) on a row with exactly one
coefficient.  The specification speaks about points: `FeasPt` lists the constraints a state stands
for, without reference to any helper of the model.
-/

namespace Verif

theorem Tightened.refl {s s' : St} {k : ℕ} {P : ℚ → Prop} (hs : SameRows s s') (e1 : s'.lb = s.lb)
    (e2 : s'.ub = s.ub) (e3 : s'.ctag = s.ctag) (e4 : s'.fixedCols = s.fixedCols)
    (hf : ColFin s k) (hP : ∀ v, P v) : Tightened s s' k P := by
  have hEq : ∀ v, ColIn s' k v ↔ ColIn s k v := by
    intro v; unfold ColIn; rw [e1, e2, e3]
  refine ⟨hs, ?_, ?_, ?_, e4, ?_, ?_, ?_⟩
  · intro j _; rw [e1, e2, e3]; simp
  · rw [e3]; simp
  · unfold ColFin; rw [e1, e2, e3]; exact hf
  · intro v hv _; exact (hEq v).mpr hv
  · intro v hv; exact (hEq v).mp hv
  · intro v _; exact ⟨v, hP v, by simpa using FEAS_TOL_pos.le⟩

theorem Tightened.congr {s s' : St} {k : ℕ} {P Q : ℚ → Prop} (h : Tightened s s' k P)
    (hPQ : ∀ v, P v ↔ Q v) : Tightened s s' k Q := by
  have : P = Q := funext fun v => propext (hPQ v)
  rwa [← this]

/-- Result of one optional tightening with condition `P`. -/
def OptTight (s : St) (k : ℕ) (P : ℚ → Prop) (r : St × Status) : Prop :=
  (r.2 = INFEASIBLE ∧ ∀ v, ColIn s k v → ¬ P v) ∨ (r.2 = UNCHANGED ∧ Tightened s r.1 k P)

theorem OptTight.congr {s : St} {k : ℕ} {P Q : ℚ → Prop} {r : St × Status} (h : OptTight s k P r)
    (hPQ : ∀ v, P v ↔ Q v) : OptTight s k Q r := by
  have : P = Q := funext fun v => propext (hPQ v)
  rwa [← this]

theorem optTight_skip {s : St} {k : ℕ} {P : ℚ → Prop} (hf : ColFin s k) (hP : ∀ v, P v) :
    OptTight s k P (s, UNCHANGED) :=
  Or.inr ⟨rfl, Tightened.refl (.refl s) rfl rfl rfl rfl hf hP⟩

theorem optTight_ub (s : St) (k row : ℕ) (a : ℚ) (inf : Bool) (d : D) (P : ℚ → Prop)
    (hact : (s.ctag k).inactive = false) (hf : ColFin s k) (ha : a ≠ 0) (hd : FinIf inf d)
    (hinf : inf = true → ∀ v, P v) (hP : ∀ q, inf = false → d = .fin q → ∀ v, v ≤ q / a ↔ P v) :
    OptTight s k P (if inf = true then (s, UNCHANGED) else updateUb s k (D.divq d a) row) := by
  cases hi : inf
  · obtain ⟨q, e⟩ := hd hi
    rw [e, D.divq_fin ha]
    rw [if_neg (by simp)]
    have := updateUb_sound s k (q / a) row hact hf
    exact OptTight.congr this (hP q hi e)
  · rw [if_pos rfl]
    exact optTight_skip hf (hinf hi)

theorem optTight_lb (s : St) (k row : ℕ) (a : ℚ) (inf : Bool) (d : D) (P : ℚ → Prop)
    (hact : (s.ctag k).inactive = false) (hf : ColFin s k) (ha : a ≠ 0) (hd : FinIf inf d)
    (hinf : inf = true → ∀ v, P v) (hP : ∀ q, inf = false → d = .fin q → ∀ v, q / a ≤ v ↔ P v) :
    OptTight s k P (if inf = true then (s, UNCHANGED) else updateLb s k (D.divq d a) row) := by
  cases hi : inf
  · obtain ⟨q, e⟩ := hd hi
    rw [e, D.divq_fin ha]
    rw [if_neg (by simp)]
    have := updateLb_sound s k (q / a) row hact hf
    exact OptTight.congr this (hP q hi e)
  · rw [if_pos rfl]
    exact optTight_skip hf (hinf hi)

/-- What removing the singleton row `row` of column `k` (coefficient `a`) must achieve. -/
structure StonRowOK (s s' : St) (row k : ℕ) (a : ℚ) : Prop where
  gone : (s'.rtag row).inactive = true
  dims : s'.m = s.m ∧ s'.n = s.n
  otherRows : ∀ i, i ≠ row → s'.A i = s.A i ∧ s'.lhs i = s.lhs i ∧ s'.rhs i = s.rhs i ∧
    s'.rtag i = s.rtag i
  otherCols : ∀ j, j ≠ k → s'.lb j = s.lb j ∧ s'.ub j = s.ub j ∧ s'.ctag j = s.ctag j
  colSize : s'.colSize = s.colSize
  subst : (s'.ctag k).subst = (s.ctag k).subst
  cost : s'.c = s.c ∧ s'.off = s.off
  keep : ∀ v, ColIn s k v → Sides (s.rtag row) (s.lhs row) (s.rhs row) (a * v) → ColIn s' k v
  bounds : ∀ v, ColIn s' k v → ColInTol FEAS_TOL s k v
  side : ∀ v, ColIn s' k v →
    SidesTol (|a| * FEAS_TOL) (s.rtag row) (s.lhs row) (s.rhs row) (a * v)

/-- Two tightenings in a row followed by the removal of the row. -/
theorem two_tight {s r1 r2 : St} {row k : ℕ} {a : ℚ} {P Q : ℚ → Prop}
    (h1 : Tightened s r1 k P) (h2 : Tightened r1 r2 k Q)
    (hside : ∀ v, Sides (s.rtag row) (s.lhs row) (s.rhs row) (a * v) ↔ P v ∧ Q v)
    (hlow : ∀ v w1 w2, P w1 → Q w2 → |v - w1| ≤ FEAS_TOL → |v - w2| ≤ FEAS_TOL →
      SidesTol (|a| * FEAS_TOL) (s.rtag row) (s.lhs row) (s.rhs row) (a * v)) :
    StonRowOK s (setRowToInactive r2 row 0) row k a := by
  have hs := h1.rows.trans h2.rows
  have hin : ∀ v, ColIn (setRowToInactive r2 row 0) k v ↔ ColIn r2 k v := fun v => Iff.rfl
  refine ⟨?_, ?_, ?_, ?_, ?_, ?_, ?_, ?_, ?_, ?_⟩
  · simp [setRowToInactive, St.check]
  · simp [setRowToInactive, St.check, hs.m, hs.n]
  · intro i hi; simp [setRowToInactive, St.check, hi, hs.A, hs.lhs, hs.rhs, hs.rtag]
  · intro j hj
    have e1 := h1.others j hj
    have e2 := h2.others j hj
    exact ⟨e2.1.trans e1.1, e2.2.1.trans e1.2.1, e2.2.2.trans e1.2.2⟩
  · simp [setRowToInactive, St.check, hs.colSize]
  · simp [setRowToInactive, St.check, h2.fixed.2, h1.fixed.2]
  · simp [setRowToInactive, St.check, hs.c, hs.off]
  · intro v hv hr
    obtain ⟨p, q⟩ := (hside v).mp hr
    exact (hin v).mpr (h2.keep v (h1.keep v hv p) q)
  · intro v hv
    exact (h1.old v (h2.old v ((hin v).mp hv))).tol FEAS_TOL_pos.le
  · intro v hv
    obtain ⟨w2, q, e2⟩ := h2.new v ((hin v).mp hv)
    obtain ⟨w1, p, e1⟩ := h1.new v (h2.old v ((hin v).mp hv))
    exact hlow v w1 w2 p q e1 e2

theorem sidesTol_of_near {t : RTag} {lhs rhs : D} {a v w1 w2 : ℚ}
    (h1 : |v - w1| ≤ FEAS_TOL) (h2 : |v - w2| ≤ FEAS_TOL)
    (hl : Lo t.lhsInf lhs (a * w1)) (hh : Hi t.rhsInf rhs (a * w2)) :
    SidesTol (|a| * FEAS_TOL) t lhs rhs (a * v) := by
  have b1 : |a * v - a * w1| ≤ |a| * FEAS_TOL := by
    rw [← mul_sub, abs_mul]; exact mul_le_mul_of_nonneg_left h1 (abs_nonneg a)
  have b2 : |a * v - a * w2| ≤ |a| * FEAS_TOL := by
    rw [← mul_sub, abs_mul]; exact mul_le_mul_of_nonneg_left h2 (abs_nonneg a)
  rw [abs_le] at b1 b2
  exact ⟨hl.mono (by linarith), hh.mono (by linarith)⟩

/-- **C26.** Removing a singleton row reports `INFEASIBLE` only if no value of the column satisfies
the row and the bounds; otherwise the new bounds of the column contain exactly the values that
satisfied the row and the old bounds, up to the feasibility tolerance on the column, and nothing
else of the problem changes. -/
theorem C26_singleton_row (s : St) (row k : ℕ) (a : ℚ) (hA : s.A row = [(k, a)]) (ha : a ≠ 0)
    (hact : (s.ctag k).inactive = false) (hf : ColFin s k)
    (hl : FinIf (s.rtag row).lhsInf (s.lhs row)) (hr : FinIf (s.rtag row).rhsInf (s.rhs row))
    (heq : (s.rtag row).eq = true →
      s.lhs row = s.rhs row ∧ (s.rtag row).lhsInf = false ∧ (s.rtag row).rhsInf = false) :
    let r := removeStonRow s row
    (r.2 = INFEASIBLE ∧ ∀ v, ColIn s k v →
        ¬ Sides (s.rtag row) (s.lhs row) (s.rhs row) (a * v)) ∨
    (r.2 = REDUCED ∧ StonRowOK s r.1 row k a) := by
  intro r
  have hε := FEAS_TOL_pos
  have hfx : (s.ctag k).fixed = false ∧ (s.ctag k).subst = false := by
    simpa [CTag.inactive] using hact
  have het : effTag (s.ctag k) = s.ctag k := effTag_active hact
  obtain ⟨he⟩ : Nonempty (r = removeStonRow s row) := ⟨rfl⟩
  clear_value r
  unfold removeStonRow at he
  rw [hA] at he
  simp only at he
  have q1 : ∀ b, (s.check b).ctag = s.ctag := fun _ => rfl
  rw [q1, hfx.1] at he
  rw [if_neg (by simp)] at he
  generalize hs0 : (s.check (!(s.rtag row).inactive && !(s.ctag k).subst)).check
    (!(s.ctag k).inactive) = s0 at he
  have sr : SameRows s s0 := by subst hs0; constructor <;> simp [St.check]
  have e1 : s0.lb = s.lb := by subst hs0; rfl
  have e2 : s0.ub = s.ub := by subst hs0; rfl
  have e3 : s0.ctag = s.ctag := by subst hs0; rfl
  have e5 : s0.fixedCols = s.fixedCols := by subst hs0; rfl
  have hact0 : (s0.ctag k).inactive = false := by rw [e3]; exact hact
  have hf0 : ColFin s0 k := by unfold ColFin; rw [e1, e2, e3]; exact hf
  have hin0 : ∀ v, ColIn s k v ↔ ColIn s0 k v := by intro v; unfold ColIn; rw [e1, e2, e3]
  have ht0 : Tightened s s0 k (fun _ => True) := Tightened.refl sr e1 e2 e3 e5 hf (fun _ => trivial)
  have lift : ∀ {s' P}, Tightened s0 s' k P → Tightened s s' k P := by
    intro s' P h
    refine ⟨sr.trans h.rows, ?_, ?_, h.fin, h.fixedCols.trans e5, ?_, ?_, h.new⟩
    · intro j hj
      have := h.others j hj
      rw [e1, e2, e3] at this; exact this
    · rw [← e3]; exact h.fixed
    · intro v hv; exact h.keep v ((hin0 v).mp hv)
    · intro v hv; exact (hin0 v).mpr (h.old v hv)
  rw [sr.rtag] at he
  clear hs0
  split at he
  · -- equality row
    rename_i heqb
    obtain ⟨hlr, hli, hri⟩ := heq heqb
    obtain ⟨q, hq⟩ := hr hri
    rw [hq, D.divq_fin ha] at he
    generalize hs1 : s0.check (D.eqb (s.lhs row) (.fin q)) = s1 at he
    have sr1 : SameRows s s1 := by subst hs1; exact sr.trans (by constructor <;> simp [St.check])
    have g1 : s1.lb = s.lb := by subst hs1; exact e1
    have g2 : s1.ub = s.ub := by subst hs1; exact e2
    have g3 : s1.ctag = s.ctag := by subst hs1; exact e3
    clear hs1
    have key : ∀ v, Sides (s.rtag row) (s.lhs row) (s.rhs row) (a * v) ↔ v = q / a := by
      intro v
      unfold Sides
      rw [hlr, hq, hli, hri]
      simp only [Lo_fin, Hi_fin]
      rw [eq_div_iff ha, mul_comm v a]
      constructor
      · rintro ⟨h1, h2⟩; linarith
      · intro h; constructor <;> linarith
    obtain ⟨fr, hc⟩ := fixCol_cases s1 k (.fin (q / a)) (s1.c k)
    simp only at fr hc
    generalize fixCol s1 k (.fin (q / a)) (s1.c k) = f at he fr hc
    rcases hc with hc | hc
    · left
      rw [if_pos hc.1] at he
      subst he
      refine ⟨rfl, ?_⟩
      intro v hv hsd
      rw [key] at hsd
      unfold ColIn at hv
      rw [het] at hv
      have hcond := hc.2.2.2.2.2.2.2
      rw [g1, g2, g3] at hcond
      simp only [Bool.or_eq_true, Bool.and_eq_true, Bool.not_eq_true'] at hcond
      rcases hcond with ⟨hi, hle⟩ | ⟨hi, hle⟩
      · obtain ⟨u, eu⟩ := hf.2 hi
        have := hv.2.le hi
        rw [eu] at hle this
        simp only [D.add_fin, D.le_fin, decide_eq_true_eq, D.toQ_fin] at hle this
        linarith
      · obtain ⟨u, eu⟩ := hf.1 hi
        have := hv.1.le hi
        rw [eu] at hle this
        simp only [D.sub_fin, D.le_fin, decide_eq_true_eq, D.toQ_fin] at hle this
        linarith
    · right
      have hne : f.2 ≠ INFEASIBLE := by rw [hc.1]; decide
      rw [if_neg hne] at he
      obtain ⟨_, hlb, hub, hct, _, _, hcond⟩ := hc
      rw [g1] at hlb
      rw [g2] at hub
      rw [g3] at hct
      rw [g1, g2, g3] at hcond
      have fr := sr1.trans fr
      subst he
      refine ⟨rfl, ?_⟩
      have hcol : ∀ v, ColIn f.1 k v ↔ v = q / a := by
        intro v
        unfold ColIn
        rw [hct, hlb, hub]
        simp only [upd_same, effTag]
        simp only [if_true, Lo_fin, Hi_fin]
        constructor
        · rintro ⟨h1, h2⟩; linarith
        · intro h; constructor <;> linarith
      refine ⟨?_, ?_, ?_, ?_, ?_, ?_, ?_, ?_, ?_, ?_⟩
      · simp [St.save]
      · simp [St.save, fr.m, fr.n]
      · intro i hi; simp [St.save, hi, fr.A, fr.lhs, fr.rhs, fr.rtag]
      · intro j hj; simp [St.save, hj, hlb, hub, hct]
      · simp [St.save, fr.colSize]
      · simp [St.save, hct]
      · simp [St.save, fr.c, fr.off]
      · intro v _ hsd; exact (hcol v).mpr ((key v).mp hsd)
      · intro v hv
        replace hv := (hcol v).mp hv
        unfold ColInTol
        rw [het]
        simp only [Bool.or_eq_false_iff] at hcond
        obtain ⟨c1, c2⟩ := hcond
        constructor
        · cases hi : (s.ctag k).lbInf
          · obtain ⟨u, eu⟩ := hf.1 hi
            rw [hi, eu] at c2
            simp only [D.sub_fin, D.le_fin, Bool.not_false, Bool.true_and,
              decide_eq_false_iff_not, not_le] at c2
            rw [eu, Lo_fin]; linarith
          · simp
        · cases hi : (s.ctag k).ubInf
          · obtain ⟨u, eu⟩ := hf.2 hi
            rw [hi, eu] at c1
            simp only [D.add_fin, D.le_fin, Bool.not_false, Bool.true_and,
              decide_eq_false_iff_not, not_le] at c1
            rw [eu, Hi_fin]; linarith
          · simp
      · intro v hv
        replace hv := (hcol v).mp hv
        exact ((key v).mpr hv).tol (by positivity)
  · -- inequality row
    rcases lt_or_gt_of_ne ha with hneg | hpos
    · rw [if_neg (by linarith)] at he
      have o1 := optTight_lb s0 k row a (s.rtag row).rhsInf (s.rhs row)
        (fun v => Hi (s.rtag row).rhsInf (s.rhs row) (a * v)) hact0 hf0 ha hr
        (by intro h v; rw [h]; simp)
        (by intro q h e v; rw [h, e, Hi_fin, div_le_iff_of_neg hneg, mul_comm])
      generalize (if (s.rtag row).rhsInf = true then (s0, UNCHANGED)
        else updateLb s0 k (D.divq (s.rhs row) a) row) = r1 at he o1
      rcases o1 with ⟨c1, i1⟩ | ⟨c1, t1⟩
      · left
        rw [if_pos c1] at he; subst he
        exact ⟨rfl, fun v hv hsd => i1 v ((hin0 v).mp hv) hsd.2⟩
      · rw [if_neg (by rw [c1]; decide)] at he
        have hact1 : (r1.1.ctag k).inactive = false := by
          unfold CTag.inactive
          rw [t1.fixed.1, t1.fixed.2]; exact hact0
        have o2 := optTight_ub r1.1 k row a (s.rtag row).lhsInf (s.lhs row)
          (fun v => Lo (s.rtag row).lhsInf (s.lhs row) (a * v)) hact1 t1.fin ha hl
          (by intro h v; rw [h]; simp)
          (by intro q h e v; rw [h, e, Lo_fin, le_div_iff_of_neg hneg, mul_comm])
        generalize (if (s.rtag row).lhsInf = true then (r1.1, UNCHANGED)
          else updateUb r1.1 k (D.divq (s.lhs row) a) row) = r2 at he o2
        rcases o2 with ⟨c2, i2⟩ | ⟨c2, t2⟩
        · left
          rw [if_pos c2] at he; subst he
          refine ⟨rfl, fun v hv hsd => i2 v (t1.keep v ((hin0 v).mp hv) hsd.2) hsd.1⟩
        · right
          rw [if_neg (by rw [c2]; decide)] at he; subst he
          refine ⟨rfl, two_tight (lift t1) t2 (fun v => and_comm) ?_⟩
          intro v w1 w2 p q d1 d2
          exact sidesTol_of_near d2 d1 q p
    · rw [if_pos hpos] at he
      have o1 := optTight_ub s0 k row a (s.rtag row).rhsInf (s.rhs row)
        (fun v => Hi (s.rtag row).rhsInf (s.rhs row) (a * v)) hact0 hf0 ha hr
        (by intro h v; rw [h]; simp)
        (by intro q h e v; rw [h, e, Hi_fin, le_div_iff₀ hpos, mul_comm])
      generalize (if (s.rtag row).rhsInf = true then (s0, UNCHANGED)
        else updateUb s0 k (D.divq (s.rhs row) a) row) = r1 at he o1
      rcases o1 with ⟨c1, i1⟩ | ⟨c1, t1⟩
      · left
        rw [if_pos c1] at he; subst he
        exact ⟨rfl, fun v hv hsd => i1 v ((hin0 v).mp hv) hsd.2⟩
      · rw [if_neg (by rw [c1]; decide)] at he
        have hact1 : (r1.1.ctag k).inactive = false := by
          unfold CTag.inactive
          rw [t1.fixed.1, t1.fixed.2]; exact hact0
        have o2 := optTight_lb r1.1 k row a (s.rtag row).lhsInf (s.lhs row)
          (fun v => Lo (s.rtag row).lhsInf (s.lhs row) (a * v)) hact1 t1.fin ha hl
          (by intro h v; rw [h]; simp)
          (by intro q h e v; rw [h, e, Lo_fin, div_le_iff₀ hpos, mul_comm])
        generalize (if (s.rtag row).lhsInf = true then (r1.1, UNCHANGED)
          else updateLb r1.1 k (D.divq (s.lhs row) a) row) = r2 at he o2
        rcases o2 with ⟨c2, i2⟩ | ⟨c2, t2⟩
        · left
          rw [if_pos c2] at he; subst he
          refine ⟨rfl, fun v hv hsd => i2 v (t1.keep v ((hin0 v).mp hv) hsd.2) hsd.1⟩
        · right
          rw [if_neg (by rw [c2]; decide)] at he; subst he
          refine ⟨rfl, two_tight (lift t1) t2 (fun v => and_comm) ?_⟩
          intro v w1 w2 p q d1 d2
          exact sidesTol_of_near d2 d1 q p

/-- **C26**, on points: `INFEASIBLE` is right, no feasible point is lost, and a point feasible
afterwards satisfies everything that held before except that the column may leave its old bounds by
`FEAS_TOL` and the removed row may be violated by `|a| * FEAS_TOL`. -/
theorem C26_feasible_points (s : St) (row k : ℕ) (a : ℚ) (hA : s.A row = [(k, a)]) (ha : a ≠ 0)
    (hrow : row < s.m) (hk : k < s.n) (hsz : s.colSize k ≠ -1)
    (hrt : (s.rtag row).inactive = false)
    (hact : (s.ctag k).inactive = false) (hf : ColFin s k)
    (hl : FinIf (s.rtag row).lhsInf (s.lhs row)) (hr : FinIf (s.rtag row).rhsInf (s.rhs row))
    (heq : (s.rtag row).eq = true →
      s.lhs row = s.rhs row ∧ (s.rtag row).lhsInf = false ∧ (s.rtag row).rhsInf = false) :
    let r := removeStonRow s row
    (r.2 = INFEASIBLE → ∀ x, ¬ FeasPt s x) ∧
    (r.2 ≠ INFEASIBLE → ∀ x, FeasPt s x → FeasPt r.1 x) ∧
    (r.2 ≠ INFEASIBLE → ∀ x, FeasPt r.1 x →
      (∀ i < s.m, i ≠ row → (s.rtag i).inactive = false → RowOK s i x) ∧
      (∀ j < s.n, j ≠ k → s.colSize j ≠ -1 → (s.ctag j).subst = false → ColIn s j (x j)) ∧
      ColInTol FEAS_TOL s k (x k) ∧
      SidesTol (|a| * FEAS_TOL) (s.rtag row) (s.lhs row) (s.rhs row) (dot (s.A row) x)) := by
  intro r
  have hsub : (s.ctag k).subst = false := by
    have : (s.ctag k).fixed = false ∧ (s.ctag k).subst = false := by
      simpa [CTag.inactive] using hact
    exact this.2
  have hdot : ∀ x : ℕ → ℚ, dot (s.A row) x = a * x k := by intro x; rw [hA]; simp
  have main := C26_singleton_row s row k a hA ha hact hf hl hr heq
  simp only at main
  change (r.2 = INFEASIBLE ∧ _) ∨ (r.2 = REDUCED ∧ StonRowOK s r.1 row k a) at main
  refine ⟨?_, ?_, ?_⟩
  · intro hi x hx
    rcases main with ⟨_, h⟩ | ⟨h, _⟩
    · have h1 := hx.1 row hrow hrt
      unfold RowOK at h1
      rw [hdot] at h1
      exact h _ (hx.2 k hk hsz hsub) h1
    · rw [hi] at h; exact absurd h (by decide)
  · intro hi x hx
    rcases main with ⟨h, _⟩ | ⟨_, h⟩
    · exact absurd h hi
    constructor
    · intro i him hin
      by_cases hir : i = row
      · rw [hir, h.gone] at hin; exact absurd hin (by decide)
      · obtain ⟨e1, e2, e3, e4⟩ := h.otherRows i hir
        rw [e4] at hin
        unfold RowOK
        rw [e1, e2, e3, e4]
        exact hx.1 i (h.dims.1 ▸ him) hin
    · intro j hj hs1 hs2
      by_cases hjk : j = k
      · subst hjk
        have h1 := hx.1 row hrow hrt
        unfold RowOK at h1
        rw [hdot] at h1
        exact h.keep _ (hx.2 j hk hsz hsub) h1
      · obtain ⟨e1, e2, e3⟩ := h.otherCols j hjk
        rw [e3] at hs2
        rw [h.colSize] at hs1
        unfold ColIn
        rw [e1, e2, e3]
        exact hx.2 j (h.dims.2 ▸ hj) hs1 hs2
  · intro hi x hx
    rcases main with ⟨h, _⟩ | ⟨_, h⟩
    · exact absurd h hi
    have hxk := hx.2 k (by rw [h.dims.2]; exact hk) (by rw [h.colSize]; exact hsz)
      (by rw [h.subst]; exact hsub)
    refine ⟨?_, ?_, h.bounds _ hxk, ?_⟩
    · intro i him hir hin
      obtain ⟨e1, e2, e3, e4⟩ := h.otherRows i hir
      have := hx.1 i (by rw [h.dims.1]; exact him) (by rw [e4]; exact hin)
      unfold RowOK at this
      rw [e1, e2, e3, e4] at this
      exact this
    · intro j hj hjk hs1 hs2
      obtain ⟨e1, e2, e3⟩ := h.otherCols j hjk
      have := hx.2 j (by rw [h.dims.2]; exact hj) (by rw [h.colSize]; exact hs1)
        (by rw [e3]; exact hs2)
      unfold ColIn at this
      rw [e1, e2, e3] at this
      exact this
    · rw [hdot]; exact h.side _ hxk

/-! ### Example -/

/-- `-2 x0 ≤ -4` with `0 ≤ x0 ≤ 10`, and a second row `x0 + x1 ≤ 9`. -/
def exSton : St := initSt
  { m := 2, n := 2
    A := ofList [[(0, -2)], [(0, 1), (1, 1)]] []
    lhs := ofList [.ninf, .ninf] .ninf
    rhs := ofList [.fin (-4), .fin 9] .pinf
    lb := ofList [.fin 0, .fin 0] .ninf
    ub := ofList [.fin 10, .pinf] .pinf
    c := ofList [1, 1] 0 }

example : exSton.A 0 = [(0, -2)] ∧ (0 : ℕ) < exSton.m ∧ exSton.colSize 0 ≠ -1 ∧
    (exSton.ctag 0).inactive = false ∧ ColFin exSton 0 ∧
    FinIf (exSton.rtag 0).lhsInf (exSton.lhs 0) ∧ FinIf (exSton.rtag 0).rhsInf (exSton.rhs 0) ∧
    (exSton.rtag 0).eq = false ∧ (removeStonRow exSton 0).2 = REDUCED ∧
    (removeStonRow exSton 0).1.lb 0 = .fin 2 ∧ (removeStonRow exSton 0).1.ub 0 = .fin 10 := by
  refine ⟨rfl, by decide, by decide +kernel, by decide +kernel,
    ⟨fun _ => ⟨0, rfl⟩, fun _ => ⟨10, rfl⟩⟩, ?_, ?_, by decide +kernel, by decide +kernel,
    by decide +kernel, by decide +kernel⟩
  · intro h; exact absurd h (by decide +kernel)
  · intro _; exact ⟨-4, rfl⟩

end Verif
