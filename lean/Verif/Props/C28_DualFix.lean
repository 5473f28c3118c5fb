import Verif.Lemmas.Bounds
import Verif.Lemmas.EnvEx
import Verif.Model.Driver
import Mathlib.Tactic.IntervalCases

/-!
# C28: dual fixing keeps an optimal solution

`simple_dual_fix` (`/repo/src/explorers/Simple_dual_fix.c`).  The specification describes which
rows stop a column from decreasing or increasing; that the stored lock counters count exactly these
rows is C25.
-/

namespace Verif

/-- A row with coefficient `a` and tag `t` stops the variable from decreasing. -/
def StopsDown (t : RTag) (a : ℚ) : Prop :=
  (0 < a ∧ t.lhsInf = false) ∨ (a < 0 ∧ t.rhsInf = false)

/-- A row with coefficient `a` and tag `t` stops the variable from increasing. -/
def StopsUp (t : RTag) (a : ℚ) : Prop :=
  (0 < a ∧ t.rhsInf = false) ∨ (a < 0 ∧ t.lhsInf = false)

/-- The locks of column `k` mean what they should: a zero lock says that no row stops the
variable in that direction. -/
def LocksMean (s : St) (k : ℕ) : Prop :=
  (s.down k = 0 → ∀ i < s.m, (s.rtag i).inactive = false → ∀ a, (k, a) ∈ s.A i →
    ¬ StopsDown (s.rtag i) a) ∧
  (s.up k = 0 → ∀ i < s.m, (s.rtag i).inactive = false → ∀ a, (k, a) ∈ s.A i →
    ¬ StopsUp (s.rtag i) a)

/-- The rows have distinct columns and no zero coefficients. -/
def RowsOK (s : St) : Prop :=
  ∀ i, ((s.A i).map Prod.fst).Nodup ∧ ∀ p ∈ s.A i, p.2 ≠ 0

/-- Decreasing the variable keeps all rows. -/
theorem rows_down {s : St} {k : ℕ} (hr : RowsOK s)
    (hd : ∀ i < s.m, (s.rtag i).inactive = false → ∀ a, (k, a) ∈ s.A i → ¬ StopsDown (s.rtag i) a)
    {x : ℕ → ℚ} {v : ℚ} (hv : v ≤ x k)
    (hx : ∀ i < s.m, (s.rtag i).inactive = false → RowOK s i x) :
    ∀ i < s.m, (s.rtag i).inactive = false → RowOK s i (setAt x k v) := by
  intro i hi ha
  have h0 := hx i hi ha
  unfold RowOK at h0 ⊢
  by_cases hk : ∃ a, (k, a) ∈ s.A i
  · obtain ⟨a, hka⟩ := hk
    have hn := hd i hi ha a hka
    unfold setAt
    rw [dot_update_mem (hr i).1 hka]
    have ha0 : a ≠ 0 := (hr i).2 _ hka
    unfold StopsDown at hn
    push Not at hn
    rcases lt_or_gt_of_ne ha0 with hneg | hpos
    · have hinf : (s.rtag i).rhsInf = true := by simpa using hn.2 hneg
      refine ⟨h0.1.mono ?_, by rw [hinf]; simp⟩
      nlinarith
    · have hinf : (s.rtag i).lhsInf = true := by simpa using hn.1 hpos
      refine ⟨by rw [hinf]; simp, h0.2.mono ?_⟩
      nlinarith
  · unfold setAt
    rw [dot_update_notMem]
    · exact h0
    · intro p hp e
      exact hk ⟨p.2, by rw [← e]; exact hp⟩

/-- Increasing the variable keeps all rows. -/
theorem rows_up {s : St} {k : ℕ} (hr : RowsOK s)
    (hd : ∀ i < s.m, (s.rtag i).inactive = false → ∀ a, (k, a) ∈ s.A i → ¬ StopsUp (s.rtag i) a)
    {x : ℕ → ℚ} {v : ℚ} (hv : x k ≤ v)
    (hx : ∀ i < s.m, (s.rtag i).inactive = false → RowOK s i x) :
    ∀ i < s.m, (s.rtag i).inactive = false → RowOK s i (setAt x k v) := by
  intro i hi ha
  have h0 := hx i hi ha
  unfold RowOK at h0 ⊢
  by_cases hk : ∃ a, (k, a) ∈ s.A i
  · obtain ⟨a, hka⟩ := hk
    have hn := hd i hi ha a hka
    unfold setAt
    rw [dot_update_mem (hr i).1 hka]
    have ha0 : a ≠ 0 := (hr i).2 _ hka
    unfold StopsUp at hn
    push Not at hn
    rcases lt_or_gt_of_ne ha0 with hneg | hpos
    · have hinf : (s.rtag i).lhsInf = true := by simpa using hn.2 hneg
      refine ⟨by rw [hinf]; simp, h0.2.mono ?_⟩
      nlinarith
    · have hinf : (s.rtag i).rhsInf = true := by simpa using hn.1 hpos
      refine ⟨h0.1.mono ?_, by rw [hinf]; simp⟩
      nlinarith
  · unfold setAt
    rw [dot_update_notMem]
    · exact h0
    · intro p hp e
      exact hk ⟨p.2, by rw [← e]; exact hp⟩

theorem feas_setAt {s : St} {k : ℕ} {x : ℕ → ℚ} {v : ℚ} (hx : FeasPt s x)
    (hrows : ∀ i < s.m, (s.rtag i).inactive = false → RowOK s i (setAt x k v))
    (hv : ColIn s k v) : FeasPt s (setAt x k v) := by
  refine ⟨hrows, ?_⟩
  intro j hj h1 h2
  by_cases hjk : j = k
  · subst hjk; rw [setAt_same]; exact hv
  · rw [setAt_ne x v hjk]; exact hx.2 j hj h1 h2

/-- The decision of dual fixing, spelled out. -/
theorem dualFixDecide_spec (ck : ℚ) (up down : ℤ) (t : CTag) :
    match dualFixDecide ck up down t with
    | .nothing => True
    | .unbounded => (0 < ck ∧ down = 0 ∧ t.lbInf = true) ∨ (ck < 0 ∧ up = 0 ∧ t.ubInf = true)
    | .atLower => 0 ≤ ck ∧ down = 0 ∧ t.lbInf = false
    | .atUpper => ck ≤ 0 ∧ up = 0 ∧ t.ubInf = false
    | .toNegInf => ck = 0 ∧ down = 0 ∧ t.lbInf = true
    | .toPosInf => ck = 0 ∧ up = 0 ∧ t.ubInf = true := by
  unfold dualFixDecide
  by_cases h : 0 < ck ∧ down = 0
  · rw [if_pos h]
    cases ht : t.lbInf
    · simp [h.1.le, h.2]
    · simp [h.1, h.2]
  rw [if_neg h]
  by_cases h : ck < 0 ∧ up = 0
  · rw [if_pos h]
    cases ht : t.ubInf
    · simp [h.1.le, h.2]
    · simp [h.1, h.2]
  rw [if_neg h]
  by_cases h : ck = 0
  · subst h
    by_cases hd : down = 0
    · cases ht : t.lbInf <;> simp [hd]
    · by_cases hu : up = 0
      · cases ht : t.ubInf <;> simp [hd, hu]
      · simp [hd, hu]
  · simp [h]

/-- Fixing a column at a value that a feasible point has: the feasible points of the new state are
the old ones with that value. -/
theorem fixCol_feas {s : St} {k : ℕ} {v : ℚ} {ck : ℚ}
    (hk : k < s.n) (hsz : s.colSize k ≠ -1) (hact : (s.ctag k).inactive = false)
    {x : ℕ → ℚ} (hx : FeasPt s x) (hf : ColFin s k) (hxk : x k = v) :
    (fixCol s k (.fin v) ck).2 = REDUCED ∧
    ∀ y, FeasPt (fixCol s k (.fin v) ck).1 y ↔ FeasPt s y ∧ y k = v := by
  have hε := FEAS_TOL_pos
  have hfx : (s.ctag k).fixed = false ∧ (s.ctag k).subst = false := by
    simpa [CTag.inactive] using hact
  have het : effTag (s.ctag k) = s.ctag k := effTag_active hact
  have hcx := hx.2 k hk hsz hfx.2
  rw [hxk] at hcx
  have hcx' := hcx
  unfold ColIn at hcx'
  rw [het] at hcx'
  obtain ⟨sr, h | h⟩ := fixCol_cases s k (.fin v) ck
  · exfalso
    have hc := h.2.2.2.2.2.2.2
    simp only [Bool.or_eq_true, Bool.and_eq_true, Bool.not_eq_true'] at hc
    rcases hc with ⟨hi, hle⟩ | ⟨hi, hle⟩
    · obtain ⟨u, e⟩ := hf.2 hi
      have h2 := hcx'.2
      rw [hi, e, Hi_fin] at h2
      rw [e] at hle
      simp only [D.add_fin, D.le_fin, decide_eq_true_eq] at hle
      linarith
    · obtain ⟨u, e⟩ := hf.1 hi
      have h2 := hcx'.1
      rw [hi, e, Lo_fin] at h2
      rw [e] at hle
      simp only [D.sub_fin, D.le_fin, decide_eq_true_eq] at hle
      linarith
  · obtain ⟨hst, hlb, hub, hct, _, _, _⟩ := h
    refine ⟨hst, ?_⟩
    generalize (fixCol s k (.fin v) ck).1 = s' at sr hlb hub hct
    have hrow : ∀ i y, RowOK s' i y ↔ RowOK s i y := by
      intro i y; unfold RowOK; rw [sr.A, sr.lhs, sr.rhs, sr.rtag]
    have hcol : ∀ j y, j ≠ k → (ColIn s' j y ↔ ColIn s j y) := by
      intro j y hj; unfold ColIn; rw [hlb, hub, hct]; simp [hj]
    have hcolk : ∀ y, ColIn s' k y ↔ y = v := by
      intro y
      unfold ColIn
      rw [hct, hlb, hub]
      simp only [upd_same, effTag]
      simp only [if_true, Lo_fin, Hi_fin]
      constructor
      · rintro ⟨h1, h2⟩; linarith
      · intro h; constructor <;> linarith
    have hsub : ∀ j, (s'.ctag j).subst = (s.ctag j).subst := by
      intro j; rw [hct]
      by_cases hj : j = k
      · subst hj; simp
      · simp [hj]
    intro y
    constructor
    · intro hy
      have hyk : y k = v := (hcolk _).mp (hy.2 k (by rw [sr.n]; exact hk)
        (by rw [sr.colSize]; exact hsz) (by rw [hsub]; exact hfx.2))
      refine ⟨⟨?_, ?_⟩, hyk⟩
      · intro i hi ha
        exact (hrow i y).mp (hy.1 i (by rw [sr.m]; exact hi) (by rw [sr.rtag]; exact ha))
      · intro j hj h1 h2
        by_cases hjk : j = k
        · subst hjk; rw [hyk]; exact hcx
        · exact (hcol j _ hjk).mp (hy.2 j (by rw [sr.n]; exact hj) (by rw [sr.colSize]; exact h1)
            (by rw [hsub]; exact h2))
    · rintro ⟨hy, hyk⟩
      refine ⟨?_, ?_⟩
      · intro i hi ha
        exact (hrow i y).mpr (hy.1 i (by rw [← sr.m]; exact hi) (by rw [← sr.rtag]; exact ha))
      · intro j hj h1 h2
        by_cases hjk : j = k
        · subst hjk; exact (hcolk _).mpr hyk
        · exact (hcol j _ hjk).mpr (hy.2 j (by rw [← sr.n]; exact hj) (by rw [← sr.colSize]; exact h1)
            (by rw [← hsub]; exact h2))

theorem feas_check {s : St} {b : Bool} {x : ℕ → ℚ} : FeasPt (s.check b) x ↔ FeasPt s x := Iff.rfl

/-- What one step of dual fixing may do with column `k`. -/
inductive DualFixOK (s : St) (k : ℕ) (acc : List (ℕ × Bool)) (st : Status)
    (r : St × List (ℕ × Bool) × Status) : Prop
  /-- Nothing happens. -/
  | same (h : r = (s, acc, st))
  /-- The column is fixed: a feasible point stays feasible and does not get more expensive when its
  value of column `k` is replaced by the fixed one. -/
  | fixed (v : ℚ) (h2 : r.2 = (acc, st))
      (better : ∀ x, FeasPt s x → FeasPt r.1 (setAt x k v) ∧
        objective s (setAt x k v) ≤ objective s x)
      (sub : ∀ x, (∃ y, FeasPt s y) → FeasPt r.1 x → FeasPt s x ∧ x k = v)
  /-- The objective is unbounded below as soon as there is a feasible point. -/
  | unbounded (h : r = (s, acc, st ||| UNBNDORINFEAS))
      (unb : ∀ x, FeasPt s x → ∀ M, ∃ v, FeasPt s (setAt x k v) ∧ objective s (setAt x k v) < M)
  /-- The column costs nothing and can be decreased arbitrarily. -/
  | negInf (h : r = (s, acc ++ [(k, false)], st)) (hc : s.c k = 0)
      (free : ∀ x, FeasPt s x → ∀ v ≤ x k, FeasPt s (setAt x k v))
  /-- The column costs nothing and can be increased arbitrarily. -/
  | posInf (h : r = (s, acc ++ [(k, true)], st)) (hc : s.c k = 0)
      (free : ∀ x, FeasPt s x → ∀ v, x k ≤ v → FeasPt s (setAt x k v))

/-- **C28.** One step of dual fixing. -/
theorem C28_dual_fix (s : St) (k : ℕ) (acc : List (ℕ × Bool)) (st : Status) (hk : k < s.n)
    (hsz : (s.ctag k).inactive = false → s.colSize k ≠ -1) (hr : RowsOK s) (hl : LocksMean s k)
    (hf : ColFin s k) :
    DualFixOK s k acc st (dualFixStep (s, acc, st) k) := by
  unfold dualFixStep
  simp only
  split
  · exact .same rfl
  rename_i hguard
  have hact : (s.ctag k).inactive = false := by
    simp only [Bool.or_eq_true, not_or, Bool.not_eq_true] at hguard
    exact hguard.1
  have hsz := hsz hact
  have hfx : (s.ctag k).fixed = false ∧ (s.ctag k).subst = false := by
    simpa [CTag.inactive] using hact
  have het : effTag (s.ctag k) = s.ctag k := effTag_active hact
  have hspec := dualFixDecide_spec (s.c k) (s.up k) (s.down k) (s.ctag k)
  have hcolx : ∀ x, FeasPt s x → Lo (s.ctag k).lbInf (s.lb k) (x k) ∧
      Hi (s.ctag k).ubInf (s.ub k) (x k) := by
    intro x hx
    have := hx.2 k hk hsz hfx.2
    unfold ColIn at this
    rwa [het] at this
  split
  · exact .same rfl
  · rename_i hd
    rw [hd] at hspec
    refine .unbounded rfl ?_
    intro x hx M
    have hx' := hcolx x hx
    rcases hspec with ⟨hc, hdn, hi⟩ | ⟨hc, hdn, hi⟩
    · set v := min (x k) (x k + (M - 1 - objective s x) / s.c k) with hv
      have hvx : v ≤ x k := min_le_left _ _
      refine ⟨v, feas_setAt hx (rows_down hr (hl.1 hdn) hvx hx.1) ?_, ?_⟩
      · unfold ColIn; rw [het, hi]; exact ⟨by simp, hx'.2.mono hvx⟩
      · rw [objective_setAt s x hk]
        have h1 : v - x k ≤ (M - 1 - objective s x) / s.c k := by
          have : v ≤ x k + (M - 1 - objective s x) / s.c k := min_le_right _ _
          linarith
        have h2 := mul_le_mul_of_nonneg_left h1 hc.le
        rw [mul_div_cancel₀ _ hc.ne'] at h2
        linarith
    · set v := max (x k) (x k + (M - 1 - objective s x) / s.c k) with hv
      have hvx : x k ≤ v := le_max_left _ _
      refine ⟨v, feas_setAt hx (rows_up hr (hl.2 hdn) hvx hx.1) ?_, ?_⟩
      · unfold ColIn; rw [het, hi]; exact ⟨hx'.1.mono hvx, by simp⟩
      · rw [objective_setAt s x hk]
        have h1 : (M - 1 - objective s x) / s.c k ≤ v - x k := by
          have : x k + (M - 1 - objective s x) / s.c k ≤ v := le_max_right _ _
          linarith
        have h2 := mul_le_mul_of_nonpos_left h1 hc.le
        rw [mul_div_cancel₀ _ hc.ne] at h2
        linarith
  · rename_i hd
    rw [hd] at hspec
    obtain ⟨hc, hdn, hi⟩ := hspec
    obtain ⟨l, e⟩ := hf.1 hi
    rw [e]
    have mv : ∀ x, FeasPt s x → FeasPt s (setAt x k l) := by
      intro x hx
      have hx' := hcolx x hx
      have hlx : l ≤ x k := by have := hx'.1; rwa [hi, e, Lo_fin] at this
      refine feas_setAt hx (rows_down hr (hl.1 hdn) hlx hx.1) ?_
      unfold ColIn; rw [het, hi, e]; exact ⟨by simp, hx'.2.mono hlx⟩
    have fc : ∀ x, FeasPt s x → ∀ y, FeasPt (fixCol (s.check (!D.isInf (.fin l))) k (.fin l) (s.c k)).1 y ↔
        FeasPt s y ∧ y k = l := by
      intro x hx
      exact (fixCol_feas (s := s.check (!D.isInf (.fin l))) (ck := s.c k) hk hsz hact
        (mv x hx) hf (setAt_same x k l)).2
    refine .fixed l rfl ?_ ?_
    · intro x hx
      refine ⟨(fc x hx _).mpr ⟨mv x hx, setAt_same x k l⟩, ?_⟩
      rw [objective_setAt s x hk]
      have hx' := (hcolx x hx).1
      rw [hi, e, Lo_fin] at hx'
      have := mul_nonpos_of_nonneg_of_nonpos hc (sub_nonpos.mpr hx')
      linarith
    · rintro x ⟨y, hy⟩ hx
      exact (fc y hy x).mp hx
  · rename_i hd
    rw [hd] at hspec
    obtain ⟨hc, hdn, hi⟩ := hspec
    obtain ⟨l, e⟩ := hf.2 hi
    rw [e]
    have mv : ∀ x, FeasPt s x → FeasPt s (setAt x k l) := by
      intro x hx
      have hx' := hcolx x hx
      have hlx : x k ≤ l := by have := hx'.2; rwa [hi, e, Hi_fin] at this
      refine feas_setAt hx (rows_up hr (hl.2 hdn) hlx hx.1) ?_
      unfold ColIn; rw [het, hi, e]; exact ⟨hx'.1.mono hlx, by simp⟩
    have fc : ∀ x, FeasPt s x → ∀ y, FeasPt (fixCol (s.check (!D.isInf (.fin l))) k (.fin l) (s.c k)).1 y ↔
        FeasPt s y ∧ y k = l := by
      intro x hx
      exact (fixCol_feas (s := s.check (!D.isInf (.fin l))) (ck := s.c k) hk hsz hact
        (mv x hx) hf (setAt_same x k l)).2
    refine .fixed l rfl ?_ ?_
    · intro x hx
      refine ⟨(fc x hx _).mpr ⟨mv x hx, setAt_same x k l⟩, ?_⟩
      rw [objective_setAt s x hk]
      have hx' := (hcolx x hx).2
      rw [hi, e, Hi_fin] at hx'
      have := mul_nonpos_of_nonpos_of_nonneg hc (sub_nonneg.mpr hx')
      linarith
    · rintro x ⟨y, hy⟩ hx
      exact (fc y hy x).mp hx
  · rename_i hd
    rw [hd] at hspec
    obtain ⟨hc, hdn, hi⟩ := hspec
    refine .negInf rfl hc ?_
    intro x hx v hv
    refine feas_setAt hx (rows_down hr (hl.1 hdn) hv hx.1) ?_
    unfold ColIn; rw [het, hi]; exact ⟨by simp, (hcolx x hx).2.mono hv⟩
  · rename_i hd
    rw [hd] at hspec
    obtain ⟨hc, hdn, hi⟩ := hspec
    refine .posInf rfl hc ?_
    intro x hx v hv
    refine feas_setAt hx (rows_up hr (hl.2 hdn) hv hx.1) ?_
    unfold ColIn; rw [het, hi]; exact ⟨(hcolx x hx).1.mono hv, by simp⟩

/-! ### Example -/

/-- `x0 - x1 ≥ 1`, `x0 + x1 ≥ 0`, `x0 ≥ 0`, `x1 ∈ [0, 3]`, cost `0·x0 + 2·x1`: nothing stops `x0`
from increasing and nothing pays for it. -/
def exDual : St := initSt
  { m := 2, n := 2
    A := ofList [[(0, 1), (1, -1)], [(0, 1), (1, 1)]] []
    lhs := ofList [.fin 1, .fin 0] .ninf
    rhs := ofList [.pinf, .pinf] .pinf
    lb := ofList [.fin 0, .fin 0] .ninf
    ub := ofList [.pinf, .fin 3] .pinf
    c := ofList [0, 2] 0 }

example : RowsOK exDual ∧ LocksMean exDual 0 ∧ ColFin exDual 0 ∧
    FeasPt exDual (fun j => if j = 0 then 5 else 1) ∧
    (dualFixStep (exDual, [], UNCHANGED) 0).2 = ([(0, true)], UNCHANGED) := by
  have hA : ∀ i, exDual.A i = if i = 0 then [(0, 1), (1, -1)] else if i = 1 then [(0, 1), (1, 1)] else [] := by
    intro i
    rcases i with _ | _ | i <;> simp [exDual, initSt, ofList]
  refine ⟨?_, ⟨?_, ?_⟩, ⟨fun _ => ⟨0, rfl⟩, ?_⟩, ⟨?_, ?_⟩, by decide +kernel⟩
  · intro i
    rw [hA]
    split
    · decide
    · split <;> decide
  · intro h; exact absurd h (by decide +kernel)
  · intro _ i hi _ a ha
    have hi : i < 2 := hi
    interval_cases i
    · have : a = 1 := by rw [hA] at ha; simpa using ha
      subst this
      unfold StopsUp
      have e : (exDual.rtag 0).rhsInf = true := by decide +kernel
      rw [e]; norm_num
    · have : a = 1 := by rw [hA] at ha; simpa using ha
      subst this
      unfold StopsUp
      have e : (exDual.rtag 1).rhsInf = true := by decide +kernel
      rw [e]; norm_num
  · intro h; exact absurd h (by decide +kernel)
  · intro i hi _
    have hi : i < 2 := hi
    interval_cases i
    · have e : exDual.lhs 0 = .fin 1 := rfl
      have e1 : (exDual.rtag 0).rhsInf = true := by decide +kernel
      have e2 : (exDual.rtag 0).lhsInf = false := by decide +kernel
      unfold RowOK Sides
      rw [hA, e, e1, e2]; norm_num
    · have e : exDual.lhs 1 = .fin 0 := rfl
      have e1 : (exDual.rtag 1).rhsInf = true := by decide +kernel
      have e2 : (exDual.rtag 1).lhsInf = false := by decide +kernel
      unfold RowOK Sides
      rw [hA, e, e1, e2]; norm_num
  · intro k hk _ _
    have hk : k < 2 := hk
    interval_cases k
    · have e1 : exDual.lb 0 = .fin 0 := rfl
      have e2 : effTag (exDual.ctag 0) = { lbInf := false, ubInf := true } := by decide +kernel
      unfold ColIn
      rw [e1, e2]; norm_num
    · have e1 : exDual.lb 1 = .fin 0 := rfl
      have e3 : exDual.ub 1 = .fin 3 := rfl
      have e2 : effTag (exDual.ctag 1) = {} := by decide +kernel
      unfold ColIn
      rw [e1, e2, e3]; norm_num

end Verif
