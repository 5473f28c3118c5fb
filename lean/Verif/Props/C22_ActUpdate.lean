import Verif.Lemmas.ActUpd
import Verif.Model.Dton

/-!
# C22: incremental activity updates agree with recomputation

`Recomputed a ctag lb ub cells` says that the stored activity `a` agrees with `Activity_init`
on the given bounds and row.  Each theorem takes an activity that agrees before a change and
shows that the code's update agrees after it.
-/

namespace Verif

instance (a : Act) (ctag : ℕ → CTag) (lb ub : ℕ → D) (cells : List Cell) :
    Decidable (Recomputed a ctag lb ub cells) := by unfold Recomputed; infer_instance

theorem colsOK_change {k : ℕ} {ctag ctag' : ℕ → CTag} {lb lb' ub ub' : ℕ → D} {cells : List Cell}
    (hc : ColChange k ctag ctag' lb lb' ub ub') (h : ColsOK ctag lb ub cells)
    (hk : FinIf (ctag' k).lbInf (lb' k) ∧ FinIf (ctag' k).ubInf (ub' k)) :
    ColsOK ctag' lb' ub' cells := by
  intro p hp
  by_cases he : p.1 = k
  · rw [he]; exact hk
  · rw [← hc.tag _ he, ← hc.lb _ he, ← hc.ub _ he]; exact h p hp

theorem same_min {k : ℕ} {q : ℚ} {l1 l2 : List Cell} {ctag ctag' : ℕ → CTag}
    {lb lb' ub ub' : ℕ → D} (h1 : NoCol k l1) (h2 : NoCol k l2)
    (hc : ColChange k ctag ctag' lb lb' ub ub')
    (hu : unbMin ctag' (k, q) = unbMin ctag (k, q))
    (ht : minTerm lb' ub' (k, q) = minTerm lb ub (k, q)) :
    (l1 ++ (k, q) :: l2).countP (unbMin ctag') = (l1 ++ (k, q) :: l2).countP (unbMin ctag) ∧
    ((l1 ++ (k, q) :: l2).map (minTerm lb' ub')).sum =
      ((l1 ++ (k, q) :: l2).map (minTerm lb ub)).sum := by
  constructor
  · rw [List.countP_append, List.countP_append, List.countP_cons, List.countP_cons,
      countP_unbMin_congr h1 hc.tag, countP_unbMin_congr h2 hc.tag, hu]
  · simp only [List.map_append, List.map_cons, List.sum_append, List.sum_cons, ht,
      sum_minTerm_congr h1 hc.lb hc.ub, sum_minTerm_congr h2 hc.lb hc.ub]

theorem same_max {k : ℕ} {q : ℚ} {l1 l2 : List Cell} {ctag ctag' : ℕ → CTag}
    {lb lb' ub ub' : ℕ → D} (h1 : NoCol k l1) (h2 : NoCol k l2)
    (hc : ColChange k ctag ctag' lb lb' ub ub')
    (hu : unbMax ctag' (k, q) = unbMax ctag (k, q))
    (ht : maxTerm lb' ub' (k, q) = maxTerm lb ub (k, q)) :
    (l1 ++ (k, q) :: l2).countP (unbMax ctag') = (l1 ++ (k, q) :: l2).countP (unbMax ctag) ∧
    ((l1 ++ (k, q) :: l2).map (maxTerm lb' ub')).sum =
      ((l1 ++ (k, q) :: l2).map (maxTerm lb ub)).sum := by
  constructor
  · rw [List.countP_append, List.countP_append, List.countP_cons, List.countP_cons,
      countP_unbMax_congr h1 hc.tag, countP_unbMax_congr h2 hc.tag, hu]
  · simp only [List.map_append, List.map_cons, List.sum_append, List.sum_cons, ht,
      sum_maxTerm_congr h1 hc.lb hc.ub, sum_maxTerm_congr h2 hc.lb hc.ub]

/-- **C22 (new lower bound).**  `update_act_bound_change` after the lower bound of column `k`
became the finite number `b` (whether the old bound was finite or not). -/
theorem C22_new_lower_bound (ctag : ℕ → CTag) (lb ub : ℕ → D) (cells : List Cell) (k : ℕ)
    (q b : ℚ) (a : Act) (hnd : (cells.map Prod.fst).Nodup) (hmem : (k, q) ∈ cells) (hq : q ≠ 0)
    (hok : ColsOK ctag lb ub cells) (ha : Recomputed a ctag lb ub cells) :
    Recomputed (updActBoundChange a q (lb k) (.fin b) (!(ctag k).lbInf) true
        (upd lb k (.fin b)) ub cells).1
      (upd ctag k { ctag k with lbInf := false }) (upd lb k (.fin b)) ub cells := by
  have hc : ColChange k ctag (upd ctag k { ctag k with lbInf := false }) lb (upd lb k (.fin b)) ub ub :=
    ⟨fun j hj => (upd_ne _ _ hj).symm, fun j hj => (upd_ne _ _ hj).symm, fun _ _ => rfl⟩
  have hok' : ColsOK (upd ctag k { ctag k with lbInf := false }) (upd lb k (.fin b)) ub cells :=
    colsOK_change hc hok (by simpa using (hok _ hmem).2)
  rw [recomputed_iff hok'] ; rw [recomputed_iff hok] at ha
  obtain ⟨l1, l2, rfl, h1, h2⟩ := split_col hnd hmem
  have hfin := hok _ hmem
  unfold updActBoundChange
  rw [if_pos rfl]
  by_cases hneg : q < 0
  · have hnp : ¬ 0 < q := not_lt.mpr hneg.le
    rw [if_pos hneg]
    obtain ⟨r1, r2, r3, r4, -⟩ := bumpMax_ok h1 h2 hc hok' (a := a) (oldB := lb k) (newB := .fin b)
      (finite := !(ctag k).lbInf) ha.nmax ha.max (by simp [unbMax, hnp]) (by simp [unbMax, hnp])
      (by intro hf; refine ⟨(lb k).toQ, hfin.1.eq (by simpa using hf), ?_⟩
          simp [maxTerm, hnp])
      ⟨b, rfl, by simp [maxTerm, hnp]⟩
    obtain ⟨s1, s2⟩ := same_min h1 h2 hc (q := q) (by simp [unbMin, hnp]) (by simp [minTerm, hnp])
    refine ⟨?_, r1, ?_, r2⟩
    · simp only; rw [r3, s1]; exact ha.nmin
    · simp only; intro h; rw [r4, s2]; exact ha.min (r3 ▸ h)
  · have hpos : 0 < q := lt_of_le_of_ne (not_lt.mp hneg) (Ne.symm hq)
    rw [if_neg hneg]
    obtain ⟨r1, r2, r3, r4, -⟩ := bumpMin_ok h1 h2 hc hok' (a := a) (oldB := lb k) (newB := .fin b)
      (finite := !(ctag k).lbInf) ha.nmin ha.min (by simp [unbMin, hpos]) (by simp [unbMin, hpos])
      (by intro hf; refine ⟨(lb k).toQ, hfin.1.eq (by simpa using hf), ?_⟩
          simp [minTerm, hpos])
      ⟨b, rfl, by simp [minTerm, hpos]⟩
    obtain ⟨s1, s2⟩ := same_max h1 h2 hc (q := q) (by simp [unbMax, hpos]) (by simp [maxTerm, hpos])
    refine ⟨r1, ?_, r2, ?_⟩
    · simp only; rw [r3, s1]; exact ha.nmax
    · simp only; intro h; rw [r4, s2]; exact ha.max (r3 ▸ h)

/-- **C22 (new upper bound).** -/
theorem C22_new_upper_bound (ctag : ℕ → CTag) (lb ub : ℕ → D) (cells : List Cell) (k : ℕ)
    (q b : ℚ) (a : Act) (hnd : (cells.map Prod.fst).Nodup) (hmem : (k, q) ∈ cells) (hq : q ≠ 0)
    (hok : ColsOK ctag lb ub cells) (ha : Recomputed a ctag lb ub cells) :
    Recomputed (updActBoundChange a q (ub k) (.fin b) (!(ctag k).ubInf) false
        lb (upd ub k (.fin b)) cells).1
      (upd ctag k { ctag k with ubInf := false }) lb (upd ub k (.fin b)) cells := by
  have hc : ColChange k ctag (upd ctag k { ctag k with ubInf := false }) lb lb ub (upd ub k (.fin b)) :=
    ⟨fun j hj => (upd_ne _ _ hj).symm, fun _ _ => rfl, fun j hj => (upd_ne _ _ hj).symm⟩
  have hok' : ColsOK (upd ctag k { ctag k with ubInf := false }) lb (upd ub k (.fin b)) cells :=
    colsOK_change hc hok (by simpa using (hok _ hmem).1)
  rw [recomputed_iff hok'] ; rw [recomputed_iff hok] at ha
  obtain ⟨l1, l2, rfl, h1, h2⟩ := split_col hnd hmem
  have hfin := hok _ hmem
  unfold updActBoundChange
  rw [if_neg (by decide)]
  by_cases hneg : q < 0
  · have hnp : ¬ 0 < q := not_lt.mpr hneg.le
    rw [if_pos hneg]
    obtain ⟨r1, r2, r3, r4, -⟩ := bumpMin_ok h1 h2 hc hok' (a := a) (oldB := ub k) (newB := .fin b)
      (finite := !(ctag k).ubInf) ha.nmin ha.min (by simp [unbMin, hnp]) (by simp [unbMin, hnp])
      (by intro hf; refine ⟨(ub k).toQ, hfin.2.eq (by simpa using hf), ?_⟩
          simp [minTerm, hnp])
      ⟨b, rfl, by simp [minTerm, hnp]⟩
    obtain ⟨s1, s2⟩ := same_max h1 h2 hc (q := q) (by simp [unbMax, hnp]) (by simp [maxTerm, hnp])
    refine ⟨r1, ?_, r2, ?_⟩
    · simp only; rw [r3, s1]; exact ha.nmax
    · simp only; intro h; rw [r4, s2]; exact ha.max (r3 ▸ h)
  · have hpos : 0 < q := lt_of_le_of_ne (not_lt.mp hneg) (Ne.symm hq)
    rw [if_neg hneg]
    obtain ⟨r1, r2, r3, r4, -⟩ := bumpMax_ok h1 h2 hc hok' (a := a) (oldB := ub k) (newB := .fin b)
      (finite := !(ctag k).ubInf) ha.nmax ha.max (by simp [unbMax, hpos]) (by simp [unbMax, hpos])
      (by intro hf; refine ⟨(ub k).toQ, hfin.2.eq (by simpa using hf), ?_⟩
          simp [maxTerm, hpos])
      ⟨b, rfl, by simp [maxTerm, hpos]⟩
    obtain ⟨s1, s2⟩ := same_min h1 h2 hc (q := q) (by simp [unbMin, hpos]) (by simp [minTerm, hpos])
    refine ⟨?_, r1, ?_, r2⟩
    · simp only; rw [r3, s1]; exact ha.nmin
    · simp only; intro h; rw [r4, s2]; exact ha.min (r3 ▸ h)

example : Recomputed (updActBoundChange ⟨.fin 0, .fin 0, 1, 0, .notAdded⟩ 2 .ninf (.fin 3) false
      true (upd (fun _ => .ninf) 1 (.fin 3)) (fun _ => .fin 0) [(1, 2)]).1
    (upd (fun _ => { lbInf := true }) 1 {}) (upd (fun _ => .ninf) 1 (.fin 3)) (fun _ => .fin 0)
    [(1, 2)] :=
  C22_new_lower_bound (fun _ => { lbInf := true }) (fun _ => .ninf) (fun _ => .fin 0) [(1, 2)] 1 2 3
    ⟨.fin 0, .fin 0, 1, 0, .notAdded⟩ (by decide) (by simp) (by norm_num)
    (by intro p _; exact ⟨by simp [FinIf], by simp⟩) (by decide +kernel)

/-! ### Fixing a column -/

/-- The activity computed by the loop body of `update_activities_fixed_col` for one row. -/
def fixedColAct (a : Act) (q : ℚ) (lb ub : ℕ → D) (oldUb oldLb val : D) (ubInf lbInf : Bool)
    (cells : List Cell) : Act :=
  let r1 := if ubInf || !D.eqb val oldUb then
      (updActBoundChange a q oldUb val (!ubInf) false lb ub cells).1 else a
  if lbInf || !D.eqb val oldLb then
    (updActBoundChange r1 q oldLb val (!lbInf) true lb ub cells).1 else r1

theorem D.eqb_fin_iff {a : ℚ} {d : D} : D.eqb (.fin a) d = true ↔ d = .fin a := by
  cases d <;> simp [D.eqb, eq_comm]

/-- **C22 (fixed column).**  `update_activities_fixed_col` after column `k` was fixed to `v`. -/
theorem C22_fixed_column (ctag : ℕ → CTag) (lb ub : ℕ → D) (cells : List Cell) (k : ℕ)
    (q v : ℚ) (a : Act) (hnd : (cells.map Prod.fst).Nodup) (hmem : (k, q) ∈ cells) (hq : q ≠ 0)
    (hok : ColsOK ctag lb ub cells) (ha : Recomputed a ctag lb ub cells) :
    Recomputed (fixedColAct a q (upd lb k (.fin v)) (upd ub k (.fin v)) (ub k) (lb k) (.fin v)
        (ctag k).ubInf (ctag k).lbInf cells)
      (upd ctag k { ctag k with lbInf := false, ubInf := false })
      (upd lb k (.fin v)) (upd ub k (.fin v)) cells := by
  have hc : ColChange k ctag (upd ctag k { ctag k with lbInf := false, ubInf := false })
      lb (upd lb k (.fin v)) ub (upd ub k (.fin v)) :=
    ⟨fun j hj => (upd_ne _ _ hj).symm, fun j hj => (upd_ne _ _ hj).symm,
      fun j hj => (upd_ne _ _ hj).symm⟩
  have hok' := colsOK_change hc hok (by simp)
  rw [recomputed_iff hok'] ; rw [recomputed_iff hok] at ha
  obtain ⟨l1, l2, rfl, h1, h2⟩ := split_col hnd hmem
  have hfin := hok _ hmem
  have key : ∀ (inf : Bool) (d : D), FinIf inf d → (inf || !D.eqb (.fin v) d) = false →
      inf = false ∧ d = .fin v := by
    intro inf d _ h
    simp only [Bool.or_eq_false_iff, Bool.not_eq_false'] at h
    exact ⟨h.1, D.eqb_fin_iff.mp h.2⟩
  unfold fixedColAct
  by_cases hneg : q < 0
  · have hnp : ¬ 0 < q := not_lt.mpr hneg.le
    -- minimum is governed by the upper bound, maximum by the lower one
    have A : ∀ a : Act, a.nInfMin = ((l1 ++ (k, q) :: l2).countP (unbMin ctag) : ℤ) →
        (a.nInfMin = 0 → a.min = .fin (((l1 ++ (k, q) :: l2).map (minTerm lb ub)).sum)) →
        let r := if (ctag k).ubInf || !D.eqb (.fin v) (ub k) then
          (updActBoundChange a q (ub k) (.fin v) (!(ctag k).ubInf) false (upd lb k (.fin v))
            (upd ub k (.fin v)) (l1 ++ (k, q) :: l2)).1 else a
        r.nInfMin = ((l1 ++ (k, q) :: l2).countP (unbMin (upd ctag k { ctag k with lbInf := false, ubInf := false })) : ℤ) ∧
        (r.nInfMin = 0 → r.min = .fin (((l1 ++ (k, q) :: l2).map (minTerm (upd lb k (.fin v)) (upd ub k (.fin v)))).sum)) ∧
        r.nInfMax = a.nInfMax ∧ r.max = a.max := by
      intro a hn hm
      cases hcond : (ctag k).ubInf || !D.eqb (.fin v) (ub k)
      · obtain ⟨e1, e2⟩ := key _ _ hfin.2 hcond
        obtain ⟨s1, s2⟩ := same_min h1 h2 hc (q := q) (by simp [unbMin, hnp, e1])
          (by simp [minTerm, hnp, e2])
        simp only [Bool.false_eq_true, if_false]
        exact ⟨by rw [s1]; exact hn, fun h => by rw [s2]; exact hm h, by simp⟩
      · simp only [if_true, updActBoundChange, hneg, Bool.false_eq_true, if_false]
        obtain ⟨r1, r2, r3, r4, -⟩ := bumpMin_ok h1 h2 hc hok' (a := a) (oldB := ub k)
          (newB := .fin v) (finite := !(ctag k).ubInf) hn hm (by simp [unbMin, hnp])
          (by simp [unbMin, hnp])
          (by intro hf; exact ⟨(ub k).toQ, hfin.2.eq (by simpa using hf), by simp [minTerm, hnp]⟩)
          ⟨v, rfl, by simp [minTerm, hnp]⟩
        exact ⟨r1, r2, r3, r4⟩
    have B : ∀ a : Act, a.nInfMax = ((l1 ++ (k, q) :: l2).countP (unbMax ctag) : ℤ) →
        (a.nInfMax = 0 → a.max = .fin (((l1 ++ (k, q) :: l2).map (maxTerm lb ub)).sum)) →
        let r := if (ctag k).lbInf || !D.eqb (.fin v) (lb k) then
          (updActBoundChange a q (lb k) (.fin v) (!(ctag k).lbInf) true (upd lb k (.fin v))
            (upd ub k (.fin v)) (l1 ++ (k, q) :: l2)).1 else a
        r.nInfMax = ((l1 ++ (k, q) :: l2).countP (unbMax (upd ctag k { ctag k with lbInf := false, ubInf := false })) : ℤ) ∧
        (r.nInfMax = 0 → r.max = .fin (((l1 ++ (k, q) :: l2).map (maxTerm (upd lb k (.fin v)) (upd ub k (.fin v)))).sum)) ∧
        r.nInfMin = a.nInfMin ∧ r.min = a.min := by
      intro a hn hm
      cases hcond : (ctag k).lbInf || !D.eqb (.fin v) (lb k)
      · obtain ⟨e1, e2⟩ := key _ _ hfin.1 hcond
        obtain ⟨s1, s2⟩ := same_max h1 h2 hc (q := q) (by simp [unbMax, hnp, e1])
          (by simp [maxTerm, hnp, e2])
        simp only [Bool.false_eq_true, if_false]
        exact ⟨by rw [s1]; exact hn, fun h => by rw [s2]; exact hm h, by simp⟩
      · simp only [if_true, updActBoundChange, hneg]
        obtain ⟨r1, r2, r3, r4, -⟩ := bumpMax_ok h1 h2 hc hok' (a := a) (oldB := lb k)
          (newB := .fin v) (finite := !(ctag k).lbInf) hn hm (by simp [unbMax, hnp])
          (by simp [unbMax, hnp])
          (by intro hf; exact ⟨(lb k).toQ, hfin.1.eq (by simpa using hf), by simp [maxTerm, hnp]⟩)
          ⟨v, rfl, by simp [maxTerm, hnp]⟩
        exact ⟨r1, r2, r3, r4⟩
    obtain ⟨a1, a2, a3, a4⟩ := A a ha.nmin ha.min
    obtain ⟨b1, b2, b3, b4⟩ := B _ (a3.trans ha.nmax) (fun h => a4.trans (ha.max (a3.symm.trans h)))
    exact ⟨b3.trans a1, b1, fun h => b4.trans (a2 (b3.symm.trans h)), b2⟩
  · have hpos : 0 < q := lt_of_le_of_ne (not_lt.mp hneg) (Ne.symm hq)
    have A : ∀ a : Act, a.nInfMax = ((l1 ++ (k, q) :: l2).countP (unbMax ctag) : ℤ) →
        (a.nInfMax = 0 → a.max = .fin (((l1 ++ (k, q) :: l2).map (maxTerm lb ub)).sum)) →
        let r := if (ctag k).ubInf || !D.eqb (.fin v) (ub k) then
          (updActBoundChange a q (ub k) (.fin v) (!(ctag k).ubInf) false (upd lb k (.fin v))
            (upd ub k (.fin v)) (l1 ++ (k, q) :: l2)).1 else a
        r.nInfMax = ((l1 ++ (k, q) :: l2).countP (unbMax (upd ctag k { ctag k with lbInf := false, ubInf := false })) : ℤ) ∧
        (r.nInfMax = 0 → r.max = .fin (((l1 ++ (k, q) :: l2).map (maxTerm (upd lb k (.fin v)) (upd ub k (.fin v)))).sum)) ∧
        r.nInfMin = a.nInfMin ∧ r.min = a.min := by
      intro a hn hm
      cases hcond : (ctag k).ubInf || !D.eqb (.fin v) (ub k)
      · obtain ⟨e1, e2⟩ := key _ _ hfin.2 hcond
        obtain ⟨s1, s2⟩ := same_max h1 h2 hc (q := q) (by simp [unbMax, hpos, e1])
          (by simp [maxTerm, hpos, e2])
        simp only [Bool.false_eq_true, if_false]
        exact ⟨by rw [s1]; exact hn, fun h => by rw [s2]; exact hm h, by simp⟩
      · simp only [if_true, updActBoundChange, hneg, Bool.false_eq_true, if_false]
        obtain ⟨r1, r2, r3, r4, -⟩ := bumpMax_ok h1 h2 hc hok' (a := a) (oldB := ub k)
          (newB := .fin v) (finite := !(ctag k).ubInf) hn hm (by simp [unbMax, hpos])
          (by simp [unbMax, hpos])
          (by intro hf; exact ⟨(ub k).toQ, hfin.2.eq (by simpa using hf), by simp [maxTerm, hpos]⟩)
          ⟨v, rfl, by simp [maxTerm, hpos]⟩
        exact ⟨r1, r2, r3, r4⟩
    have B : ∀ a : Act, a.nInfMin = ((l1 ++ (k, q) :: l2).countP (unbMin ctag) : ℤ) →
        (a.nInfMin = 0 → a.min = .fin (((l1 ++ (k, q) :: l2).map (minTerm lb ub)).sum)) →
        let r := if (ctag k).lbInf || !D.eqb (.fin v) (lb k) then
          (updActBoundChange a q (lb k) (.fin v) (!(ctag k).lbInf) true (upd lb k (.fin v))
            (upd ub k (.fin v)) (l1 ++ (k, q) :: l2)).1 else a
        r.nInfMin = ((l1 ++ (k, q) :: l2).countP (unbMin (upd ctag k { ctag k with lbInf := false, ubInf := false })) : ℤ) ∧
        (r.nInfMin = 0 → r.min = .fin (((l1 ++ (k, q) :: l2).map (minTerm (upd lb k (.fin v)) (upd ub k (.fin v)))).sum)) ∧
        r.nInfMax = a.nInfMax ∧ r.max = a.max := by
      intro a hn hm
      cases hcond : (ctag k).lbInf || !D.eqb (.fin v) (lb k)
      · obtain ⟨e1, e2⟩ := key _ _ hfin.1 hcond
        obtain ⟨s1, s2⟩ := same_min h1 h2 hc (q := q) (by simp [unbMin, hpos, e1])
          (by simp [minTerm, hpos, e2])
        simp only [Bool.false_eq_true, if_false]
        exact ⟨by rw [s1]; exact hn, fun h => by rw [s2]; exact hm h, by simp⟩
      · simp only [if_true, updActBoundChange, hneg, if_false]
        obtain ⟨r1, r2, r3, r4, -⟩ := bumpMin_ok h1 h2 hc hok' (a := a) (oldB := lb k)
          (newB := .fin v) (finite := !(ctag k).lbInf) hn hm (by simp [unbMin, hpos])
          (by simp [unbMin, hpos])
          (by intro hf; exact ⟨(lb k).toQ, hfin.1.eq (by simpa using hf), by simp [minTerm, hpos]⟩)
          ⟨v, rfl, by simp [minTerm, hpos]⟩
        exact ⟨r1, r2, r3, r4⟩
    obtain ⟨a1, a2, a3, a4⟩ := A a ha.nmax ha.max
    obtain ⟨b1, b2, b3, b4⟩ := B _ (a3.trans ha.nmin) (fun h => a4.trans (ha.min (a3.symm.trans h)))
    exact ⟨b1, b3.trans a1, b2, fun h => b4.trans (a2 (b3.symm.trans h))⟩

/-- `fixedColAct` is what the loop body of `update_activities_fixed_col` stores. -/
theorem updActsFixedColStep_act (oldUb oldLb val : D) (ubInf lbInf : Bool) (s : St) (p : Cell) :
    let a' := (updActsFixedColStep oldUb oldLb val (ubInf || !D.eqb val oldUb)
      (lbInf || !D.eqb val oldLb) ubInf lbInf s p).act p.1
    let a := fixedColAct (s.act p.1) p.2 s.lb s.ub oldUb oldLb val ubInf lbInf (s.A p.1)
    a'.min = a.min ∧ a'.max = a.max ∧ a'.nInfMin = a.nInfMin ∧ a'.nInfMax = a.nInfMax := by
  have hn : ∀ (s : St) (i : ℕ) (alt : Altered), ((noteAltered s i alt).act i).min = (s.act i).min ∧
      ((noteAltered s i alt).act i).max = (s.act i).max ∧
      ((noteAltered s i alt).act i).nInfMin = (s.act i).nInfMin ∧
      ((noteAltered s i alt).act i).nInfMax = (s.act i).nInfMax := by
    intro s i alt
    unfold noteAltered
    simp only
    split
    · split <;> simp
    · simp
  simp only [updActsFixedColStep, fixedColAct]
  refine ⟨?_, ?_, ?_, ?_⟩
  · rw [(hn _ _ _).1]; simp only [upd_same]; split <;> split <;> rfl
  · rw [(hn _ _ _).2.1]; simp only [upd_same]; split <;> split <;> rfl
  · rw [(hn _ _ _).2.2.1]; simp only [upd_same]; split <;> split <;> rfl
  · rw [(hn _ _ _).2.2.2]; simp only [upd_same]; split <;> split <;> rfl

/-! ### Removing a fixed column from a row -/

/-- **C22 (deleted fixed column).**  The activity update of `delete_fixed_cols_from_problem`: a
column fixed at `v` leaves the row. -/
theorem C22_delete_fixed (ctag : ℕ → CTag) (lb ub : ℕ → D) (l1 l2 : List Cell) (i k : ℕ)
    (q v : ℚ) (s : St) (hact : (s.rtag i).inactive = false)
    (hlb : lb k = .fin v) (hub : ub k = .fin v) (htag : (ctag k).lbInf = false ∧ (ctag k).ubInf = false)
    (hok : ColsOK ctag lb ub (l1 ++ (k, q) :: l2))
    (ha : Recomputed (s.act i) ctag lb ub (l1 ++ (k, q) :: l2)) :
    Recomputed ((shiftSides (.fin v) s (i, q)).act i) ctag lb ub (l1 ++ l2) := by
  have hok' : ColsOK ctag lb ub (l1 ++ l2) := by
    intro p hp; apply hok; simp at hp ⊢; tauto
  rw [recomputed_iff hok] at ha
  rw [recomputed_iff hok']
  have hu1 : unbMin ctag (k, q) = false := by unfold unbMin; split <;> simp [htag]
  have hu2 : unbMax ctag (k, q) = false := by unfold unbMax; split <;> simp [htag]
  have ht1 : minTerm lb ub (k, q) = q * v := by unfold minTerm; split <;> simp [hlb, hub]
  have ht2 : maxTerm lb ub (k, q) = q * v := by unfold maxTerm; split <;> simp [hlb, hub]
  have n1 := ha.nmin; have n2 := ha.nmax; have m1 := ha.min; have m2 := ha.max
  simp only [List.countP_append, List.countP_cons, hu1, hu2, Bool.false_eq_true, if_false, add_zero,
    List.map_append, List.map_cons, List.sum_append, List.sum_cons, ht1, ht2] at n1 n2 m1 m2
  unfold shiftSides
  simp only [hact, Bool.false_eq_true, if_false, upd_same]
  refine ⟨?_, ?_, ?_, ?_⟩
  · rw [List.countP_append, ← n1]
    by_cases hx : (s.act i).nInfMax = 0 <;> by_cases hn : (s.act i).nInfMin = 0 <;> simp [hx, hn]
  · rw [List.countP_append, ← n2]
    by_cases hx : (s.act i).nInfMax = 0 <;> by_cases hn : (s.act i).nInfMin = 0 <;> simp [hx, hn]
  · intro h
    have hn : (s.act i).nInfMin = 0 := by
      revert h
      by_cases hx : (s.act i).nInfMax = 0 <;> by_cases hn : (s.act i).nInfMin = 0 <;> simp [hx, hn]
    have hm := m1 hn
    by_cases hx : (s.act i).nInfMax = 0 <;> simp [hx, hn, hm, List.sum_append] <;> ring
  · intro h
    have hx : (s.act i).nInfMax = 0 := by
      revert h
      by_cases hx : (s.act i).nInfMax = 0 <;> by_cases hn : (s.act i).nInfMin = 0 <;> simp [hx, hn]
    have hm := m2 hx
    by_cases hn : (s.act i).nInfMin = 0 <;> simp [hx, hn, hm, List.sum_append] <;> ring

/-! ### Coefficient changes -/

/-- Infinite contributions of one coefficient to the minimum. -/
def uMin (t : CTag) (q : ℚ) : ℤ :=
  if 0 < q then (if t.lbInf then 1 else 0) else if q < 0 then (if t.ubInf then 1 else 0) else 0
/-- Infinite contributions of one coefficient to the maximum. -/
def uMax (t : CTag) (q : ℚ) : ℤ :=
  if 0 < q then (if t.ubInf then 1 else 0) else if q < 0 then (if t.lbInf then 1 else 0) else 0
/-- Finite contribution of one coefficient to the minimum. -/
def vMin (lb ub : D) (q : ℚ) : ℚ :=
  if 0 < q then q * lb.toQ else if q < 0 then q * ub.toQ else 0
/-- Finite contribution of one coefficient to the maximum. -/
def vMax (lb ub : D) (q : ℚ) : ℚ :=
  if 0 < q then q * ub.toQ else if q < 0 then q * lb.toQ else 0

theorem dropCoeff_spec (a : Act) (lb ub : D) (t : CTag) (q : ℚ) (h1 : FinIf t.lbInf lb)
    (h2 : FinIf t.ubInf ub) :
    (dropCoeff a lb ub t q).nInfMin = a.nInfMin - uMin t q ∧
    (dropCoeff a lb ub t q).nInfMax = a.nInfMax - uMax t q ∧
    (∀ w, a.nInfMin = 0 → uMin t q = 0 → a.min = .fin w →
      (dropCoeff a lb ub t q).min = .fin (w - vMin lb ub q)) ∧
    (∀ w, a.nInfMax = 0 → uMax t q = 0 → a.max = .fin w →
      (dropCoeff a lb ub t q).max = .fin (w - vMax lb ub q)) ∧
    (dropCoeff a lb ub t q).status = a.status := by
  unfold dropCoeff uMin uMax vMin vMax
  rcases lt_trichotomy q 0 with h | h | h
  · have h' : ¬ 0 < q := not_lt.mpr h.le
    simp only [h, h', if_true, if_false]
    cases hl : t.lbInf <;> cases hu : t.ubInf <;> simp only [hl, hu] at h1 h2 <;>
      (try (obtain ⟨x, rfl⟩ := h1 rfl)) <;> (try (obtain ⟨y, rfl⟩ := h2 rfl)) <;>
      by_cases hn : a.nInfMin = 0 <;> by_cases hx : a.nInfMax = 0 <;>
      simp only [hn, hx, if_true, if_false, Bool.false_eq_true] <;>
      refine ⟨?_, ?_, ?_, ?_, ?_⟩ <;> first | rfl | (simp; done) | (intro w _ _ e; simp [e])
  · simp [h]
  · have h' : ¬ q < 0 := not_lt.mpr h.le
    simp only [h, if_true]
    cases hl : t.lbInf <;> cases hu : t.ubInf <;> simp only [hl, hu] at h1 h2 <;>
      (try (obtain ⟨x, rfl⟩ := h1 rfl)) <;> (try (obtain ⟨y, rfl⟩ := h2 rfl)) <;>
      by_cases hn : a.nInfMin = 0 <;> by_cases hx : a.nInfMax = 0 <;>
      simp only [hn, hx, if_true, if_false, Bool.false_eq_true] <;>
      refine ⟨?_, ?_, ?_, ?_, ?_⟩ <;> first | rfl | (simp; done) | (intro w _ _ e; simp [e])

theorem addCoeff_spec (a : Act) (lb ub : D) (t : CTag) (q : ℚ) (h1 : FinIf t.lbInf lb)
    (h2 : FinIf t.ubInf ub) :
    (addCoeff a lb ub t q).nInfMin = a.nInfMin + uMin t q ∧
    (addCoeff a lb ub t q).nInfMax = a.nInfMax + uMax t q ∧
    (∀ w, a.nInfMin = 0 → uMin t q = 0 → a.min = .fin w →
      (addCoeff a lb ub t q).min = .fin (w + vMin lb ub q)) ∧
    (∀ w, a.nInfMax = 0 → uMax t q = 0 → a.max = .fin w →
      (addCoeff a lb ub t q).max = .fin (w + vMax lb ub q)) ∧
    (addCoeff a lb ub t q).status = a.status := by
  unfold addCoeff uMin uMax vMin vMax
  rcases lt_trichotomy q 0 with h | h | h
  · have h' : ¬ 0 < q := not_lt.mpr h.le
    simp only [h, h', if_true, if_false]
    cases hl : t.lbInf <;> cases hu : t.ubInf <;> simp only [hl, hu] at h1 h2 <;>
      (try (obtain ⟨x, rfl⟩ := h1 rfl)) <;> (try (obtain ⟨y, rfl⟩ := h2 rfl)) <;>
      by_cases hn : a.nInfMin = 0 <;> by_cases hx : a.nInfMax = 0 <;>
      simp only [hn, hx, if_true, if_false, Bool.false_eq_true] <;>
      refine ⟨?_, ?_, ?_, ?_, ?_⟩ <;> first | rfl | (simp; done) | (intro w _ _ e; simp [e])
  · simp [h]
  · have h' : ¬ q < 0 := not_lt.mpr h.le
    simp only [h, if_true]
    cases hl : t.lbInf <;> cases hu : t.ubInf <;> simp only [hl, hu] at h1 h2 <;>
      (try (obtain ⟨x, rfl⟩ := h1 rfl)) <;> (try (obtain ⟨y, rfl⟩ := h2 rfl)) <;>
      by_cases hn : a.nInfMin = 0 <;> by_cases hx : a.nInfMax = 0 <;>
      simp only [hn, hx, if_true, if_false, Bool.false_eq_true] <;>
      refine ⟨?_, ?_, ?_, ?_, ?_⟩ <;> first | rfl | (simp; done) | (intro w _ _ e; simp [e])

theorem coeffChange_spec (a : Act) (lb ub : D) (t : CTag) (old new : ℚ) (h1 : FinIf t.lbInf lb)
    (h2 : FinIf t.ubInf ub) {N M : ℤ} (hn : a.nInfMin = N + uMin t old)
    (hx : a.nInfMax = M + uMax t old) :
    let r := updActCoeffChange a lb ub old new t
    r.1.nInfMin = N + uMin t new ∧ r.1.nInfMax = M + uMax t new ∧
    (∀ S, a.nInfMin = 0 → uMin t old = 0 → uMin t new = 0 → a.min = .fin (S + vMin lb ub old) →
      r.1.min = .fin (S + vMin lb ub new)) ∧
    (∀ S, a.nInfMax = 0 → uMax t old = 0 → uMax t new = 0 → a.max = .fin (S + vMax lb ub old) →
      r.1.max = .fin (S + vMax lb ub new)) ∧
    r.2.minRecompute = decide (r.1.nInfMin = 0 ∧ a.nInfMin = 1) ∧
    r.2.maxRecompute = decide (¬ (r.1.nInfMin = 0 ∧ a.nInfMin = 1) ∧ r.1.nInfMax = 0 ∧
      a.nInfMax = 1) := by
  obtain ⟨d1, d2, d3, d4, d5⟩ := dropCoeff_spec a lb ub t old h1 h2
  obtain ⟨e1, e2, e3, e4, e5⟩ := addCoeff_spec (dropCoeff a lb ub t old) lb ub t new h1 h2
  have hr : (updActCoeffChange a lb ub old new t).1 = addCoeff (dropCoeff a lb ub t old) lb ub t new := by
    unfold updActCoeffChange; simp only; split
    · rfl
    · split <;> rfl
  refine ⟨by rw [hr, e1, d1, hn]; ring, by rw [hr, e2, d2, hx]; ring, ?_, ?_, ?_, ?_⟩
  · intro S z1 z2 z3 hm
    rw [hr, e3 (S + vMin lb ub old - vMin lb ub old) (by rw [d1, z1, z2]; rfl) z3
      (d3 _ z1 z2 hm)]
    congr 1; ring
  · intro S z1 z2 z3 hm
    rw [hr, e4 (S + vMax lb ub old - vMax lb ub old) (by rw [d2, z1, z2]; rfl) z3
      (d4 _ z1 z2 hm)]
    congr 1; ring
  · rw [hr]; unfold updActCoeffChange; simp only; split
    · rename_i h; simp [h]
    · rename_i h; split <;> simp [h]
  · rw [hr]; unfold updActCoeffChange; simp only; split
    · rename_i h; simp [h]
    · rename_i h; split
      · rename_i h'; simp [h, h']
      · rename_i h'; simp only [h, not_false_eq_true, true_and]; simp [h']

/-- The cell of column `j` with coefficient `q`, if there is one. -/
def optCell (j : ℕ) (q : ℚ) : List Cell := if q = 0 then [] else [(j, q)]

theorem countP_optCell_min (ctag : ℕ → CTag) (j : ℕ) (q : ℚ) :
    ((optCell j q).countP (unbMin ctag) : ℤ) = uMin (ctag j) q := by
  unfold optCell uMin
  rcases lt_trichotomy q 0 with h | h | h
  · simp [h.ne, h, not_lt.mpr h.le, unbMin, List.countP_cons]
  · simp [h]
  · simp [h.ne', h, unbMin, List.countP_cons]
theorem countP_optCell_max (ctag : ℕ → CTag) (j : ℕ) (q : ℚ) :
    ((optCell j q).countP (unbMax ctag) : ℤ) = uMax (ctag j) q := by
  unfold optCell uMax
  rcases lt_trichotomy q 0 with h | h | h
  · simp [h.ne, h, not_lt.mpr h.le, unbMax, List.countP_cons]
  · simp [h]
  · simp [h.ne', h, unbMax, List.countP_cons]
theorem sum_optCell_min (lb ub : ℕ → D) (j : ℕ) (q : ℚ) :
    ((optCell j q).map (minTerm lb ub)).sum = vMin (lb j) (ub j) q := by
  unfold optCell vMin
  rcases lt_trichotomy q 0 with h | h | h
  · simp [h.ne, h, not_lt.mpr h.le, minTerm]
  · simp [h]
  · simp [h.ne', h, minTerm]
theorem sum_optCell_max (lb ub : ℕ → D) (j : ℕ) (q : ℚ) :
    ((optCell j q).map (maxTerm lb ub)).sum = vMax (lb j) (ub j) q := by
  unfold optCell vMax
  rcases lt_trichotomy q 0 with h | h | h
  · simp [h.ne, h, not_lt.mpr h.le, maxTerm]
  · simp [h]
  · simp [h.ne', h, maxTerm]

theorem dtonAct_act (s : St) (q j k : ℕ) (r : DtonRow) :
    let a1 := updActCoeffChange (s.act q) (s.lb j) (s.ub j) r.oldStay r.newStay (s.ctag j)
    let a2 := updActCoeffChange a1.1 (s.lb k) (s.ub k) r.oldSubst 0 (s.ctag k)
    let a' := (dtonAct s q j k r).act q
    a'.nInfMin = a2.1.nInfMin ∧ a'.nInfMax = a2.1.nInfMax ∧
    a'.min = (if a1.2.minRecompute || a2.2.minRecompute then minActNoTags s.lb s.ub (s.A q)
      else a2.1.min) ∧
    a'.max = (if a1.2.maxRecompute || a2.2.maxRecompute then maxActNoTags s.lb s.ub (s.A q)
      else a2.1.max) := by
  have hn : ∀ s : St, ((dtonNoteAct s q).act q).nInfMin = (s.act q).nInfMin ∧
      ((dtonNoteAct s q).act q).nInfMax = (s.act q).nInfMax ∧
      ((dtonNoteAct s q).act q).min = (s.act q).min ∧
      ((dtonNoteAct s q).act q).max = (s.act q).max ∧
      (dtonNoteAct s q).lb = s.lb ∧ (dtonNoteAct s q).ub = s.ub ∧ (dtonNoteAct s q).A = s.A := by
    intro s; unfold dtonNoteAct; split <;> simp
  intro a1 a2 a'
  simp only [a', dtonAct]
  cases h1 : a1.2.minRecompute || a2.2.minRecompute <;>
    cases h2 : a1.2.maxRecompute || a2.2.maxRecompute <;>
    simp only [a1, a2] at h1 h2 <;> simp [h1, h2, hn, a1, a2]

/-- **C22 (coefficient changes of a doubleton elimination), partial.**  In row `q` the column `k`
with coefficient `oldSubst` disappears and the coefficient of column `j` changes from `oldStay`
to `newStay` (zero meaning "no cell").  The counts and the minimum agree with recomputation.  The
maximum does too, *provided* not both counts can drop to zero through the same column, i.e.
column `k` has a finite bound, and so has `j` if its coefficient vanishes.  Missing: without this
proviso the maximum may be stale (`C22_coeff_change_fails`). -/
theorem C22_coeff_change_partial (s : St) (q j k : ℕ) (r : DtonRow) (cells0 rest : List Cell)
    (h0 : cells0.Perm (optCell j r.oldStay ++ ((k, r.oldSubst) :: rest)))
    (h1 : (s.A q).Perm (optCell j r.newStay ++ rest)) (hk : r.oldSubst ≠ 0)
    (hok0 : ColsOK s.ctag s.lb s.ub cells0) (hok1 : ColsOK s.ctag s.lb s.ub (s.A q))
    (hjk : FinIf (s.ctag j).lbInf (s.lb j) ∧ FinIf (s.ctag j).ubInf (s.ub j))
    (ha : Recomputed (s.act q) s.ctag s.lb s.ub cells0) :
    let a' := (dtonAct s q j k r).act q
    let b := actInit s.ctag s.lb s.ub (s.A q)
    a'.nInfMin = b.nInfMin ∧ a'.nInfMax = b.nInfMax ∧ (a'.nInfMin = 0 → a'.min = b.min) ∧
    (((s.ctag k).lbInf = false ∨ (s.ctag k).ubInf = false) →
      (r.newStay ≠ 0 ∨ (s.ctag j).lbInf = false ∨ (s.ctag j).ubInf = false) →
      Recomputed a' s.ctag s.lb s.ub (s.A q)) := by
  rw [recomputed_iff hok0] at ha
  have hkk : FinIf (s.ctag k).lbInf (s.lb k) ∧ FinIf (s.ctag k).ubInf (s.ub k) :=
    hok0 (k, r.oldSubst) (h0.symm.subset (by simp))
  have hopt : ∀ (f : Cell → Bool), [(k, r.oldSubst)].countP f = (optCell k r.oldSubst).countP f := by
    intro f; simp [optCell, hk]
  have cons_eq : (k, r.oldSubst) :: rest = optCell k r.oldSubst ++ rest := by simp [optCell, hk]
  rw [cons_eq] at h0
  -- counts and sums of the old and the new row
  have c0min : (cells0.countP (unbMin s.ctag) : ℤ) = uMin (s.ctag j) r.oldStay +
      (uMin (s.ctag k) r.oldSubst + rest.countP (unbMin s.ctag)) := by
    rw [h0.countP_eq, List.countP_append, List.countP_append]; push_cast
    rw [countP_optCell_min, countP_optCell_min]
  have c0max : (cells0.countP (unbMax s.ctag) : ℤ) = uMax (s.ctag j) r.oldStay +
      (uMax (s.ctag k) r.oldSubst + rest.countP (unbMax s.ctag)) := by
    rw [h0.countP_eq, List.countP_append, List.countP_append]; push_cast
    rw [countP_optCell_max, countP_optCell_max]
  have c1min : ((s.A q).countP (unbMin s.ctag) : ℤ) = uMin (s.ctag j) r.newStay +
      rest.countP (unbMin s.ctag) := by
    rw [h1.countP_eq, List.countP_append]; push_cast; rw [countP_optCell_min]
  have c1max : ((s.A q).countP (unbMax s.ctag) : ℤ) = uMax (s.ctag j) r.newStay +
      rest.countP (unbMax s.ctag) := by
    rw [h1.countP_eq, List.countP_append]; push_cast; rw [countP_optCell_max]
  have s0min : (cells0.map (minTerm s.lb s.ub)).sum = vMin (s.lb j) (s.ub j) r.oldStay +
      (vMin (s.lb k) (s.ub k) r.oldSubst + (rest.map (minTerm s.lb s.ub)).sum) := by
    rw [(h0.map _).sum_eq, List.map_append, List.map_append, List.sum_append, List.sum_append,
      sum_optCell_min, sum_optCell_min]
  have s0max : (cells0.map (maxTerm s.lb s.ub)).sum = vMax (s.lb j) (s.ub j) r.oldStay +
      (vMax (s.lb k) (s.ub k) r.oldSubst + (rest.map (maxTerm s.lb s.ub)).sum) := by
    rw [(h0.map _).sum_eq, List.map_append, List.map_append, List.sum_append, List.sum_append,
      sum_optCell_max, sum_optCell_max]
  have s1min : ((s.A q).map (minTerm s.lb s.ub)).sum = vMin (s.lb j) (s.ub j) r.newStay +
      (rest.map (minTerm s.lb s.ub)).sum := by
    rw [(h1.map _).sum_eq, List.map_append, List.sum_append, sum_optCell_min]
  have s1max : ((s.A q).map (maxTerm s.lb s.ub)).sum = vMax (s.lb j) (s.ub j) r.newStay +
      (rest.map (maxTerm s.lb s.ub)).sum := by
    rw [(h1.map _).sum_eq, List.map_append, List.sum_append, sum_optCell_max]
  obtain ⟨g1, g2, g3, g4⟩ := dtonAct_act s q j k r
  obtain ⟨u1, u2, u3, u4, u5, u6⟩ := coeffChange_spec (s.act q) (s.lb j) (s.ub j) (s.ctag j)
    r.oldStay r.newStay hjk.1 hjk.2
    (N := uMin (s.ctag k) r.oldSubst + rest.countP (unbMin s.ctag))
    (M := uMax (s.ctag k) r.oldSubst + rest.countP (unbMax s.ctag))
    (by rw [ha.nmin, c0min]; ring) (by rw [ha.nmax, c0max]; ring)
  generalize hA1 : updActCoeffChange (s.act q) (s.lb j) (s.ub j) r.oldStay r.newStay (s.ctag j) = A1 at *
  obtain ⟨w1, w2, w3, w4, w5, w6⟩ := coeffChange_spec A1.1 (s.lb k) (s.ub k) (s.ctag k)
    r.oldSubst 0 hkk.1 hkk.2
    (N := uMin (s.ctag j) r.newStay + rest.countP (unbMin s.ctag))
    (M := uMax (s.ctag j) r.newStay + rest.countP (unbMax s.ctag))
    (by rw [u1]; ring) (by rw [u2]; ring)
  generalize hA2 : updActCoeffChange A1.1 (s.lb k) (s.ub k) r.oldSubst 0 (s.ctag k) = A2 at *
  have z1 : uMin (s.ctag k) 0 = 0 := by simp [uMin]
  have z2 : uMax (s.ctag k) 0 = 0 := by simp [uMax]
  have z3 : vMin (s.lb k) (s.ub k) 0 = 0 := by simp [vMin]
  have z4 : vMax (s.lb k) (s.ub k) 0 = 0 := by simp [vMax]
  rw [z1, add_zero] at w1
  rw [z2, add_zero] at w2
  have uMin01 : ∀ t q, uMin t q = 0 ∨ uMin t q = 1 := by
    intro t q; unfold uMin; split <;> split <;> try split
    all_goals simp
  have uMax01 : ∀ t q, uMax t q = 0 ∨ uMax t q = 1 := by
    intro t q; unfold uMax; split <;> split <;> try split
    all_goals simp
  have hminOK : ((dtonAct s q j k r).act q).nInfMin = 0 →
      ((dtonAct s q j k r).act q).min = .fin (((s.A q).map (minTerm s.lb s.ub)).sum) := by
    intro hz
    rw [g1, w1] at hz
    have hrest : (rest.countP (unbMin s.ctag) : ℤ) = 0 ∧ uMin (s.ctag j) r.newStay = 0 := by
      rcases uMin01 (s.ctag j) r.newStay with h | h <;> omega
    rw [g3]
    cases hc : A1.2.minRecompute || A2.2.minRecompute
    · simp only [Bool.false_eq_true, if_false]
      simp only [Bool.or_eq_false_iff] at hc
      rw [w5, u5] at hc
      simp only [decide_eq_false_iff_not, not_and] at hc
      have hk0 : uMin (s.ctag k) r.oldSubst = 0 := by
        rcases uMin01 (s.ctag k) r.oldSubst with h | h
        · exact h
        · exfalso; exact hc.2 (by rw [w1]; omega) (by rw [u1]; omega)
      have hA10 : A1.1.nInfMin = 0 := by rw [u1]; omega
      have hj0 : uMin (s.ctag j) r.oldStay = 0 := by
        rcases uMin01 (s.ctag j) r.oldStay with h | h
        · exact h
        · exfalso; exact hc.1 hA10 (by rw [ha.nmin, c0min]; omega)
      have hs0 : (s.act q).nInfMin = 0 := by rw [ha.nmin, c0min]; omega
      have hmA1 := u3 (vMin (s.lb k) (s.ub k) r.oldSubst + (rest.map (minTerm s.lb s.ub)).sum)
        hs0 hj0 hrest.2 (by rw [ha.min hs0, s0min]; congr 1; ring)
      have hmA2 := w3 (vMin (s.lb j) (s.ub j) r.newStay + (rest.map (minTerm s.lb s.ub)).sum)
        hA10 hk0 z1 (by rw [hmA1]; congr 1; ring)
      rw [hmA2, z3, add_zero, s1min]
    · simp only [if_true]
      exact minActNoTags_eq hok1 (countP_zero_all (by rw [c1min]; exact hz))
  refine ⟨?_, ?_, ?_, ?_⟩
  · rw [g1, w1, ← c1min]; exact (countInfMin_eq _ _).symm
  · rw [g2, w2, ← c1max]; exact (countInfMax_eq _ _).symm
  · intro hz
    rw [hminOK hz]
    have hz' : ((s.A q).countP (unbMin s.ctag) : ℤ) = 0 := by rw [c1min, ← w1, ← g1]; exact hz
    have h' : countInfMin s.ctag (s.A q) = 0 := by rw [countInfMin_eq]; exact hz'
    simp only [actInit, h', if_true]
    exact (minActNoTags_eq hok1 (countP_zero_all hz')).symm
  · intro hbk hbj
    rw [recomputed_iff hok1]
    refine ⟨by rw [g1, w1, ← c1min], by rw [g2, w2, ← c1max], hminOK, ?_⟩
    intro hz
    rw [g2, w2] at hz
    have hrest : (rest.countP (unbMax s.ctag) : ℤ) = 0 ∧ uMax (s.ctag j) r.newStay = 0 := by
      rcases uMax01 (s.ctag j) r.newStay with h | h <;> omega
    -- a column with a finite bound has at most one infinite contribution
    have excl : ∀ (t : CTag) (x : ℚ), (t.lbInf = false ∨ t.ubInf = false) →
        ¬ (uMin t x = 1 ∧ uMax t x = 1) := by
      intro t x h ⟨e1, e2⟩
      unfold uMin at e1; unfold uMax at e2
      rcases h with h | h <;> rw [h] at e1 e2 <;>
        (by_cases p : 0 < x <;> by_cases p' : x < 0 <;> simp [p, p'] at e1 e2)
    -- and if the coefficient of a free column does not vanish its counts do not drop
    have excl2 : ∀ (t : CTag) (x y : ℚ), (y ≠ 0 ∨ t.lbInf = false ∨ t.ubInf = false) →
        ¬ (uMin t x = 1 ∧ uMax t x = 1 ∧ uMin t y = 0 ∧ uMax t y = 0) := by
      intro t x y h ⟨e1, e2, e3, e4⟩
      rcases h with h | h
      · unfold uMin at e1 e3; unfold uMax at e2 e4
        by_cases p : 0 < x <;> by_cases p' : x < 0 <;> simp [p, p'] at e1 e2
        all_goals
          rcases lt_or_gt_of_ne h with h | h
          · simp [h, not_lt.mpr h.le, e1, e2] at e3
          · simp [h, e1, e2] at e3
      · exact excl t x h ⟨e1, e2⟩
    rw [g4]
    cases hc : A1.2.maxRecompute || A2.2.maxRecompute
    · simp only [Bool.false_eq_true, if_false]
      simp only [Bool.or_eq_false_iff] at hc
      rw [w6, u6] at hc
      simp only [decide_eq_false_iff_not] at hc
      have hk0 : uMax (s.ctag k) r.oldSubst = 0 := by
        rcases uMax01 (s.ctag k) r.oldSubst with h | h
        · exact h
        · exfalso
          refine hc.2 ⟨?_, by rw [w2]; omega, by rw [u2]; omega⟩
          rintro ⟨f1, f2⟩
          rw [w1] at f1
          have : uMin (s.ctag k) r.oldSubst = 1 := by
            rw [u1] at f2; omega
          exact excl _ _ hbk ⟨this, h⟩
      have hA10 : A1.1.nInfMax = 0 := by rw [u2]; omega
      have hj0 : uMax (s.ctag j) r.oldStay = 0 := by
        rcases uMax01 (s.ctag j) r.oldStay with h | h
        · exact h
        · exfalso
          refine hc.1 ⟨?_, hA10, by rw [ha.nmax, c0max]; omega⟩
          rintro ⟨f1, f2⟩
          rw [u1] at f1
          rw [ha.nmin, c0min] at f2
          have hd : uMin (s.ctag j) r.oldStay = 1 ∧ uMin (s.ctag j) r.newStay = 0 := by
            rcases uMin01 (s.ctag j) r.newStay with e | e <;>
              rcases uMin01 (s.ctag j) r.oldStay with e' | e' <;>
              rcases uMin01 (s.ctag k) r.oldSubst with e'' | e'' <;> omega
          exact excl2 _ _ _ hbj ⟨hd.1, h, hd.2, hrest.2⟩
      have hs0 : (s.act q).nInfMax = 0 := by rw [ha.nmax, c0max]; omega
      have hmA1 := u4 (vMax (s.lb k) (s.ub k) r.oldSubst + (rest.map (maxTerm s.lb s.ub)).sum)
        hs0 hj0 hrest.2 (by rw [ha.max hs0, s0max]; congr 1; ring)
      have hmA2 := w4 (vMax (s.lb j) (s.ub j) r.newStay + (rest.map (maxTerm s.lb s.ub)).sum)
        hA10 hk0 z2 (by rw [hmA1]; congr 1; ring)
      rw [hmA2, z4, add_zero, s1max]
    · simp only [if_true]
      exact maxActNoTags_eq hok1 (countP_zero_all (by rw [c1max]; exact hz))

end Verif
