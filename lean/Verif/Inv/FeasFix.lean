import Verif.Inv.FeasDel

/-!
# Fixing a column and changing one of its bounds keeps `Feas`
-/

namespace Verif

theorem ActEq.symm {a b : Act} (h : ActEq a b) : ActEq b a := by
  obtain ⟨h1, h2, h3, h4⟩ := h
  exact ⟨h1.symm, h2.symm, h3.symm, h4.symm⟩

theorem ActEq.trans {a b c : Act} (h : ActEq a b) (h' : ActEq b c) : ActEq a c := by
  obtain ⟨h1, h2, h3, h4⟩ := h
  obtain ⟨k1, k2, k3, k4⟩ := h'
  exact ⟨h1.trans k1, h2.trans k2, h3.trans k3, h4.trans k4⟩

theorem updActsBoundChange_congr {s t : St} (hl : t.lb = s.lb) (hu : t.ub = s.ub) (hA : t.A = s.A)
    (ha : t.act = s.act) (cells : List Cell) (hnd : (cells.map Prod.fst).Nodup) (o n : D) (fi lo : Bool)
    (i : ℕ) : ActEq ((updActsBoundChange t cells o n fi lo).act i)
      ((updActsBoundChange s cells o n fi lo).act i) := by
  obtain ⟨a1, a2⟩ := updActsBoundChange_act t cells o n fi lo hnd i
  obtain ⟨b1, b2⟩ := updActsBoundChange_act s cells o n fi lo hnd i
  by_cases h : ∃ q, (i, q) ∈ cells
  · obtain ⟨q, hq⟩ := h
    have := a1 q hq
    rw [hl, hu, hA, ha] at this
    exact this.trans (b1 q hq).symm
  · have hn : ∀ p ∈ cells, p.1 ≠ i := fun p hp e => h ⟨p.2, by rw [← e]; exact hp⟩
    rw [a2 hn, b2 hn, ha]
    exact .refl _

theorem updActsFixedCol_congr {s t : St} (hl : t.lb = s.lb) (hu : t.ub = s.ub) (hA : t.A = s.A)
    (ha : t.act = s.act) (cells : List Cell) (hnd : (cells.map Prod.fst).Nodup) (oU oL v : D) (ui li : Bool)
    (i : ℕ) : ActEq
      ((updActsFixedCol t cells oU oL v (ui || !D.eqb v oU) (li || !D.eqb v oL) ui li).act i)
      ((updActsFixedCol s cells oU oL v (ui || !D.eqb v oU) (li || !D.eqb v oL) ui li).act i) := by
  obtain ⟨a1, a2⟩ := updActsFixedCol_act t cells oU oL v ui li hnd i
  obtain ⟨b1, b2⟩ := updActsFixedCol_act s cells oU oL v ui li hnd i
  by_cases h : ∃ q, (i, q) ∈ cells
  · obtain ⟨q, hq⟩ := h
    have := a1 q hq
    rw [hl, hu, hA, ha] at this
    exact this.trans (b1 q hq).symm
  · have hn : ∀ p ∈ cells, p.1 ≠ i := fun p hp e => h ⟨p.2, by rw [← e]; exact hp⟩
    rw [a2 hn, b2 hn, ha]
    exact .refl _

section
variable {P : LP} {s : St} {k : ℕ}

theorem Feas.rng (h : Feas P s) (g : GI s) (hc : (s.ctag k).inactive = false) : k < P.n :=
  h.crng k (g.colActive hc)

/-- Tag, bound and finiteness of an active column. -/
theorem Feas.lbCases (h : Feas P s) (g : GI s) (hc : (s.ctag k).inactive = false) :
    ((s.ctag k).lbInf = true ∧ s.lb k = .ninf) ∨ ((s.ctag k).lbInf = false ∧ ∃ l, s.lb k = .fin l) := by
  have hC := h.col k (h.rng g hc)
  have hf := (CTag.inactive_false.mp hc).1
  cases e : (s.ctag k).lbInf
  · exact .inr ⟨rfl, hC.lbF hf e⟩
  · exact .inl ⟨rfl, hC.lbT hf e⟩

theorem Feas.ubCases (h : Feas P s) (g : GI s) (hc : (s.ctag k).inactive = false) :
    ((s.ctag k).ubInf = true ∧ s.ub k = .pinf) ∨ ((s.ctag k).ubInf = false ∧ ∃ l, s.ub k = .fin l) := by
  have hC := h.col k (h.rng g hc)
  have hf := (CTag.inactive_false.mp hc).1
  cases e : (s.ctag k).ubInf
  · exact .inr ⟨rfl, hC.ubF hf e⟩
  · exact .inl ⟨rfl, hC.ubT hf e⟩

theorem Feas.gap (h : Feas P s) (g : GI s) (hc : (s.ctag k).inactive = false) {l u : ℚ}
    (el : s.lb k = .fin l) (eu : s.ub k = .fin u) : l ≤ u + FEAS_TOL :=
  (h.col k (h.rng g hc)).gap (CTag.inactive_false.mp hc).1 l u el eu

theorem fixCol_keep (h : Feas P s) (g : GI s) (hc : (s.ctag k).inactive = false) (v : ℚ) (ck : ℚ) :
    Feas P (fixCol s k (.fin v) ck).1 := by
  have hk := h.rng g hc
  by_cases ht : ((!(s.ctag k).ubInf && D.le (D.add (s.ub k) (.fin FEAS_TOL)) (.fin v)) ||
     (!(s.ctag k).lbInf && D.le (.fin v) (D.sub (s.lb k) (.fin FEAS_TOL)))) = true
  · have e : fixCol s k (.fin v) ck =
        ((s.check (decide (0 < s.colSize k))).check (!(s.ctag k).inactive), INFEASIBLE) := by
      simp only [fixCol, St.check]
      rw [if_pos ht]
    rw [e]
    exact (h.check _).check _
  · have e : fixCol s k (.fin v) ck = (updActsFixedCol (fixColPre s k (.fin v) ck) (s.AT k) (s.ub k) (s.lb k) (.fin v)
        ((s.ctag k).ubInf || !D.eqb (.fin v) (s.ub k)) ((s.ctag k).lbInf || !D.eqb (.fin v) (s.lb k))
        (s.ctag k).ubInf (s.ctag k).lbInf, REDUCED) := by
      simp only [fixCol, fixColPre, setColToFixed, St.save, St.check]
      rw [if_neg ht]
    have hs := updActsFixedCol_same (fixColPre s k (.fin v) ck) (s.AT k) (s.ub k) (s.lb k) (.fin v)
        ((s.ctag k).ubInf || !D.eqb (.fin v) (s.ub k)) ((s.ctag k).lbInf || !D.eqb (.fin v) (s.lb k))
        (s.ctag k).ubInf (s.ctag k).lbInf
    have f1 : (fixColPre s k (.fin v) ck).A = s.A := (fixColPre_same s k _ ck).A
    have f2 : (fixColPre s k (.fin v) ck).act = s.act := by
      simp only [fixColPre, setColToFixed, St.save, St.check]
    have hact := fun i => updActsFixedCol_congr (s := { s with lb := upd s.lb k (.fin v), ub := upd s.ub k (.fin v) })
      (t := fixColPre s k (.fin v) ck) (fixColPre_lb s k _ ck) (fixColPre_ub s k _ ck) f1 f2 (s.AT k) (g.colSorted k).nodup (s.ub k) (s.lb k) (.fin v)
      (s.ctag k).ubInf (s.ctag k).lbInf i
    rw [e]
    simp only
    generalize updActsFixedCol (fixColPre s k (.fin v) ck) (s.AT k) (s.ub k) (s.lb k) (.fin v)
        ((s.ctag k).ubInf || !D.eqb (.fin v) (s.ub k)) ((s.ctag k).lbInf || !D.eqb (.fin v) (s.lb k))
        (s.ctag k).ubInf (s.ctag k).lbInf = t at *
    have hr := (fixColPre_same s k (.fin v) ck).trans hs.toSameRows
    have hlog : t.log = .fixedCol k (.fin v) ck (s.AT k) :: s.log := hs.log.trans (fixColPre_log s k _ ck)
    have hnone := (h.col k hk).new (CTag.inactive_false.mp hc).1
    refine h.fixed g hk hc (v := v) ⟨hr.m, hr.n, hr.subCols, hr.A, hr.colSize, hr.lhs, hr.rhs, hr.rtag⟩
      hs.lb hs.ub hs.ctag (fun j hj => ?_) ?_ hact (fun l el => ?_) (fun u eu => ?_)
    · rw [hlog]
      show (logVal s.log j).or (if k = j then _ else none) = _
      rw [if_neg (Ne.symm hj), Option.or_none]
    · rw [hlog]
      show (logVal s.log k).or (if k = k then _ else none) = _
      rw [hnone, if_pos rfl]; rfl
    · simp only [Bool.or_eq_true, not_or, Bool.and_eq_true, not_and, Bool.not_eq_true', Bool.not_eq_true] at ht
      rcases h.lbCases g hc with ⟨-, e⟩ | ⟨e, -⟩
      · rw [e] at el; cases el
      · have := ht.2 e
        rw [el] at this
        simp only [D.sub_fin, D.le_fin, decide_eq_false_iff_not, not_le] at this
        linarith
    · simp only [Bool.or_eq_true, not_or, Bool.and_eq_true, not_and, Bool.not_eq_true', Bool.not_eq_true] at ht
      rcases h.ubCases g hc with ⟨-, e⟩ | ⟨e, -⟩
      · rw [e] at eu; cases eu
      · have := ht.1 e
        rw [eu] at this
        simp only [D.add_fin, D.le_fin, decide_eq_false_iff_not, not_le] at this
        linarith

/-- What `update_lb` leaves behind. -/
theorem updateLb_feas (h : Feas P s) (g : GI s) (hc : (s.ctag k).inactive = false) (b : ℚ) (row : ℕ) :
    Feas P (updateLb s k (.fin b) row).1 ∧ (updateLb s k (.fin b) row).1.ub = s.ub ∧
    (∀ j, ((updateLb s k (.fin b) row).1.ctag j).ubInf = (s.ctag j).ubInf) ∧
    ((updateLb s k (.fin b) row).1.ctag k).inactive = false ∧
    (updateLb s k (.fin b) row).1.A = s.A ∧ (updateLb s k (.fin b) row).1.rtag = s.rtag ∧
    (updateLb s k (.fin b) row).1.rhs = s.rhs ∧ (updateLb s k (.fin b) row).1.lhs = s.lhs ∧
    ((updateLb s k (.fin b) row).2 ≠ INFEASIBLE → ((updateLb s k (.fin b) row).1.ctag k).lbInf = false ∧
      ∃ l, (updateLb s k (.fin b) row).1.lb k = .fin l ∧ b ≤ l + FEAS_TOL) := by
  have hk := h.rng g hc
  have hform : ∃ t, t = updActsBoundChange { s.check (!(s.ctag k).inactive) with lb := upd s.lb k (.fin b) } (s.AT k)
        (s.lb k) (.fin b) (!(s.ctag k).lbInf) true ∧
      updateLb s k (.fin b) row =
        (if !(s.ctag k).ubInf && D.le (D.add (s.ub k) (.fin FEAS_TOL)) (.fin b) then
          (s.check (!(s.ctag k).inactive), INFEASIBLE)
        else if (s.ctag k).lbInf || D.le (D.add (s.lb k) (.fin FEAS_TOL)) (.fin b) then
          ((({ t with ctag := upd t.ctag k { t.ctag k with lbInf := false } } : St).save
            (.boundChangeNoRow k (.fin b) (s.ub k) false)).save (.boundChangeTheRow row (t.A row) 1), UNCHANGED)
        else (s.check (!(s.ctag k).inactive), UNCHANGED)) := ⟨_, rfl, rfl⟩
  obtain ⟨t, et, e⟩ := hform
  rw [e]
  have hs := updActsBoundChange_same { s.check (!(s.ctag k).inactive) with lb := upd s.lb k (.fin b) } (s.AT k)
    (s.lb k) (.fin b) (!(s.ctag k).lbInf) true
  have hact := fun i => updActsBoundChange_congr (s := { s with lb := upd s.lb k (.fin b) })
    (t := { s.check (!(s.ctag k).inactive) with lb := upd s.lb k (.fin b) }) rfl rfl rfl rfl (s.AT k)
    (g.colSorted k).nodup (s.lb k) (.fin b) (!(s.ctag k).lbInf) true i
  rw [← et] at hs hact
  clear et e
  split
  · exact ⟨h.check _, rfl, fun _ => rfl, hc, rfl, rfl, rfl, rfl, fun hn => absurd rfl hn⟩
  · rename_i hinf
    split
    · rename_i hup
      have hct : t.ctag = s.ctag := hs.ctag
      refine ⟨?_, hs.ub, ?_, ?_, hs.A, hs.rtag, hs.rhs, hs.lhs, fun _ => ⟨?_, b, ?_, ?_⟩⟩
      · refine h.newLb g hk hc (b := b) ⟨hs.m, hs.n, hs.subCols, hs.A, hs.colSize, hs.lhs, hs.rhs, hs.rtag⟩ hs.lb hs.ub
          (by show upd t.ctag k _ = _; rw [hct]) (fun j => ?_) hact (fun l el => ?_) (fun u eu => ?_)
        · show logVal t.log j = _
          rw [hs.log]; rfl
        · rcases h.lbCases g hc with ⟨-, e⟩ | ⟨e, -⟩
          · rw [e] at el; cases el
          · rw [e, el] at hup
            simp only [Bool.false_or, D.add_fin, D.le_fin, decide_eq_true_eq] at hup
            linarith [FEAS_TOL_pos]
        · rcases h.ubCases g hc with ⟨-, e⟩ | ⟨e, -⟩
          · rw [e] at eu; cases eu
          · rw [e, eu] at hinf
            simp only [Bool.not_false, Bool.true_and, D.add_fin, D.le_fin, decide_eq_true_eq, not_le] at hinf
            linarith
      · intro j
        show (upd t.ctag k _ j).ubInf = _
        by_cases ej : j = k
        · rw [ej, upd_same, hct]
        · rw [upd_ne _ _ ej, hct]
      · show (upd t.ctag k _ k).inactive = _
        rw [upd_same, hct]; exact hc
      · show (upd t.ctag k _ k).lbInf = _
        rw [upd_same]
      · show t.lb k = _
        rw [hs.lb]; exact upd_same _ _ _
      · linarith [FEAS_TOL_pos]
    · rename_i hup
      refine ⟨h.check _, rfl, fun _ => rfl, hc, rfl, rfl, rfl, rfl, fun _ => ?_⟩
      rcases h.lbCases g hc with ⟨e, -⟩ | ⟨e, l, el⟩
      · rw [e] at hup; simp at hup
      · rw [e, el] at hup
        simp only [Bool.false_or, D.add_fin, D.le_fin, decide_eq_true_eq, not_le] at hup
        exact ⟨e, l, el, hup.le⟩

/-- What `update_ub` leaves behind. -/
theorem updateUb_feas (h : Feas P s) (g : GI s) (hc : (s.ctag k).inactive = false) (b : ℚ) (row : ℕ) :
    Feas P (updateUb s k (.fin b) row).1 ∧ (updateUb s k (.fin b) row).1.lb = s.lb ∧
    (∀ j, ((updateUb s k (.fin b) row).1.ctag j).lbInf = (s.ctag j).lbInf) ∧
    ((updateUb s k (.fin b) row).1.ctag k).inactive = false ∧
    (updateUb s k (.fin b) row).1.A = s.A ∧ (updateUb s k (.fin b) row).1.rtag = s.rtag ∧
    (updateUb s k (.fin b) row).1.rhs = s.rhs ∧ (updateUb s k (.fin b) row).1.lhs = s.lhs ∧
    ((updateUb s k (.fin b) row).2 ≠ INFEASIBLE → ((updateUb s k (.fin b) row).1.ctag k).ubInf = false ∧
      ∃ u, (updateUb s k (.fin b) row).1.ub k = .fin u ∧ u ≤ b + FEAS_TOL) := by
  have hk := h.rng g hc
  have hform : ∃ t, t = updActsBoundChange { s.check (!(s.ctag k).inactive) with ub := upd s.ub k (.fin b) } (s.AT k)
        (s.ub k) (.fin b) (!(s.ctag k).ubInf) false ∧
      updateUb s k (.fin b) row =
        (if !(s.ctag k).lbInf && D.le (.fin b) (D.sub (s.lb k) (.fin FEAS_TOL)) then
          (s.check (!(s.ctag k).inactive), INFEASIBLE)
        else if (s.ctag k).ubInf || D.le (.fin b) (D.sub (s.ub k) (.fin FEAS_TOL)) then
          ((({ t with ctag := upd t.ctag k { t.ctag k with ubInf := false } } : St).save
            (.boundChangeNoRow k (.fin b) (s.lb k) true)).save (.boundChangeTheRow row (t.A row) 1), UNCHANGED)
        else (s.check (!(s.ctag k).inactive), UNCHANGED)) := ⟨_, rfl, rfl⟩
  obtain ⟨t, et, e⟩ := hform
  rw [e]
  have hs := updActsBoundChange_same { s.check (!(s.ctag k).inactive) with ub := upd s.ub k (.fin b) } (s.AT k)
    (s.ub k) (.fin b) (!(s.ctag k).ubInf) false
  have hact := fun i => updActsBoundChange_congr (s := { s with ub := upd s.ub k (.fin b) })
    (t := { s.check (!(s.ctag k).inactive) with ub := upd s.ub k (.fin b) }) rfl rfl rfl rfl (s.AT k)
    (g.colSorted k).nodup (s.ub k) (.fin b) (!(s.ctag k).ubInf) false i
  rw [← et] at hs hact
  clear et e
  split
  · exact ⟨h.check _, rfl, fun _ => rfl, hc, rfl, rfl, rfl, rfl, fun hn => absurd rfl hn⟩
  · rename_i hinf
    split
    · rename_i hup
      have hct : t.ctag = s.ctag := hs.ctag
      refine ⟨?_, hs.lb, ?_, ?_, hs.A, hs.rtag, hs.rhs, hs.lhs, fun _ => ⟨?_, b, ?_, ?_⟩⟩
      · refine h.newUb g hk hc (b := b) ⟨hs.m, hs.n, hs.subCols, hs.A, hs.colSize, hs.lhs, hs.rhs, hs.rtag⟩ hs.ub hs.lb
          (by show upd t.ctag k _ = _; rw [hct]) (fun j => ?_) hact (fun l el => ?_) (fun u eu => ?_)
        · show logVal t.log j = _
          rw [hs.log]; rfl
        · rcases h.ubCases g hc with ⟨-, e⟩ | ⟨e, -⟩
          · rw [e] at el; cases el
          · rw [e, el] at hup
            simp only [Bool.false_or, D.sub_fin, D.le_fin, decide_eq_true_eq] at hup
            linarith [FEAS_TOL_pos]
        · rcases h.lbCases g hc with ⟨-, e⟩ | ⟨e, -⟩
          · rw [e] at eu; cases eu
          · rw [e, eu] at hinf
            simp only [Bool.not_false, Bool.true_and, D.sub_fin, D.le_fin, decide_eq_true_eq, not_le] at hinf
            linarith
      · intro j
        show (upd t.ctag k _ j).lbInf = _
        by_cases ej : j = k
        · rw [ej, upd_same, hct]
        · rw [upd_ne _ _ ej, hct]
      · show (upd t.ctag k _ k).inactive = _
        rw [upd_same, hct]; exact hc
      · show (upd t.ctag k _ k).ubInf = _
        rw [upd_same]
      · show t.ub k = _
        rw [hs.ub]; exact upd_same _ _ _
      · linarith [FEAS_TOL_pos]
    · rename_i hup
      refine ⟨h.check _, rfl, fun _ => rfl, hc, rfl, rfl, rfl, rfl, fun _ => ?_⟩
      rcases h.ubCases g hc with ⟨e, -⟩ | ⟨e, l, el⟩
      · rw [e] at hup; simp at hup
      · rw [e, el] at hup
        simp only [Bool.false_or, D.sub_fin, D.le_fin, decide_eq_true_eq, not_le] at hup
        exact ⟨e, l, el, by linarith⟩

end

end Verif
