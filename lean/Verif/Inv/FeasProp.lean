import Verif.Inv.FeasFix

/-!
# Propagation keeps `Feas`
-/

namespace Verif

theorem GI.save {s : St} (g : GI s) (r : Rec) : GI (s.save r) :=
  g.of_eq rfl rfl rfl rfl rfl (fun _ => rfl) rfl rfl rfl rfl rfl rfl rfl rfl

theorem Feas.saveB {P : LP} {s : St} (h : Feas P s) (r : Rec) (hr : ∀ l k, logVal (r :: l) k = logVal l k) :
    Feas P (s.save r) :=
  h.frame rfl rfl rfl rfl rfl rfl rfl rfl rfl rfl rfl (fun k => hr s.log k) (fun _ => .refl _)

/-- Infinite bounds may become finite, not the other way round. -/
def Tag (s t : St) : Prop :=
  ∀ j, ((effTags t j).lbInf = true → (effTags s j).lbInf = true) ∧
    ((effTags t j).ubInf = true → (effTags s j).ubInf = true)

theorem Tag.refl (s : St) : Tag s s := fun _ => ⟨id, id⟩

theorem Tag.of_eq {s t : St} (h : t.ctag = s.ctag) : Tag s t := by
  intro j; unfold effTags; rw [h]; exact ⟨id, id⟩

theorem effTag_lbInf {t : CTag} (h : (effTag t).lbInf = true) : t.fixed = false ∧ t.lbInf = true := by
  unfold effTag at h
  split at h
  · cases h
  · rename_i hf; exact ⟨by simpa using hf, h⟩

theorem effTag_ubInf {t : CTag} (h : (effTag t).ubInf = true) : t.fixed = false ∧ t.ubInf = true := by
  unfold effTag at h
  split at h
  · cases h
  · rename_i hf; exact ⟨by simpa using hf, h⟩

theorem effTag_lbInf' {t : CTag} (h : t.fixed = false) (h' : t.lbInf = true) : (effTag t).lbInf = true := by
  unfold effTag; rw [h]; exact h'

theorem effTag_ubInf' {t : CTag} (h : t.fixed = false) (h' : t.ubInf = true) : (effTag t).ubInf = true := by
  unfold effTag; rw [h]; exact h'

theorem Tag.upd {s t : St} {k : ℕ} {c : CTag} (h : t.ctag = upd s.ctag k c)
    (hl : c.fixed = false → c.lbInf = true → (s.ctag k).fixed = false ∧ (s.ctag k).lbInf = true)
    (hu : c.fixed = false → c.ubInf = true → (s.ctag k).fixed = false ∧ (s.ctag k).ubInf = true) : Tag s t := by
  intro j
  unfold effTags
  rw [h]
  by_cases e : j = k
  · rw [e, upd_same]
    refine ⟨fun h => ?_, fun h => ?_⟩
    · obtain ⟨h1, h2⟩ := effTag_lbInf h
      exact effTag_lbInf' (hl h1 h2).1 (hl h1 h2).2
    · obtain ⟨h1, h2⟩ := effTag_ubInf h
      exact effTag_ubInf' (hu h1 h2).1 (hu h1 h2).2
  · rw [upd_ne _ _ e]; exact ⟨id, id⟩

theorem fixCol_tag (s : St) (k : ℕ) (v : D) (ck : ℚ) : Tag s (fixCol s k v ck).1 := by
  rcases (fixCol_cases s k v ck).2 with h | h
  · exact .of_eq h.2.2.2.1
  · refine .upd h.2.2.2.1 (fun h => ?_) (fun h => ?_) <;> cases h

theorem propUb_tag (fbt : Bool) (s : St) (k : ℕ) (b : ℚ) : Tag s (propUb fbt s k (.fin b)).1 := by
  obtain ⟨-, h | h | h | h⟩ := propUb_cases fbt s k b
  · unfold propUb
    simp only
    have : (!(s.ctag k).lbInf && D.le (.fin b) (D.sub (s.lb k) (.fin FEAS_TOL))) = true := by
      rw [h.2.1, h.2.2]; rfl
    rw [if_pos this]
    exact .of_eq rfl
  · obtain ⟨-, -, -, t, -, -, h3, -, -, e⟩ := h
    rw [e]
    have := fixCol_tag t k (s.lb k) (s.c k)
    have h2 : Tag s t := .of_eq h3
    exact fun j => ⟨fun x => (h2 j).1 ((this j).1 x), fun x => (h2 j).2 ((this j).2 x)⟩
  · exact .upd h.2.2.2.2 (fun h1 h2 => ⟨h1, h2⟩) (fun h1 h2 => by cases h2)
  · exact .of_eq h.2.2.2.1

theorem propLb_tag (fbt : Bool) (s : St) (k : ℕ) (b : ℚ) : Tag s (propLb fbt s k (.fin b)).1 := by
  obtain ⟨-, h | h | h | h⟩ := propLb_cases fbt s k b
  · unfold propLb
    simp only
    have : (!(s.ctag k).ubInf && D.le (D.add (s.ub k) (.fin FEAS_TOL)) (.fin b)) = true := by
      rw [h.2.1, h.2.2]; rfl
    rw [if_pos this]
    exact .of_eq rfl
  · obtain ⟨-, -, -, t, -, -, h3, -, -, e⟩ := h
    rw [e]
    have := fixCol_tag t k (s.ub k) (s.c k)
    have h2 : Tag s t := .of_eq h3
    exact fun j => ⟨fun x => (h2 j).1 ((this j).1 x), fun x => (h2 j).2 ((this j).2 x)⟩
  · exact .upd h.2.2.2.2 (fun h1 h2 => by cases h2) (fun h1 h2 => ⟨h1, h2⟩)
  · exact .of_eq h.2.2.2.1

/-- The margin added to a bound is smaller than the improvement. -/
theorem margin_le {b u : ℚ} (h1 : FEAS_TOL * 10000 < u - b) (h2 : 1 / 100 * |u| < u - b) :
    BOUND_MARGINAL * |b| ≤ u - b := by
  have hd : 0 ≤ u - b := by
    have := FEAS_TOL_pos
    linarith
  have h3 : |b| ≤ |u| + (u - b) := by
    have := abs_add_le u (b - u)
    rw [add_sub_cancel, abs_sub_comm, abs_of_nonneg hd] at this
    exact this
  have h4 : |b| ≤ 101 * (u - b) := by linarith
  have h5 : BOUND_MARGINAL = 1 / 2000000 := by norm_num [BOUND_MARGINAL, FEAS_TOL]
  rw [h5]
  linarith

theorem margin_le' {b u : ℚ} (h1 : FEAS_TOL * 10000 < b - u) (h2 : 1 / 100 * |u| < b - u) :
    BOUND_MARGINAL * |b| ≤ b - u := by
  have := margin_le (b := -b) (u := -u) (by linarith) (by rw [abs_neg]; linarith)
  rw [abs_neg] at this
  linarith

theorem Feas.fuzz {P : LP} {s : St} (h : Feas P s) (b : Bool) : Feas P (s.fuzz b) :=
  h.core (by constructor <;> rfl) (fun _ => .refl _)

theorem GI.fuzz {s : St} (g : GI s) (b : Bool) : GI (s.fuzz b) :=
  SameCore.gi (s := s) (by constructor <;> rfl) g

section
variable {P : LP} {s : St} {k : ℕ}

/-- The cases of `propUb` for a finite bound. -/
theorem propUb_eq (fbt : Bool) (s : St) (k : ℕ) (b : ℚ) :
    ∃ b', (b' = b ∨ b' = b + BOUND_MARGINAL * |b|) ∧ ∃ s' x, s' = { s with asrt := x } ∧
    ∃ t, t = updActsBoundChange { s' with
        ctag := upd s.ctag k { s.ctag k with ubInf := false }, ub := upd s.ub k (.fin b') } (s.AT k)
      (s.ub k) (.fin b') (!(s.ctag k).ubInf) false ∧
    propUb fbt s k (.fin b) =
      (if !(s.ctag k).lbInf && D.le (.fin b) (D.sub (s.lb k) (.fin FEAS_TOL)) then (s', INFEASIBLE)
      else if !(s.ctag k).lbInf && (D.le (.fin b) (s.lb k) ||
          D.le (D.smul (getMaxAbs (s.AT k)) (D.sub (.fin b) (s.lb k))) (.fin FEAS_TOL)) then
        ((fixCol ((s'.save (.boundChangeNoRow k (.fin b) (s.lb k) true)).fuzz (!D.le (.fin b) (s.lb k))) k (s.lb k) (s.c k)).1, REDUCED)
      else if (s.ctag k).ubInf || (fbt && D.lt (.fin (FEAS_TOL * 10000)) (D.sub (s.ub k) (.fin b)) &&
          D.lt (D.smul (1 / 100) (D.abs (s.ub k))) (D.sub (s.ub k) (.fin b))) then
        (t.save (.boundChangeNoRow k (.fin b') (s.lb k) true), REDUCED)
      else (s', UNCHANGED)) := by
  by_cases hi : isIntegral (.fin b) = true
  · refine ⟨b, .inl rfl, ((s.check (!D.isInf (.fin b) && !(s.ctag k).inactive)).check
      (((s.ctag k).ubInf || D.le (.fin b) (s.ub k)) && !isHuge (.fin b))),
      ((s.check (!D.isInf (.fin b) && !(s.ctag k).inactive)).check
      (((s.ctag k).ubInf || D.le (.fin b) (s.ub k)) && !isHuge (.fin b))).asrt, rfl, _, rfl, ?_⟩
    unfold propUb
    simp only [hi, if_true]
    rfl
  · refine ⟨b + BOUND_MARGINAL * |b|, .inr rfl, ((s.check (!D.isInf (.fin b) && !(s.ctag k).inactive)).check
      (((s.ctag k).ubInf || D.le (.fin b) (s.ub k)) && !isHuge (.fin b))),
      ((s.check (!D.isInf (.fin b) && !(s.ctag k).inactive)).check
      (((s.ctag k).ubInf || D.le (.fin b) (s.ub k)) && !isHuge (.fin b))).asrt, rfl, _, rfl, ?_⟩
    unfold propUb
    simp only [hi, if_false, Bool.false_eq_true, D.abs_fin, D.smul_fin, D.add_fin]
    rfl

theorem propUb_feas (fbt : Bool) (h : Feas P s) (g : GI s) (hc : (s.ctag k).inactive = false) (b : ℚ) :
    Feas P (propUb fbt s k (.fin b)).1 := by
  have hk := h.rng g hc
  obtain ⟨b', hb', s', x, es', t, et, e⟩ := propUb_eq fbt s k b
  have hb : b ≤ b' := by
    rcases hb' with h | h
    · rw [h]
    · have h2 : 0 ≤ BOUND_MARGINAL := by norm_num [BOUND_MARGINAL, FEAS_TOL]
      have := mul_nonneg h2 (abs_nonneg b); linarith
  have sc : SameCore s s' := by rw [es']; constructor <;> rfl
  have h' : Feas P s' := by rw [es']; exact h.core (by constructor <;> rfl) (fun _ => .refl _)
  rw [e]
  split
  · exact h'
  · rename_i hinf
    split
    · rename_i hfix
      simp only [Bool.and_eq_true, Bool.not_eq_true'] at hfix
      obtain ⟨-, e1⟩ | ⟨-, l, el⟩ := h.lbCases g hc
      · rw [e1] at hfix
        rcases h.lbCases g hc with ⟨e2, -⟩ | ⟨-, l, e2⟩
        · rw [e2] at hfix; cases hfix.1
        · rw [e1] at e2; cases e2
      · rw [el]
        have hcc : ((s'.save (.boundChangeNoRow k (.fin b) (.fin l) true)).ctag k).inactive = false := by
          show (s'.ctag k).inactive = false
          rw [sc.ctag]; exact hc
        exact fixCol_keep ((h'.saveB _ (fun _ _ => rfl)).fuzz _) (((sc.gi g).save _).fuzz _) hcc l _
    · split
      · rename_i hup
        simp only
        have hs := updActsBoundChange_same { s' with
          ctag := upd s.ctag k { s.ctag k with ubInf := false }, ub := upd s.ub k (.fin b') } (s.AT k)
          (s.ub k) (.fin b') (!(s.ctag k).ubInf) false
        have hact := fun i => updActsBoundChange_congr (s := { s with ub := upd s.ub k (.fin b') })
          (t := { s' with
          ctag := upd s.ctag k { s.ctag k with ubInf := false }, ub := upd s.ub k (.fin b') })
          (by show s'.lb = s.lb; rw [es']) rfl (by show s'.A = s.A; rw [es']) (by show s'.act = s.act; rw [es']) (s.AT k)
          (g.colSorted k).nodup (s.ub k) (.fin b') (!(s.ctag k).ubInf) false i
        rw [← et] at hs hact
        clear et e
        refine h.newUb g hk hc (b := b') ⟨hs.m.trans sc.m, hs.n.trans sc.n, hs.subCols.trans sc.subCols, hs.A.trans sc.A,
          hs.colSize.trans sc.colSize, hs.lhs.trans sc.lhs, hs.rhs.trans sc.rhs, hs.rtag.trans sc.rtag⟩ hs.ub (hs.lb.trans sc.lb)
          hs.ctag (fun j => ?_) hact (fun u eu => ?_) (fun l el => ?_)
        · show logVal t.log j = _
          rw [hs.log]
          show logVal s'.log j = _
          rw [sc.log]
        · rcases h.ubCases g hc with ⟨-, e⟩ | ⟨e, -⟩
          · rw [e] at eu; cases eu
          · rw [e, eu] at hup
            simp only [Bool.false_or, Bool.and_eq_true, D.sub_fin, D.lt_fin, D.abs_fin, D.smul_fin, decide_eq_true_eq] at hup
            have := margin_le hup.1.2 hup.2
            rcases hb' with h | h
            · rw [h]
              have := FEAS_TOL_pos
              linarith [hup.1.2]
            · rw [h]; linarith
        · rcases h.lbCases g hc with ⟨-, e⟩ | ⟨e, -⟩
          · rw [e] at el; cases el
          · rw [e, el] at hinf
            simp only [Bool.not_false, Bool.true_and, D.sub_fin, D.le_fin, decide_eq_true_eq, not_le] at hinf
            linarith
      · exact h'

/-- The cases of `propLb` for a finite bound. -/
theorem propLb_eq (fbt : Bool) (s : St) (k : ℕ) (b : ℚ) :
    ∃ b', (b' = b ∨ b' = b - BOUND_MARGINAL * |b|) ∧ ∃ s' x, s' = { s with asrt := x } ∧
    ∃ t, t = updActsBoundChange { s' with
        ctag := upd s.ctag k { s.ctag k with lbInf := false }, lb := upd s.lb k (.fin b') } (s.AT k)
      (s.lb k) (.fin b') (!(s.ctag k).lbInf) true ∧
    propLb fbt s k (.fin b) =
      (if !(s.ctag k).ubInf && D.le (D.add (s.ub k) (.fin FEAS_TOL)) (.fin b) then (s', INFEASIBLE)
      else if !(s.ctag k).ubInf && (D.le (s.ub k) (.fin b) ||
          D.le (D.smul (getMaxAbs (s.AT k)) (D.sub (s.ub k) (.fin b))) (.fin FEAS_TOL)) then
        ((fixCol ((s'.save (.boundChangeNoRow k (.fin b) (s.ub k) false)).fuzz (!D.le (s.ub k) (.fin b))) k (s.ub k) (s.c k)).1, REDUCED)
      else if (s.ctag k).lbInf || (fbt && D.lt (.fin (FEAS_TOL * 10000)) (D.sub (.fin b) (s.lb k)) &&
          D.lt (D.smul (1 / 100) (D.abs (s.lb k))) (D.sub (.fin b) (s.lb k))) then
        (t.save (.boundChangeNoRow k (.fin b') (s.ub k) false), REDUCED)
      else (s', UNCHANGED)) := by
  by_cases hi : isIntegral (.fin b) = true
  · refine ⟨b, .inl rfl, ((s.check (!D.isInf (.fin b) && !(s.ctag k).inactive)).check
      (((s.ctag k).lbInf || D.le (s.lb k) (.fin b)) && !isHuge (.fin b))),
      ((s.check (!D.isInf (.fin b) && !(s.ctag k).inactive)).check
      (((s.ctag k).lbInf || D.le (s.lb k) (.fin b)) && !isHuge (.fin b))).asrt, rfl, _, rfl, ?_⟩
    unfold propLb
    simp only [hi, if_true]
    rfl
  · refine ⟨b - BOUND_MARGINAL * |b|, .inr rfl, ((s.check (!D.isInf (.fin b) && !(s.ctag k).inactive)).check
      (((s.ctag k).lbInf || D.le (s.lb k) (.fin b)) && !isHuge (.fin b))),
      ((s.check (!D.isInf (.fin b) && !(s.ctag k).inactive)).check
      (((s.ctag k).lbInf || D.le (s.lb k) (.fin b)) && !isHuge (.fin b))).asrt, rfl, _, rfl, ?_⟩
    unfold propLb
    simp only [hi, if_false, Bool.false_eq_true, D.abs_fin, D.smul_fin, D.sub_fin]
    rfl

theorem propLb_feas (fbt : Bool) (h : Feas P s) (g : GI s) (hc : (s.ctag k).inactive = false) (b : ℚ) :
    Feas P (propLb fbt s k (.fin b)).1 := by
  have hk := h.rng g hc
  obtain ⟨b', hb', s', x, es', t, et, e⟩ := propLb_eq fbt s k b
  have hb : b' ≤ b := by
    rcases hb' with h | h
    · rw [h]
    · have h2 : 0 ≤ BOUND_MARGINAL := by norm_num [BOUND_MARGINAL, FEAS_TOL]
      have := mul_nonneg h2 (abs_nonneg b); linarith
  have sc : SameCore s s' := by rw [es']; constructor <;> rfl
  have h' : Feas P s' := by rw [es']; exact h.core (by constructor <;> rfl) (fun _ => .refl _)
  rw [e]
  split
  · exact h'
  · rename_i hinf
    split
    · rename_i hfix
      simp only [Bool.and_eq_true, Bool.not_eq_true'] at hfix
      obtain ⟨e2, -⟩ | ⟨-, l, el⟩ := h.ubCases g hc
      · rw [e2] at hfix; cases hfix.1
      · rw [el]
        have hcc : ((s'.save (.boundChangeNoRow k (.fin b) (.fin l) false)).ctag k).inactive = false := by
          show (s'.ctag k).inactive = false
          rw [sc.ctag]; exact hc
        exact fixCol_keep ((h'.saveB _ (fun _ _ => rfl)).fuzz _) (((sc.gi g).save _).fuzz _) hcc l _
    · split
      · rename_i hup
        simp only
        have hs := updActsBoundChange_same { s' with
          ctag := upd s.ctag k { s.ctag k with lbInf := false }, lb := upd s.lb k (.fin b') } (s.AT k)
          (s.lb k) (.fin b') (!(s.ctag k).lbInf) true
        have hact := fun i => updActsBoundChange_congr (s := { s with lb := upd s.lb k (.fin b') })
          (t := { s' with
          ctag := upd s.ctag k { s.ctag k with lbInf := false }, lb := upd s.lb k (.fin b') })
          rfl (by show s'.ub = s.ub; rw [es']) (by show s'.A = s.A; rw [es']) (by show s'.act = s.act; rw [es']) (s.AT k)
          (g.colSorted k).nodup (s.lb k) (.fin b') (!(s.ctag k).lbInf) true i
        rw [← et] at hs hact
        clear et e
        refine h.newLb g hk hc (b := b') ⟨hs.m.trans sc.m, hs.n.trans sc.n, hs.subCols.trans sc.subCols, hs.A.trans sc.A,
          hs.colSize.trans sc.colSize, hs.lhs.trans sc.lhs, hs.rhs.trans sc.rhs, hs.rtag.trans sc.rtag⟩ hs.lb (hs.ub.trans sc.ub)
          hs.ctag (fun j => ?_) hact (fun u eu => ?_) (fun l el => ?_)
        · show logVal t.log j = _
          rw [hs.log]
          show logVal s'.log j = _
          rw [sc.log]
        · rcases h.lbCases g hc with ⟨-, e⟩ | ⟨e, -⟩
          · rw [e] at eu; cases eu
          · rw [e, eu] at hup
            simp only [Bool.false_or, Bool.and_eq_true, D.sub_fin, D.lt_fin, D.abs_fin, D.smul_fin, decide_eq_true_eq] at hup
            have := margin_le' hup.1.2 hup.2
            rcases hb' with h | h
            · rw [h]
              have := FEAS_TOL_pos
              linarith [hup.1.2]
            · rw [h]; linarith
        · rcases h.ubCases g hc with ⟨-, e⟩ | ⟨e, -⟩
          · rw [e] at el; cases el
          · rw [e, el] at hinf
            simp only [Bool.not_false, Bool.true_and, D.add_fin, D.le_fin, decide_eq_true_eq, not_le] at hinf
            linarith
      · exact h'

end

end Verif
