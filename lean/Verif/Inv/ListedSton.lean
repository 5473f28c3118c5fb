import Verif.Inv.ListedPar

/-!
# Rows waiting for propagation and row tags: column singletons
-/

namespace Verif

theorem actDropMinFin_status (a : Act) (q : ℚ) (x y : D) (b : Bool) (lb ub : ℕ → D) (cells : List Cell) :
    (actDropMinFin a q x y b lb ub cells).status = a.status := by
  unfold actDropMinFin
  simp only
  split_ifs <;> rfl

theorem actDropMaxFin_status (a : Act) (q : ℚ) (x y : D) (b : Bool) (lb ub : ℕ → D) (cells : List Cell) :
    (actDropMaxFin a q x y b lb ub cells).status = a.status := by
  unfold actDropMaxFin
  simp only
  split_ifs <;> rfl

theorem actFixSton_status (a : Act) (q : ℚ) (v : D) (t : CTag) (lb ub : ℕ → D) (cells : List Cell) :
    (actFixSton a q v t lb ub cells).status = a.status := by
  unfold actFixSton
  simp only
  split_ifs <;> rfl

theorem subVarInObj_lup (s : St) (cells : List Cell) (k : ℕ) (q : ℚ) (r : D) : Lup s (subVarInObj s cells k q r) := by
  rw [subVarInObj_eq]
  exact .same id rfl rfl rfl rfl rfl rfl rfl

theorem removeCoeffH_lup (s : St) (i k : ℕ) : Lup s (removeCoeffH s i k) := .same id rfl rfl rfl rfl rfl rfl rfl

theorem dropCol_lup (s : St) (k : ℕ) (tag : CTag) : Lup s (dropCol { s with ctag := upd s.ctag k tag } k) :=
  .cut (k := k) (cells := []) (by simp) id rfl rfl rfl rfl rfl rfl rfl

/-- An equality row loses one side. -/
theorem eqToIneqSide_lup {s : St} {i : ℕ} {q : ℚ} {b : D} (upper : Bool)
    (h : s.asrt = true → (s.rtag i).inactive = false ∧ (s.rtag i).lhsInf = false ∧ (s.rtag i).rhsInf = false ∧ D.isInf b = false) :
    Lup s (eqToIneqSide s i q b upper) := by
  unfold eqToIneqSide
  cases upper with
  | true =>
    simp only [if_true]
    refine Lup.trans ?_ (locksEqToIneq_only _ _ _).lup
    refine .row (i := i) (x := { lhsInf := true }) (l := .ninf) (r := D.sub (s.rhs i) (D.smul q b)) id rfl rfl rfl rfl rfl rfl rfl
      (fun o y => ?_)
    obtain ⟨h1, h2, h3, h4⟩ := h o
    exact ⟨fun _ => rfl, (by simp), (by simp), fun _ _ => isInf_sub (y.rFin h1 h3) (isInf_smul h4), (by simp)⟩
  | false =>
    simp only [Bool.false_eq_true, if_false]
    refine Lup.trans ?_ (locksEqToIneq_only _ _ _).lup
    refine .row (i := i) (x := { rhsInf := true }) (l := D.sub (s.lhs i) (D.smul q b)) (r := .pinf) id rfl rfl rfl rfl rfl rfl rfl
      (fun o y => ?_)
    obtain ⟨h1, h2, h3, h4⟩ := h o
    exact ⟨(by simp), fun _ _ => isInf_sub (y.lFin h1 h2) (isInf_smul h4), fun _ => rfl, (by simp), (by simp)⟩

/-- The row is an equality with two finite sides. -/
def EqTag (s : St) (i : ℕ) : Prop :=
  s.asrt = true → (s.rtag i).inactive = false ∧ (s.rtag i).lhsInf = false ∧ (s.rtag i).rhsInf = false

theorem implFreeAboveEq_lup {s : St} {i k : ℕ} {q ck : ℚ} (h : EqTag s i) : Lup s (implFreeAboveEq s i k q ck) := by
  unfold implFreeAboveEq
  simp only
  generalize hw : removeCoeffH _ i k = w
  have hu : Lup s w := by
    rw [← hw]
    exact (((Lup.save s _).trans (Lup.save _ _)).trans (Lup.check _ _)).trans (removeCoeffH_lup _ _ _)
  have hb : w.asrt = true → (w.rtag i).inactive = false ∧ (w.rtag i).lhsInf = false ∧ (w.rtag i).rhsInf = false ∧
      D.isInf (s.lb k) = false := by
    intro o
    have hr : w.rtag = s.rtag := by rw [← hw]; rfl
    have o' : (s.asrt && (!D.isInf (s.lb k) && !(s.ctag k).lbInf)) = true := by rw [← hw] at o; exact o
    simp only [Bool.and_eq_true, Bool.not_eq_true'] at o'
    obtain ⟨h1, h2, h3⟩ := h o'.1
    rw [hr]
    exact ⟨h1, h2, h3, o'.2.1⟩
  have h2 := hu.trans (eqToIneqSide_lup (q := q) (decide (0 < q)) hb)
  generalize eqToIneqSide w i q (s.lb k) (decide (0 < q)) = t at h2
  split
  · exact h2.trans (Lup.act _ _ _ (actDropMinFin_status ..))
  · exact h2.trans (Lup.act _ _ _ (actDropMaxFin_status ..))

theorem implFreeBelowEq_lup {s : St} {i k : ℕ} {q ck : ℚ} (h : EqTag s i) : Lup s (implFreeBelowEq s i k q ck) := by
  unfold implFreeBelowEq
  simp only
  generalize hw : removeCoeffH _ i k = w
  have hu : Lup s w := by
    rw [← hw]
    exact (((Lup.save s _).trans (Lup.save _ _)).trans (Lup.check _ _)).trans (removeCoeffH_lup _ _ _)
  have hb : w.asrt = true → (w.rtag i).inactive = false ∧ (w.rtag i).lhsInf = false ∧ (w.rtag i).rhsInf = false ∧
      D.isInf (s.ub k) = false := by
    intro o
    have hr : w.rtag = s.rtag := by rw [← hw]; rfl
    have o' : (s.asrt && (!D.isInf (s.ub k) && !(s.ctag k).ubInf)) = true := by rw [← hw] at o; exact o
    simp only [Bool.and_eq_true, Bool.not_eq_true'] at o'
    obtain ⟨h1, h2, h3⟩ := h o'.1
    rw [hr]
    exact ⟨h1, h2, h3, o'.2.1⟩
  have h2 := hu.trans (eqToIneqSide_lup (q := q) (decide (q ≤ 0)) hb)
  generalize eqToIneqSide w i q (s.ub k) (decide (q ≤ 0)) = t at h2
  split
  · exact h2.trans (Lup.act _ _ _ (actDropMaxFin_status ..))
  · exact h2.trans (Lup.act _ _ _ (actDropMinFin_status ..))

theorem noteShortRow_lup (s : St) (i : ℕ) (d : Bool) : Lup s (noteShortRow s i d) := by
  unfold noteShortRow
  simp only
  refine Lup.trans ?_ (Lup.check _ _)
  split_ifs
  · exact (Lup.check s _).trans (.same id rfl rfl rfl rfl rfl rfl rfl)
  · exact (Lup.check s _).trans (.same id rfl rfl rfl rfl rfl rfl rfl)
  · exact .refl s

theorem noteDton_lup (s : St) (i : ℕ) : Lup s (noteDton s i) := by
  unfold noteDton
  split
  · exact (Lup.check s _).trans (.same id rfl rfl rfl rfl rfl rfl rfl)
  · exact .refl s

theorem colstonEq_lup (s : St) (i k : ℕ) (q : ℚ) (above below : Bool) : Lup s (colstonEq s i k q above below).1 := by
  unfold colstonEq
  simp only
  have h2 := (Lup.check s (D.eqb (s.lhs i) (s.rhs i))).trans (Lup.check _
    (!(((s.check (D.eqb (s.lhs i) (s.rhs i))).rtag i).inactive ||
    ((s.check (D.eqb (s.lhs i) (s.rhs i))).rtag i).lhsInf || ((s.check (D.eqb (s.lhs i) (s.rhs i))).rtag i).rhsInf)))
  have he : EqTag ((s.check (D.eqb (s.lhs i) (s.rhs i))).check (!(((s.check (D.eqb (s.lhs i) (s.rhs i))).rtag i).inactive ||
    ((s.check (D.eqb (s.lhs i) (s.rhs i))).rtag i).lhsInf || ((s.check (D.eqb (s.lhs i) (s.rhs i))).rtag i).rhsInf))) i := by
    intro o
    have o : (s.asrt && D.eqb (s.lhs i) (s.rhs i) && !((s.rtag i).inactive || (s.rtag i).lhsInf || (s.rtag i).rhsInf)) = true := o
    simp only [Bool.and_eq_true, Bool.not_eq_true', Bool.or_eq_false_iff] at o
    exact ⟨o.2.1.1, o.2.1.2, o.2.2⟩
  generalize (s.check (D.eqb (s.lhs i) (s.rhs i))).check (!(((s.check (D.eqb (s.lhs i) (s.rhs i))).rtag i).inactive ||
    ((s.check (D.eqb (s.lhs i) (s.rhs i))).rtag i).lhsInf || ((s.check (D.eqb (s.lhs i) (s.rhs i))).rtag i).rhsInf)) = t at h2 he ⊢
  refine h2.trans ?_
  split
  · exact .refl t
  · have h3 := subVarInObj_lup t (t.A i) k q (t.rhs i)
    have e3 : EqTag (subVarInObj t (t.A i) k q (t.rhs i)) i := by rw [subVarInObj_eq]; exact he
    generalize subVarInObj t (t.A i) k q (t.rhs i) = u at h3 e3 ⊢
    have h4 := h3.trans (dropCol_lup u k { u.ctag k with subst := true })
    have e4 : EqTag (dropCol { u with ctag := upd u.ctag k { u.ctag k with subst := true } } k) i := e3
    generalize dropCol { u with ctag := upd u.ctag k { u.ctag k with subst := true } } k = w at h4 e4 ⊢
    split
    · exact (h4.trans (Lup.save _ _)).trans (setRowToInactive_lup _ _ _)
    · refine h4.trans (Lup.trans ?_ (noteShortRow_lup _ _ _))
      split
      · exact implFreeAboveEq_lup e4
      · exact implFreeBelowEq_lup e4

theorem fixColSton_lup {s : St} {i k : ℕ} {q : ℚ} {v : D} (h : s.asrt = true → D.isInf v = false) :
    Lup s (fixColSton s i k q v) := by
  unfold fixColSton
  simp only
  have h1 := removeCoeffH_lup s i k
  have e1 : (removeCoeffH s i k).asrt = s.asrt := rfl
  generalize removeCoeffH s i k = t at h1 e1 ⊢
  have h2 := h1.trans (dropCol_lup t k { t.ctag k with fixed := true })
  have e2 : (dropCol { t with ctag := upd t.ctag k { t.ctag k with fixed := true } } k).asrt = s.asrt := e1
  generalize dropCol { t with ctag := upd t.ctag k { t.ctag k with fixed := true } } k = w at h2 e2 ⊢
  refine h2.trans (Lup.trans (t := { w with
    lhs := if (w.rtag i).lhsInf then w.lhs else upd w.lhs i (D.sub (w.lhs i) (D.smul q v))
    rhs := if (w.rtag i).rhsInf then w.rhs else upd w.rhs i (D.sub (w.rhs i) (D.smul q v))
    act := upd w.act i (actFixSton (w.act i) q v (w.ctag k) w.lb w.ub (w.A i)) }) ?_ ?_)
  · exact .shift (i := i) (d := D.smul q v) (fun o => isInf_smul (h (by rw [← e2]; exact o))) id rfl rfl
      (status_upd (actFixSton_status ..)) rfl rfl rfl rfl
  · exact .same id rfl rfl rfl rfl rfl rfl rfl

theorem freeColIneq_lup (s : St) (i k : ℕ) (q : ℚ) (side : D) : Lup s (freeColIneq s i k q side) := by
  unfold freeColIneq
  simp only
  have h3 := subVarInObj_lup s (s.A i) k q side
  generalize subVarInObj s (s.A i) k q side = u at h3 ⊢
  exact ((h3.trans (dropCol_lup u k { u.ctag k with subst := true })).trans (Lup.save _ _)).trans (setRowToInactive_lup _ _ _)

/-- An inequality row becomes an equality with its right side. -/
theorem toEqRhs_lup {s : St} {i : ℕ} (hi : (s.rtag i).inactive = false) :
    Lup s { s.check (!(s.rtag i).rhsInf) with lhs := upd s.lhs i (s.rhs i), rtag := upd s.rtag i { eq := true } } := by
  refine (Lup.check s (!(s.rtag i).rhsInf)).trans ?_
  refine .row (i := i) (x := { eq := true }) (l := s.rhs i) (r := s.rhs i) id rfl rfl rfl rfl rfl rfl (upd_self _ _).symm
    (fun o y => ?_)
  have o : (s.asrt && !(s.rtag i).rhsInf) = true := o
  simp only [Bool.and_eq_true, Bool.not_eq_true'] at o
  exact ⟨(by simp), fun _ _ => y.rFin hi o.2, (by simp), fun _ _ => y.rFin hi o.2, fun _ _ _ _ => rfl⟩

/-- An inequality row becomes an equality with its left side. -/
theorem toEqLhs_lup {s : St} {i : ℕ} (hi : (s.rtag i).inactive = false) :
    Lup s { s.check (!(s.rtag i).lhsInf) with rhs := upd s.rhs i (s.lhs i), rtag := upd s.rtag i { eq := true } } := by
  refine (Lup.check s (!(s.rtag i).lhsInf)).trans ?_
  refine .row (i := i) (x := { eq := true }) (l := s.lhs i) (r := s.lhs i) id rfl rfl rfl rfl rfl (upd_self _ _).symm rfl
    (fun o y => ?_)
  have o : (s.asrt && !(s.rtag i).lhsInf) = true := o
  simp only [Bool.and_eq_true, Bool.not_eq_true'] at o
  exact ⟨(by simp), fun _ _ => y.lFin hi o.2, (by simp), fun _ _ => y.lFin hi o.2, fun _ _ _ _ => rfl⟩

theorem OnlyLocks.rtag {s t : St} (e : OnlyLocks s t) : t.rtag = s.rtag := by
  unfold OnlyLocks at e
  rw [e]

theorem colstonIneq_lup {s : St} {i k : ℕ} {q : ℚ} (hi : (s.rtag i).inactive = false) (above below : Bool) :
    Lup s (colstonIneq s i k q above below).1 := by
  unfold colstonIneq
  split
  · exact .refl s
  · exact .refl s
  · refine Lup.trans ?_ (noteShortRow_lup _ _ _)
    refine (Lup.check s _).trans (fixColSton_lup (fun o => ?_))
    simpa using (Bool.and_eq_true_iff.mp (show (s.asrt && !D.isInf (s.lb k)) = true from o)).2
  · refine Lup.trans ?_ (noteShortRow_lup _ _ _)
    refine (Lup.check s _).trans (fixColSton_lup (fun o => ?_))
    simpa using (Bool.and_eq_true_iff.mp (show (s.asrt && !D.isInf (s.ub k)) = true from o)).2
  · exact freeColIneq_lup _ _ _ _ _
  · exact freeColIneq_lup _ _ _ _ _
  · simp only
    have h1 : ∀ b : Bool, Lup s (if b then locksNewLhs s (s.A i) else s) ∧ (if b then locksNewLhs s (s.A i) else s).rtag = s.rtag := by
      intro b
      cases b with
      | false => exact ⟨.refl s, rfl⟩
      | true => exact ⟨(locksNewLhs_only s (s.A i)).lup, (locksNewLhs_only s (s.A i)).rtag⟩
    obtain ⟨h1, e⟩ := h1 (s.rtag i).lhsInf
    generalize (if (s.rtag i).lhsInf = true then locksNewLhs s (s.A i) else s) = t at h1 e ⊢
    exact (h1.trans (toEqRhs_lup (by rw [e]; exact hi))).trans (noteDton_lup _ _)
  · simp only
    have h1 : ∀ b : Bool, Lup s (if b then locksNewRhs s (s.A i) else s) ∧ (if b then locksNewRhs s (s.A i) else s).rtag = s.rtag := by
      intro b
      cases b with
      | false => exact ⟨.refl s, rfl⟩
      | true => exact ⟨(locksNewRhs_only s (s.A i)).lup, (locksNewRhs_only s (s.A i)).rtag⟩
    obtain ⟨h1, e⟩ := h1 (s.rtag i).rhsInf
    generalize (if (s.rtag i).rhsInf = true then locksNewRhs s (s.A i) else s) = t at h1 e ⊢
    exact (h1.trans (toEqLhs_lup (by rw [e]; exact hi))).trans (noteDton_lup _ _)

theorem stonColStep_lup (acc : St × Status) (k : ℕ) : Lup acc.1 (stonColStep acc k).1 := by
  obtain ⟨s, st⟩ := acc
  unfold stonColStep
  simp only
  split
  · exact (Lup.flag s _).trans (Lup.check _ _)
  · rename_i i q rest _
    have h := (Lup.check s (decide (rest = []))).trans (Lup.check _ (!(s.ctag k).inactive))
    generalize (s.check (decide (rest = []))).check (!(s.ctag k).inactive) = t at h ⊢
    split
    · exact h
    · rename_i hc
      simp only [Bool.or_eq_true, not_or, Bool.not_eq_true] at hc
      split
      · exact h.trans (colstonEq_lup _ _ _ _ _ _)
      · exact h.trans (colstonIneq_lup hc.1 _ _)

theorem stonColFold_lup (L : List ℕ) (acc : St × Status) : Lup acc.1 (L.foldl stonColStep acc).1 := by
  induction L generalizing acc with
  | nil => exact .refl _
  | cons k L ih => exact (stonColStep_lup acc k).trans (ih _)

theorem stonColsRound_lup (s : St) : Lup s (stonColsRound s).1 := by
  have h1 : (stonColsRound s).1 = deleteInactiveRows
      ((s.stonCols.filter (fun k => decide (s.colSize k = 1))).foldl stonColStep
        ({ s with stonCols := s.stonCols.filter (fun k => decide (s.colSize k = 1)) }, UNCHANGED)).1 := by
    unfold stonColsRound
    simp only
    split
    · rfl
    · split <;> rfl
  rw [h1]
  refine Lup.trans (t := { s with stonCols := s.stonCols.filter (fun k => decide (s.colSize k = 1)) })
    (.same id rfl rfl rfl rfl rfl rfl rfl) ?_
  exact (stonColFold_lup _ (_, UNCHANGED)).trans (deleteInactiveRows_lup _)

theorem stonColsLoop_lup (fuel : ℕ) (s : St) : Lup s (stonColsLoop fuel s).1 := by
  induction fuel generalizing s with
  | zero => exact Lup.flag s true
  | succ fuel ih =>
    unfold stonColsLoop
    simp only
    split
    · exact (stonColsRound_lup s).trans (ih _)
    · exact stonColsRound_lup s

theorem removeStonCols_lup (s : St) : Lup s (removeStonCols s).1 := by
  unfold removeStonCols
  simp only
  exact (((Lup.check s _).trans (Lup.check _ _)).trans (Lup.check _ _)).trans (stonColsLoop_lup _ _)

end Verif
