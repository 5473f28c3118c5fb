import Verif.Model.Core
import Verif.Lemmas.Feas

/-! # What the side changes do -/

namespace Verif

/-- The parts of the state that a change of the sides of a row does not touch. -/
structure SideFrame (s s' : St) : Prop where
  m : s'.m = s.m
  n : s'.n = s.n
  A : s'.A = s.A
  AT : s'.AT = s.AT
  lb : s'.lb = s.lb
  ub : s'.ub = s.ub
  ctag : s'.ctag = s.ctag
  c : s'.c = s.c
  off : s'.off = s.off
  rowSize : s'.rowSize = s.rowSize
  colSize : s'.colSize = s.colSize
  act : s'.act = s.act
  emptyRows : s'.emptyRows = s.emptyRows
  stonRows : s'.stonRows = s.stonRows
  emptyCols : s'.emptyCols = s.emptyCols
  stonCols : s'.stonCols = s.stonCols
  rowsToDelete : s'.rowsToDelete = s.rowsToDelete
  fixedCols : s'.fixedCols = s.fixedCols
  subCols : s'.subCols = s.subCols
  updActs : s'.updActs = s.updActs
  nnz : s'.nnz = s.nnz
  tick : s'.tick = s.tick
  undef : s'.undef = s.undef

theorem SideFrame.refl (s : St) : SideFrame s s := by constructor <;> rfl

theorem SideFrame.trans {a b c : St} (h : SideFrame a b) (h' : SideFrame b c) : SideFrame a c :=
  ⟨h'.m.trans h.m, h'.n.trans h.n, h'.A.trans h.A, h'.AT.trans h.AT, h'.lb.trans h.lb,
    h'.ub.trans h.ub, h'.ctag.trans h.ctag, h'.c.trans h.c, h'.off.trans h.off,
    h'.rowSize.trans h.rowSize, h'.colSize.trans h.colSize, h'.act.trans h.act,
    h'.emptyRows.trans h.emptyRows, h'.stonRows.trans h.stonRows, h'.emptyCols.trans h.emptyCols,
    h'.stonCols.trans h.stonCols, h'.rowsToDelete.trans h.rowsToDelete, h'.fixedCols.trans h.fixedCols,
    h'.subCols.trans h.subCols, h'.updActs.trans h.updActs, h'.nnz.trans h.nnz, h'.tick.trans h.tick,
    h'.undef.trans h.undef⟩

/-- Only the locks changed. -/
def OnlyLocks (s s' : St) : Prop := s' = { s with up := s'.up, down := s'.down }

theorem OnlyLocks.refl (s : St) : OnlyLocks s s := rfl

theorem OnlyLocks.trans {a b c : St} (h : OnlyLocks a b) (h' : OnlyLocks b c) : OnlyLocks a c := by
  unfold OnlyLocks at *; rw [h'] ; rw [h]

theorem foldl_locks {α : Type} (f : St → α → St) (hf : ∀ s p, OnlyLocks s (f s p)) (l : List α)
    (s : St) : OnlyLocks s (l.foldl f s) := by
  induction l generalizing s with
  | nil => exact .refl s
  | cons p l ih => rw [List.foldl_cons]; exact (hf s p).trans (ih _)

theorem locksNewRhs_only (s : St) (cells : List Cell) : OnlyLocks s (locksNewRhs s cells) := by
  unfold locksNewRhs
  exact foldl_locks _ (fun s p => by split <;> rfl) _ _

theorem locksNewLhs_only (s : St) (cells : List Cell) : OnlyLocks s (locksNewLhs s cells) := by
  unfold locksNewLhs
  exact foldl_locks _ (fun s p => by split <;> rfl) _ _

theorem locksEqToIneq_only (s : St) (cells : List Cell) (b : Bool) :
    OnlyLocks s (locksEqToIneq s cells b) := by
  unfold locksEqToIneq
  exact foldl_locks _ (fun s p => by split <;> split <;> rfl) _ _

/-- State after the locks part of `change_rhs_of_ineq`. -/
def rhsLocks (s : St) (i : ℕ) : St := if (s.rtag i).rhsInf then locksNewRhs s (s.A i) else s
/-- State after the locks part of `change_lhs_of_ineq`. -/
def lhsLocks (s : St) (i : ℕ) : St := if (s.rtag i).lhsInf then locksNewLhs s (s.A i) else s

theorem rhsLocks_only (s : St) (i : ℕ) : OnlyLocks s (rhsLocks s i) := by
  unfold rhsLocks; split
  · exact locksNewRhs_only _ _
  · exact .refl _
theorem lhsLocks_only (s : St) (i : ℕ) : OnlyLocks s (lhsLocks s i) := by
  unfold lhsLocks; split
  · exact locksNewLhs_only _ _
  · exact .refl _

/-- The lock updates do not read the assertion flag. -/
theorem foldl_addLock_check {α : Type} (f g : α → ℤ) (col : α → ℕ) (l : List α) (s : St) (b : Bool) :
    l.foldl (fun s p => s.addLock (col p) (f p) (g p)) (s.check b) =
      (l.foldl (fun s p => s.addLock (col p) (f p) (g p)) s).check b := by
  induction l generalizing s with
  | nil => rfl
  | cons p l ih => rw [List.foldl_cons, List.foldl_cons, ← ih]; rfl

theorem locksNewRhs_eq (s : St) (cells : List Cell) : locksNewRhs s cells =
    cells.foldl (fun s p => s.addLock p.1 (if 0 < p.2 then 1 else 0) (if 0 < p.2 then 0 else 1)) s := by
  unfold locksNewRhs
  congr 1
  funext s p
  split <;> rfl

theorem locksNewLhs_eq (s : St) (cells : List Cell) : locksNewLhs s cells =
    cells.foldl (fun s p => s.addLock p.1 (if 0 < p.2 then 0 else 1) (if 0 < p.2 then 1 else 0)) s := by
  unfold locksNewLhs
  congr 1
  funext s p
  split <;> rfl

theorem rhsLocks_check (s : St) (b : Bool) (i : ℕ) :
    rhsLocks (s.check b) i = (rhsLocks s i).check b := by
  unfold rhsLocks
  split
  · rename_i h
    rw [if_pos (by exact h), locksNewRhs_eq, locksNewRhs_eq]
    exact foldl_addLock_check _ _ _ _ _ _
  · rename_i h
    rw [if_neg (by exact h)]

theorem lhsLocks_check (s : St) (b : Bool) (i : ℕ) :
    lhsLocks (s.check b) i = (lhsLocks s i).check b := by
  unfold lhsLocks
  split
  · rename_i h
    rw [if_pos (by exact h), locksNewLhs_eq, locksNewLhs_eq]
    exact foldl_addLock_check _ _ _ _ _ _
  · rename_i h
    rw [if_neg (by exact h)]

theorem rhsLocks_check_up (s : St) (b : Bool) (i : ℕ) :
    (rhsLocks (s.check b) i).up = (rhsLocks s i).up := by rw [rhsLocks_check]; rfl
theorem rhsLocks_check_down (s : St) (b : Bool) (i : ℕ) :
    (rhsLocks (s.check b) i).down = (rhsLocks s i).down := by rw [rhsLocks_check]; rfl
theorem lhsLocks_check_up (s : St) (b : Bool) (i : ℕ) :
    (lhsLocks (s.check b) i).up = (lhsLocks s i).up := by rw [lhsLocks_check]; rfl
theorem lhsLocks_check_down (s : St) (b : Bool) (i : ℕ) :
    (lhsLocks (s.check b) i).down = (lhsLocks s i).down := by rw [lhsLocks_check]; rfl

theorem upd_upd {α : Type} (f : ℕ → α) (i : ℕ) (a b : α) : upd (upd f i a) i b = upd f i b := by
  funext j; unfold upd; split <;> rfl

/-- The last part of `change_rhs_of_ineq`. -/
def rhsPut (s : St) (i : ℕ) (q : D) : St :=
  { s with rhs := upd s.rhs i q, rtag := upd s.rtag i { s.rtag i with rhsInf := false } }
/-- Turning the row into an equality. -/
def rhsEq (s : St) (i : ℕ) : St :=
  if !(s.rtag i).lhsInf && isEqualFeasTol (s.lhs i) (s.rhs i) then
    let s := { s with rhs := upd s.rhs i (s.lhs i)
                      rtag := upd s.rtag i { s.rtag i with eq := true } }
    if (s.A i).length = 2 then { s with dtonRows := s.dtonRows ++ [i] } else s
  else s

theorem changeRhs_eq (s : St) (i : ℕ) (q : D) (o : ℕ) (ρ : ℚ) :
    (∃ b, (!(s.rtag i).lhsInf && D.le (D.add q (.fin FEAS_TOL)) (s.lhs i)) = true ∧
      changeRhs s i q o ρ = (s.check b, INFEASIBLE)) ∨
    (∃ b, (!(s.rtag i).lhsInf && D.le (D.add q (.fin FEAS_TOL)) (s.lhs i)) = false ∧
      changeRhs s i q o ρ = ((rhsEq (rhsPut (rhsLocks (s.check b) i) i q) i).save
        (.rhsChange i o ((rhsEq (rhsPut (rhsLocks (s.check b) i) i q) i).A i) q ρ), REDUCED)) := by
  have hc : ∀ (s : St) (a b : Bool), (s.check a).check b = s.check (a && b) := by
    intro s a b; unfold St.check; simp [Bool.and_assoc]
  by_cases h : (!(s.rtag i).lhsInf && D.le (D.add q (.fin FEAS_TOL)) (s.lhs i)) = true
  · left
    refine ⟨(!((s.rtag i).eq || (s.rtag i).inactive)) && !D.isInf q, h, ?_⟩
    rw [← hc]
    unfold changeRhs
    exact if_pos h
  · right
    refine ⟨((!((s.rtag i).eq || (s.rtag i).inactive)) && !D.isInf q) &&
      ((s.rtag i).rhsInf || D.lt q (s.rhs i)), Bool.eq_false_iff.mpr h, ?_⟩
    rw [← hc, ← hc]
    unfold changeRhs
    exact if_neg h

/-- `change_rhs_of_ineq`. -/
theorem changeRhs_cases (s : St) (i : ℕ) (q : D) (o : ℕ) (ρ : ℚ) :
    let r := changeRhs s i q o ρ
    SideFrame s r.1 ∧ r.1.lhs = s.lhs ∧
    ((r.2 = INFEASIBLE ∧ r.1.rhs = s.rhs ∧ r.1.rtag = s.rtag ∧ r.1.log = s.log ∧ r.1.up = s.up ∧
        r.1.down = s.down ∧ r.1.dtonRows = s.dtonRows ∧
        (s.rtag i).lhsInf = false ∧ D.le (D.add q (.fin FEAS_TOL)) (s.lhs i) = true) ∨
     (r.2 = REDUCED ∧ r.1.log = .rhsChange i o (s.A i) q ρ :: s.log ∧
        r.1.up = (rhsLocks s i).up ∧ r.1.down = (rhsLocks s i).down ∧
        ((s.rtag i).lhsInf = true ∨ D.le (D.add q (.fin FEAS_TOL)) (s.lhs i) = false) ∧
        (((s.rtag i).lhsInf = false ∧ isEqualFeasTol (s.lhs i) q = true ∧
            r.1.rhs = upd s.rhs i (s.lhs i) ∧
            r.1.rtag = upd s.rtag i { s.rtag i with rhsInf := false, eq := true } ∧
            r.1.dtonRows = s.dtonRows ++ (if (s.A i).length = 2 then [i] else [])) ∨
         (((s.rtag i).lhsInf = true ∨ isEqualFeasTol (s.lhs i) q = false) ∧
            r.1.rhs = upd s.rhs i q ∧ r.1.rtag = upd s.rtag i { s.rtag i with rhsInf := false } ∧
            r.1.dtonRows = s.dtonRows)))) := by
  intro r
  have hr : r = changeRhs s i q o ρ := rfl
  clear_value r
  rcases changeRhs_eq s i q o ρ with ⟨b, hb, e⟩ | ⟨b, hb, e⟩
  · rw [e] at hr
    subst hr
    simp only [Bool.and_eq_true, Bool.not_eq_true'] at hb
    exact ⟨by constructor <;> rfl, rfl, Or.inl ⟨rfl, rfl, rfl, rfl, rfl, rfl, rfl, hb.1, hb.2⟩⟩
  · rw [e] at hr
    clear e
    have hcond : (s.rtag i).lhsInf = true ∨ D.le (D.add q (.fin FEAS_TOL)) (s.lhs i) = false := by
      rcases hl : (s.rtag i).lhsInf with _ | _
      · right; rw [hl] at hb; simpa using hb
      · exact Or.inl rfl
    have hL := rhsLocks_only (s.check b) i
    have hup : (rhsLocks (s.check b) i).up = (rhsLocks s i).up := rhsLocks_check_up s b i
    have hdn : (rhsLocks (s.check b) i).down = (rhsLocks s i).down := rhsLocks_check_down s b i
    generalize rhsLocks (s.check b) i = u at *
    obtain ⟨w, hw⟩ : ∃ w, w = rhsPut u i q := ⟨_, rfl⟩
    rw [← hw] at hr
    have hwF : SideFrame s w ∧ w.lhs = s.lhs ∧ w.log = s.log ∧ w.up = u.up ∧ w.down = u.down ∧
        w.dtonRows = s.dtonRows ∧ w.rhs = upd s.rhs i q ∧
        w.rtag = upd s.rtag i { s.rtag i with rhsInf := false } := by
      rw [hw, hL]
      exact ⟨by constructor <;> rfl, rfl, rfl, rfl, rfl, rfl, rfl, rfl⟩
    clear hw hL
    obtain ⟨F, w1, w2, w3, w4, w5, w6, w7⟩ := hwF
    have hcw : ((!(w.rtag i).lhsInf && isEqualFeasTol (w.lhs i) (w.rhs i))) =
        (!(s.rtag i).lhsInf && isEqualFeasTol (s.lhs i) q) := by
      rw [w1, w6, w7, upd_same, upd_same]
    by_cases hc : (!(s.rtag i).lhsInf && isEqualFeasTol (s.lhs i) q) = true
    · by_cases h2 : (s.A i).length = 2
      · have e : rhsEq w i = { w with rhs := upd w.rhs i (w.lhs i), rtag := upd w.rtag i { w.rtag i with eq := true }, dtonRows := w.dtonRows ++ [i] } := by
          unfold rhsEq
          rw [hcw, if_pos hc]
          exact if_pos (by rw [← F.A] at h2; exact h2)
        rw [e] at hr
        clear e
        subst hr
        refine ⟨F.trans (by constructor <;> rfl), w1, Or.inr ⟨rfl, ?_, w3.trans hup, w4.trans hdn, hcond, Or.inl ?_⟩⟩
        · simp only [St.save]; rw [w2, F.A]
        · simp only [Bool.and_eq_true, Bool.not_eq_true'] at hc
          refine ⟨hc.1, hc.2, ?_, ?_, ?_⟩
          · simp only [St.save]; rw [w6, w1]; exact upd_upd _ _ _ _
          · simp only [St.save]; rw [w7, upd_same]; exact upd_upd _ _ _ _
          · simp only [St.save]; rw [w5, if_pos h2]
      · have e : rhsEq w i = { w with rhs := upd w.rhs i (w.lhs i), rtag := upd w.rtag i { w.rtag i with eq := true } } := by
          unfold rhsEq
          rw [hcw, if_pos hc]
          exact if_neg (by rw [← F.A] at h2; exact h2)
        rw [e] at hr
        clear e
        subst hr
        refine ⟨F.trans (by constructor <;> rfl), w1, Or.inr ⟨rfl, ?_, w3.trans hup, w4.trans hdn, hcond, Or.inl ?_⟩⟩
        · simp only [St.save]; rw [w2, F.A]
        · simp only [Bool.and_eq_true, Bool.not_eq_true'] at hc
          refine ⟨hc.1, hc.2, ?_, ?_, ?_⟩
          · simp only [St.save]; rw [w6, w1]; exact upd_upd _ _ _ _
          · simp only [St.save]; rw [w7, upd_same]; exact upd_upd _ _ _ _
          · simp only [St.save]; rw [w5, if_neg h2, List.append_nil]
    · have e : rhsEq w i = w := by
        unfold rhsEq
        rw [hcw, if_neg hc]
      rw [e] at hr
      clear e
      subst hr
      refine ⟨F.trans (by constructor <;> rfl), w1, Or.inr ⟨rfl, ?_, w3.trans hup, w4.trans hdn, hcond, Or.inr ?_⟩⟩
      · simp only [St.save]; rw [w2, F.A]
      · refine ⟨?_, w6, w7, w5⟩
        rcases hl : (s.rtag i).lhsInf with _ | _
        · right; rw [hl] at hc; simpa using hc
        · exact Or.inl rfl

/-- The last part of `change_lhs_of_ineq`. -/
def lhsPut (s : St) (i : ℕ) (q : D) : St :=
  { s with lhs := upd s.lhs i q, rtag := upd s.rtag i { s.rtag i with lhsInf := false } }
/-- Turning the row into an equality. -/
def lhsEq (s : St) (i : ℕ) : St :=
  if !(s.rtag i).rhsInf && isEqualFeasTol (s.rhs i) (s.lhs i) then
    let s := { s with lhs := upd s.lhs i (s.rhs i)
                      rtag := upd s.rtag i { s.rtag i with eq := true } }
    if (s.A i).length = 2 then { s with dtonRows := s.dtonRows ++ [i] } else s
  else s

theorem changeLhs_eq (s : St) (i : ℕ) (q : D) (o : ℕ) (ρ : ℚ) :
    (∃ b, (!(s.rtag i).rhsInf && D.le (s.rhs i) (D.sub q (.fin FEAS_TOL))) = true ∧
      changeLhs s i q o ρ = (s.check b, INFEASIBLE)) ∨
    (∃ b, (!(s.rtag i).rhsInf && D.le (s.rhs i) (D.sub q (.fin FEAS_TOL))) = false ∧
      changeLhs s i q o ρ = ((lhsEq (lhsPut (lhsLocks (s.check b) i) i q) i).save
        (.lhsChange i o ((lhsEq (lhsPut (lhsLocks (s.check b) i) i q) i).A i) q ρ), REDUCED)) := by
  have hc : ∀ (s : St) (a b : Bool), (s.check a).check b = s.check (a && b) := by
    intro s a b; unfold St.check; simp [Bool.and_assoc]
  by_cases h : (!(s.rtag i).rhsInf && D.le (s.rhs i) (D.sub q (.fin FEAS_TOL))) = true
  · left
    refine ⟨(!((s.rtag i).eq || (s.rtag i).inactive)) && !D.isInf q, h, ?_⟩
    rw [← hc]
    unfold changeLhs
    exact if_pos h
  · right
    refine ⟨((!((s.rtag i).eq || (s.rtag i).inactive)) && !D.isInf q) &&
      ((s.rtag i).lhsInf || D.lt (s.lhs i) q), Bool.eq_false_iff.mpr h, ?_⟩
    rw [← hc, ← hc]
    unfold changeLhs
    exact if_neg h

/-- `change_lhs_of_ineq`. -/
theorem changeLhs_cases (s : St) (i : ℕ) (q : D) (o : ℕ) (ρ : ℚ) :
    let r := changeLhs s i q o ρ
    SideFrame s r.1 ∧ r.1.rhs = s.rhs ∧
    ((r.2 = INFEASIBLE ∧ r.1.lhs = s.lhs ∧ r.1.rtag = s.rtag ∧ r.1.log = s.log ∧ r.1.up = s.up ∧
        r.1.down = s.down ∧ r.1.dtonRows = s.dtonRows ∧
        (s.rtag i).rhsInf = false ∧ D.le (s.rhs i) (D.sub q (.fin FEAS_TOL)) = true) ∨
     (r.2 = REDUCED ∧ r.1.log = .lhsChange i o (s.A i) q ρ :: s.log ∧
        r.1.up = (lhsLocks s i).up ∧ r.1.down = (lhsLocks s i).down ∧
        ((s.rtag i).rhsInf = true ∨ D.le (s.rhs i) (D.sub q (.fin FEAS_TOL)) = false) ∧
        (((s.rtag i).rhsInf = false ∧ isEqualFeasTol (s.rhs i) q = true ∧
            r.1.lhs = upd s.lhs i (s.rhs i) ∧
            r.1.rtag = upd s.rtag i { s.rtag i with lhsInf := false, eq := true } ∧
            r.1.dtonRows = s.dtonRows ++ (if (s.A i).length = 2 then [i] else [])) ∨
         (((s.rtag i).rhsInf = true ∨ isEqualFeasTol (s.rhs i) q = false) ∧
            r.1.lhs = upd s.lhs i q ∧ r.1.rtag = upd s.rtag i { s.rtag i with lhsInf := false } ∧
            r.1.dtonRows = s.dtonRows)))) := by
  intro r
  have hr : r = changeLhs s i q o ρ := rfl
  clear_value r
  rcases changeLhs_eq s i q o ρ with ⟨b, hb, e⟩ | ⟨b, hb, e⟩
  · rw [e] at hr
    subst hr
    simp only [Bool.and_eq_true, Bool.not_eq_true'] at hb
    exact ⟨by constructor <;> rfl, rfl, Or.inl ⟨rfl, rfl, rfl, rfl, rfl, rfl, rfl, hb.1, hb.2⟩⟩
  · rw [e] at hr
    clear e
    have hcond : (s.rtag i).rhsInf = true ∨ D.le (s.rhs i) (D.sub q (.fin FEAS_TOL)) = false := by
      rcases hl : (s.rtag i).rhsInf with _ | _
      · right; rw [hl] at hb; simpa using hb
      · exact Or.inl rfl
    have hL := lhsLocks_only (s.check b) i
    have hup : (lhsLocks (s.check b) i).up = (lhsLocks s i).up := lhsLocks_check_up s b i
    have hdn : (lhsLocks (s.check b) i).down = (lhsLocks s i).down := lhsLocks_check_down s b i
    generalize lhsLocks (s.check b) i = u at *
    obtain ⟨w, hw⟩ : ∃ w, w = lhsPut u i q := ⟨_, rfl⟩
    rw [← hw] at hr
    have hwF : SideFrame s w ∧ w.rhs = s.rhs ∧ w.log = s.log ∧ w.up = u.up ∧ w.down = u.down ∧
        w.dtonRows = s.dtonRows ∧ w.lhs = upd s.lhs i q ∧
        w.rtag = upd s.rtag i { s.rtag i with lhsInf := false } := by
      rw [hw, hL]
      exact ⟨by constructor <;> rfl, rfl, rfl, rfl, rfl, rfl, rfl, rfl⟩
    clear hw hL
    obtain ⟨F, w1, w2, w3, w4, w5, w6, w7⟩ := hwF
    have hcw : ((!(w.rtag i).rhsInf && isEqualFeasTol (w.rhs i) (w.lhs i))) =
        (!(s.rtag i).rhsInf && isEqualFeasTol (s.rhs i) q) := by
      rw [w1, w6, w7, upd_same, upd_same]
    by_cases hc : (!(s.rtag i).rhsInf && isEqualFeasTol (s.rhs i) q) = true
    · by_cases h2 : (s.A i).length = 2
      · have e : lhsEq w i = { w with lhs := upd w.lhs i (w.rhs i), rtag := upd w.rtag i { w.rtag i with eq := true }, dtonRows := w.dtonRows ++ [i] } := by
          unfold lhsEq
          rw [hcw, if_pos hc]
          exact if_pos (by rw [← F.A] at h2; exact h2)
        rw [e] at hr
        clear e
        subst hr
        refine ⟨F.trans (by constructor <;> rfl), w1, Or.inr ⟨rfl, ?_, w3.trans hup, w4.trans hdn, hcond, Or.inl ?_⟩⟩
        · simp only [St.save]; rw [w2, F.A]
        · simp only [Bool.and_eq_true, Bool.not_eq_true'] at hc
          refine ⟨hc.1, hc.2, ?_, ?_, ?_⟩
          · simp only [St.save]; rw [w6, w1]; exact upd_upd _ _ _ _
          · simp only [St.save]; rw [w7, upd_same]; exact upd_upd _ _ _ _
          · simp only [St.save]; rw [w5, if_pos h2]
      · have e : lhsEq w i = { w with lhs := upd w.lhs i (w.rhs i), rtag := upd w.rtag i { w.rtag i with eq := true } } := by
          unfold lhsEq
          rw [hcw, if_pos hc]
          exact if_neg (by rw [← F.A] at h2; exact h2)
        rw [e] at hr
        clear e
        subst hr
        refine ⟨F.trans (by constructor <;> rfl), w1, Or.inr ⟨rfl, ?_, w3.trans hup, w4.trans hdn, hcond, Or.inl ?_⟩⟩
        · simp only [St.save]; rw [w2, F.A]
        · simp only [Bool.and_eq_true, Bool.not_eq_true'] at hc
          refine ⟨hc.1, hc.2, ?_, ?_, ?_⟩
          · simp only [St.save]; rw [w6, w1]; exact upd_upd _ _ _ _
          · simp only [St.save]; rw [w7, upd_same]; exact upd_upd _ _ _ _
          · simp only [St.save]; rw [w5, if_neg h2, List.append_nil]
    · have e : lhsEq w i = w := by
        unfold lhsEq
        rw [hcw, if_neg hc]
      rw [e] at hr
      clear e
      subst hr
      refine ⟨F.trans (by constructor <;> rfl), w1, Or.inr ⟨rfl, ?_, w3.trans hup, w4.trans hdn, hcond, Or.inr ?_⟩⟩
      · simp only [St.save]; rw [w2, F.A]
      · refine ⟨?_, w6, w7, w5⟩
        rcases hl : (s.rtag i).rhsInf with _ | _
        · right; rw [hl] at hc; simpa using hc
        · exact Or.inl rfl

end Verif
