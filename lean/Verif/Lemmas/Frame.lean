import Verif.Model.PrimProp
import Verif.Lemmas.Feas

/-! # What the elementary bound operations leave unchanged, and effective column tags -/

namespace Verif

/-- The parts of the state that a bound change does not touch. -/
structure SameRows (s s' : St) : Prop where
  m : s'.m = s.m
  n : s'.n = s.n
  A : s'.A = s.A
  AT : s'.AT = s.AT
  lhs : s'.lhs = s.lhs
  rhs : s'.rhs = s.rhs
  rtag : s'.rtag = s.rtag
  c : s'.c = s.c
  off : s'.off = s.off
  rowSize : s'.rowSize = s.rowSize
  colSize : s'.colSize = s.colSize
  up : s'.up = s.up
  down : s'.down = s.down
  rowsToDelete : s'.rowsToDelete = s.rowsToDelete
  subCols : s'.subCols = s.subCols
  nnz : s'.nnz = s.nnz
  undef : s'.undef = s.undef

theorem SameRows.refl (s : St) : SameRows s s :=
  ⟨rfl, rfl, rfl, rfl, rfl, rfl, rfl, rfl, rfl, rfl, rfl, rfl, rfl, rfl, rfl, rfl, rfl⟩

theorem SameRows.trans {a b c : St} (h : SameRows a b) (h' : SameRows b c) : SameRows a c :=
  ⟨h'.m.trans h.m, h'.n.trans h.n, h'.A.trans h.A, h'.AT.trans h.AT, h'.lhs.trans h.lhs,
    h'.rhs.trans h.rhs, h'.rtag.trans h.rtag, h'.c.trans h.c, h'.off.trans h.off,
    h'.rowSize.trans h.rowSize, h'.colSize.trans h.colSize, h'.up.trans h.up, h'.down.trans h.down,
    h'.rowsToDelete.trans h.rowsToDelete, h'.subCols.trans h.subCols, h'.nnz.trans h.nnz,
    h'.undef.trans h.undef⟩

/-- The parts of the state that an activity update does not touch. -/
structure SameAct (s s' : St) : Prop extends SameRows s s' where
  lb : s'.lb = s.lb
  ub : s'.ub = s.ub
  ctag : s'.ctag = s.ctag
  log : s'.log = s.log
  fixedCols : s'.fixedCols = s.fixedCols
  tick : s'.tick = s.tick
  asrt : s'.asrt = s.asrt
  emptyRows : s'.emptyRows = s.emptyRows
  stonRows : s'.stonRows = s.stonRows
  dtonRows : s'.dtonRows = s.dtonRows
  emptyCols : s'.emptyCols = s.emptyCols
  stonCols : s'.stonCols = s.stonCols

theorem SameAct.refl (s : St) : SameAct s s :=
  ⟨.refl s, rfl, rfl, rfl, rfl, rfl, rfl, rfl, rfl, rfl, rfl, rfl, rfl⟩

theorem SameAct.trans {a b c : St} (h : SameAct a b) (h' : SameAct b c) : SameAct a c :=
  ⟨h.toSameRows.trans h'.toSameRows, h'.lb.trans h.lb, h'.ub.trans h.ub, h'.ctag.trans h.ctag,
    h'.log.trans h.log, h'.fixedCols.trans h.fixedCols, h'.tick.trans h.tick, h'.asrt.trans h.asrt,
    h'.emptyRows.trans h.emptyRows, h'.stonRows.trans h.stonRows, h'.dtonRows.trans h.dtonRows,
    h'.emptyCols.trans h.emptyCols, h'.stonCols.trans h.stonCols⟩

theorem sameAct_upd (s : St) (f : ℕ → Act) (u : List ℕ) : SameAct s { s with act := f, updActs := u } :=
  ⟨⟨rfl, rfl, rfl, rfl, rfl, rfl, rfl, rfl, rfl, rfl, rfl, rfl, rfl, rfl, rfl, rfl, rfl⟩,
    rfl, rfl, rfl, rfl, rfl, rfl, rfl, rfl, rfl, rfl, rfl, rfl⟩

theorem noteAltered_same (s : St) (i : ℕ) (alt : Altered) : SameAct s (noteAltered s i alt) := by
  unfold noteAltered
  simp only
  split
  · split
    · exact sameAct_upd _ _ _
    · exact sameAct_upd _ _ _
    · exact .refl _
  · exact .refl _

theorem foldl_sameAct {α : Type} (f : St → α → St) (hf : ∀ s p, SameAct s (f s p)) (l : List α)
    (s : St) : SameAct s (l.foldl f s) := by
  induction l generalizing s with
  | nil => exact .refl s
  | cons p l ih => rw [List.foldl_cons]; exact (hf s p).trans (ih _)

theorem updActsBoundChange_same (s : St) (cells : List Cell) (o n : D) (f l : Bool) :
    SameAct s (updActsBoundChange s cells o n f l) := by
  unfold updActsBoundChange
  exact foldl_sameAct _ (fun s p => (sameAct_upd s _ s.updActs).trans (noteAltered_same _ _ _)) _ _

theorem updActsFixedCol_same (s : St) (cells : List Cell) (oU oL v : D) (a b c d : Bool) :
    SameAct s (updActsFixedCol s cells oU oL v a b c d) := by
  unfold updActsFixedCol
  exact foldl_sameAct _ (fun s p => by
    unfold updActsFixedColStep
    exact (sameAct_upd s _ s.updActs).trans (noteAltered_same _ _ _)) _ _

/-- Tag of a column as the bounds see it: a fixed column has finite bounds, although `fix_col`
does not clear the infinity tags. -/
def effTag (t : CTag) : CTag :=
  if t.fixed then { t with lbInf := false, ubInf := false } else t

/-- Effective tags of all columns. -/
def effTags (s : St) : ℕ → CTag := fun k => effTag (s.ctag k)

theorem effTag_active {t : CTag} (h : t.inactive = false) : effTag t = t := by
  unfold effTag
  have : t.fixed = false := by
    cases hf : t.fixed
    · rfl
    · simp [CTag.inactive, hf] at h
  rw [this]; rfl

/-- The state inside `fixCol` before the activities are updated. -/
def fixColPre (s : St) (k : ℕ) (val : D) (ck : ℚ) : St :=
  { (((setColToFixed ((s.check (decide (0 < s.colSize k))).check (!(s.ctag k).inactive)) k)).save
            (.fixedCol k val ck (s.AT k))) with ub := upd s.ub k val, lb := upd s.lb k val }

theorem fixColPre_same (s : St) (k : ℕ) (val : D) (ck : ℚ) : SameRows s (fixColPre s k val ck) := by
  constructor <;> simp [fixColPre, setColToFixed, St.check, St.save]
theorem fixColPre_lb (s : St) (k : ℕ) (val : D) (ck : ℚ) :
    (fixColPre s k val ck).lb = upd s.lb k val := by rfl
theorem fixColPre_ub (s : St) (k : ℕ) (val : D) (ck : ℚ) :
    (fixColPre s k val ck).ub = upd s.ub k val := by rfl
theorem fixColPre_ctag (s : St) (k : ℕ) (val : D) (ck : ℚ) :
    (fixColPre s k val ck).ctag = upd s.ctag k { s.ctag k with fixed := true } := by rfl
theorem fixColPre_log (s : St) (k : ℕ) (val : D) (ck : ℚ) :
    (fixColPre s k val ck).log = .fixedCol k val ck (s.AT k) :: s.log := by rfl
theorem fixColPre_fixedCols (s : St) (k : ℕ) (val : D) (ck : ℚ) :
    (fixColPre s k val ck).fixedCols = s.fixedCols ++ [k] := by rfl

/-- The result of `fix_col`. -/
theorem fixCol_cases (s : St) (k : ℕ) (val : D) (ck : ℚ) :
    let r := fixCol s k val ck
    SameRows s r.1 ∧
    ((r.2 = INFEASIBLE ∧ r.1.lb = s.lb ∧ r.1.ub = s.ub ∧ r.1.ctag = s.ctag ∧ r.1.act = s.act ∧
        r.1.log = s.log ∧ r.1.fixedCols = s.fixedCols ∧
        ((!(s.ctag k).ubInf && D.le (D.add (s.ub k) (.fin FEAS_TOL)) val) ||
         (!(s.ctag k).lbInf && D.le val (D.sub (s.lb k) (.fin FEAS_TOL)))) = true) ∨
     (r.2 = REDUCED ∧ r.1.lb = upd s.lb k val ∧ r.1.ub = upd s.ub k val ∧
        r.1.ctag = upd s.ctag k { s.ctag k with fixed := true } ∧
        r.1.log = .fixedCol k val ck (s.AT k) :: s.log ∧ r.1.fixedCols = s.fixedCols ++ [k] ∧
        ((!(s.ctag k).ubInf && D.le (D.add (s.ub k) (.fin FEAS_TOL)) val) ||
         (!(s.ctag k).lbInf && D.le val (D.sub (s.lb k) (.fin FEAS_TOL)))) = false)) := by
  intro r
  by_cases h : ((!(s.ctag k).ubInf && D.le (D.add (s.ub k) (.fin FEAS_TOL)) val) ||
         (!(s.ctag k).lbInf && D.le val (D.sub (s.lb k) (.fin FEAS_TOL)))) = true
  · have e : r = (((s.check (decide (0 < s.colSize k))).check (!(s.ctag k).inactive)), INFEASIBLE) := by
      change fixCol s k val ck = _
      unfold fixCol
      exact if_pos h
    rw [e]
    refine ⟨⟨rfl, rfl, rfl, rfl, rfl, rfl, rfl, rfl, rfl, rfl, rfl, rfl, rfl, rfl, rfl, rfl, rfl⟩,
      Or.inl ⟨rfl, rfl, rfl, rfl, rfl, rfl, rfl, h⟩⟩
  · have h' := Bool.eq_false_iff.mpr h
    have e : r = (updActsFixedCol (fixColPre s k val ck) (s.AT k) (s.ub k) (s.lb k) val
        ((s.ctag k).ubInf || !D.eqb val (s.ub k)) ((s.ctag k).lbInf || !D.eqb val (s.lb k))
        (s.ctag k).ubInf (s.ctag k).lbInf, REDUCED) := by
      change fixCol s k val ck = _
      simp only [fixCol, fixColPre, setColToFixed, St.save, St.check]
      rw [if_neg h]
    have ht := updActsFixedCol_same (fixColPre s k val ck) (s.AT k) (s.ub k) (s.lb k) val
        ((s.ctag k).ubInf || !D.eqb val (s.ub k)) ((s.ctag k).lbInf || !D.eqb val (s.lb k))
        (s.ctag k).ubInf (s.ctag k).lbInf
    generalize updActsFixedCol (fixColPre s k val ck) (s.AT k) (s.ub k) (s.lb k) val
        ((s.ctag k).ubInf || !D.eqb val (s.ub k)) ((s.ctag k).lbInf || !D.eqb val (s.lb k))
        (s.ctag k).ubInf (s.ctag k).lbInf = u at e ht
    clear_value r
    subst e
    exact ⟨(fixColPre_same s k val ck).trans ht.toSameRows, Or.inr ⟨rfl,
      ht.lb.trans (fixColPre_lb s k val ck), ht.ub.trans (fixColPre_ub s k val ck),
      ht.ctag.trans (fixColPre_ctag s k val ck), ht.log.trans (fixColPre_log s k val ck),
      ht.fixedCols.trans (fixColPre_fixedCols s k val ck), h'⟩⟩

end Verif
