import Verif.Lemmas.Subst
import Verif.Lemmas.EnvEx
import Mathlib.Tactic.IntervalCases
import Mathlib.Tactic.FinCases

/-!
# C30: implied free column singletons of equality rows are substituted exactly

`process_colston_eq`, `/repo/src/explorers/StonCols.c:212-288`.
-/

namespace Verif

theorem core_noteShortRow (s : St) (i : ℕ) (d : Bool) : core (noteShortRow s i d) = core s := by
  unfold noteShortRow
  simp only
  split
  · rfl
  · split <;> rfl

/-- Result of the two-sided case. -/
theorem colstonEq_both (s : St) (i k : ℕ) (q : ℚ) :
    (colstonEq s i k q true true).2 = REDUCED ∧
    Core (colstonEq s i k q true true).1 s.m s.n s.A s.lhs s.rhs s.lb s.ub
      (upd s.rtag i { s.rtag i with inactive := true }) (upd s.ctag k { s.ctag k with subst := true })
      (costSub s (s.A i) k q) (offSub s k q (s.rhs i)) (upd s.colSize k (-1))
      (.deletedRow i (s.c k / q) :: .subCol k (s.A i) (s.rhs i) i (s.c k) :: s.log) := by
  unfold colstonEq
  simp only [Bool.not_true, Bool.and_self, Bool.false_eq_true, if_false, if_true]
  refine ⟨trivial, core_iff ?_⟩
  simp only [subVarInObj_eq, setRowToInactive, dropCol, St.save, St.check, core]
  rfl

/-- What remains of an equality row when its singleton column is implied free on one side only:
the bound `bd` of that column limits the rest of the row. -/
theorem core_eqToIneqSide (s : St) (i : ℕ) (q : ℚ) (b : D) (up : Bool) :
    core (eqToIneqSide s i q b up) = core (if up then
      { s with rhs := upd s.rhs i (D.sub (s.rhs i) (D.smul q b)), lhs := upd s.lhs i .ninf,
               rtag := upd s.rtag i { lhsInf := true } }
      else
      { s with lhs := upd s.lhs i (D.sub (s.lhs i) (D.smul q b)), rhs := upd s.rhs i .pinf,
               rtag := upd s.rtag i { rhsInf := true } }) := by
  unfold eqToIneqSide
  cases up
  · simp only [Bool.false_eq_true, if_false]
    exact locksEqToIneq_frame core (fun _ _ _ _ => rfl) _ _ _
  · simp only [if_true]
    exact locksEqToIneq_frame core (fun _ _ _ _ => rfl) _ _ _

theorem core_act (s : St) (f : ℕ → Act) : core { s with act := f } = core s := rfl

/-- Result of the case "implied free from above only". -/
theorem colstonEq_above (s : St) (i k : ℕ) (q : ℚ) :
    (colstonEq s i k q true false).2 = REDUCED ∧
    Core (colstonEq s i k q true false).1 s.m s.n (upd s.A i (dropCell k (s.A i)))
      (if 0 < q then upd s.lhs i .ninf else upd s.lhs i (D.sub (s.lhs i) (D.smul q (s.lb k))))
      (if 0 < q then upd s.rhs i (D.sub (s.rhs i) (D.smul q (s.lb k))) else upd s.rhs i .pinf)
      s.lb s.ub
      (if 0 < q then upd s.rtag i { lhsInf := true } else upd s.rtag i { rhsInf := true })
      (upd s.ctag k { s.ctag k with subst := true })
      (costSub s (s.A i) k q) (offSub s k q (s.rhs i)) (upd s.colSize k (-1))
      (.subCol k (s.A i) (s.rhs i) i 0 :: .eqToIneq i (s.c k / q) :: s.log) := by
  unfold colstonEq
  simp only [Bool.not_true, Bool.and_false, Bool.and_true, Bool.not_false, Bool.false_eq_true,
    if_false, if_true]
  refine ⟨trivial, core_iff ?_⟩
  rw [core_noteShortRow]
  unfold implFreeAboveEq
  simp only
  by_cases hq : 0 < q
  · simp only [hq, if_true, decide_true]
    rw [core_act, core_eqToIneqSide]
    simp only [if_true, subVarInObj_eq, removeCoeffH, dropCol, St.save, St.check, St.flag, core]
    rfl
  · simp only [hq, if_false, decide_false]
    rw [core_act, core_eqToIneqSide]
    simp only [Bool.false_eq_true, if_false, subVarInObj_eq, removeCoeffH, dropCol, St.save, St.check,
      St.flag, core]
    rfl

/-- Result of the case "implied free from below only". -/
theorem colstonEq_below (s : St) (i k : ℕ) (q : ℚ) :
    (colstonEq s i k q false true).2 = REDUCED ∧
    Core (colstonEq s i k q false true).1 s.m s.n (upd s.A i (dropCell k (s.A i)))
      (if q ≤ 0 then upd s.lhs i .ninf else upd s.lhs i (D.sub (s.lhs i) (D.smul q (s.ub k))))
      (if q ≤ 0 then upd s.rhs i (D.sub (s.rhs i) (D.smul q (s.ub k))) else upd s.rhs i .pinf)
      s.lb s.ub
      (if q ≤ 0 then upd s.rtag i { lhsInf := true } else upd s.rtag i { rhsInf := true })
      (upd s.ctag k { s.ctag k with subst := true })
      (costSub s (s.A i) k q) (offSub s k q (s.rhs i)) (upd s.colSize k (-1))
      (.subCol k (s.A i) (s.rhs i) i 0 :: .eqToIneq i (s.c k / q) :: s.log) := by
  unfold colstonEq
  simp only [Bool.not_true, Bool.and_false, Bool.and_true, Bool.not_false, Bool.false_eq_true,
    if_false]
  refine ⟨trivial, core_iff ?_⟩
  rw [core_noteShortRow]
  unfold implFreeBelowEq
  simp only
  by_cases hq : 0 < q
  · have hn : ¬ q ≤ 0 := not_le.mpr hq
    simp only [hq, hn, if_true, if_false, decide_false]
    rw [core_act, core_eqToIneqSide]
    simp only [Bool.false_eq_true, if_false, subVarInObj_eq, removeCoeffH, dropCol, St.save, St.check,
      St.flag, core]
    rfl
  · have hn : q ≤ 0 := not_lt.mp hq
    simp only [hq, hn, if_true, if_false, decide_true]
    rw [core_act, core_eqToIneqSide]
    simp only [if_true, subVarInObj_eq, removeCoeffH, dropCol, St.save, St.check, St.flag, core]
    rfl

/-- The part of the argument that all cases share. -/
theorem substExact_of {s s' : St} {i k : ℕ} {q b o : ℚ} (h : StonReady s i k q)
    (hr : s.rhs i = .fin b) (hl : s.lhs i = .fin b) (ht : (s.rtag i).lhsInf = false)
    (ht' : (s.rtag i).rhsInf = false) (ho : s.off = .fin o)
    (hn : s'.n = s.n) (hc : s'.c = costSub s (s.A i) k q) (hoff : s'.off = offSub s k q (s.rhs i))
    (hcs : s'.colSize = upd s.colSize k (-1))
    (hct : s'.ctag = upd s.ctag k { s.ctag k with subst := true })
    (hfeas : ∀ x, FeasPt s' x ↔ Rest s i k x ∧ ColIn s k (solveFor (s.A i) k q b x)) :
    SubstExact s s' k (solveFor (s.A i) k q b) := by
  have hrow : ∀ x, RowOK s i x ↔ dot (s.A i) x = b := by
    intro x
    unfold RowOK Sides
    rw [hr, hl, ht, ht', Lo_fin, Hi_fin]
    constructor
    · rintro ⟨a, c⟩; linarith
    · intro e; rw [e]; exact ⟨le_refl _, le_refl _⟩
  have hc0 : s'.c k = 0 := by rw [hc]; exact costSub_zero h.nodup h.mem h.q0
  refine ⟨?_, ?_, ?_, ?_, ?_⟩
  · intro x hx
    obtain ⟨h1, h2, h3⟩ := (feas_iff_rest h x).mp hx
    have e := solveFor_eq_self h.nodup h.mem h.q0 ((hrow x).mp h2)
    exact ⟨(hfeas x).mpr ⟨h1, by rw [← e]; exact h3⟩, e⟩
  · intro x hx
    obtain ⟨h1, h2⟩ := (hfeas x).mp hx
    refine (feas_iff_rest h _).mpr ⟨(rest_setAt h x _).mpr h1, (hrow _).mpr ?_, ?_⟩
    · exact (solveFor_iff h.nodup h.mem h.q0 x _).mpr rfl
    · rw [setAt_same]; exact h2
  · have hcols : ∀ p ∈ s.A i, p.1 < s.n := fun p hp => (h.cols p hp).1
    have : ∃ o', offSub s k q (.fin b) = .fin o' := by
      unfold offSub; split
      · exact ⟨o, ho⟩
      · exact ⟨_, by rw [ho]; rfl⟩
    obtain ⟨o', eo⟩ := this
    refine ⟨o, o', ho, by rw [hoff, hr, eo], ?_⟩
    intro x
    set v := solveFor (s.A i) k q b x with hv
    have hcp : ∀ p ∈ s.A i, s.colSize p.1 ≠ -1 := fun p hp => (h.cols p hp).2.2
    have hkp := hcp _ h.mem
    have hd : dot (s.A i) (setAt (mask s x) k v) = b := by
      rw [← mask_setAt s x hkp, dot_mask hcp]
      exact (solveFor_iff h.nodup h.mem h.q0 x _).mpr rfl
    obtain ⟨o2, e2, h2⟩ := objective_sub (s := s) (k := k) (q := q) hcols ho hd
    rw [eo] at e2
    injection e2 with e2
    subst e2
    rw [objP_eq s, mask_setAt s x hkp, ← h2, objP_gone hn hcs]
    congr 1
    refine Finset.sum_congr rfl (fun j _ => ?_)
    by_cases e : j = k
    · subst e; rw [← hc, hc0]; ring
    · rw [setAt_ne _ _ e, setAt_ne _ _ e, hc]
  · refine ⟨by rw [hcs, upd_same], by rw [hct, upd_same], hc0⟩
  · intro x w; exact solveFor_setAt _ _ _ _ _ _

/-- The row without its singleton column: the bound of the column translated to the row. -/
theorem rest_row_iff {l1 l2 : List Cell} {k : ℕ} {q b bd : ℚ} (h1 : NoCol k l1) (h2 : NoCol k l2)
    (x : ℕ → ℚ) :
    (0 < q → (bd ≤ solveFor (l1 ++ (k, q) :: l2) k q b x ↔ dot (l1 ++ l2) x ≤ b - q * bd)) ∧
    (0 < q → (solveFor (l1 ++ (k, q) :: l2) k q b x ≤ bd ↔ b - q * bd ≤ dot (l1 ++ l2) x)) ∧
    (q < 0 → (bd ≤ solveFor (l1 ++ (k, q) :: l2) k q b x ↔ b - q * bd ≤ dot (l1 ++ l2) x)) ∧
    (q < 0 → (solveFor (l1 ++ (k, q) :: l2) k q b x ≤ bd ↔ dot (l1 ++ l2) x ≤ b - q * bd)) := by
  rw [solveFor_split h1 h2]
  refine ⟨fun hq => ?_, fun hq => ?_, fun hq => ?_, fun hq => ?_⟩
  · rw [le_div_iff₀ hq]; constructor <;> intro h <;> linarith
  · rw [div_le_iff₀ hq]; constructor <;> intro h <;> linarith
  · rw [le_div_iff_of_neg hq]; constructor <;> intro h <;> linarith
  · rw [div_le_iff_of_neg hq]; constructor <;> intro h <;> linarith

/-- **C30.**  `process_colston_eq` on a column singleton `k` of an active equality row `i` with
exact activities either does nothing, or yields a problem whose feasible points are exactly the
projections of the old ones with the same objective value, and replaying the records it wrote sets
`x_k` to the only value at which the row holds. -/
theorem C30_ston_eq (s : St) (i k : ℕ) (q b o : ℚ) (h : StonReady s i k q)
    (hr : s.rhs i = .fin b) (hl : s.lhs i = .fin b) (ht : (s.rtag i).lhsInf = false)
    (ht' : (s.rtag i).rhsInf = false) (ho : s.off = .fin o)
    (ha : Recomputed (s.act i) s.ctag s.lb s.ub (s.A i)) :
    let above := impliedFreeAbove q (s.A i) (s.lhs i) (s.rhs i) (s.rtag i) (s.lb k) (s.ub k)
        (s.ctag k) (s.act i) s.ctag s.lb s.ub
    let below := impliedFreeBelow q (s.A i) (s.lhs i) (s.rhs i) (s.rtag i) (s.lb k) (s.ub k)
        (s.ctag k) (s.act i) s.ctag s.lb s.ub
    let r := colstonEq s i k q above below
    (r.2 = UNCHANGED ∧ core r.1 = core s) ∨
    (r.2 = REDUCED ∧ ∃ v, SubstExact s r.1 k v ∧
      (∀ x w, dot (s.A i) (setAt x k w) = b ↔ w = v x) ∧
      ∃ recs, r.1.log = recs ++ s.log ∧
        ∀ (σ : Sol) (x : ℕ → ℚ), (∀ p ∈ s.A i, p.1 ≠ k → σ.x p.1 = .fin (x p.1)) →
          ∃ σ', replay none recs σ = some σ' ∧ σ'.x = upd σ.x k (.fin (v x))) := by
  intro above below r
  have hq0 := h.q0
  have hkact := (h.cols _ h.mem).2.1
  have hcolk : ∀ w, ColIn s k w ↔ Lo (s.ctag k).lbInf (s.lb k) w ∧ Hi (s.ctag k).ubInf (s.ub k) w := by
    intro w; unfold ColIn; rw [effTag_active hkact]
  -- at a point where the row holds, the implied side is satisfied
  have hpt : ∀ x, Rest s i k x → let y := setAt x k (solveFor (s.A i) k q b x)
      OthersIn s.ctag s.lb s.ub (s.A i) k y ∧ Sides (s.rtag i) (s.lhs i) (s.rhs i) (dot (s.A i) y) := by
    intro x hx y
    refine ⟨rest_others h ((rest_setAt h x _).mpr hx), ?_⟩
    have : dot (s.A i) y = b := (solveFor_iff h.nodup h.mem hq0 x _).mpr rfl
    rw [this, hr, hl]; unfold Sides; rw [ht, ht']; simp
  have habove : above = true → ∀ x, Rest s i k x →
      Hi (s.ctag k).ubInf (s.ub k) (solveFor (s.A i) k q b x) := by
    intro e x hx
    obtain ⟨h1, h2⟩ := hpt x hx
    have := impliedFreeAbove_sound h.nodup h.mem h.fin ha h1 h2 e
    rwa [setAt_same] at this
  have hbelow : below = true → ∀ x, Rest s i k x →
      Lo (s.ctag k).lbInf (s.lb k) (solveFor (s.A i) k q b x) := by
    intro e x hx
    obtain ⟨h1, h2⟩ := hpt x hx
    have := impliedFreeBelow_sound h.nodup h.mem h.fin ha h1 h2 e
    rwa [setAt_same] at this
  have hlbfin : below = false → (s.ctag k).lbInf = false := by
    intro e
    by_contra hc
    have : below = true := by
      change impliedFreeBelow _ _ _ _ _ _ _ _ _ _ _ _ = true
      unfold impliedFreeBelow; rw [if_pos (by simpa using hc)]
    rw [this] at e; simp at e
  have hubfin : above = false → (s.ctag k).ubInf = false := by
    intro e
    by_contra hc
    have : above = true := by
      change impliedFreeAbove _ _ _ _ _ _ _ _ _ _ _ _ = true
      unfold impliedFreeAbove; rw [if_pos (by simpa using hc)]
    rw [this] at e; simp at e
  have hvuniq : ∀ x w, dot (s.A i) (setAt x k w) = b ↔ w = solveFor (s.A i) k q b x :=
    fun x w => solveFor_iff h.nodup h.mem hq0 x w
  change (r.2 = _ ∧ _) ∨ _
  have hr' : r = colstonEq s i k q above below := rfl
  clear_value r above below
  subst hr'
  cases hab : above <;> cases hbe : below
  · left
    unfold colstonEq
    exact ⟨rfl, rfl⟩
  · -- implied free from below only
    right
    obtain ⟨e2, C⟩ := colstonEq_below s i k q
    generalize colstonEq s i k q false true = r at e2 C
    obtain ⟨r1, r2⟩ := r
    simp only at e2 C ⊢
    subst e2
    refine ⟨rfl, solveFor (s.A i) k q b, ?_, hvuniq,
      [Rec.subCol k (s.A i) (s.rhs i) i 0, .eqToIneq i (s.c k / q)], C.log, ?_⟩
    · obtain ⟨u, eu⟩ := (h.fin _ h.mem).2 (hubfin hab)
      simp only at eu
      refine substExact_of h hr hl ht ht' ho C.n C.c C.off C.colSize C.ctag (fun x => ?_)
      rw [feas_gone (s := s) (s' := r1) (i := i) (k := k) h.iLt C.m C.n
        (fun j hj => by rw [C.A, upd_ne _ _ hj])
        (fun j hj => by rw [C.lhs]; split <;> rw [upd_ne _ _ hj])
        (fun j hj => by rw [C.rhs]; split <;> rw [upd_ne _ _ hj]) C.lb C.ub
        (fun j hj => by rw [C.rtag]; split <;> rw [upd_ne _ _ hj])
        (fun j hj => by rw [C.ctag, upd_ne _ _ hj]) (fun j hj => by rw [C.colSize, upd_ne _ _ hj])
        (by rw [C.colSize, upd_same])]
      refine and_congr_right (fun hx => ?_)
      rw [hcolk]
      have hlo := hbelow hbe x hx
      simp only [hlo, true_and]
      have hin : (r1.rtag i).inactive = false := by rw [C.rtag]; split <;> rw [upd_same]
      simp only [hin, true_implies]
      rw [hubfin hab, eu, Hi_fin]
      unfold RowOK Sides
      rw [C.A, C.lhs, C.rhs, C.rtag, upd_same]
      obtain ⟨l1, l2, eA, n1, n2⟩ := split_col h.nodup h.mem
      rw [eA, dropCell_split n1]
      obtain ⟨-, g2, -, g4⟩ := rest_row_iff (q := q) (b := b) (bd := u) n1 n2 x
      by_cases hq : q ≤ 0
      · have hq' : q < 0 := lt_of_le_of_ne hq hq0
        simp only [hq, if_true, upd_same, hr, eu, D.smul_fin, D.sub_fin, Lo_true, Hi_fin, true_and]
        exact (g4 hq').symm
      · have hq' : 0 < q := not_le.mp hq
        simp only [hq, if_false, upd_same, hl, eu, D.smul_fin, D.sub_fin, Lo_fin, Hi_true, and_true]
        exact (g2 hq').symm
    · intro σ x hx
      rw [hr]
      refine ⟨_, rfl, ?_⟩
      exact retSubCol_value h.nodup h.mem hq0 σ x hx i 0
  · -- implied free from above only
    right
    obtain ⟨e2, C⟩ := colstonEq_above s i k q
    generalize colstonEq s i k q true false = r at e2 C
    obtain ⟨r1, r2⟩ := r
    simp only at e2 C ⊢
    subst e2
    refine ⟨rfl, solveFor (s.A i) k q b, ?_, hvuniq,
      [Rec.subCol k (s.A i) (s.rhs i) i 0, .eqToIneq i (s.c k / q)], C.log, ?_⟩
    · obtain ⟨u, eu⟩ := (h.fin _ h.mem).1 (hlbfin hbe)
      simp only at eu
      refine substExact_of h hr hl ht ht' ho C.n C.c C.off C.colSize C.ctag (fun x => ?_)
      rw [feas_gone (s := s) (s' := r1) (i := i) (k := k) h.iLt C.m C.n
        (fun j hj => by rw [C.A, upd_ne _ _ hj])
        (fun j hj => by rw [C.lhs]; split <;> rw [upd_ne _ _ hj])
        (fun j hj => by rw [C.rhs]; split <;> rw [upd_ne _ _ hj]) C.lb C.ub
        (fun j hj => by rw [C.rtag]; split <;> rw [upd_ne _ _ hj])
        (fun j hj => by rw [C.ctag, upd_ne _ _ hj]) (fun j hj => by rw [C.colSize, upd_ne _ _ hj])
        (by rw [C.colSize, upd_same])]
      refine and_congr_right (fun hx => ?_)
      rw [hcolk]
      have hhi := habove hab x hx
      simp only [hhi, and_true]
      have hin : (r1.rtag i).inactive = false := by rw [C.rtag]; split <;> rw [upd_same]
      simp only [hin, true_implies]
      rw [hlbfin hbe, eu, Lo_fin]
      unfold RowOK Sides
      rw [C.A, C.lhs, C.rhs, C.rtag, upd_same]
      obtain ⟨l1, l2, eA, n1, n2⟩ := split_col h.nodup h.mem
      rw [eA, dropCell_split n1]
      obtain ⟨g1, -, g3, -⟩ := rest_row_iff (q := q) (b := b) (bd := u) n1 n2 x
      by_cases hq : 0 < q
      · simp only [hq, if_true, upd_same, hr, eu, D.smul_fin, D.sub_fin, Lo_true, Hi_fin, true_and]
        exact (g1 hq).symm
      · have hq' : q < 0 := lt_of_le_of_ne (not_lt.mp hq) hq0
        simp only [hq, if_false, upd_same, hl, eu, D.smul_fin, D.sub_fin, Lo_fin, Hi_true, and_true]
        exact (g3 hq').symm
    · intro σ x hx
      rw [hr]
      refine ⟨_, rfl, ?_⟩
      exact retSubCol_value h.nodup h.mem hq0 σ x hx i 0
  · -- implied free on both sides
    right
    obtain ⟨e2, C⟩ := colstonEq_both s i k q
    generalize colstonEq s i k q true true = r at e2 C
    obtain ⟨r1, r2⟩ := r
    simp only at e2 C ⊢
    subst e2
    refine ⟨rfl, solveFor (s.A i) k q b, ?_, hvuniq,
      [Rec.deletedRow i (s.c k / q), .subCol k (s.A i) (s.rhs i) i (s.c k)], C.log, ?_⟩
    · refine substExact_of h hr hl ht ht' ho C.n C.c C.off C.colSize C.ctag (fun x => ?_)
      rw [feas_gone (s := s) (s' := r1) (i := i) (k := k) h.iLt C.m C.n
        (fun j hj => by rw [C.A]) (fun j hj => by rw [C.lhs]) (fun j hj => by rw [C.rhs]) C.lb C.ub
        (fun j hj => by rw [C.rtag, upd_ne _ _ hj])
        (fun j hj => by rw [C.ctag, upd_ne _ _ hj]) (fun j hj => by rw [C.colSize, upd_ne _ _ hj])
        (by rw [C.colSize, upd_same])]
      refine and_congr_right (fun hx => ?_)
      rw [hcolk]
      have hin : (r1.rtag i).inactive = true := by rw [C.rtag, upd_same]
      simp only [hin, habove hab x hx, hbelow hbe x hx, and_self, iff_true]
      simp
    · intro σ x hx
      rw [hr]
      refine ⟨_, rfl, ?_⟩
      exact retSubCol_value h.nodup h.mem hq0 (retDeletedRow σ i (s.c k / q)) x hx i (s.c k)

/-! ### Example -/

/-- `x0 + 2 x1 = 4`, `x1 + x2 ≤ 3`, `x0 ≥ 0`, `x1 ∈ [0, 1]`, `x2 ≥ 0`, cost `x0 + x1 + x2`: column `0`
occurs in the first row only and is implied free (`x0 = 4 - 2 x1 ∈ [2, 4]`). -/
def exStonEq : St := initSt
  { m := 2, n := 3
    A := ofList [[(0, 1), (1, 2)], [(1, 1), (2, 1)]] []
    lhs := ofList [.fin 4, .ninf] .ninf
    rhs := ofList [.fin 4, .fin 3] .pinf
    lb := ofList [.fin 0, .fin 0, .fin 0] .ninf
    ub := ofList [.pinf, .fin 1, .pinf] .pinf
    c := ofList [1, 1, 1] 0 }

theorem exStonEq_ready : StonReady exStonEq 0 0 1 where
  iLt := by decide
  kLt := by decide
  row := by decide +kernel
  nodup := by decide +kernel
  mem := by decide +kernel
  q0 := by norm_num
  single := by
    intro j hj h0 _
    have hj : j < 2 := hj
    interval_cases j
    · exact absurd rfl h0
    · intro p hp
      have : p ∈ [((1 : ℕ), (1 : ℚ)), (2, 1)] := hp
      fin_cases this <;> decide
  cols := by
    intro p hp
    have : p ∈ [((0 : ℕ), (1 : ℚ)), (1, 2)] := hp
    fin_cases this <;> decide +kernel
  fin := by
    intro p hp
    have : p ∈ [((0 : ℕ), (1 : ℚ)), (1, 2)] := hp
    fin_cases this
    · exact ⟨fun _ => ⟨0, rfl⟩, fun h => absurd h (by decide +kernel)⟩
    · exact ⟨fun _ => ⟨0, rfl⟩, fun _ => ⟨1, rfl⟩⟩

example : exStonEq.rhs 0 = .fin 4 ∧ exStonEq.lhs 0 = .fin 4 ∧ (exStonEq.rtag 0).lhsInf = false ∧
    (exStonEq.rtag 0).rhsInf = false ∧ exStonEq.off = .fin 0 ∧
    Recomputed (exStonEq.act 0) exStonEq.ctag exStonEq.lb exStonEq.ub (exStonEq.A 0) ∧
    (colstonEq exStonEq 0 0 1 true true).2 = REDUCED := by
  unfold Recomputed; decide +kernel

end Verif
