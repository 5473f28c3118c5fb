import Verif.Props.C30_StonEq

/-!
# C31: column singletons of inequality rows

`process_colston_ineq`, `/repo/src/explorers/StonCols.c:376-541`.
-/

namespace Verif

/-- What the decision of `process_colston_ineq` guarantees. -/
theorem stonIneqDecide_spec (ck q : ℚ) (rt : RTag) (t : CTag) (above below : Bool) (hq : q ≠ 0)
    (hfree : rt.lhsInf = false ∨ rt.rhsInf = false) :
    match stonIneqDecide ck q rt t above below with
    | .nothing => True
    | .unbounded =>
        (0 < ck ∧ t.lbInf = true ∧ ((0 < q ∧ rt.lhsInf = true) ∨ (q < 0 ∧ rt.rhsInf = true))) ∨
        (ck < 0 ∧ t.ubInf = true ∧ ((q < 0 ∧ rt.lhsInf = true) ∨ (0 < q ∧ rt.rhsInf = true)))
    | .fixLower => 0 < ck ∧ t.lbInf = false ∧
        ((0 < q ∧ rt.lhsInf = true) ∨ (q < 0 ∧ rt.rhsInf = true))
    | .fixUpper => ck < 0 ∧ t.ubInf = false ∧
        ((q < 0 ∧ rt.lhsInf = true) ∨ (0 < q ∧ rt.rhsInf = true))
    | .freeLhs => above = true ∧ below = true ∧ rt.lhsInf = false ∧
        ((0 ≤ ck ∧ 0 < q) ∨ (ck ≤ 0 ∧ q < 0))
    | .freeRhs => above = true ∧ below = true ∧ rt.rhsInf = false ∧
        ((0 ≤ ck ∧ q < 0) ∨ (ck ≤ 0 ∧ 0 < q))
    | .toEqRhs => rt.rhsInf = false ∧ ((ck < 0 ∧ 0 < q ∧ above = true) ∨ (0 < ck ∧ q < 0 ∧ below = true))
    | .toEqLhs => rt.lhsInf = false ∧ ((0 < ck ∧ 0 < q ∧ below = true) ∨ (ck < 0 ∧ q < 0 ∧ above = true)) := by
  unfold stonIneqDecide
  rcases lt_trichotomy ck 0 with hc | hc | hc <;> rcases lt_or_gt_of_ne hq with h | h <;>
    [have hc' := not_lt.mpr hc.le; have hc' := not_lt.mpr hc.le; subst hc; subst hc;
     have hc' := not_lt.mpr hc.le; have hc' := not_lt.mpr hc.le] <;>
    have h' := not_lt.mpr h.le <;>
    (first | have h3 := hc.le | skip) <;>
    simp only [*, lt_irrefl, le_refl, true_and, false_and, or_false, false_or, if_false, true_or,
      or_true, and_false] <;>
    cases e1 : rt.lhsInf <;> cases e2 : rt.rhsInf <;> simp_all <;>
    cases above <;> cases below <;> simp <;> (try (cases t.lbInf <;> simp)) <;>
    (try (cases t.ubInf <;> simp))

/-- An optimal solution survives the step from `s` to `s'`, which concerns column `k` only:
feasible points of `s` can be changed in column `k` to become feasible for `s'` and not more
expensive, and feasible points of `s'` become feasible for `s` with the same objective value when
column `k` gets the value `lift`. -/
structure StonKeeps (s s' : St) (k : ℕ) (lift : (ℕ → ℚ) → ℚ) : Prop where
  fin : ∃ o o', s.off = .fin o ∧ s'.off = .fin o' ∧
    (∀ x, FeasPt s x → ∃ w, FeasPt s' (setAt x k w) ∧ objP s' (setAt x k w) + o' ≤ objP s x + o) ∧
    (∀ x, FeasPt s' x → FeasPt s (setAt x k (lift x)) ∧
      objP s (setAt x k (lift x)) + o = objP s' x + o')

/-- Result of `fix_col_ston`. -/
theorem core_fixColSton (s : St) (i k : ℕ) (q : ℚ) (v : D) :
    Core (fixColSton s i k q v) s.m s.n (upd s.A i (dropCell k (s.A i)))
      (if (s.rtag i).lhsInf then s.lhs else upd s.lhs i (D.sub (s.lhs i) (D.smul q v)))
      (if (s.rtag i).rhsInf then s.rhs else upd s.rhs i (D.sub (s.rhs i) (D.smul q v)))
      s.lb s.ub s.rtag (upd s.ctag k { s.ctag k with fixed := true }) s.c
      (D.add s.off (D.smul (s.c k) v)) (upd s.colSize k (-1))
      (.fixedCol k v (s.c k) [(i, q)] :: s.log) := by
  apply core_iff
  rfl

/-- Result of substituting out the column and dropping its inequality row. -/
theorem core_freeColIneq (s : St) (i k : ℕ) (q : ℚ) (side : D) :
    Core (freeColIneq s i k q side) s.m s.n s.A s.lhs s.rhs s.lb s.ub
      (upd s.rtag i { s.rtag i with inactive := true }) (upd s.ctag k { s.ctag k with subst := true })
      (costSub s (s.A i) k q) (offSub s k q side) (upd s.colSize k (-1))
      (.deletedRow i (s.c k / q) :: .subCol k (s.A i) side i (s.c k) :: s.log) := by
  apply core_iff
  unfold freeColIneq
  simp only [subVarInObj_eq, setRowToInactive, dropCol, St.save, St.check, core]

theorem core_noteDton (s : St) (i : ℕ) : core (noteDton s i) = core s := by
  unfold noteDton
  split <;> rfl

theorem core_locksNewRhs (s : St) (cells : List Cell) : core (locksNewRhs s cells) = core s := by
  unfold locksNewRhs
  apply foldl_addLock_frame core (fun _ _ _ _ => rfl)
    (fun p s => if 0 < p.2 then s.addLock p.1 1 0 else s.addLock p.1 0 1)
  intro p s
  split <;> exact ⟨_, _, _, rfl⟩

theorem core_locksNewLhs (s : St) (cells : List Cell) : core (locksNewLhs s cells) = core s := by
  unfold locksNewLhs
  apply foldl_addLock_frame core (fun _ _ _ _ => rfl)
    (fun p s => if 0 < p.2 then s.addLock p.1 0 1 else s.addLock p.1 1 0)
  intro p s
  split <;> exact ⟨_, _, _, rfl⟩

theorem core_congr {s t : St} (h : core s = core t) :
    Core s t.m t.n t.A t.lhs t.rhs t.lb t.ub t.rtag t.ctag t.c t.off t.colSize t.log := core_iff h

theorem feas_core {s t : St} (h : core s = core t) (x : ℕ → ℚ) : FeasPt s x ↔ FeasPt t x := by
  have C := core_congr h
  unfold FeasPt RowOK ColIn
  rw [C.m, C.n, C.A, C.lhs, C.rhs, C.lb, C.ub, C.rtag, C.ctag, C.colSize]

theorem objP_core {s t : St} (h : core s = core t) (x : ℕ → ℚ) : objP s x = objP t x := by
  have C := core_congr h
  unfold objP
  rw [C.n, C.c, C.colSize]

/-- Moving column `k` within row `i` only. -/
theorem feas_move {s : St} {i k : ℕ} {q : ℚ} (h : StonReady s i k q) {x : ℕ → ℚ} (hx : Rest s i k x)
    {v : ℚ} (hrow : RowOK s i (setAt x k v)) (hcol : ColIn s k v) : FeasPt s (setAt x k v) :=
  (feas_iff_rest h _).mpr ⟨(rest_setAt h x v).mpr hx, hrow, by rw [setAt_same]; exact hcol⟩

/-- Fixing the column at `v`. -/
theorem fix_keeps {s s' : St} {i k : ℕ} {q v o : ℚ} (h : StonReady s i k q) (ho : s.off = .fin o)
    (hlf : FinIf (s.rtag i).lhsInf (s.lhs i)) (hrf : FinIf (s.rtag i).rhsInf (s.rhs i))
    {log : List Rec}
    (C : Core s' s.m s.n (upd s.A i (dropCell k (s.A i)))
      (if (s.rtag i).lhsInf then s.lhs else upd s.lhs i (D.sub (s.lhs i) (D.smul q (.fin v))))
      (if (s.rtag i).rhsInf then s.rhs else upd s.rhs i (D.sub (s.rhs i) (D.smul q (.fin v))))
      s.lb s.ub s.rtag (upd s.ctag k { s.ctag k with fixed := true }) s.c
      (D.add s.off (D.smul (s.c k) (.fin v))) (upd s.colSize k (-1)) log)
    (hv : ColIn s k v)
    (hmove : ∀ x, FeasPt s x → RowOK s i (setAt x k v) ∧ s.c k * (v - x k) ≤ 0) :
    StonKeeps s s' k (fun _ => v) := by
  obtain ⟨l1, l2, eA, n1, n2⟩ := split_col h.nodup h.mem
  have hkp := (h.cols _ h.mem).2.2
  have hrow : ∀ x, RowOK s' i x ↔ RowOK s i (setAt x k v) := by
    intro x
    unfold RowOK Sides
    have e1 : dot (s.A i) (setAt x k v) = dot (l1 ++ l2) x + q * v := by
      rw [eA]
      simp only [dot_append, dot_cons, setAt_same]
      rw [show dot l1 (setAt x k v) = dot l1 x from dot_update_notMem n1 x v,
        show dot l2 (setAt x k v) = dot l2 x from dot_update_notMem n2 x v]
      ring
    have e2 : dot (s'.A i) x = dot (l1 ++ l2) x := by
      rw [C.A, upd_same, eA, dropCell_split n1]
    rw [e1, e2, C.rtag, C.lhs, C.rhs]
    refine and_congr ?_ ?_
    · cases hi : (s.rtag i).lhsInf with
      | true => simp
      | false =>
        obtain ⟨a, ea⟩ := hlf hi
        simp only [Bool.false_eq_true, if_false, upd_same, ea, D.smul_fin, D.sub_fin, Lo_fin]
        constructor <;> intro g <;> linarith
    · cases hi : (s.rtag i).rhsInf with
      | true => simp
      | false =>
        obtain ⟨a, ea⟩ := hrf hi
        simp only [Bool.false_eq_true, if_false, upd_same, ea, D.smul_fin, D.sub_fin, Hi_fin]
        constructor <;> intro g <;> linarith
  have hfeas : ∀ x, FeasPt s' x ↔ Rest s i k x ∧ RowOK s i (setAt x k v) := by
    intro x
    rw [feas_gone (s := s) (s' := s') (i := i) (k := k) h.iLt C.m C.n
        (fun j hj => by rw [C.A, upd_ne _ _ hj])
        (fun j hj => by rw [C.lhs]; split; rfl; rw [upd_ne _ _ hj])
        (fun j hj => by rw [C.rhs]; split; rfl; rw [upd_ne _ _ hj]) C.lb C.ub
        (fun j hj => by rw [C.rtag])
        (fun j hj => by rw [C.ctag, upd_ne _ _ hj]) (fun j hj => by rw [C.colSize, upd_ne _ _ hj])
        (by rw [C.colSize, upd_same])]
    rw [hrow x, C.rtag, h.row]
    simp
  have hobj : ∀ x, objP s' x + (o + s.c k * v) = objP s (setAt x k v) + o := by
    intro x
    rw [objP_gone C.n C.colSize, C.c, objP_eq s, mask_setAt s x hkp]
    have e0 := objective_setAt s (mask s x) h.kLt v
    have e1 := objective_setAt s (mask s x) h.kLt 0
    unfold objective at e0 e1 ⊢
    rw [e0, e1]; ring
  refine ⟨⟨o, o + s.c k * v, ho, by rw [C.off, ho]; rfl, ?_, ?_⟩⟩
  · intro x hx
    obtain ⟨h1, h2, h3⟩ := (feas_iff_rest h x).mp hx
    obtain ⟨g1, g2⟩ := hmove x hx
    refine ⟨v, (hfeas _).mpr ⟨(rest_setAt h x v).mpr h1, by rw [setAt_setAt]; exact g1⟩, ?_⟩
    rw [hobj, setAt_setAt, objP_setAt s x h.kLt hkp]
    linarith
  · intro x hx
    obtain ⟨h1, h2⟩ := (hfeas x).mp hx
    exact ⟨feas_move h h1 h2 hv, (hobj x).symm⟩

/-- Substituting the column with the row at the value `b`. -/
theorem free_keeps {s s' : St} {i k : ℕ} {q b o : ℚ} (h : StonReady s i k q) (ho : s.off = .fin o)
    {log : List Rec}
    (C : Core s' s.m s.n s.A s.lhs s.rhs s.lb s.ub
      (upd s.rtag i { s.rtag i with inactive := true }) (upd s.ctag k { s.ctag k with subst := true })
      (costSub s (s.A i) k q) (offSub s k q (.fin b)) (upd s.colSize k (-1)) log)
    (hb : Sides (s.rtag i) (s.lhs i) (s.rhs i) b)
    (hin : ∀ x, Rest s i k x → ColIn s k (solveFor (s.A i) k q b x))
    (hcost : ∀ x, FeasPt s x → s.c k * (solveFor (s.A i) k q b x - x k) ≤ 0) :
    StonKeeps s s' k (solveFor (s.A i) k q b) := by
  have hkp := (h.cols _ h.mem).2.2
  have hcp : ∀ p ∈ s.A i, s.colSize p.1 ≠ -1 := fun p hp => (h.cols p hp).2.2
  have hcols : ∀ p ∈ s.A i, p.1 < s.n := fun p hp => (h.cols p hp).1
  have hfeas : ∀ x, FeasPt s' x ↔ Rest s i k x := by
    intro x
    rw [feas_gone (s := s) (s' := s') (i := i) (k := k) h.iLt C.m C.n
        (fun j hj => by rw [C.A]) (fun j hj => by rw [C.lhs]) (fun j hj => by rw [C.rhs]) C.lb C.ub
        (fun j hj => by rw [C.rtag, upd_ne _ _ hj])
        (fun j hj => by rw [C.ctag, upd_ne _ _ hj]) (fun j hj => by rw [C.colSize, upd_ne _ _ hj])
        (by rw [C.colSize, upd_same])]
    rw [C.rtag, upd_same]
    simp
  have hc0 : costSub s (s.A i) k q k = 0 := costSub_zero h.nodup h.mem h.q0
  obtain ⟨o', eo⟩ : ∃ o', offSub s k q (.fin b) = .fin o' := by
    unfold offSub; split
    · exact ⟨o, ho⟩
    · exact ⟨_, by rw [ho]; rfl⟩
  have hobj : ∀ x, objP s (setAt x k (solveFor (s.A i) k q b x)) + o = objP s' x + o' := by
    intro x
    set v := solveFor (s.A i) k q b x with hv
    have hd : dot (s.A i) (setAt (mask s x) k v) = b := by
      rw [← mask_setAt s x hkp, dot_mask hcp]
      exact (solveFor_iff h.nodup h.mem h.q0 x _).mpr rfl
    obtain ⟨o2, e2, h2⟩ := objective_sub (s := s) (k := k) (q := q) hcols ho hd
    rw [eo] at e2
    injection e2 with e2
    subst e2
    rw [objP_eq s, mask_setAt s x hkp, ← h2, objP_gone C.n C.colSize]
    congr 1
    refine Finset.sum_congr rfl (fun j _ => ?_)
    by_cases e : j = k
    · subst e; rw [C.c, hc0]; ring
    · rw [setAt_ne _ _ e, setAt_ne _ _ e, C.c]
  refine ⟨⟨o, o', ho, by rw [C.off, eo], ?_, ?_⟩⟩
  · intro x hx
    obtain ⟨h1, h2, h3⟩ := (feas_iff_rest h x).mp hx
    refine ⟨x k, by rw [setAt_self]; exact (hfeas x).mpr h1, ?_⟩
    rw [setAt_self, ← hobj, objP_setAt s x h.kLt hkp]
    have := hcost x hx
    linarith
  · intro x hx
    have h1 := (hfeas x).mp hx
    refine ⟨feas_move h h1 ?_ (hin x h1), hobj x⟩
    unfold RowOK
    rw [(solveFor_iff h.nodup h.mem h.q0 x _).mpr rfl]
    exact hb

/-- Turning the row into an equality with right-hand side `b`. -/
theorem eq_keeps {s s' : St} {i k : ℕ} {q b o : ℚ} (h : StonReady s i k q) (ho : s.off = .fin o)
    {lhs rhs : ℕ → D} {log : List Rec} (hl : ∀ j, j ≠ i → lhs j = s.lhs j)
    (hr : ∀ j, j ≠ i → rhs j = s.rhs j) (hli : lhs i = .fin b) (hri : rhs i = .fin b)
    (C : Core s' s.m s.n s.A lhs rhs s.lb s.ub (upd s.rtag i { eq := true }) s.ctag s.c s.off
      s.colSize log)
    (hb : Sides (s.rtag i) (s.lhs i) (s.rhs i) b)
    (hmove : ∀ x, FeasPt s x → ColIn s k (solveFor (s.A i) k q b x) ∧
      s.c k * (solveFor (s.A i) k q b x - x k) ≤ 0) :
    StonKeeps s s' k (fun x => x k) := by
  have hkp := (h.cols _ h.mem).2.2
  have hfeas : ∀ x, FeasPt s' x ↔ Rest s i k x ∧ dot (s.A i) x = b ∧ ColIn s k (x k) := by
    intro x
    have hrow : ∀ j, j ≠ i → (RowOK s' j x ↔ RowOK s j x) := by
      intro j hj
      unfold RowOK
      rw [C.A, C.lhs, C.rhs, C.rtag, upd_ne _ _ hj, hl j hj, hr j hj]
    have hrowi : RowOK s' i x ↔ dot (s.A i) x = b := by
      unfold RowOK Sides
      rw [C.A, C.lhs, C.rhs, C.rtag, upd_same, hli, hri]
      simp only [Lo_fin, Hi_fin]
      constructor
      · rintro ⟨a, c⟩; linarith
      · intro e; rw [e]; exact ⟨le_refl _, le_refl _⟩
    have hcol : ∀ j, ColIn s' j (x j) ↔ ColIn s j (x j) := by
      intro j; unfold ColIn; rw [C.ctag, C.lb, C.ub]
    constructor
    · intro hx
      refine ⟨⟨fun j hj hji ha => (hrow j hji).mp (hx.1 j (by rw [C.m]; exact hj)
        (by rw [C.rtag, upd_ne _ _ hji]; exact ha)), fun j hj _ a b => (hcol j).mp
          (hx.2 j (by rw [C.n]; exact hj) (by rw [C.colSize]; exact a) (by rw [C.ctag]; exact b))⟩,
        hrowi.mp (hx.1 i (by rw [C.m]; exact h.iLt) (by rw [C.rtag, upd_same])),
        (hcol k).mp (hx.2 k (by rw [C.n]; exact h.kLt) (by rw [C.colSize]; exact hkp)
          (by rw [C.ctag]; exact h.subst h.mem))⟩
    · rintro ⟨h1, h2, h3⟩
      refine ⟨fun j hj ha => ?_, fun j hj a b => ?_⟩
      · by_cases e : j = i
        · rw [e]; exact hrowi.mpr h2
        · exact (hrow j e).mpr (h1.1 j (by rw [← C.m]; exact hj) e
            (by rw [C.rtag, upd_ne _ _ e] at ha; exact ha))
      · by_cases e : j = k
        · rw [e]; exact (hcol k).mpr h3
        · exact (hcol j).mpr (h1.2 j (by rw [← C.n]; exact hj) e (by rw [← C.colSize]; exact a)
            (by rw [← C.ctag]; exact b))
  have hobj : ∀ x, objP s' x = objP s x := by
    intro x; unfold objP; rw [C.n, C.c, C.colSize]
  refine ⟨⟨o, o, ho, by rw [C.off, ho], ?_, ?_⟩⟩
  · intro x hx
    obtain ⟨h1, h2, h3⟩ := (feas_iff_rest h x).mp hx
    obtain ⟨g1, g2⟩ := hmove x hx
    refine ⟨solveFor (s.A i) k q b x, (hfeas _).mpr ⟨(rest_setAt h x _).mpr h1,
      (solveFor_iff h.nodup h.mem h.q0 x _).mpr rfl, by rw [setAt_same]; exact g1⟩, ?_⟩
    rw [hobj, objP_setAt s x h.kLt hkp]
    linarith
  · intro x hx
    obtain ⟨h1, h2, h3⟩ := (hfeas x).mp hx
    rw [setAt_self]
    refine ⟨(feas_iff_rest h x).mpr ⟨h1, ?_, h3⟩, by rw [hobj]⟩
    unfold RowOK; rw [h2]; exact hb

/-- Where the row is at its side the value of the column has moved in the direction of the sign of
the slack. -/
theorem solveFor_le {cells : List Cell} {k : ℕ} {q b : ℚ} (hnd : (cells.map Prod.fst).Nodup)
    (hk : (k, q) ∈ cells) (x : ℕ → ℚ) :
    (0 < q → (b ≤ dot cells x ↔ solveFor cells k q b x ≤ x k)) ∧
    (0 < q → (dot cells x ≤ b ↔ x k ≤ solveFor cells k q b x)) ∧
    (q < 0 → (b ≤ dot cells x ↔ x k ≤ solveFor cells k q b x)) ∧
    (q < 0 → (dot cells x ≤ b ↔ solveFor cells k q b x ≤ x k)) := by
  unfold solveFor
  rw [dot_setAt_mem hnd hk x 0]
  refine ⟨fun hq => ?_, fun hq => ?_, fun hq => ?_, fun hq => ?_⟩
  · rw [div_le_iff₀ hq]; constructor <;> intro h <;> linarith
  · rw [le_div_iff₀ hq]; constructor <;> intro h <;> linarith
  · rw [le_div_iff_of_neg hq]; constructor <;> intro h <;> linarith
  · rw [div_le_iff_of_neg hq]; constructor <;> intro h <;> linarith

/-- Row `i` after column `k` moves in the direction that a missing side allows. -/
theorem row_down {s : St} {i k : ℕ} {q : ℚ} (h : StonReady s i k q) {x : ℕ → ℚ} {v : ℚ}
    (hx : RowOK s i x) (hv : v ≤ x k)
    (hd : (0 < q ∧ (s.rtag i).lhsInf = true) ∨ (q < 0 ∧ (s.rtag i).rhsInf = true)) :
    RowOK s i (setAt x k v) := by
  unfold RowOK Sides at hx ⊢
  rw [dot_setAt_mem h.nodup h.mem x v]
  rcases hd with ⟨hq, hi⟩ | ⟨hq, hi⟩
  · rw [hi]; refine ⟨by simp, hx.2.mono ?_⟩; nlinarith
  · rw [hi]; refine ⟨hx.1.mono ?_, by simp⟩; nlinarith

theorem row_up {s : St} {i k : ℕ} {q : ℚ} (h : StonReady s i k q) {x : ℕ → ℚ} {v : ℚ}
    (hx : RowOK s i x) (hv : x k ≤ v)
    (hd : (q < 0 ∧ (s.rtag i).lhsInf = true) ∨ (0 < q ∧ (s.rtag i).rhsInf = true)) :
    RowOK s i (setAt x k v) := by
  unfold RowOK Sides at hx ⊢
  rw [dot_setAt_mem h.nodup h.mem x v]
  rcases hd with ⟨hq, hi⟩ | ⟨hq, hi⟩
  · rw [hi]; refine ⟨by simp, hx.2.mono ?_⟩; nlinarith
  · rw [hi]; refine ⟨hx.1.mono ?_, by simp⟩; nlinarith

/-- **C31.**  `process_colston_ineq` on a column singleton `k` of an active inequality row `i` with
exact activities, whose sides and whose column bounds are consistent: nothing happens; or the
objective is unbounded below as soon as there is a feasible point; or an optimal solution survives,
and replaying the records it wrote recovers from a feasible point of the new problem a feasible
point of the old one with the same objective. -/
theorem C31_ston_ineq (s : St) (i k : ℕ) (q o : ℚ) (h : StonReady s i k q) (ho : s.off = .fin o)
    (hlf : FinIf (s.rtag i).lhsInf (s.lhs i)) (hrf : FinIf (s.rtag i).rhsInf (s.rhs i))
    (hfree : (s.rtag i).lhsInf = false ∨ (s.rtag i).rhsInf = false)
    (hcons : ∃ v, Sides (s.rtag i) (s.lhs i) (s.rhs i) v) (hbox : ∃ v, ColIn s k v)
    (ha : Recomputed (s.act i) s.ctag s.lb s.ub (s.A i)) :
    let above := impliedFreeAbove q (s.A i) (s.lhs i) (s.rhs i) (s.rtag i) (s.lb k) (s.ub k)
        (s.ctag k) (s.act i) s.ctag s.lb s.ub
    let below := impliedFreeBelow q (s.A i) (s.lhs i) (s.rhs i) (s.rtag i) (s.lb k) (s.ub k)
        (s.ctag k) (s.act i) s.ctag s.lb s.ub
    let r := colstonIneq s i k q above below
    (r.2 = UNCHANGED ∧ core r.1 = core s) ∨
    (r.2 = UNBNDORINFEAS ∧ core r.1 = core s ∧
      ∀ x, FeasPt s x → ∀ M, ∃ v, FeasPt s (setAt x k v) ∧ objP s (setAt x k v) < M) ∨
    (r.2 = REDUCED ∧ ∃ lift, StonKeeps s r.1 k lift ∧
      ∃ recs, r.1.log = recs ++ s.log ∧
        ∀ (σ : Sol) (x : ℕ → ℚ), (∀ p ∈ s.A i, r.1.colSize p.1 ≠ -1 → σ.x p.1 = .fin (x p.1)) →
          ∃ σ', replay none recs σ = some σ' ∧ σ'.x = upd σ.x k (.fin (lift x))) := by
  intro above below r
  have hq0 := h.q0
  have hkact := (h.cols _ h.mem).2.1
  have hkp := (h.cols _ h.mem).2.2
  have hcolk : ∀ w, ColIn s k w ↔ Lo (s.ctag k).lbInf (s.lb k) w ∧ Hi (s.ctag k).ubInf (s.ub k) w := by
    intro w; unfold ColIn; rw [effTag_active hkact]
  have hcx : ∀ x, FeasPt s x → Lo (s.ctag k).lbInf (s.lb k) (x k) ∧ Hi (s.ctag k).ubInf (s.ub k) (x k) :=
    fun x hx => (hcolk _).mp (((feas_iff_rest h x).mp hx).2.2)
  -- the implied sides, at the point where the row has a value within its sides
  have hpt : ∀ b, Sides (s.rtag i) (s.lhs i) (s.rhs i) b → ∀ x, Rest s i k x →
      let y := setAt x k (solveFor (s.A i) k q b x)
      OthersIn s.ctag s.lb s.ub (s.A i) k y ∧ Sides (s.rtag i) (s.lhs i) (s.rhs i) (dot (s.A i) y) := by
    intro b hb x hx y
    refine ⟨rest_others h ((rest_setAt h x _).mpr hx), ?_⟩
    have : dot (s.A i) y = b := (solveFor_iff h.nodup h.mem hq0 x _).mpr rfl
    rw [this]; exact hb
  have habove : above = true → ∀ b, Sides (s.rtag i) (s.lhs i) (s.rhs i) b → ∀ x, Rest s i k x →
      Hi (s.ctag k).ubInf (s.ub k) (solveFor (s.A i) k q b x) := by
    intro e b hb x hx
    obtain ⟨h1, h2⟩ := hpt b hb x hx
    have := impliedFreeAbove_sound h.nodup h.mem h.fin ha h1 h2 e
    rwa [setAt_same] at this
  have hbelow : below = true → ∀ b, Sides (s.rtag i) (s.lhs i) (s.rhs i) b → ∀ x, Rest s i k x →
      Lo (s.ctag k).lbInf (s.lb k) (solveFor (s.A i) k q b x) := by
    intro e b hb x hx
    obtain ⟨h1, h2⟩ := hpt b hb x hx
    have := impliedFreeBelow_sound h.nodup h.mem h.fin ha h1 h2 e
    rwa [setAt_same] at this
  -- a finite side is itself within the sides
  obtain ⟨v0, hv0⟩ := hcons
  have hlside : ∀ b, (s.rtag i).lhsInf = false → s.lhs i = .fin b →
      Sides (s.rtag i) (s.lhs i) (s.rhs i) b := by
    intro b hi e
    have h1 := hv0.1
    rw [hi, e, Lo_fin] at h1
    exact ⟨by rw [hi, e]; simp, hv0.2.mono h1⟩
  have hrside : ∀ b, (s.rtag i).rhsInf = false → s.rhs i = .fin b →
      Sides (s.rtag i) (s.lhs i) (s.rhs i) b := by
    intro b hi e
    have h1 := hv0.2
    rw [hi, e, Hi_fin] at h1
    exact ⟨hv0.1.mono h1, by rw [hi, e]; simp⟩
  have hlrow : ∀ b, (s.rtag i).lhsInf = false → s.lhs i = .fin b → ∀ x, FeasPt s x → b ≤ dot (s.A i) x := by
    intro b hi e x hx
    have := ((feas_iff_rest h x).mp hx).2.1.1
    rwa [hi, e, Lo_fin] at this
  have hrrow : ∀ b, (s.rtag i).rhsInf = false → s.rhs i = .fin b → ∀ x, FeasPt s x → dot (s.A i) x ≤ b := by
    intro b hi e x hx
    have := ((feas_iff_rest h x).mp hx).2.1.2
    rwa [hi, e, Hi_fin] at this
  obtain ⟨w0, hw0⟩ := hbox
  rw [hcolk] at hw0
  have hspec := stonIneqDecide_spec (s.c k) q (s.rtag i) (s.ctag k) above below hq0 hfree
  have hr' : r = colstonIneq s i k q above below := rfl
  clear_value r above below
  unfold colstonIneq at hr'
  cases hd : stonIneqDecide (s.c k) q (s.rtag i) (s.ctag k) above below with
  | nothing => rw [hd] at hr'; subst hr'; exact Or.inl ⟨rfl, rfl⟩
  | unbounded =>
    rw [hd] at hr' hspec
    subst hr'
    refine Or.inr (Or.inl ⟨rfl, rfl, ?_⟩)
    intro x hx M
    obtain ⟨g1, g2, g3⟩ := (feas_iff_rest h x).mp hx
    have g4 := hcx x hx
    rcases hspec with ⟨hc, hi, hdir⟩ | ⟨hc, hi, hdir⟩
    · set v := min (x k) (x k + (M - 1 - objP s x) / s.c k) with hv
      have hvx : v ≤ x k := min_le_left _ _
      refine ⟨v, feas_move h g1 (row_down h g2 hvx hdir) ((hcolk v).mpr
        ⟨by rw [hi]; simp, g4.2.mono hvx⟩), ?_⟩
      rw [objP_setAt s x h.kLt hkp]
      have h1 : v - x k ≤ (M - 1 - objP s x) / s.c k := by
        have : v ≤ x k + (M - 1 - objP s x) / s.c k := min_le_right _ _
        linarith
      have h2 := mul_le_mul_of_nonneg_left h1 hc.le
      rw [mul_div_cancel₀ _ hc.ne'] at h2
      linarith
    · set v := max (x k) (x k + (M - 1 - objP s x) / s.c k) with hv
      have hvx : x k ≤ v := le_max_left _ _
      refine ⟨v, feas_move h g1 (row_up h g2 hvx hdir) ((hcolk v).mpr
        ⟨g4.1.mono hvx, by rw [hi]; simp⟩), ?_⟩
      rw [objP_setAt s x h.kLt hkp]
      have h1 : (M - 1 - objP s x) / s.c k ≤ v - x k := by
        have : x k + (M - 1 - objP s x) / s.c k ≤ v := le_max_right _ _
        linarith
      have h2 := mul_le_mul_of_nonpos_left h1 hc.le
      rw [mul_div_cancel₀ _ hc.ne] at h2
      linarith
  | fixLower =>
    rw [hd] at hr' hspec
    obtain ⟨hc, hi, hdir⟩ := hspec
    obtain ⟨l, el⟩ := (h.fin _ h.mem).1 hi
    simp only at el
    have C := core_fixColSton (s.check (!D.isInf (s.lb k))) i k q (s.lb k)
    have e0 := core_noteShortRow (fixColSton (s.check (!D.isInf (s.lb k))) i k q (s.lb k)) i false
    subst hr'
    simp only at C ⊢
    generalize noteShortRow (fixColSton (s.check (!D.isInf (s.lb k))) i k q (s.lb k)) i false = u at e0
    have D := core_congr e0
    rw [C.m, C.n, C.A, C.lhs, C.rhs, C.lb, C.ub, C.rtag, C.ctag, C.c, C.off, C.colSize, C.log] at D
    rw [el] at D
    refine Or.inr (Or.inr ⟨trivial, fun _ => l, ?_, [.fixedCol k (.fin l) (s.c k) [(i, q)]], D.log, ?_⟩)
    · refine fix_keeps h ho hlf hrf D ?_ ?_
      · rw [hcolk, hi, el]
        rw [hi, el, Lo_fin] at hw0
        exact ⟨by simp, hw0.2.mono hw0.1⟩
      · intro x hx
        have g4 := (hcx x hx).1
        rw [hi, el, Lo_fin] at g4
        refine ⟨row_down h ((feas_iff_rest h x).mp hx).2.1 g4 hdir, ?_⟩
        exact mul_nonpos_of_nonneg_of_nonpos hc.le (sub_nonpos.mpr g4)
    · intro σ x _
      exact ⟨_, rfl, rfl⟩
  | fixUpper =>
    rw [hd] at hr' hspec
    obtain ⟨hc, hi, hdir⟩ := hspec
    obtain ⟨l, el⟩ := (h.fin _ h.mem).2 hi
    simp only at el
    have C := core_fixColSton (s.check (!D.isInf (s.ub k))) i k q (s.ub k)
    have e0 := core_noteShortRow (fixColSton (s.check (!D.isInf (s.ub k))) i k q (s.ub k)) i false
    subst hr'
    simp only at C ⊢
    generalize noteShortRow (fixColSton (s.check (!D.isInf (s.ub k))) i k q (s.ub k)) i false = u at e0
    have D := core_congr e0
    rw [C.m, C.n, C.A, C.lhs, C.rhs, C.lb, C.ub, C.rtag, C.ctag, C.c, C.off, C.colSize, C.log] at D
    rw [el] at D
    refine Or.inr (Or.inr ⟨trivial, fun _ => l, ?_, [.fixedCol k (.fin l) (s.c k) [(i, q)]], D.log, ?_⟩)
    · refine fix_keeps h ho hlf hrf D ?_ ?_
      · rw [hcolk, hi, el]
        rw [hi, el, Hi_fin] at hw0
        exact ⟨hw0.1.mono hw0.2, by simp⟩
      · intro x hx
        have g4 := (hcx x hx).2
        rw [hi, el, Hi_fin] at g4
        refine ⟨row_up h ((feas_iff_rest h x).mp hx).2.1 g4 hdir, ?_⟩
        exact mul_nonpos_of_nonpos_of_nonneg hc.le (sub_nonneg.mpr g4)
    · intro σ x _
      exact ⟨_, rfl, rfl⟩
  | freeLhs =>
    rw [hd] at hr' hspec
    obtain ⟨hab, hbe, hi, hdir⟩ := hspec
    obtain ⟨b, eb⟩ := hlf hi
    have C := core_freeColIneq s i k q (s.lhs i)
    subst hr'
    simp only
    generalize freeColIneq s i k q (s.lhs i) = u at C
    rw [eb] at C
    refine Or.inr (Or.inr ⟨trivial, solveFor (s.A i) k q b, ?_,
      [.deletedRow i (s.c k / q), .subCol k (s.A i) (.fin b) i (s.c k)], C.log, ?_⟩)
    · refine free_keeps h ho C (hlside b hi eb) ?_ ?_
      · intro x hx
        exact (hcolk _).mpr ⟨hbelow hbe b (hlside b hi eb) x hx, habove hab b (hlside b hi eb) x hx⟩
      · intro x hx
        have g := hlrow b hi eb x hx
        obtain ⟨s1, s2, s3, s4⟩ := solveFor_le (b := b) h.nodup h.mem x
        rcases hdir with ⟨hc, hq⟩ | ⟨hc, hq⟩
        · exact mul_nonpos_of_nonneg_of_nonpos hc (sub_nonpos.mpr ((s1 hq).mp g))
        · exact mul_nonpos_of_nonpos_of_nonneg hc (sub_nonneg.mpr ((s3 hq).mp g))
    · intro σ x hx
      refine ⟨_, rfl, ?_⟩
      refine retSubCol_value h.nodup h.mem hq0 (retDeletedRow σ i (s.c k / q)) x ?_ i (s.c k)
      intro p hp hpk
      exact hx p hp (by rw [C.colSize, upd_ne _ _ hpk]; exact (h.cols p hp).2.2)
  | freeRhs =>
    rw [hd] at hr' hspec
    obtain ⟨hab, hbe, hi, hdir⟩ := hspec
    obtain ⟨b, eb⟩ := hrf hi
    have C := core_freeColIneq s i k q (s.rhs i)
    subst hr'
    simp only
    generalize freeColIneq s i k q (s.rhs i) = u at C
    rw [eb] at C
    refine Or.inr (Or.inr ⟨trivial, solveFor (s.A i) k q b, ?_,
      [.deletedRow i (s.c k / q), .subCol k (s.A i) (.fin b) i (s.c k)], C.log, ?_⟩)
    · refine free_keeps h ho C (hrside b hi eb) ?_ ?_
      · intro x hx
        exact (hcolk _).mpr ⟨hbelow hbe b (hrside b hi eb) x hx, habove hab b (hrside b hi eb) x hx⟩
      · intro x hx
        have g := hrrow b hi eb x hx
        obtain ⟨s1, s2, s3, s4⟩ := solveFor_le (b := b) h.nodup h.mem x
        rcases hdir with ⟨hc, hq⟩ | ⟨hc, hq⟩
        · exact mul_nonpos_of_nonneg_of_nonpos hc (sub_nonpos.mpr ((s4 hq).mp g))
        · exact mul_nonpos_of_nonpos_of_nonneg hc (sub_nonneg.mpr ((s2 hq).mp g))
    · intro σ x hx
      refine ⟨_, rfl, ?_⟩
      refine retSubCol_value h.nodup h.mem hq0 (retDeletedRow σ i (s.c k / q)) x ?_ i (s.c k)
      intro p hp hpk
      exact hx p hp (by rw [C.colSize, upd_ne _ _ hpk]; exact (h.cols p hp).2.2)
  | toEqRhs =>
    rw [hd] at hr' hspec
    obtain ⟨hi, hdir⟩ := hspec
    obtain ⟨b, eb⟩ := hrf hi
    simp only at hr'
    have e1 : core (if (s.rtag i).lhsInf = true then locksNewLhs s (s.A i) else s) = core s := by
      split
      · exact core_locksNewLhs _ _
      · rfl
    generalize (if (s.rtag i).lhsInf = true then locksNewLhs s (s.A i) else s) = t at e1 hr'
    have D1 := core_congr e1
    have e2 := core_noteDton { t.check (!(t.rtag i).rhsInf) with
      lhs := upd (t.check (!(t.rtag i).rhsInf)).lhs i ((t.check (!(t.rtag i).rhsInf)).rhs i)
      rtag := upd (t.check (!(t.rtag i).rhsInf)).rtag i { eq := true } } i
    generalize noteDton { t.check (!(t.rtag i).rhsInf) with
      lhs := upd (t.check (!(t.rtag i).rhsInf)).lhs i ((t.check (!(t.rtag i).rhsInf)).rhs i)
      rtag := upd (t.check (!(t.rtag i).rhsInf)).rtag i { eq := true } } i = u at e2 hr'
    have D2 := core_congr e2
    simp only [St.check] at D2
    rw [D1.m, D1.n, D1.A, D1.lhs, D1.rhs, D1.lb, D1.ub, D1.rtag, D1.ctag, D1.c, D1.off, D1.colSize,
      D1.log, eb] at D2
    subst hr'
    refine Or.inr (Or.inr ⟨rfl, fun x => x k, ?_, [], D2.log, ?_⟩)
    · refine eq_keeps (b := b) h ho (fun j hj => upd_ne _ _ hj) (fun j _ => rfl) (upd_same _ _ _) eb D2
        (hrside b hi eb) ?_
      intro x hx
      have g := hrrow b hi eb x hx
      obtain ⟨s1, s2, s3, s4⟩ := solveFor_le (b := b) h.nodup h.mem x
      have hrest := ((feas_iff_rest h x).mp hx).1
      rcases hdir with ⟨hc, hq, hab⟩ | ⟨hc, hq, hbe⟩
      · have g2 := (s2 hq).mp g
        refine ⟨(hcolk _).mpr ⟨(hcx x hx).1.mono g2, habove hab b (hrside b hi eb) x hrest⟩, ?_⟩
        exact mul_nonpos_of_nonpos_of_nonneg hc.le (sub_nonneg.mpr g2)
      · have g2 := (s4 hq).mp g
        refine ⟨(hcolk _).mpr ⟨hbelow hbe b (hrside b hi eb) x hrest, (hcx x hx).2.mono g2⟩, ?_⟩
        exact mul_nonpos_of_nonneg_of_nonpos hc.le (sub_nonpos.mpr g2)
    · intro σ x hx
      refine ⟨σ, rfl, ?_⟩
      have := hx _ h.mem (by simp only; rw [D2.colSize]; exact hkp)
      funext j
      by_cases e : j = k
      · subst e; rw [upd_same]; exact this
      · rw [upd_ne _ _ e]
  | toEqLhs =>
    rw [hd] at hr' hspec
    obtain ⟨hi, hdir⟩ := hspec
    obtain ⟨b, eb⟩ := hlf hi
    simp only at hr'
    have e1 : core (if (s.rtag i).rhsInf = true then locksNewRhs s (s.A i) else s) = core s := by
      split
      · exact core_locksNewRhs _ _
      · rfl
    generalize (if (s.rtag i).rhsInf = true then locksNewRhs s (s.A i) else s) = t at e1 hr'
    have D1 := core_congr e1
    have e2 := core_noteDton { t.check (!(t.rtag i).lhsInf) with
      rhs := upd (t.check (!(t.rtag i).lhsInf)).rhs i ((t.check (!(t.rtag i).lhsInf)).lhs i)
      rtag := upd (t.check (!(t.rtag i).lhsInf)).rtag i { eq := true } } i
    generalize noteDton { t.check (!(t.rtag i).lhsInf) with
      rhs := upd (t.check (!(t.rtag i).lhsInf)).rhs i ((t.check (!(t.rtag i).lhsInf)).lhs i)
      rtag := upd (t.check (!(t.rtag i).lhsInf)).rtag i { eq := true } } i = u at e2 hr'
    have D2 := core_congr e2
    simp only [St.check] at D2
    rw [D1.m, D1.n, D1.A, D1.lhs, D1.rhs, D1.lb, D1.ub, D1.rtag, D1.ctag, D1.c, D1.off, D1.colSize,
      D1.log, eb] at D2
    subst hr'
    refine Or.inr (Or.inr ⟨rfl, fun x => x k, ?_, [], D2.log, ?_⟩)
    · refine eq_keeps (b := b) h ho (fun j _ => rfl) (fun j hj => upd_ne _ _ hj) eb (upd_same _ _ _) D2
        (hlside b hi eb) ?_
      intro x hx
      have g := hlrow b hi eb x hx
      obtain ⟨s1, s2, s3, s4⟩ := solveFor_le (b := b) h.nodup h.mem x
      have hrest := ((feas_iff_rest h x).mp hx).1
      rcases hdir with ⟨hc, hq, hbe⟩ | ⟨hc, hq, hab⟩
      · have g2 := (s1 hq).mp g
        refine ⟨(hcolk _).mpr ⟨hbelow hbe b (hlside b hi eb) x hrest, (hcx x hx).2.mono g2⟩, ?_⟩
        exact mul_nonpos_of_nonneg_of_nonpos hc.le (sub_nonpos.mpr g2)
      · have g2 := (s3 hq).mp g
        refine ⟨(hcolk _).mpr ⟨(hcx x hx).1.mono g2, habove hab b (hlside b hi eb) x hrest⟩, ?_⟩
        exact mul_nonpos_of_nonpos_of_nonneg hc.le (sub_nonneg.mpr g2)
    · intro σ x hx
      refine ⟨σ, rfl, ?_⟩
      have := hx _ h.mem (by simp only; rw [D2.colSize]; exact hkp)
      funext j
      by_cases e : j = k
      · subst e; rw [upd_same]; exact this
      · rw [upd_ne _ _ e]

/-! ### Example -/

/-- `x0 + 2 x1 ≥ 4`, `x1 + x2 ≤ 3`, `x0 ∈ [0, 9]`, `x1 ∈ [0, 1]`, `x2 ≥ 0`, cost `x0 + x1 + x2`:
column `0` is implied free from below, so the first row becomes an equality. -/
def exStonIneq : St := initSt
  { m := 2, n := 3
    A := ofList [[(0, 1), (1, 2)], [(1, 1), (2, 1)]] []
    lhs := ofList [.fin 4, .ninf] .ninf
    rhs := ofList [.pinf, .fin 3] .pinf
    lb := ofList [.fin 0, .fin 0, .fin 0] .ninf
    ub := ofList [.fin 9, .fin 1, .pinf] .pinf
    c := ofList [1, 1, 1] 0 }

theorem exStonIneq_ready : StonReady exStonIneq 0 0 1 where
  iLt := by decide
  kLt := by decide
  row := by decide +kernel
  nodup := by decide +kernel
  mem := by decide +kernel
  q0 := by norm_num
  single := by
    intro j hj h0 _
    have hj : j < 2 := hj
    interval_cases j
    · exact absurd rfl h0
    · intro p hp
      have : p ∈ [((1 : ℕ), (1 : ℚ)), (2, 1)] := hp
      fin_cases this <;> decide
  cols := by
    intro p hp
    have : p ∈ [((0 : ℕ), (1 : ℚ)), (1, 2)] := hp
    fin_cases this <;> decide +kernel
  fin := by
    intro p hp
    have : p ∈ [((0 : ℕ), (1 : ℚ)), (1, 2)] := hp
    fin_cases this
    · exact ⟨fun _ => ⟨0, rfl⟩, fun _ => ⟨9, rfl⟩⟩
    · exact ⟨fun _ => ⟨0, rfl⟩, fun _ => ⟨1, rfl⟩⟩

example : exStonIneq.lhs 0 = .fin 4 ∧ (exStonIneq.rtag 0).lhsInf = false ∧
    (exStonIneq.rtag 0).rhsInf = true ∧ exStonIneq.off = .fin 0 ∧
    exStonIneq.lb 0 = .fin 0 ∧ exStonIneq.ub 0 = .fin 9 ∧
    Recomputed (exStonIneq.act 0) exStonIneq.ctag exStonIneq.lb exStonIneq.ub (exStonIneq.A 0) ∧
    (stonColStep (exStonIneq, UNCHANGED) 0).2 = REDUCED ∧
    ((stonColStep (exStonIneq, UNCHANGED) 0).1.rtag 0).eq = true := by
  unfold Recomputed; decide +kernel

/-- **C31, rows that are left alone.**  A singleton column of a row that was removed, or of a row that has no other
entry (such rows belong to the singleton row reduction), changes nothing: neither the state nor the status. -/
theorem C31_leaves_short_rows {s : St} {st : Status} {k i : ℕ} {q : ℚ} (hA : s.AT k = [(i, q)])
    (hk : (s.ctag k).inactive = false) (h : (s.rtag i).inactive = true ∨ s.rowSize i ≤ 1) :
    stonColStep (s, st) k = (s, st) := by
  have e : (s.check true).check true = s := by
    show ({ s with asrt := s.asrt && true && true } : St) = s
    rw [Bool.and_true, Bool.and_true]
  unfold stonColStep
  simp only [hA, hk, Bool.not_false, decide_true, e]
  rw [if_pos (by rcases h with h | h <;> simp [h])]

/-- The hypotheses hold for a state in which the row of a singleton column was removed. -/
example : exStonIneq.AT 0 = [(0, 1)] ∧ (exStonIneq.ctag 0).inactive = false ∧
    stonColStep ({ exStonIneq with rowSize := fun _ => 1 }, 4) 0 = ({ exStonIneq with rowSize := fun _ => 1 }, 4) :=
  ⟨by decide +kernel, by decide +kernel, C31_leaves_short_rows (i := 0) (q := 1) (by decide +kernel) (by decide +kernel)
    (.inr (le_refl 1))⟩

end Verif
