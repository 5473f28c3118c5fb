import Verif.Inv.Listed

/-!
# Rows waiting for propagation and row tags: redundant rows, propagation, parallel rows and columns
-/

namespace Verif

theorem OnlyLocks.lup {s t : St} (e : OnlyLocks s t) : Lup s t := by
  unfold OnlyLocks at e
  rw [e]
  exact .same id rfl rfl rfl rfl rfl rfl rfl

/-- The tag and the sides of one row change. -/
theorem Lup.row {s t : St} {i : ℕ} (ha : t.asrt = true → s.asrt = true) (hm : t.m = s.m) (hu : t.updActs = s.updActs)
    (hs : t.act = s.act) (hT : t.AT = s.AT) {x : RTag} {l r : D} (hr : t.rtag = Verif.upd s.rtag i x)
    (hl : t.lhs = Verif.upd s.lhs i l) (hh : t.rhs = Verif.upd s.rhs i r)
    (hx : t.asrt = true → TagRow (s.rtag i) (s.lhs i) (s.rhs i) → TagRow x l r) : Lup s t := by
  refine .of ha hm hu (fun j => by rw [hs]) (sub_of_eq hT) (fun o h => h.row (i := i) (fun j hj => ?_) (fun y => ?_))
  · rw [hr, hl, hh]; exact ⟨upd_ne _ _ hj, upd_ne _ _ hj, upd_ne _ _ hj⟩
  · rw [hr, hl, hh, upd_same, upd_same, upd_same]; exact hx o y

/-! ### Redundant rows and bounds -/

theorem checkActRow_lup (s : St) (row : ℕ) : Lup s (checkActRow s row).1 := by
  unfold checkActRow
  split
  · exact .refl s
  · rename_i hg
    simp only
    refine (Lup.check s (decide ((s.act row).nInfMin = 0 ∨ (s.act row).nInfMax = 0))).trans ?_
    have hg : ((s.check (decide ((s.act row).nInfMin = 0 ∨ (s.act row).nInfMax = 0))).rtag row).inactive = false := by
      simp only [Bool.or_eq_true, not_or, Bool.not_eq_true] at hg
      exact hg.1.1
    generalize s.check (decide ((s.act row).nInfMin = 0 ∨ (s.act row).nInfMax = 0)) = t at hg ⊢
    generalize checkActivity (t.act row) (t.lhs row) (t.rhs row) (t.rtag row) = v
    split
    · exact setRowToInactive_lup _ _ _
    · rename_i hn
      split
      · rename_i hl
        have hr : (t.rtag row).rhsInf = false := by
          rw [hl] at hn; simp at hn; exact hn.2
        have e := locksEqToIneq_only { t with rtag := upd t.rtag row { lhsInf := true } } (t.A row) true
        unfold OnlyLocks at e
        show Lup t { locksEqToIneq { t with rtag := upd t.rtag row { lhsInf := true } } (t.A row) true with
          lhs := upd (locksEqToIneq { t with rtag := upd t.rtag row { lhsInf := true } } (t.A row) true).lhs row .ninf }
        rw [e]
        exact .row (i := row) (x := { lhsInf := true }) (l := .ninf) (r := t.rhs row) id rfl rfl rfl rfl rfl rfl (upd_self _ _).symm
          (fun _ y => ⟨fun _ => rfl, (by simp), (by simp), fun _ _ => y.rFin hg hr, (by simp)⟩)
      · split
        · rename_i hl
          have hr : (t.rtag row).lhsInf = false := by
            rw [hl] at hn; simp at hn; exact hn.2
          have e := locksEqToIneq_only { t with rtag := upd t.rtag row { rhsInf := true } } (t.A row) false
          unfold OnlyLocks at e
          show Lup t { locksEqToIneq { t with rtag := upd t.rtag row { rhsInf := true } } (t.A row) false with
            rhs := upd (locksEqToIneq { t with rtag := upd t.rtag row { rhsInf := true } } (t.A row) false).rhs row .pinf }
          rw [e]
          exact .row (i := row) (x := { rhsInf := true }) (l := t.lhs row) (r := .pinf) id rfl rfl rfl rfl rfl (upd_self _ _).symm rfl
            (fun _ y => ⟨(by simp), fun _ _ => y.lFin hg hr, fun _ => rfl, (by simp), (by simp)⟩)
        · exact .refl t

theorem checkActLoop_lup (L : List ℕ) (s : St) : Lup s (checkActLoop L s).1 := by
  induction L generalizing s with
  | nil => exact .refl s
  | cons row rest ih =>
    unfold checkActLoop
    simp only
    split
    · exact checkActRow_lup s row
    · exact (checkActRow_lup s row).trans (ih _)

theorem checkActivities_lup (s : St) : Lup s (checkActivities s).1 := by
  unfold checkActivities
  simp only
  split
  · exact checkActLoop_lup _ _
  · exact (checkActLoop_lup _ _).trans (deleteInactiveRows_lup _)

theorem actFold_status (f : (ℕ → Act) → Cell → ℕ → Act) (h : ∀ a p i, (f a p i).status = (a i).status) (cells : List Cell)
    (act : ℕ → Act) (i : ℕ) : (cells.foldl f act i).status = (act i).status := by
  induction cells generalizing act with
  | nil => rfl
  | cons p cells ih => rw [List.foldl_cons, ih, h]

theorem removeFiniteLb_status (act : ℕ → Act) (cells : List Cell) (b : D) (i : ℕ) :
    (removeFiniteLb act cells b i).status = (act i).status := by
  refine actFold_status _ (fun a p i => ?_) cells act i
  simp only
  split_ifs <;> first | rfl | (by_cases e : i = p.1 <;> simp [Verif.upd, e])

theorem removeFiniteUb_status (act : ℕ → Act) (cells : List Cell) (b : D) (i : ℕ) :
    (removeFiniteUb act cells b i).status = (act i).status := by
  refine actFold_status _ (fun a p i => ?_) cells act i
  simp only
  split_ifs <;> first | rfl | (by_cases e : i = p.1 <;> simp [Verif.upd, e])

theorem removeRedundantBounds_lup (s : St) : Lup s (removeRedundantBounds s) := by
  refine Lup.foldl relaxCol (fun s k => ?_) (relaxOrder s) s
  unfold relaxCol
  simp only
  split_ifs
  · exact .refl s
  · exact .of id rfl rfl (removeFiniteLb_status _ _ _) (sub_of_eq rfl) (fun _ => id)
  · exact .refl s
  · exact .of id rfl rfl (removeFiniteUb_status _ _ _) (sub_of_eq rfl) (fun _ => id)
  · exact .refl s

/-! ### Propagation -/

theorem propLb_lup (fbt : Bool) (s : St) (k : ℕ) (b : D) : Lup s (propLb fbt s k b).1 := by
  unfold propLb
  simp only
  refine ((Lup.check s (!D.isInf b && !(s.ctag k).inactive)).trans
    (Lup.check _ (((s.ctag k).lbInf || D.le (s.lb k) b) && !isHuge b))).trans ?_
  have hl : s.lb = ((s.check (!D.isInf b && !(s.ctag k).inactive)).check
    (((s.ctag k).lbInf || D.le (s.lb k) b) && !isHuge b)).lb := rfl
  have hu : s.ub = ((s.check (!D.isInf b && !(s.ctag k).inactive)).check
    (((s.ctag k).lbInf || D.le (s.lb k) b) && !isHuge b)).ub := rfl
  have hc : s.ctag = ((s.check (!D.isInf b && !(s.ctag k).inactive)).check
    (((s.ctag k).lbInf || D.le (s.lb k) b) && !isHuge b)).ctag := rfl
  have hT : s.AT = ((s.check (!D.isInf b && !(s.ctag k).inactive)).check
    (((s.ctag k).lbInf || D.le (s.lb k) b) && !isHuge b)).AT := rfl
  generalize (s.check (!D.isInf b && !(s.ctag k).inactive)).check
    (((s.ctag k).lbInf || D.le (s.lb k) b) && !isHuge b) = t at *
  rw [hl, hu, hc, hT]
  split
  · exact .refl t
  · split
    · exact ((Lup.save t _).trans (Lup.fuzz _ _)).trans (fixCol_lup _ _ _ _)
    · split
      · generalize (if isIntegral b then b else D.sub b (D.smul BOUND_MARGINAL (D.abs b))) = b'
        have e := updActsBoundChange_lup { t with ctag := upd t.ctag k { t.ctag k with lbInf := false }, lb := upd t.lb k b' }
          k (t.lb k) b' (!(t.ctag k).lbInf) true
        refine Lup.trans (t := { t with ctag := upd t.ctag k { t.ctag k with lbInf := false }, lb := upd t.lb k b' }) ?_
          (e.trans (Lup.save _ _))
        exact .same id rfl rfl rfl rfl rfl rfl rfl
      · exact .refl t

theorem propUb_lup (fbt : Bool) (s : St) (k : ℕ) (b : D) : Lup s (propUb fbt s k b).1 := by
  unfold propUb
  simp only
  refine ((Lup.check s (!D.isInf b && !(s.ctag k).inactive)).trans
    (Lup.check _ (((s.ctag k).ubInf || D.le b (s.ub k)) && !isHuge b))).trans ?_
  have hl : s.lb = ((s.check (!D.isInf b && !(s.ctag k).inactive)).check
    (((s.ctag k).ubInf || D.le b (s.ub k)) && !isHuge b)).lb := rfl
  have hu : s.ub = ((s.check (!D.isInf b && !(s.ctag k).inactive)).check
    (((s.ctag k).ubInf || D.le b (s.ub k)) && !isHuge b)).ub := rfl
  have hc : s.ctag = ((s.check (!D.isInf b && !(s.ctag k).inactive)).check
    (((s.ctag k).ubInf || D.le b (s.ub k)) && !isHuge b)).ctag := rfl
  have hT : s.AT = ((s.check (!D.isInf b && !(s.ctag k).inactive)).check
    (((s.ctag k).ubInf || D.le b (s.ub k)) && !isHuge b)).AT := rfl
  generalize (s.check (!D.isInf b && !(s.ctag k).inactive)).check
    (((s.ctag k).ubInf || D.le b (s.ub k)) && !isHuge b) = t at *
  rw [hl, hu, hc, hT]
  split
  · exact .refl t
  · split
    · exact ((Lup.save t _).trans (Lup.fuzz _ _)).trans (fixCol_lup _ _ _ _)
    · split
      · generalize (if isIntegral b then b else D.add b (D.smul BOUND_MARGINAL (D.abs b))) = b'
        have e := updActsBoundChange_lup { t with ctag := upd t.ctag k { t.ctag k with ubInf := false }, ub := upd t.ub k b' }
          k (t.ub k) b' (!(t.ctag k).ubInf) false
        refine Lup.trans (t := { t with ctag := upd t.ctag k { t.ctag k with ubInf := false }, ub := upd t.ub k b' }) ?_
          (e.trans (Lup.save _ _))
        exact .same id rfl rfl rfl rfl rfl rfl rfl
      · exact .refl t

theorem propTryUb_lup (fbt : Bool) (acc : PropAcc) (k : ℕ) (b : D) : Lup acc.1 (propTryUb fbt acc k b).1 := by
  unfold propTryUb
  simp only
  split
  · exact propUb_lup _ _ _ _
  · exact .refl _

theorem propTryLb_lup (fbt : Bool) (acc : PropAcc) (k : ℕ) (b : D) : Lup acc.1 (propTryLb fbt acc k b).1 := by
  unfold propTryLb
  simp only
  split
  · exact propLb_lup _ _ _ _
  · exact .refl _

theorem accFold_lup (f : PropAcc → Cell → PropAcc) (h : ∀ acc p, Lup acc.1 (f acc p).1) (L : List Cell) (acc : PropAcc) :
    Lup acc.1 (L.foldl f acc).1 := by
  induction L generalizing acc with
  | nil => exact .refl _
  | cons p L ih => exact (h acc p).trans (ih _)

theorem propRhs_lup (fbt : Bool) (i : ℕ) (acc : PropAcc) : Lup acc.1 (propRhs fbt i acc).1 := by
  unfold propRhs
  simp only
  split
  · refine accFold_lup _ (fun acc p => ?_) _ _
    unfold propRhsCell
    simp only
    split
    · exact .refl _
    · split
      · exact propTryUb_lup _ _ _ _
      · exact propTryLb_lup _ _ _ _
  · split
    · split
      · exact Lup.flag _ _
      · split
        · exact (Lup.check acc.1 _).trans <| propTryUb_lup fbt (St.check acc.1 _, acc.2) _ _
        · exact (Lup.check acc.1 _).trans <| propTryLb_lup fbt (St.check acc.1 _, acc.2) _ _
    · exact .refl _

theorem propLhs_lup (fbt : Bool) (i : ℕ) (acc : PropAcc) : Lup acc.1 (propLhs fbt i acc).1 := by
  unfold propLhs
  simp only
  split
  · refine accFold_lup _ (fun acc p => ?_) _ _
    unfold propLhsCell
    simp only
    split
    · exact .refl _
    · split
      · exact propTryLb_lup _ _ _ _
      · exact propTryUb_lup _ _ _ _
  · split
    · split
      · exact Lup.flag _ _
      · split
        · exact (Lup.check acc.1 _).trans <| propTryLb_lup fbt (St.check acc.1 _, acc.2) _ _
        · exact (Lup.check acc.1 _).trans <| propTryUb_lup fbt (St.check acc.1 _, acc.2) _ _
    · exact .refl _

theorem propRow_lup (fbt : Bool) (s : St) (i : ℕ) : Lup s (propRow fbt s i).1 := by
  unfold propRow
  simp only
  have h := ((Lup.check s (!(s.rtag i).inactive)).trans (propRhs_lup fbt i (s.check (!(s.rtag i).inactive), UNCHANGED, 0))).trans
    (propLhs_lup fbt i _)
  split
  · exact h.trans (Lup.save _ _)
  · exact h

/-- What the loop of propagation keeps: a listed row may have any status. -/
structure UpW (s t : St) : Prop where
  asrt : t.asrt = true → s.asrt = true
  weak : Weak s → Weak t
  tag : t.asrt = true → Weak s → TagOK s → TagOK t

theorem Lup.w {s t : St} (h : Lup s t) : UpW s t := ⟨h.asrt, h.weak, h.tag⟩

theorem UpW.trans {s t u : St} (h : UpW s t) (h' : UpW t u) : UpW s u :=
  ⟨fun o => h.asrt (h'.asrt o), fun x => h'.weak (h.weak x), fun o w x => h'.tag o (h.weak w) (h.tag (h'.asrt o) w x)⟩

theorem propLoop_upw (fbt : Bool) (fuel ii : ℕ) (s : St) : UpW s (propLoop fbt fuel ii s).1 := by
  induction fuel generalizing ii s with
  | zero => exact (Lup.flag _ _).w
  | succ fuel ih =>
    unfold propLoop
    split
    · exact (Lup.refl s).w
    · rename_i i hi
      split
      · exact ih _ _
      · simp only
        have h0 : UpW s { s with act := upd s.act i { s.act i with status := .propagatedThisRound } } := by
          refine ⟨id, fun w => ⟨w.range, fun j hj => ?_, w.rows⟩, fun _ _ => id⟩
          have hj : s.m ≤ j := hj
          have := w.range i (List.mem_of_getElem? hi)
          show (upd s.act i _ j).status = _
          rw [upd_ne _ _ (by omega)]
          exact w.status j hj
        split
        · exact h0.trans (propRow_lup _ _ _).w
        · exact (h0.trans (propRow_lup _ _ _).w).trans (ih _ _)

theorem nextFold_spec (L l : List ℕ) (hl : l.Nodup) :
    (L.foldl (fun l i => if i ∈ l then l else l ++ [i]) l).Nodup ∧
      ∀ i ∈ L.foldl (fun l i => if i ∈ l then l else l ++ [i]) l, i ∈ l ∨ i ∈ L := by
  induction L generalizing l with
  | nil => exact ⟨hl, fun i h => .inl h⟩
  | cons a L ih =>
    rw [List.foldl_cons]
    split
    · refine ⟨(ih l hl).1, fun i h => ((ih l hl).2 i h).imp id (List.mem_cons_of_mem _)⟩
    · rename_i ha
      have hn : (l ++ [a]).Nodup := by
        rw [List.nodup_append]
        exact ⟨hl, List.nodup_singleton _, fun x hx y hy e => ha (by rw [← List.mem_singleton.mp hy, ← e]; exact hx)⟩
      refine ⟨(ih _ hn).1, fun i h => ?_⟩
      rcases (ih _ hn).2 i h with h | h
      · rcases List.mem_append.mp h with h | h
        · exact .inl h
        · rw [List.mem_singleton.mp h]; exact .inr List.mem_cons_self
      · exact .inr (List.mem_cons_of_mem _ h)

/-- After propagation the list is in order again. -/
theorem propReset_ok {s : St} (w : Weak s) : UpdOK (propReset s) := by
  have hN := nextFold_spec (s.updActs.filter (fun i => decide ((s.act i).status = .propagateNextRound))) [] List.nodup_nil
  have hr : ∀ i ∈ propNext s, i < s.m := by
    intro i hi
    rcases hN.2 i hi with h | h
    · cases h
    · exact w.range i (List.mem_filter.mp h).1
  have ha : ∀ i, ((propReset s).act i).status = if i ∈ propNext s then .added else .notAdded := by
    intro i
    show (if i ∈ propNext s then _ else if i < s.m then _ else s.act i : Act).status = _
    split
    · rfl
    · split
      · rfl
      · exact w.status i (by omega)
  refine ⟨hN.1, fun i => ?_, hr, fun i => ?_, w.rows⟩
  · rw [ha]
    show i ∈ propNext s ↔ _
    split <;> simp_all
  · rw [ha]
    split <;> simp

theorem propReset_lup (s : St) : UpW s (propReset s) :=
  ⟨id, fun w => (propReset_ok w).weak, fun _ _ => id⟩

theorem propTail_lup (t : St) : Lup (propReset t) (removeEmptyRows ((deleteInactiveCols (deleteFixedCols (propReset t))).check
    (decide ((deleteInactiveCols (deleteFixedCols (propReset t))).rowsToDelete = [])))).1 := by
  refine (delCols_lup _).trans ?_
  generalize deleteInactiveCols (deleteFixedCols (propReset t)) = t
  exact (Lup.check t _).trans (removeEmptyRows_lup _)

theorem propagatePrimal_lup (fbt : Bool) (s : St) (hf : (propagatePrimal fbt s).2 ≠ INFEASIBLE) :
    Lup s (propagatePrimal fbt s).1 := by
  revert hf
  unfold propagatePrimal
  simp only
  have h1 := (Lup.check s (decide (s.stonRows = []))).trans (Lup.check _ (decide (s.emptyRows = [])))
  have hp := h1.w.trans (propLoop_upw fbt (s.updActs.length + 2 * s.m + 1) 0
    ((s.check (decide (s.stonRows = []))).check (decide (s.emptyRows = []))))
  have e : ((s.check (decide (s.stonRows = []))).check (decide (s.emptyRows = []))).updActs.length +
    2 * ((s.check (decide (s.stonRows = []))).check (decide (s.emptyRows = []))).m + 1 = s.updActs.length + 2 * s.m + 1 := rfl
  rw [e]
  generalize propLoop fbt (s.updActs.length + 2 * s.m + 1) 0
    ((s.check (decide (s.stonRows = []))).check (decide (s.emptyRows = []))) = r at hp ⊢
  split
  · rename_i h
    exact fun hf => absurd h hf
  · intro _
    have ht := propTail_lup r.1
    have hw := (hp.trans (propReset_lup r.1)).trans ht.w
    exact ⟨hw.asrt, fun x => ht.upd (propReset_ok (hp.weak x.weak)), hw.weak, hw.tag⟩

/-! ### Parallel columns -/

theorem mergeCols_lup (s : St) (j k : ℕ) (ratio : ℚ) : Lup s (mergeCols s j k ratio) := by
  unfold mergeCols
  simp only
  refine Lup.trans (t := { s with
    lb := upd s.lb j (mergeLb ratio (s.lb j) (s.ctag j) (s.lb k) (s.ub k) (s.ctag k))
    ub := upd s.ub j (mergeUb ratio (s.ub j) (s.ctag j) (s.lb k) (s.ub k) (s.ctag k))
    ctag := upd s.ctag j (mergeTag ratio (s.ctag j) (s.ctag k))
    tiny := s.tiny || mergeInexact s j k ratio }) (.same id rfl rfl rfl rfl rfl rfl rfl) ?_
  generalize ({ s with
      lb := upd s.lb j (mergeLb ratio (s.lb j) (s.ctag j) (s.lb k) (s.ub k) (s.ctag k))
      ub := upd s.ub j (mergeUb ratio (s.ub j) (s.ctag j) (s.lb k) (s.ub k) (s.ctag k))
      ctag := upd s.ctag j (mergeTag ratio (s.ctag j) (s.ctag k))
      tiny := s.tiny || mergeInexact s j k ratio } : St) = t
  refine Lup.trans (t := setColToSubstituted t k) ?_ (Lup.save _ _)
  exact (Lup.check t (!(t.ctag k).inactive)).trans (.same id rfl rfl rfl rfl rfl rfl rfl)

theorem parColInner_lup (j : ℕ) (cj aj0 : ℚ) (L : List ℕ) (s : St) (b : Bool) :
    Lup s (parColInner j cj aj0 L s b).1 := by
  induction L generalizing s b with
  | nil => exact .refl s
  | cons k rest ih =>
    unfold parColInner
    split
    · exact ih s b
    · simp only
      refine (Lup.check s (decide (firstCoef (s.AT k) / aj0 ≠ 0))).trans ?_
      split
      · exact (mergeCols_lup _ _ _ _).trans (ih _ _)
      · refine (Lup.check _ (!((s.check (decide (firstCoef (s.AT k) / aj0 ≠ 0))).ctag j).inactive &&
          decide (s.c k ≠ firstCoef (s.AT k) / aj0 * cj))).trans ?_
        generalize ((s.check (decide (firstCoef (s.AT k) / aj0 ≠ 0))).check
          (!((s.check (decide (firstCoef (s.AT k) / aj0 ≠ 0))).ctag j).inactive &&
          decide (s.c k ≠ firstCoef (s.AT k) / aj0 * cj))) = t
        split
        · exact ih _ _
        · split
          · exact .refl _
          · exact (fixCol_lup _ _ _ _).trans (ih _ _)
        · split
          · exact .refl _
          · exact (fixCol_lup _ _ _ _).trans (ih _ _)
        · split
          · exact .refl _
          · exact fixCol_lup _ _ _ _
        · split
          · exact .refl _
          · exact fixCol_lup _ _ _ _

theorem recountRows_lup (s : St) (cells : List Cell) : Lup s (recountRows s cells) := by
  unfold recountRows
  exact Lup.foldl (fun (s : St) (p : Cell) =>
    { s with act := upd s.act p.1 (recomputeNInfs s.ctag (s.act p.1) (s.A p.1)) })
    (fun s p => Lup.act s p.1 _ rfl) _ _

theorem parColsBin_lup (L : List ℕ) (s : St) : Lup s (parColsBin L s).1 := by
  induction L generalizing s with
  | nil => exact .refl s
  | cons j rest ih =>
    unfold parColsBin
    split
    · exact .refl s
    · split
      · exact ih s
      · simp only
        have h := (Lup.flag s ((j :: rest).any (fun i => !(s.ctag i).inactive && decide (s.AT i = [])))).trans
          (parColInner_lup j (s.c j) (firstCoef (s.AT j)) rest _ false)
        split
        · exact h
        · refine h.trans (Lup.trans ?_ (ih _))
          split
          · exact recountRows_lup _ _
          · exact .refl _

theorem removeParallelCols_lup (env : Env) (s : St) : Lup s (removeParallelCols env s).1 := by
  unfold removeParallelCols
  simp only
  refine (((Lup.check s (decide (s.stonRows = []))).trans (Lup.check _ (decide (s.emptyRows = [])))).trans
    (Lup.check _ (decide (s.emptyCols = [])))).trans ?_
  generalize ((s.check (decide (s.stonRows = []))).check (decide (s.emptyRows = []))).check (decide (s.emptyCols = [])) = t
  refine Lup.trans ?_ (delCols_lup _)
  have key : ∀ (G : List (List ℕ)) (a : St × Status),
      Lup a.1 (G.foldl (fun acc bin => let r := parColsBin bin acc.1; (r.1, acc.2 ||| r.2)) a).1 := by
    intro G
    induction G with
    | nil => exact fun a => .refl _
    | cons g G ih =>
      intro a
      rw [List.foldl_cons]
      exact (parColsBin_lup g a.1).trans (ih ((parColsBin g a.1).1, a.2 ||| (parColsBin g a.1).2))
  have h0 : Lup t { t with tick := t.tick + 1 } := .same id rfl rfl rfl rfl rfl rfl rfl
  exact h0.trans (key _ ({ t with tick := t.tick + 1 }, UNCHANGED))

/-! ### Parallel rows -/

theorem not_eqb_of_tol {a b : D} (h : isEqualFeasTol a b = false) (hb : D.isInf b = false) : D.eqb a b = false := by
  cases a <;> cases b <;> simp_all [D.eqb, D.isInf]
  rintro rfl
  revert h
  simp [abs_nonneg, FEAS_TOL]

theorem changeRhs_lup (s : St) (i : ℕ) (v : D) (other : ℕ) (ratio : ℚ) : Lup s (changeRhs s i v other ratio).1 := by
  unfold changeRhs
  simp only
  refine Lup.trans (t := (s.check (!((s.rtag i).eq || (s.rtag i).inactive))).check (!D.isInf v))
    ((Lup.check _ _).trans (Lup.check _ _)) ?_
  have hno : ((s.check (!((s.rtag i).eq || (s.rtag i).inactive))).check (!D.isInf v)).asrt = true →
      (((s.check (!((s.rtag i).eq || (s.rtag i).inactive))).check (!D.isInf v)).rtag i).inactive = false ∧ D.isInf v = false := by
    intro h
    have h : (s.asrt && !((s.rtag i).eq || (s.rtag i).inactive) && !D.isInf v) = true := h
    simp only [Bool.and_eq_true, Bool.not_eq_true', Bool.or_eq_false_iff] at h
    exact ⟨h.1.2.2, h.2⟩
  generalize (s.check (!((s.rtag i).eq || (s.rtag i).inactive))).check (!D.isInf v) = s at hno ⊢
  split
  · exact .refl s
  · have h1 : Lup s (s.check ((s.rtag i).rhsInf || D.lt v (s.rhs i))) := Lup.check _ _
    have hr : (s.check ((s.rtag i).rhsInf || D.lt v (s.rhs i))).rtag = s.rtag := rfl
    generalize s.check ((s.rtag i).rhsInf || D.lt v (s.rhs i)) = t at h1 hr ⊢
    have h2 : ∀ b : Bool, Lup t (if b then locksNewRhs t (t.A i) else t) ∧ (if b then locksNewRhs t (t.A i) else t).rtag = t.rtag := by
      intro b
      cases b with
      | false => exact ⟨.refl t, rfl⟩
      | true =>
        refine ⟨(locksNewRhs_only t (t.A i)).lup, ?_⟩
        have e := locksNewRhs_only t (t.A i)
        unfold OnlyLocks at e
        show (locksNewRhs t (t.A i)).rtag = _
        rw [e]
    obtain ⟨h2, hr2⟩ := h2 (s.rtag i).rhsInf
    generalize (if (s.rtag i).rhsInf = true then locksNewRhs t (t.A i) else t) = u at h2 hr2 ⊢
    refine (h1.trans h2).trans (Lup.trans ?_ (Lup.save _ _))
    have hno : u.asrt = true → (u.rtag i).inactive = false ∧ D.isInf v = false := by
      intro h
      have := hno (h1.asrt (h2.asrt h))
      rw [hr2, hr]; exact this
    simp only [upd_same]
    split
    · rename_i he
      have hl : (u.rtag i).lhsInf = false := by
        simp only [Bool.and_eq_true, Bool.not_eq_true'] at he
        exact he.1
      have key : ∀ l, Lup u { u with rhs := upd (upd u.rhs i v) i (u.lhs i)
                                     rtag := upd (upd u.rtag i { u.rtag i with rhsInf := false }) i
                                       { u.rtag i with rhsInf := false, eq := true }
                                     dtonRows := l } := by
        intro l
        refine .row (i := i) (x := { u.rtag i with rhsInf := false, eq := true }) (l := u.lhs i) (r := u.lhs i)
          id rfl rfl rfl rfl (upd_upd _ _ _ _) (upd_self _ _).symm (upd_upd _ _ _ _) (fun o y => ?_)
        obtain ⟨ho, _⟩ := hno o
        exact ⟨y.lInf, y.lFin, (by simp), fun _ _ => y.lFin ho hl, fun _ _ _ _ => rfl⟩
      split
      · exact key _
      · exact key _
    · rename_i he
      refine .row (i := i) (x := { u.rtag i with rhsInf := false }) (l := u.lhs i) (r := v)
          id rfl rfl rfl rfl rfl (upd_self _ _).symm rfl (fun o y => ?_)
      obtain ⟨ho, hv⟩ := hno o
      refine ⟨y.lInf, y.lFin, (by simp), fun _ _ => hv, fun _ hl _ hq => ?_⟩
      have hl : (u.rtag i).lhsInf = false := hl
      rw [hl] at he
      simp only [Bool.not_false, Bool.true_and, Bool.not_eq_true] at he
      rw [not_eqb_of_tol he hv] at hq
      cases hq

theorem changeLhs_lup (s : St) (i : ℕ) (v : D) (other : ℕ) (ratio : ℚ) : Lup s (changeLhs s i v other ratio).1 := by
  unfold changeLhs
  simp only
  refine Lup.trans (t := (s.check (!((s.rtag i).eq || (s.rtag i).inactive))).check (!D.isInf v))
    ((Lup.check _ _).trans (Lup.check _ _)) ?_
  have hno : ((s.check (!((s.rtag i).eq || (s.rtag i).inactive))).check (!D.isInf v)).asrt = true →
      (((s.check (!((s.rtag i).eq || (s.rtag i).inactive))).check (!D.isInf v)).rtag i).inactive = false ∧ D.isInf v = false := by
    intro h
    have h : (s.asrt && !((s.rtag i).eq || (s.rtag i).inactive) && !D.isInf v) = true := h
    simp only [Bool.and_eq_true, Bool.not_eq_true', Bool.or_eq_false_iff] at h
    exact ⟨h.1.2.2, h.2⟩
  generalize (s.check (!((s.rtag i).eq || (s.rtag i).inactive))).check (!D.isInf v) = s at hno ⊢
  split
  · exact .refl s
  · have h1 : Lup s (s.check ((s.rtag i).lhsInf || D.lt (s.lhs i) v)) := Lup.check _ _
    have hr : (s.check ((s.rtag i).lhsInf || D.lt (s.lhs i) v)).rtag = s.rtag := rfl
    generalize s.check ((s.rtag i).lhsInf || D.lt (s.lhs i) v) = t at h1 hr ⊢
    have h2 : ∀ b : Bool, Lup t (if b then locksNewLhs t (t.A i) else t) ∧ (if b then locksNewLhs t (t.A i) else t).rtag = t.rtag := by
      intro b
      cases b with
      | false => exact ⟨.refl t, rfl⟩
      | true =>
        refine ⟨(locksNewLhs_only t (t.A i)).lup, ?_⟩
        have e := locksNewLhs_only t (t.A i)
        unfold OnlyLocks at e
        show (locksNewLhs t (t.A i)).rtag = _
        rw [e]
    obtain ⟨h2, hr2⟩ := h2 (s.rtag i).lhsInf
    generalize (if (s.rtag i).lhsInf = true then locksNewLhs t (t.A i) else t) = u at h2 hr2 ⊢
    refine (h1.trans h2).trans (Lup.trans ?_ (Lup.save _ _))
    have hno : u.asrt = true → (u.rtag i).inactive = false ∧ D.isInf v = false := by
      intro h
      have := hno (h1.asrt (h2.asrt h))
      rw [hr2, hr]; exact this
    simp only [upd_same]
    split
    · rename_i he
      have hl : (u.rtag i).rhsInf = false := by
        simp only [Bool.and_eq_true, Bool.not_eq_true'] at he
        exact he.1
      have key : ∀ l, Lup u { u with lhs := upd (upd u.lhs i v) i (u.rhs i)
                                     rtag := upd (upd u.rtag i { u.rtag i with lhsInf := false }) i
                                       { u.rtag i with lhsInf := false, eq := true }
                                     dtonRows := l } := by
        intro l
        refine .row (i := i) (x := { u.rtag i with lhsInf := false, eq := true }) (l := u.rhs i) (r := u.rhs i)
          id rfl rfl rfl rfl (upd_upd _ _ _ _) (upd_upd _ _ _ _) (upd_self _ _).symm (fun o y => ?_)
        obtain ⟨ho, _⟩ := hno o
        exact ⟨(by simp), fun _ _ => y.rFin ho hl, y.rInf, y.rFin, fun _ _ _ _ => rfl⟩
      split
      · exact key _
      · exact key _
    · rename_i he
      refine .row (i := i) (x := { u.rtag i with lhsInf := false }) (l := v) (r := u.rhs i)
          id rfl rfl rfl rfl rfl rfl (upd_self _ _).symm (fun o y => ?_)
      obtain ⟨ho, hv⟩ := hno o
      refine ⟨(by simp), fun _ _ => hv, y.rInf, y.rFin, fun _ _ hl hq => ?_⟩
      have hl : (u.rtag i).rhsInf = false := hl
      rw [hl] at he
      simp only [Bool.not_false, Bool.true_and, Bool.not_eq_true] at he
      have hq : D.eqb (u.rhs i) v = true := by
        revert hq; cases v <;> cases u.rhs i <;> simp [D.eqb, eq_comm]
      rw [not_eqb_of_tol he hv] at hq
      cases hq

theorem parApply_lup (s : St) (p : ParRow) : Lup s (parApply s p).1 := by
  unfold parApply
  split
  · exact .refl s
  · simp only
    have h1 : Lup s (if (!p.rhsInf && !D.eqb p.newRhs (s.rhs p.rem)) = true then
        changeRhs s p.rem p.newRhs p.rhsIdx p.rhsRatio else (s, UNCHANGED)).1 := by
      split
      · exact changeRhs_lup _ _ _ _ _
      · exact .refl s
    generalize (if (!p.rhsInf && !D.eqb p.newRhs (s.rhs p.rem)) = true then
        changeRhs s p.rem p.newRhs p.rhsIdx p.rhsRatio else (s, UNCHANGED)) = r at h1 ⊢
    split
    · exact h1
    · split
      · exact h1.trans (changeLhs_lup _ _ _ _ _)
      · exact h1

theorem parRowsBin_lup (s : St) (bin : List ℕ) : Lup s (parRowsBin s bin).1 := by
  unfold parRowsBin
  split
  · exact .refl s
  · rename_i r rest
    simp only
    refine (Lup.flag s ((r :: rest).any (fun i => decide (s.A i = [])))).trans ?_
    generalize s.flag ((r :: rest).any (fun i => decide (s.A i = []))) = t
    split
    · exact .refl t
    · rename_i p _
      have h := parApply_lup t p
      split
      · exact h
      · refine h.trans (Lup.foldl _ (fun s i => ?_) _ _)
        split
        · exact .refl s
        · exact setRowToInactive_lup _ _ _

theorem parRowsBins_lup (G : List (List ℕ)) (s : St) : Lup s (parRowsBins G s).1 := by
  induction G generalizing s with
  | nil => exact .refl s
  | cons g G ih =>
    unfold parRowsBins
    simp only
    split
    · exact parRowsBin_lup _ _
    · exact (parRowsBin_lup _ _).trans (ih _)

theorem removeParallelRows_lup (env : Env) (s : St) : Lup s (removeParallelRows env s).1 := by
  unfold removeParallelRows
  simp only
  refine (((Lup.check s (decide (s.stonRows = []))).trans (Lup.check _ (decide (s.emptyRows = [])))).trans
    (Lup.check _ (decide (s.emptyCols = [])))).trans ?_
  generalize ((s.check (decide (s.stonRows = []))).check (decide (s.emptyRows = []))).check (decide (s.emptyCols = [])) = t
  have h0 : Lup t { t with tick := t.tick + 1 } := .same id rfl rfl rfl rfl rfl rfl rfl
  exact (h0.trans (parRowsBins_lup _ _)).trans (deleteInactiveRows_lup _)

end Verif
