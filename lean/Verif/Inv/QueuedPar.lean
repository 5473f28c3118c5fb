import Verif.Inv.Queued

/-!
# Lists of short rows and columns: redundant rows, propagation, parallel rows and columns
-/

namespace Verif

/-- One row tag changes, but neither its activity nor its kind. -/
theorem Fr.tag {s t : St} {i : ℕ} {x : RTag} (hi : (s.rtag i).inactive = true → x.inactive = true)
    (he : x.eq = (s.rtag i).eq) (ha : t.asrt = true → s.asrt = true)
    (hA : t.A = s.A) (hT : t.AT = s.AT) (hr : t.rtag = upd s.rtag i x) (hc : t.ctag = s.ctag)
    (h1 : t.stonRows = s.stonRows) (h2 : t.dtonRows = s.dtonRows) (h3 : t.stonCols = s.stonCols) : Fr s t := by
  refine ⟨ha, fun j => .inr (by rw [hA]), fun k => .inl (by rw [hT]), fun j hj => ?_, fun j => .inr ?_,
    fun k => by rw [hc]; exact id, h1, h2, h3⟩
  · rw [hr]
    by_cases e : j = i
    · rw [e, upd_same]; exact hi (e ▸ hj)
    · rw [upd_ne _ _ e]; exact hj
  · rw [hr]
    by_cases e : j = i
    · rw [e, upd_same]; exact he
    · rw [upd_ne _ _ e]

/-- An inequality becomes an equality and is listed if it is a doubleton. -/
theorem Keep.toEq {s t : St} {i : ℕ} {x : RTag} (hi : (s.rtag i).inactive = true → x.inactive = true)
    (ha : t.asrt = true → s.asrt = true ∧ (s.rtag i).eq = false ∧ (s.rtag i).inactive = false) (hx : x.eq = true)
    (hA : t.A = s.A) (hT : t.AT = s.AT) (hr : t.rtag = upd s.rtag i x) (hc : t.ctag = s.ctag)
    (h1 : t.stonRows = s.stonRows) (h3 : t.stonCols = s.stonCols)
    (h2 : t.dtonRows = if (s.A i).length = 2 then s.dtonRows ++ [i] else s.dtonRows) : Keep s t := by
  intro o
  obtain ⟨ha, hne, hni⟩ := ha o
  have hsub : ∀ j ∈ s.dtonRows, j ∈ t.dtonRows := by
    intro j hj
    rw [h2]
    split
    · exact List.mem_append_left _ hj
    · exact hj
  have hmono : ∀ j, (t.rtag j).inactive = false → (s.rtag j).inactive = false := by
    intro j hj
    refine act_of_imp (fun h => ?_) hj
    rw [hr]
    by_cases e : j = i
    · rw [e, upd_same]; exact hi (e ▸ h)
    · rw [upd_ne _ _ e]; exact h
  refine ⟨ha, fun c => ⟨?_, ?_, ?_, ?_, by rw [hc, hT, h3]; exact c.col, by rw [hT, h3]; exact c.colMem,
    by rw [h3]; exact c.colNodup⟩⟩
  · intro j p hj hp hk
    rw [h1]
    exact c.ston j p (hmono j hj) (hA ▸ hp) (hc ▸ hk)
  · intro j hj hl he
    rw [hA] at hl
    by_cases e : j = i
    · rw [h2, if_pos (e ▸ hl), e]; exact List.mem_append_right _ List.mem_cons_self
    · rw [hr, upd_ne _ _ e] at he; exact hsub j (c.dton j (hmono j hj) hl he)
  · intro j hj
    by_cases e : j = i
    · exact .inl (by rw [hr, e, upd_same]; exact hx)
    · have hj : j ∈ s.dtonRows := by
        rw [h2] at hj
        split at hj
        · rcases List.mem_append.mp hj with h | h
          · exact h
          · exact absurd (List.mem_singleton.mp h) e
        · exact hj
      rw [hr, upd_ne _ _ e, hA]
      exact c.dtonMem j hj
  · rw [h2]
    split
    · rename_i hl
      rw [List.nodup_append]
      refine ⟨c.dtonNodup, List.nodup_singleton _, fun a ha b hb e => ?_⟩
      rw [List.mem_singleton.mp hb] at e
      rcases c.dtonMem i (e ▸ ha) with h | h | h
      · rw [hne] at h; cases h
      · rw [hni] at h; cases h
      · omega
    · exact c.dtonNodup

theorem locksEqToIneq_frq (s : St) (cells : List Cell) (b : Bool) : Fr s (locksEqToIneq s cells b) := by
  have e := locksEqToIneq_only s cells b
  unfold OnlyLocks at e
  rw [e]
  exact .same id rfl rfl rfl rfl rfl rfl rfl

theorem locksNewRhs_fr (s : St) (cells : List Cell) : Fr s (locksNewRhs s cells) := by
  have e := locksNewRhs_only s cells
  unfold OnlyLocks at e
  rw [e]
  exact .same id rfl rfl rfl rfl rfl rfl rfl

theorem locksNewLhs_fr (s : St) (cells : List Cell) : Fr s (locksNewLhs s cells) := by
  have e := locksNewLhs_only s cells
  unfold OnlyLocks at e
  rw [e]
  exact .same id rfl rfl rfl rfl rfl rfl rfl

/-! ### Redundant rows and bounds -/

theorem checkActRow_fr (s : St) (row : ℕ) : Fr s (checkActRow s row).1 := by
  unfold checkActRow
  split
  · exact .refl s
  · rename_i hg
    simp only
    refine (Fr.check s (decide ((s.act row).nInfMin = 0 ∨ (s.act row).nInfMax = 0))).trans ?_
    have hg : ((s.check (decide ((s.act row).nInfMin = 0 ∨ (s.act row).nInfMax = 0))).rtag row).inactive = false ∧
        ((s.check (decide ((s.act row).nInfMin = 0 ∨ (s.act row).nInfMax = 0))).rtag row).eq = false := by
      simp only [Bool.or_eq_true, not_or, Bool.not_eq_true] at hg
      exact hg.1
    generalize s.check (decide ((s.act row).nInfMin = 0 ∨ (s.act row).nInfMax = 0)) = t at hg ⊢
    have key : ∀ tag : RTag, tag.eq = false → Fr t { t with rtag := upd t.rtag row tag } := fun tag ht =>
      .tag (fun h => by rw [hg.1] at h; cases h) (ht.trans hg.2.symm) id rfl rfl rfl rfl rfl rfl rfl
    split
    · exact setRowToInactive_fr _ _ _
    · split
      · exact (key { lhsInf := true } rfl).trans ((locksEqToIneq_frq _ _ true).trans
          (.same id rfl rfl rfl rfl rfl rfl rfl))
      · split
        · exact (key { rhsInf := true } rfl).trans ((locksEqToIneq_frq _ _ false).trans
            (.same id rfl rfl rfl rfl rfl rfl rfl))
        · exact .refl t

theorem checkActLoop_fr (L : List ℕ) (s : St) : Fr s (checkActLoop L s).1 := by
  induction L generalizing s with
  | nil => exact .refl s
  | cons row rest ih =>
    unfold checkActLoop
    simp only
    split
    · exact checkActRow_fr s row
    · exact (checkActRow_fr s row).trans (ih _)

theorem checkActivities_keep (s : St) : Keep s (checkActivities s).1 := by
  unfold checkActivities
  simp only
  split
  · exact (checkActLoop_fr _ _).keep
  · exact (checkActLoop_fr _ _).keep.trans (deleteInactiveRows_keep _)

theorem removeRedundantBounds_keep (s : St) : Keep s (removeRedundantBounds s) := by
  refine (Fr.foldl relaxCol (fun s k => ?_) (relaxOrder s) s).keep
  unfold relaxCol
  simp only
  split_ifs
  · exact .refl s
  · exact .of id rfl rfl rfl (upd_ctag_mono id) rfl rfl rfl
  · exact .refl s
  · exact .of id rfl rfl rfl (upd_ctag_mono id) rfl rfl rfl
  · exact .refl s

/-! ### Propagation -/

theorem propLb_fr (fbt : Bool) (s : St) (k : ℕ) (b : D) : Fr s (propLb fbt s k b).1 := by
  unfold propLb
  simp only
  refine ((Fr.check s (!D.isInf b && !(s.ctag k).inactive)).trans
    (Fr.check _ (((s.ctag k).lbInf || D.le (s.lb k) b) && !isHuge b))).trans ?_
  have hl : s.lb = ((s.check (!D.isInf b && !(s.ctag k).inactive)).check
    (((s.ctag k).lbInf || D.le (s.lb k) b) && !isHuge b)).lb := rfl
  have hu : s.ub = ((s.check (!D.isInf b && !(s.ctag k).inactive)).check
    (((s.ctag k).lbInf || D.le (s.lb k) b) && !isHuge b)).ub := rfl
  have hc : s.ctag = ((s.check (!D.isInf b && !(s.ctag k).inactive)).check
    (((s.ctag k).lbInf || D.le (s.lb k) b) && !isHuge b)).ctag := rfl
  have hT : s.AT = ((s.check (!D.isInf b && !(s.ctag k).inactive)).check
    (((s.ctag k).lbInf || D.le (s.lb k) b) && !isHuge b)).AT := rfl
  generalize (s.check (!D.isInf b && !(s.ctag k).inactive)).check
    (((s.ctag k).lbInf || D.le (s.lb k) b) && !isHuge b) = t at *
  rw [hl, hu, hc, hT]
  split
  · exact .refl t
  · split
    · exact ((Fr.save t _).trans (Fr.fuzz _ _)).trans (fixCol_frq _ _ _ _)
    · split
      · generalize (if isIntegral b then b else D.sub b (D.smul BOUND_MARGINAL (D.abs b))) = b'
        have e := (updActsBoundChange_only { t with ctag := upd t.ctag k { t.ctag k with lbInf := false }, lb := upd t.lb k b' }
          (t.AT k) (t.lb k) b' (!(t.ctag k).lbInf) true).fr
        refine Fr.trans (t := { t with ctag := upd t.ctag k { t.ctag k with lbInf := false }, lb := upd t.lb k b' }) ?_
          (e.trans (Fr.save _ _))
        exact .of id rfl rfl rfl (upd_ctag_mono id) rfl rfl rfl
      · exact .refl t

theorem propUb_fr (fbt : Bool) (s : St) (k : ℕ) (b : D) : Fr s (propUb fbt s k b).1 := by
  unfold propUb
  simp only
  refine ((Fr.check s (!D.isInf b && !(s.ctag k).inactive)).trans
    (Fr.check _ (((s.ctag k).ubInf || D.le b (s.ub k)) && !isHuge b))).trans ?_
  have hl : s.lb = ((s.check (!D.isInf b && !(s.ctag k).inactive)).check
    (((s.ctag k).ubInf || D.le b (s.ub k)) && !isHuge b)).lb := rfl
  have hu : s.ub = ((s.check (!D.isInf b && !(s.ctag k).inactive)).check
    (((s.ctag k).ubInf || D.le b (s.ub k)) && !isHuge b)).ub := rfl
  have hc : s.ctag = ((s.check (!D.isInf b && !(s.ctag k).inactive)).check
    (((s.ctag k).ubInf || D.le b (s.ub k)) && !isHuge b)).ctag := rfl
  have hT : s.AT = ((s.check (!D.isInf b && !(s.ctag k).inactive)).check
    (((s.ctag k).ubInf || D.le b (s.ub k)) && !isHuge b)).AT := rfl
  generalize (s.check (!D.isInf b && !(s.ctag k).inactive)).check
    (((s.ctag k).ubInf || D.le b (s.ub k)) && !isHuge b) = t at *
  rw [hl, hu, hc, hT]
  split
  · exact .refl t
  · split
    · exact ((Fr.save t _).trans (Fr.fuzz _ _)).trans (fixCol_frq _ _ _ _)
    · split
      · generalize (if isIntegral b then b else D.add b (D.smul BOUND_MARGINAL (D.abs b))) = b'
        have e := (updActsBoundChange_only { t with ctag := upd t.ctag k { t.ctag k with ubInf := false }, ub := upd t.ub k b' }
          (t.AT k) (t.ub k) b' (!(t.ctag k).ubInf) false).fr
        refine Fr.trans (t := { t with ctag := upd t.ctag k { t.ctag k with ubInf := false }, ub := upd t.ub k b' }) ?_
          (e.trans (Fr.save _ _))
        exact .of id rfl rfl rfl (upd_ctag_mono id) rfl rfl rfl
      · exact .refl t

theorem propTryUb_fr (fbt : Bool) (acc : PropAcc) (k : ℕ) (b : D) : Fr acc.1 (propTryUb fbt acc k b).1 := by
  unfold propTryUb
  simp only
  split
  · exact propUb_fr _ _ _ _
  · exact .refl _

theorem propTryLb_fr (fbt : Bool) (acc : PropAcc) (k : ℕ) (b : D) : Fr acc.1 (propTryLb fbt acc k b).1 := by
  unfold propTryLb
  simp only
  split
  · exact propLb_fr _ _ _ _
  · exact .refl _

theorem accFold_fr (f : PropAcc → Cell → PropAcc) (h : ∀ acc p, Fr acc.1 (f acc p).1) (L : List Cell) (acc : PropAcc) :
    Fr acc.1 (L.foldl f acc).1 := by
  induction L generalizing acc with
  | nil => exact .refl _
  | cons p L ih => exact (h acc p).trans (ih _)

theorem propRhs_fr (fbt : Bool) (i : ℕ) (acc : PropAcc) : Fr acc.1 (propRhs fbt i acc).1 := by
  unfold propRhs
  simp only
  split
  · refine accFold_fr _ (fun acc p => ?_) _ _
    unfold propRhsCell
    simp only
    split
    · exact .refl _
    · split
      · exact propTryUb_fr _ _ _ _
      · exact propTryLb_fr _ _ _ _
  · split
    · split
      · exact Fr.flag _ _
      · split
        · exact (Fr.check acc.1 _).trans <| propTryUb_fr fbt (St.check acc.1 _, acc.2) _ _
        · exact (Fr.check acc.1 _).trans <| propTryLb_fr fbt (St.check acc.1 _, acc.2) _ _
    · exact .refl _

theorem propLhs_fr (fbt : Bool) (i : ℕ) (acc : PropAcc) : Fr acc.1 (propLhs fbt i acc).1 := by
  unfold propLhs
  simp only
  split
  · refine accFold_fr _ (fun acc p => ?_) _ _
    unfold propLhsCell
    simp only
    split
    · exact .refl _
    · split
      · exact propTryLb_fr _ _ _ _
      · exact propTryUb_fr _ _ _ _
  · split
    · split
      · exact Fr.flag _ _
      · split
        · exact (Fr.check acc.1 _).trans <| propTryLb_fr fbt (St.check acc.1 _, acc.2) _ _
        · exact (Fr.check acc.1 _).trans <| propTryUb_fr fbt (St.check acc.1 _, acc.2) _ _
    · exact .refl _

theorem propRow_fr (fbt : Bool) (s : St) (i : ℕ) : Fr s (propRow fbt s i).1 := by
  unfold propRow
  simp only
  have h := ((Fr.check s (!(s.rtag i).inactive)).trans (propRhs_fr fbt i (s.check (!(s.rtag i).inactive), UNCHANGED, 0))).trans
    (propLhs_fr fbt i _)
  split
  · exact h.trans (Fr.save _ _)
  · exact h

theorem propLoop_fr (fbt : Bool) (fuel ii : ℕ) (s : St) : Fr s (propLoop fbt fuel ii s).1 := by
  induction fuel generalizing ii s with
  | zero => exact Fr.flag _ _
  | succ fuel ih =>
    unfold propLoop
    split
    · exact .refl s
    · rename_i i _
      split
      · exact ih _ _
      · simp only
        have h0 : Fr s { s with act := upd s.act i { s.act i with status := .propagatedThisRound } } :=
          .same id rfl rfl rfl rfl rfl rfl rfl
        split
        · exact h0.trans (propRow_fr _ _ _)
        · exact (h0.trans (propRow_fr _ _ _)).trans (ih _ _)

theorem propTail_keep (t : St) : Keep t (removeEmptyRows ((deleteInactiveCols (deleteFixedCols (propReset t))).check
    (decide ((deleteInactiveCols (deleteFixedCols (propReset t))).rowsToDelete = [])))).1 := by
  have hr : Keep t (propReset t) := .same id rfl rfl rfl rfl rfl rfl rfl
  refine (hr.trans (delCols_keep _)).trans ?_
  generalize deleteInactiveCols (deleteFixedCols (propReset t)) = t
  exact (Fr.check t _).keep.trans (removeEmptyRows_keep _)

theorem propagatePrimal_keep (fbt : Bool) (s : St) : Keep s (propagatePrimal fbt s).1 := by
  unfold propagatePrimal
  simp only
  refine ((Fr.check s (decide (s.stonRows = []))).trans (Fr.check _ (decide (s.emptyRows = [])))).keep.trans ?_
  have hp := propLoop_fr fbt (s.updActs.length + 2 * s.m + 1) 0
    ((s.check (decide (s.stonRows = []))).check (decide (s.emptyRows = [])))
  split
  · exact hp.keep
  · exact hp.keep.trans (propTail_keep _)

/-! ### Parallel columns -/

theorem mergeCols_fr (s : St) (j k : ℕ) (ratio : ℚ) : Fr s (mergeCols s j k ratio) := by
  unfold mergeCols
  simp only
  refine Fr.trans (t := { s with
    lb := upd s.lb j (mergeLb ratio (s.lb j) (s.ctag j) (s.lb k) (s.ub k) (s.ctag k))
    ub := upd s.ub j (mergeUb ratio (s.ub j) (s.ctag j) (s.lb k) (s.ub k) (s.ctag k))
    ctag := upd s.ctag j (mergeTag ratio (s.ctag j) (s.ctag k))
    tiny := s.tiny || mergeInexact s j k ratio }) ?_ ?_
  · refine .of id rfl rfl rfl (upd_ctag_mono fun h => ?_) rfl rfl rfl
    unfold mergeTag
    split <;> exact h
  · generalize ({ s with
      lb := upd s.lb j (mergeLb ratio (s.lb j) (s.ctag j) (s.lb k) (s.ub k) (s.ctag k))
      ub := upd s.ub j (mergeUb ratio (s.ub j) (s.ctag j) (s.lb k) (s.ub k) (s.ctag k))
      ctag := upd s.ctag j (mergeTag ratio (s.ctag j) (s.ctag k))
      tiny := s.tiny || mergeInexact s j k ratio } : St) = t
    refine Fr.trans (t := setColToSubstituted t k) ?_ (Fr.save _ _)
    refine (Fr.check t (!(t.ctag k).inactive)).trans
      (.of id rfl rfl rfl (upd_ctag_mono (t := { t.ctag k with subst := true }) fun _ => ?_) rfl rfl rfl)
    simp [CTag.inactive]

theorem parColInner_fr (j : ℕ) (cj aj0 : ℚ) (L : List ℕ) (s : St) (b : Bool) :
    Fr s (parColInner j cj aj0 L s b).1 := by
  induction L generalizing s b with
  | nil => exact .refl s
  | cons k rest ih =>
    unfold parColInner
    split
    · exact ih s b
    · simp only
      refine (Fr.check s (decide (firstCoef (s.AT k) / aj0 ≠ 0))).trans ?_
      split
      · exact (mergeCols_fr _ _ _ _).trans (ih _ _)
      · refine (Fr.check _ (!((s.check (decide (firstCoef (s.AT k) / aj0 ≠ 0))).ctag j).inactive &&
          decide (s.c k ≠ firstCoef (s.AT k) / aj0 * cj))).trans ?_
        generalize ((s.check (decide (firstCoef (s.AT k) / aj0 ≠ 0))).check
          (!((s.check (decide (firstCoef (s.AT k) / aj0 ≠ 0))).ctag j).inactive &&
          decide (s.c k ≠ firstCoef (s.AT k) / aj0 * cj))) = t
        split
        · exact ih _ _
        · split
          · exact .refl _
          · exact (fixCol_frq _ _ _ _).trans (ih _ _)
        · split
          · exact .refl _
          · exact (fixCol_frq _ _ _ _).trans (ih _ _)
        · split
          · exact .refl _
          · exact fixCol_frq _ _ _ _
        · split
          · exact .refl _
          · exact fixCol_frq _ _ _ _

theorem recountRows_fr (s : St) (cells : List Cell) : Fr s (recountRows s cells) := by
  unfold recountRows
  exact Fr.foldl (fun (s : St) (p : Cell) =>
    { s with act := upd s.act p.1 (recomputeNInfs s.ctag (s.act p.1) (s.A p.1)) })
    (fun s p => .same id rfl rfl rfl rfl rfl rfl rfl) _ _

theorem parColsBin_fr (L : List ℕ) (s : St) : Fr s (parColsBin L s).1 := by
  induction L generalizing s with
  | nil => exact .refl s
  | cons j rest ih =>
    unfold parColsBin
    split
    · exact .refl s
    · split
      · exact ih s
      · simp only
        have h := (Fr.flag s ((j :: rest).any (fun i => !(s.ctag i).inactive && decide (s.AT i = [])))).trans
          (parColInner_fr j (s.c j) (firstCoef (s.AT j)) rest _ false)
        split
        · exact h
        · refine h.trans (Fr.trans ?_ (ih _))
          split
          · exact recountRows_fr _ _
          · exact .refl _

theorem removeParallelCols_keep (env : Env) (s : St) : Keep s (removeParallelCols env s).1 := by
  unfold removeParallelCols
  simp only
  refine (((Fr.check s (decide (s.stonRows = []))).trans (Fr.check _ (decide (s.emptyRows = [])))).trans
    (Fr.check _ (decide (s.emptyCols = [])))).keep.trans ?_
  generalize ((s.check (decide (s.stonRows = []))).check (decide (s.emptyRows = []))).check (decide (s.emptyCols = [])) = t
  refine Keep.trans ?_ (delCols_keep _)
  have key : ∀ (G : List (List ℕ)) (a : St × Status),
      Fr a.1 (G.foldl (fun acc bin => let r := parColsBin bin acc.1; (r.1, acc.2 ||| r.2)) a).1 := by
    intro G
    induction G with
    | nil => exact fun a => .refl _
    | cons g G ih =>
      intro a
      rw [List.foldl_cons]
      exact (parColsBin_fr g a.1).trans (ih ((parColsBin g a.1).1, a.2 ||| (parColsBin g a.1).2))
  have h0 : Fr t { t with tick := t.tick + 1 } := .same id rfl rfl rfl rfl rfl rfl rfl
  exact (h0.trans (key _ ({ t with tick := t.tick + 1 }, UNCHANGED))).keep

/-! ### Parallel rows -/

theorem changeRhs_keep (s : St) (i : ℕ) (v : D) (other : ℕ) (ratio : ℚ) : Keep s (changeRhs s i v other ratio).1 := by
  unfold changeRhs
  simp only
  refine Keep.trans (t := (s.check (!((s.rtag i).eq || (s.rtag i).inactive))).check (!D.isInf v))
    ((Fr.check _ _).trans (Fr.check _ _)).keep ?_
  have hno : ((s.check (!((s.rtag i).eq || (s.rtag i).inactive))).check (!D.isInf v)).asrt = true →
      (((s.check (!((s.rtag i).eq || (s.rtag i).inactive))).check (!D.isInf v)).rtag i).eq = false ∧
      (((s.check (!((s.rtag i).eq || (s.rtag i).inactive))).check (!D.isInf v)).rtag i).inactive = false := by
    intro h
    have h : (s.asrt && !((s.rtag i).eq || (s.rtag i).inactive) && _) = true := h
    simp only [Bool.and_eq_true, Bool.not_eq_true', Bool.or_eq_false_iff] at h
    exact h.1.2
  generalize (s.check (!((s.rtag i).eq || (s.rtag i).inactive))).check (!D.isInf v) = s at hno ⊢
  split
  · exact .refl s
  · have h1 : Fr s (s.check ((s.rtag i).rhsInf || D.lt v (s.rhs i))) := Fr.check _ _
    have hr : (s.check ((s.rtag i).rhsInf || D.lt v (s.rhs i))).rtag = s.rtag := rfl
    generalize s.check ((s.rtag i).rhsInf || D.lt v (s.rhs i)) = t at h1 hr ⊢
    have h2 : ∀ b : Bool, Fr t (if b then locksNewRhs t (t.A i) else t) ∧ (if b then locksNewRhs t (t.A i) else t).rtag = t.rtag := by
      intro b
      cases b with
      | false => exact ⟨.refl t, rfl⟩
      | true =>
        refine ⟨locksNewRhs_fr _ _, ?_⟩
        have e := locksNewRhs_only t (t.A i)
        unfold OnlyLocks at e
        show (locksNewRhs t (t.A i)).rtag = _
        rw [e]
    obtain ⟨h2, hr2⟩ := h2 (s.rtag i).rhsInf
    generalize (if (s.rtag i).rhsInf = true then locksNewRhs t (t.A i) else t) = u at h2 hr2 ⊢
    have h3 : Fr u { u with rhs := upd u.rhs i v, rtag := upd u.rtag i { u.rtag i with rhsInf := false } } :=
      .tag (i := i) (x := { u.rtag i with rhsInf := false }) id rfl id rfl rfl rfl rfl rfl rfl rfl
    refine ((h1.trans h2).trans h3).keep.trans (Keep.trans ?_ (Fr.save _ _).keep)
    have hno : ({ u with rhs := upd u.rhs i v, rtag := upd u.rtag i { u.rtag i with rhsInf := false } } : St).asrt = true →
        (({ u with rhs := upd u.rhs i v, rtag := upd u.rtag i { u.rtag i with rhsInf := false } } : St).rtag i).eq = false ∧
        (({ u with rhs := upd u.rhs i v, rtag := upd u.rtag i { u.rtag i with rhsInf := false } } : St).rtag i).inactive = false := by
      intro h
      have := hno (h1.asrt (h2.asrt h))
      show (upd u.rtag i _ i).eq = false ∧ (upd u.rtag i _ i).inactive = false
      rw [upd_same]
      show (u.rtag i).eq = false ∧ (u.rtag i).inactive = false
      rw [hr2, hr]; exact this
    split
    · by_cases hl : (u.A i).length = 2
      · rw [if_pos hl]
        exact Keep.toEq (i := i) (hi := by exact fun h => h) (ha := fun h => ⟨h, hno h⟩) (hx := by rfl) (hA := rfl) (hT := rfl)
          (hr := rfl) (hc := rfl) (h1 := rfl) (h3 := rfl) (h2 := by exact (if_pos hl).symm)
      · rw [if_neg hl]
        exact Keep.toEq (i := i) (hi := by exact fun h => h) (ha := fun h => ⟨h, hno h⟩) (hx := by rfl) (hA := rfl) (hT := rfl)
          (hr := rfl) (hc := rfl) (h1 := rfl) (h3 := rfl) (h2 := by exact (if_neg hl).symm)
    · exact .refl _

theorem changeLhs_keep (s : St) (i : ℕ) (v : D) (other : ℕ) (ratio : ℚ) : Keep s (changeLhs s i v other ratio).1 := by
  unfold changeLhs
  simp only
  refine Keep.trans (t := (s.check (!((s.rtag i).eq || (s.rtag i).inactive))).check (!D.isInf v))
    ((Fr.check _ _).trans (Fr.check _ _)).keep ?_
  have hno : ((s.check (!((s.rtag i).eq || (s.rtag i).inactive))).check (!D.isInf v)).asrt = true →
      (((s.check (!((s.rtag i).eq || (s.rtag i).inactive))).check (!D.isInf v)).rtag i).eq = false ∧
      (((s.check (!((s.rtag i).eq || (s.rtag i).inactive))).check (!D.isInf v)).rtag i).inactive = false := by
    intro h
    have h : (s.asrt && !((s.rtag i).eq || (s.rtag i).inactive) && _) = true := h
    simp only [Bool.and_eq_true, Bool.not_eq_true', Bool.or_eq_false_iff] at h
    exact h.1.2
  generalize (s.check (!((s.rtag i).eq || (s.rtag i).inactive))).check (!D.isInf v) = s at hno ⊢
  split
  · exact .refl s
  · have h1 : Fr s (s.check ((s.rtag i).lhsInf || D.lt (s.lhs i) v)) := Fr.check _ _
    have hr : (s.check ((s.rtag i).lhsInf || D.lt (s.lhs i) v)).rtag = s.rtag := rfl
    generalize s.check ((s.rtag i).lhsInf || D.lt (s.lhs i) v) = t at h1 hr ⊢
    have h2 : ∀ b : Bool, Fr t (if b then locksNewLhs t (t.A i) else t) ∧ (if b then locksNewLhs t (t.A i) else t).rtag = t.rtag := by
      intro b
      cases b with
      | false => exact ⟨.refl t, rfl⟩
      | true =>
        refine ⟨locksNewLhs_fr _ _, ?_⟩
        have e := locksNewLhs_only t (t.A i)
        unfold OnlyLocks at e
        show (locksNewLhs t (t.A i)).rtag = _
        rw [e]
    obtain ⟨h2, hr2⟩ := h2 (s.rtag i).lhsInf
    generalize (if (s.rtag i).lhsInf = true then locksNewLhs t (t.A i) else t) = u at h2 hr2 ⊢
    have h3 : Fr u { u with lhs := upd u.lhs i v, rtag := upd u.rtag i { u.rtag i with lhsInf := false } } :=
      .tag (i := i) (x := { u.rtag i with lhsInf := false }) id rfl id rfl rfl rfl rfl rfl rfl rfl
    refine ((h1.trans h2).trans h3).keep.trans (Keep.trans ?_ (Fr.save _ _).keep)
    have hno : ({ u with lhs := upd u.lhs i v, rtag := upd u.rtag i { u.rtag i with lhsInf := false } } : St).asrt = true →
        (({ u with lhs := upd u.lhs i v, rtag := upd u.rtag i { u.rtag i with lhsInf := false } } : St).rtag i).eq = false ∧
        (({ u with lhs := upd u.lhs i v, rtag := upd u.rtag i { u.rtag i with lhsInf := false } } : St).rtag i).inactive = false := by
      intro h
      have := hno (h1.asrt (h2.asrt h))
      show (upd u.rtag i _ i).eq = false ∧ (upd u.rtag i _ i).inactive = false
      rw [upd_same]
      show (u.rtag i).eq = false ∧ (u.rtag i).inactive = false
      rw [hr2, hr]; exact this
    split
    · by_cases hl : (u.A i).length = 2
      · rw [if_pos hl]
        exact Keep.toEq (i := i) (hi := by exact fun h => h) (ha := fun h => ⟨h, hno h⟩) (hx := by rfl) (hA := rfl) (hT := rfl)
          (hr := rfl) (hc := rfl) (h1 := rfl) (h3 := rfl) (h2 := by exact (if_pos hl).symm)
      · rw [if_neg hl]
        exact Keep.toEq (i := i) (hi := by exact fun h => h) (ha := fun h => ⟨h, hno h⟩) (hx := by rfl) (hA := rfl) (hT := rfl)
          (hr := rfl) (hc := rfl) (h1 := rfl) (h3 := rfl) (h2 := by exact (if_neg hl).symm)
    · exact .refl _

theorem parApply_keep (s : St) (p : ParRow) : Keep s (parApply s p).1 := by
  unfold parApply
  split
  · exact .refl s
  · simp only
    have h1 : Keep s (if (!p.rhsInf && !D.eqb p.newRhs (s.rhs p.rem)) = true then
        changeRhs s p.rem p.newRhs p.rhsIdx p.rhsRatio else (s, UNCHANGED)).1 := by
      split
      · exact changeRhs_keep _ _ _ _ _
      · exact .refl s
    generalize (if (!p.rhsInf && !D.eqb p.newRhs (s.rhs p.rem)) = true then
        changeRhs s p.rem p.newRhs p.rhsIdx p.rhsRatio else (s, UNCHANGED)) = r at h1 ⊢
    split
    · exact h1
    · split
      · exact h1.trans (changeLhs_keep _ _ _ _ _)
      · exact h1

theorem parRowsBin_keep (s : St) (bin : List ℕ) : Keep s (parRowsBin s bin).1 := by
  unfold parRowsBin
  split
  · exact .refl s
  · rename_i r rest
    simp only
    refine (Fr.flag s ((r :: rest).any (fun i => decide (s.A i = [])))).keep.trans ?_
    generalize s.flag ((r :: rest).any (fun i => decide (s.A i = []))) = t
    split
    · exact .refl t
    · rename_i p _
      have h := parApply_keep t p
      split
      · exact h
      · refine h.trans (Fr.foldl _ (fun s i => ?_) _ _).keep
        split
        · exact .refl s
        · exact setRowToInactive_fr _ _ _

theorem parRowsBins_keep (G : List (List ℕ)) (s : St) : Keep s (parRowsBins G s).1 := by
  induction G generalizing s with
  | nil => exact .refl s
  | cons g G ih =>
    unfold parRowsBins
    simp only
    split
    · exact parRowsBin_keep _ _
    · exact (parRowsBin_keep _ _).trans (ih _)

theorem removeParallelRows_keep (env : Env) (s : St) : Keep s (removeParallelRows env s).1 := by
  unfold removeParallelRows
  simp only
  refine (((Fr.check s (decide (s.stonRows = []))).trans (Fr.check _ (decide (s.emptyRows = [])))).trans
    (Fr.check _ (decide (s.emptyCols = [])))).keep.trans ?_
  generalize ((s.check (decide (s.stonRows = []))).check (decide (s.emptyRows = []))).check (decide (s.emptyCols = [])) = t
  have h0 : Keep t { t with tick := t.tick + 1 } := .same id rfl rfl rfl rfl rfl rfl rfl
  exact (h0.trans (parRowsBins_keep _ _)).trans (deleteInactiveRows_keep _)

end Verif
