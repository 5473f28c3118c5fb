import Verif.Inv.FeasMain

/-!
# What the simple explorers never undo

`Up s t` collects facts about a piece of a run that hold without any hypothesis on `s`: the log only
grows, the list of updated activities only names rows with one finite activity, no row becomes an
equality, and bounds do not cross by more than the tolerance.
-/

namespace Verif

/-- One of the two activities is finite. -/
def Cnt (a : Act) : Prop := a.nInfMin = 0 ∨ a.nInfMax = 0

/-- Every row on the list of updated activities has a finite activity. -/
def UpdFin (s : St) : Prop := ∀ i ∈ s.updActs, Cnt (s.act i)

/-- The bounds of an active column are less than the tolerance apart in the wrong direction. -/
def SGap (s : St) : Prop := ∀ k, (s.ctag k).inactive = false → (s.ctag k).lbInf = false → (s.ctag k).ubInf = false →
  ∀ l u, s.lb k = .fin l → s.ub k = .fin u → l < u + FEAS_TOL

structure Up (s t : St) : Prop where
  log : s.log <:+ t.log
  upd : UpdFin s → UpdFin t
  eq : ∀ i, (t.rtag i).eq = true → (s.rtag i).eq = true
  gap : SGap s → SGap t

theorem Up.refl (s : St) : Up s s := ⟨List.suffix_refl _, id, fun _ => id, id⟩

theorem Up.trans {s t u : St} (h : Up s t) (h' : Up t u) : Up s u :=
  ⟨h.log.trans h'.log, fun e => h'.upd (h.upd e), fun i e => h.eq i (h'.eq i e), fun e => h'.gap (h.gap e)⟩

theorem Up.plain {s t : St} (h : Up s t) (hp : PlainLog t) : PlainLog s := fun r hr => hp r (h.log.subset hr)

theorem Up.foldl {α : Type} (f : St → α → St) (h : ∀ s p, Up s (f s p)) (l : List α) (s : St) : Up s (l.foldl f s) := by
  induction l generalizing s with
  | nil => exact .refl s
  | cons p l ih => exact (h s p).trans (ih _)

section
variable {s t : St}

theorem SGap.of_eq (hc : t.ctag = s.ctag) (hl : t.lb = s.lb) (hu : t.ub = s.ub) (h : SGap s) : SGap t := by
  intro k
  rw [hc, hl, hu]
  exact h k

/-- Only column `k` changes, and it is not active afterwards. -/
theorem SGap.gone {k : ℕ} {c : CTag} (hc : t.ctag = Verif.upd s.ctag k c) (hi : c.inactive = true)
    (hl : ∀ j, j ≠ k → t.lb j = s.lb j) (hu : ∀ j, j ≠ k → t.ub j = s.ub j) (h : SGap s) : SGap t := by
  intro j
  by_cases e : j = k
  · rw [e, hc, upd_same, hi]; intro h'; cases h'
  · rw [hc, upd_ne _ _ e, hl j e, hu j e]; exact h j

theorem Up.of (hl : s.log <:+ t.log) (hu : UpdFin s → UpdFin t) (hr : t.rtag = s.rtag) (hc : t.ctag = s.ctag)
    (hlb : t.lb = s.lb) (hub : t.ub = s.ub) : Up s t :=
  ⟨hl, hu, fun i h => by rw [hr] at h; exact h, SGap.of_eq hc hlb hub⟩

theorem UpdFin.of_eq (h : t.act = s.act) (h' : t.updActs = s.updActs) (hu : UpdFin s) : UpdFin t := by
  intro i; rw [h, h']; exact hu i

theorem Up.check (s : St) (b : Bool) : Up s (s.check b) :=
  .of (List.suffix_refl _) id rfl rfl rfl rfl

theorem Up.flag (s : St) (b : Bool) : Up s (s.flag b) :=
  .of (List.suffix_refl _) id rfl rfl rfl rfl

theorem Up.fuzz (s : St) (b : Bool) : Up s (s.fuzz b) :=
  .of (List.suffix_refl _) id rfl rfl rfl rfl

theorem Up.save (s : St) (r : Rec) : Up s (s.save r) :=
  .of (List.suffix_cons _ _) id rfl rfl rfl rfl

end

/-! ### Activities -/

theorem bumpMax_cnt {a : Act} {q : ℚ} {o n : D} {f : Bool} {lb ub : ℕ → D} {cells : List Cell} (h : Cnt a) :
    Cnt (bumpMax a q o n f lb ub cells) := by
  unfold bumpMax
  split
  · exact h
  · rename_i h0
    have h1 : a.nInfMin = 0 := h.resolve_right h0
    split
    · simp only
      split
      · exact .inl h1
      · exact .inl h1
    · exact h

theorem bumpMin_cnt {a : Act} {q : ℚ} {o n : D} {f : Bool} {lb ub : ℕ → D} {cells : List Cell} (h : Cnt a) :
    Cnt (bumpMin a q o n f lb ub cells) := by
  unfold bumpMin
  split
  · exact h
  · rename_i h0
    have h1 : a.nInfMax = 0 := h.resolve_left h0
    split
    · simp only
      split
      · exact .inr h1
      · exact .inr h1
    · exact h

theorem updActBoundChange_cnt {a : Act} {q : ℚ} {o n : D} {f l : Bool} {lb ub : ℕ → D} {cells : List Cell}
    (h : Cnt a) : Cnt (updActBoundChange a q o n f l lb ub cells).1 := by
  unfold updActBoundChange
  split_ifs
  · exact bumpMax_cnt h
  · exact bumpMin_cnt h
  · exact bumpMin_cnt h
  · exact bumpMax_cnt h

theorem UpdFin.act {s : St} {i : ℕ} {a : Act} (h : Cnt (s.act i) → Cnt a) (hu : UpdFin s) :
    UpdFin { s with act := upd s.act i a } := by
  intro j hj
  show Cnt (Verif.upd s.act i a j)
  by_cases e : j = i
  · rw [e, upd_same]; rw [e] at hj; exact h (hu i hj)
  · rw [upd_ne _ _ e]; exact hu j hj

theorem noteAltered_upd (s : St) (i : ℕ) (alt : Altered) (h : UpdFin s) : UpdFin (noteAltered s i alt) := by
  unfold noteAltered
  simp only
  split
  · rename_i hc
    have hcnt : Cnt (s.act i) := by
      rcases hc with h | h
      · exact .inr h.1
      · exact .inl h.1
    have key : ∀ st, UpdFin { s with act := upd s.act i { s.act i with status := st }, updActs := s.updActs ++ [i] } := by
      intro st j hj
      show Cnt (Verif.upd s.act i { s.act i with status := st } j)
      by_cases e : j = i
      · rw [e, upd_same]; exact hcnt
      · rw [upd_ne _ _ e]
        rcases List.mem_append.mp hj with hj | hj
        · exact h j hj
        · exact absurd (List.mem_singleton.mp hj) e
    split
    · exact key _
    · exact key _
    · exact h
  · exact h

theorem foldl_upd {α : Type} (f : St → α → St) (h : ∀ s p, UpdFin s → UpdFin (f s p)) (l : List α) (s : St)
    (hu : UpdFin s) : UpdFin (l.foldl f s) := by
  induction l generalizing s with
  | nil => exact hu
  | cons p l ih => exact ih _ (h s p hu)

theorem updActsBoundChange_upd (s : St) (cells : List Cell) (o n : D) (f l : Bool) (h : UpdFin s) :
    UpdFin (updActsBoundChange s cells o n f l) := by
  refine foldl_upd _ (fun s p hu => ?_) cells s h
  exact noteAltered_upd _ _ _ (hu.act updActBoundChange_cnt)

theorem updActsFixedCol_upd (s : St) (cells : List Cell) (ou ol v : D) (a b c d : Bool) (h : UpdFin s) :
    UpdFin (updActsFixedCol s cells ou ol v a b c d) := by
  refine foldl_upd _ (fun s p hu => ?_) cells s h
  unfold updActsFixedColStep
  refine noteAltered_upd _ _ _ (hu.act (fun h => ?_))
  split
  · refine updActBoundChange_cnt ?_
    split
    · exact updActBoundChange_cnt h
    · exact h
  · split
    · exact updActBoundChange_cnt h
    · exact h

theorem ActOnly.up {s t : St} (h : ActOnly s t) (hu : UpdFin s → UpdFin t) : Up s t := by
  refine .of ?_ hu ?_ ?_ ?_ ?_ <;> obtain ⟨a, u, e⟩ := h <;> rw [e]

/-! ### Bounds -/

theorem fixCol_up (s : St) (k : ℕ) (val : D) (ck : ℚ) : Up s (fixCol s k val ck).1 := by
  unfold fixCol
  simp only
  split
  · exact (Up.check s _).trans (Up.check _ _)
  · refine ((Up.check s (decide (0 < s.colSize k))).trans (Up.check _ (!(s.ctag k).inactive))).trans ?_
    generalize (s.check (decide (0 < s.colSize k))).check (!(s.ctag k).inactive) = t
    refine Up.trans (t := { (setColToFixed t k).save (.fixedCol k val ck (t.AT k)) with
      ub := upd t.ub k val, lb := upd t.lb k val }) ?_ ((updActsFixedCol_only _ _ _ _ _ _ _ _ _).up
        (updActsFixedCol_upd _ _ _ _ _ _ _ _ _))
    exact ⟨List.suffix_cons _ _, id, fun _ => id, SGap.gone (k := k) rfl rfl
      (fun j hj => upd_ne _ _ hj) (fun j hj => upd_ne _ _ hj)⟩

theorem D.not_le_fin {a b : D} {x y : ℚ} (ha : a = .fin x) (hb : b = .fin y) (h : ¬ D.le a b = true) : y < x := by
  rw [ha, hb, D.le_fin, decide_eq_true_eq, not_le] at h; exact h

theorem updateLb_up (s : St) (k : ℕ) (v : D) (row : ℕ) : Up s (updateLb s k v row).1 := by
  unfold updateLb
  simp only
  split
  · exact Up.check s _
  · rename_i h1
    split
    · refine (Up.check s (!(s.ctag k).inactive)).trans ?_
      have h1 : ¬ (!((s.check (!(s.ctag k).inactive)).ctag k).ubInf &&
        D.le (D.add ((s.check (!(s.ctag k).inactive)).ub k) (.fin FEAS_TOL)) v) = true := h1
      generalize s.check (!(s.ctag k).inactive) = t at h1 ⊢
      have e := updActsBoundChange_only { t with lb := upd t.lb k v } (t.AT k) (s.lb k) v (!(t.ctag k).lbInf) true
      have hu := updActsBoundChange_upd { t with lb := upd t.lb k v } (t.AT k) (s.lb k) v (!(t.ctag k).lbInf) true
      show Up t (St.save (St.save _ _) _)
      refine ⟨?_, fun h => hu h, ?_, ?_⟩
      all_goals generalize updActsBoundChange { t with lb := upd t.lb k v } (t.AT k) (s.lb k) v (!(t.ctag k).lbInf) true = w at e hu ⊢
      all_goals obtain ⟨a, u, rfl⟩ := e
      · exact ⟨[_, _], rfl⟩
      · exact fun _ => id
      · intro hg j
        by_cases e : j = k
        · subst e
          intro hi _ hub l u' hl hu'
          have hl : upd t.lb j v j = .fin l := hl
          have hub : (upd t.ctag j _ j).ubInf = false := hub
          rw [upd_same] at hl hub
          have hub : (t.ctag j).ubInf = false := hub
          have hu' : t.ub j = .fin u' := hu'
          rw [hub, hl, hu'] at h1
          simpa using h1
        · show (upd t.ctag k _ j).inactive = _ → (upd t.ctag k _ j).lbInf = _ → (upd t.ctag k _ j).ubInf = _ →
            ∀ l u, upd t.lb k v j = _ → _ → _
          rw [upd_ne _ _ e, upd_ne _ _ e]
          exact hg j
    · exact Up.check s _

theorem updateUb_up (s : St) (k : ℕ) (v : D) (row : ℕ) : Up s (updateUb s k v row).1 := by
  unfold updateUb
  simp only
  split
  · exact Up.check s _
  · rename_i h1
    split
    · refine (Up.check s (!(s.ctag k).inactive)).trans ?_
      have h1 : ¬ (!((s.check (!(s.ctag k).inactive)).ctag k).lbInf &&
        D.le v (D.sub ((s.check (!(s.ctag k).inactive)).lb k) (.fin FEAS_TOL))) = true := h1
      generalize s.check (!(s.ctag k).inactive) = t at h1 ⊢
      have e := updActsBoundChange_only { t with ub := upd t.ub k v } (t.AT k) (s.ub k) v (!(t.ctag k).ubInf) false
      have hu := updActsBoundChange_upd { t with ub := upd t.ub k v } (t.AT k) (s.ub k) v (!(t.ctag k).ubInf) false
      show Up t (St.save (St.save _ _) _)
      refine ⟨?_, fun h => hu h, ?_, ?_⟩
      all_goals generalize updActsBoundChange { t with ub := upd t.ub k v } (t.AT k) (s.ub k) v (!(t.ctag k).ubInf) false = w at e hu ⊢
      all_goals obtain ⟨a, u, rfl⟩ := e
      · exact ⟨[_, _], rfl⟩
      · exact fun _ => id
      · intro hg j
        by_cases e : j = k
        · subst e
          intro hi hlb _ l u' hl hu'
          have hu' : upd t.ub j v j = .fin u' := hu'
          have hlb : (upd t.ctag j _ j).lbInf = false := hlb
          rw [upd_same] at hu' hlb
          have hlb : (t.ctag j).lbInf = false := hlb
          have hl : t.lb j = .fin l := hl
          rw [hlb, hl, hu'] at h1
          simp at h1
          linarith
        · show (upd t.ctag k _ j).inactive = _ → (upd t.ctag k _ j).lbInf = _ → (upd t.ctag k _ j).ubInf = _ →
            ∀ l u, _ → upd t.ub k v j = _ → _
          rw [upd_ne _ _ e, upd_ne _ _ e]
          exact hg j
    · exact Up.check s _

theorem setRowToInactive_up (s : St) (i : ℕ) (val : ℚ) : Up s (setRowToInactive s i val) := by
  refine ⟨List.suffix_cons _ _, id, fun j hj => ?_, SGap.of_eq rfl rfl rfl⟩
  have hj : (upd s.rtag i { s.rtag i with inactive := true } j).eq = true := hj
  by_cases e : j = i
  · rw [e, upd_same] at hj; rw [e]; exact hj
  · rw [upd_ne _ _ e] at hj; exact hj

/-! ### Deletions -/

theorem delRowCell_up (t : RTag) (s : St) (p : Cell) : Up s (delRowCell t s p) := by
  unfold delRowCell
  split
  · exact .refl s
  · exact .of (List.suffix_refl _) id rfl rfl rfl rfl

theorem delOneRow_up (s : St) (row : ℕ) : Up s (delOneRow s row) := by
  unfold delOneRow
  refine (Up.check s (decide (s.rowSize row ≠ -1))).trans ?_
  simp only
  generalize s.check (decide (s.rowSize row ≠ -1)) = t
  split
  · exact .of (List.suffix_refl _) id rfl rfl rfl rfl
  · refine Up.trans (t := { t with nnz := t.nnz - t.rowSize row, rowSize := upd t.rowSize row (-1) })
      (.of (List.suffix_refl _) id rfl rfl rfl rfl) ?_
    exact (Up.foldl _ (delRowCell_up _) _ _).trans (.of (List.suffix_refl _) id rfl rfl rfl rfl)

theorem delCompactCol_up (s : St) (col : ℕ) : Up s (delCompactCol s col) := by
  unfold delCompactCol
  split
  · exact .refl s
  · simp only
    split
    · exact .of (List.suffix_refl _) id rfl rfl rfl rfl
    · split
      · exact .of (List.suffix_refl _) id rfl rfl rfl rfl
      · exact .of (List.suffix_refl _) id rfl rfl rfl rfl

theorem deleteInactiveRows_up (s : St) : Up s (deleteInactiveRows s) := by
  unfold deleteInactiveRows
  split
  · exact .refl s
  · refine (Up.foldl _ delOneRow_up s.rowsToDelete s).trans ?_
    exact (Up.foldl _ delCompactCol_up (List.range (s.rowsToDelete.foldl delOneRow s).n) _).trans
      (.of (List.suffix_refl _) id rfl rfl rfl rfl)

theorem delCompactRow_up (s : St) (row : ℕ) : Up s (delCompactRow s row) := by
  unfold delCompactRow
  split
  · exact .refl s
  · simp only
    split
    · exact .of (List.suffix_refl _) id rfl rfl rfl rfl
    · split
      · exact .of (List.suffix_refl _) id rfl rfl rfl rfl
      · split
        · exact .of (List.suffix_refl _) id rfl rfl rfl rfl
        · exact .of (List.suffix_refl _) id rfl rfl rfl rfl

theorem deleteInactiveCols_up (s : St) : Up s (deleteInactiveCols s) := by
  unfold deleteInactiveCols
  have h : ∀ s k, Up s (delOneCol s k) := fun s k => .of (List.suffix_refl _) id rfl rfl rfl rfl
  refine (Up.foldl _ h s.fixedCols s).trans ?_
  simp only
  generalize s.fixedCols.foldl delOneCol s = t
  refine (Up.foldl _ h t.subCols t).trans ?_
  generalize t.subCols.foldl delOneCol t = u
  exact (Up.foldl _ delCompactRow_up (List.range u.m) u).trans (.of (List.suffix_refl _) id rfl rfl rfl rfl)

theorem shiftSides_up (v : D) (s : St) (p : Cell) : Up s (shiftSides v s p) := by
  unfold shiftSides
  split
  · exact .refl s
  · refine .of (List.suffix_refl _) (fun h => ?_) rfl rfl rfl rfl
    refine UpdFin.act (s := s) (fun hc => ?_) h
    split_ifs <;> exact hc

theorem delFixedCol_up (s : St) (k : ℕ) : Up s (delFixedCol s k) := by
  unfold delFixedCol
  refine ((Up.check s (s.ctag k).fixed).trans (Up.check _ (!D.isInf (s.ub k)))).trans
    (Up.trans (Up.check _ (D.eqb (s.lb k) (s.ub k))) ?_)
  simp only
  split
  · exact .refl _
  · exact (Up.foldl _ (shiftSides_up _) _ _).trans (.of (List.suffix_refl _) id rfl rfl rfl rfl)

theorem deleteFixedCols_up (s : St) : Up s (deleteFixedCols s) := Up.foldl _ delFixedCol_up _ _

theorem delCols_up (s : St) : Up s (deleteInactiveCols (deleteFixedCols s)) :=
  (deleteFixedCols_up s).trans (deleteInactiveCols_up _)

theorem delBoth_up (s : St) : Up s (deleteInactiveCols (deleteFixedCols (deleteInactiveRows s))) :=
  (deleteInactiveRows_up s).trans (delCols_up _)

/-! ### The trivial explorers -/

theorem removeStonRow_up (s : St) (row : ℕ) : Up s (removeStonRow s row).1 := by
  unfold removeStonRow
  split
  · exact .refl s
  · rename_i k aik rest _
    simp only
    refine (Up.check s (!(s.rtag row).inactive && !(s.ctag k).subst)).trans ?_
    generalize s.check (!(s.rtag row).inactive && !(s.ctag k).subst) = t
    split
    · exact .refl t
    · refine (Up.check t (!(t.ctag k).inactive)).trans ?_
      generalize t.check (!(t.ctag k).inactive) = t
      split
      · refine (Up.check t (D.eqb (s.lhs row) (s.rhs row))).trans ?_
        generalize t.check (D.eqb (s.lhs row) (s.rhs row)) = t
        have h := fixCol_up t k (D.divq (s.rhs row) aik) (t.c k)
        split
        · exact h
        · refine h.trans ?_
          generalize (fixCol t k (D.divq (s.rhs row) aik) (t.c k)).1 = t
          refine ⟨⟨[_, _], rfl⟩, id, fun j hj => ?_, SGap.of_eq rfl rfl rfl⟩
          have hj : (upd t.rtag row { inactive := true } j).eq = true := hj
          by_cases e : j = row
          · rw [e, upd_same] at hj; cases hj
          · rw [upd_ne _ _ e] at hj; exact hj
      · have hU : ∀ (b : Bool) (t : St) (v : D), Up t (if b then (t, UNCHANGED) else updateUb t k v row).1 := by
          intro b t v; cases b
          · exact updateUb_up _ _ _ _
          · exact .refl t
        have hL : ∀ (b : Bool) (t : St) (v : D), Up t (if b then (t, UNCHANGED) else updateLb t k v row).1 := by
          intro b t v; cases b
          · exact updateLb_up _ _ _ _
          · exact .refl t
        split
        · have h1 := hU (t.rtag row).rhsInf t (D.divq (s.rhs row) aik)
          generalize (if (t.rtag row).rhsInf = true then (t, UNCHANGED) else updateUb t k (D.divq (s.rhs row) aik) row) = r at h1 ⊢
          have h2 := hL (t.rtag row).lhsInf r.1 (D.divq (s.lhs row) aik)
          generalize (if (t.rtag row).lhsInf = true then (r.1, UNCHANGED) else updateLb r.1 k (D.divq (s.lhs row) aik) row) = r' at h2 ⊢
          split_ifs
          · exact h1
          · exact h1.trans h2
          · exact (h1.trans h2).trans (setRowToInactive_up _ _ _)
        · have h1 := hL (t.rtag row).rhsInf t (D.divq (s.rhs row) aik)
          generalize (if (t.rtag row).rhsInf = true then (t, UNCHANGED) else updateLb t k (D.divq (s.rhs row) aik) row) = r at h1 ⊢
          have h2 := hU (t.rtag row).lhsInf r.1 (D.divq (s.lhs row) aik)
          generalize (if (t.rtag row).lhsInf = true then (r.1, UNCHANGED) else updateUb r.1 k (D.divq (s.lhs row) aik) row) = r' at h2 ⊢
          split_ifs
          · exact h1
          · exact h1.trans h2
          · exact (h1.trans h2).trans (setRowToInactive_up _ _ _)

theorem stonEqLoop_up (L : List ℕ) (s : St) : Up s (stonEqLoop L s).1 := by
  induction L generalizing s with
  | nil => exact .refl s
  | cons row rest ih =>
    unfold stonEqLoop
    split
    · exact ih s
    · simp only
      split
      · exact removeStonRow_up s row
      · exact (removeStonRow_up s row).trans (ih _)

theorem stonIneqLoop_up (L : List ℕ) (s : St) : Up s (stonIneqLoop L s).1 := by
  induction L generalizing s with
  | nil => exact .refl s
  | cons row rest ih =>
    unfold stonIneqLoop
    split
    · exact ih s
    · simp only
      split
      · exact removeStonRow_up s row
      · exact (removeStonRow_up s row).trans (ih _)

theorem removeStonRows_up (s : St) : Up s (removeStonRows s).1 := by
  unfold removeStonRows
  split
  · exact .refl s
  · simp only
    split
    · exact stonEqLoop_up _ _
    · split
      · exact (stonEqLoop_up _ _).trans (stonIneqLoop_up _ _)
      · refine ((stonEqLoop_up s.stonRows _).trans (stonIneqLoop_up s.stonRows _)).trans ?_
        refine Up.trans ?_ (delBoth_up _)
        exact .of (List.suffix_refl _) id rfl rfl rfl rfl

theorem stonRowsLoop_up (fuel : ℕ) (s : St) : Up s (stonRowsLoop fuel s).1 := by
  induction fuel generalizing s with
  | zero => exact Up.flag s true
  | succ fuel ih =>
    unfold stonRowsLoop
    simp only
    split
    · exact removeStonRows_up s
    · split
      · exact (removeStonRows_up s).trans (ih _)
      · exact removeStonRows_up s

theorem locksEqToIneq_up (s : St) (cells : List Cell) (b : Bool) : Up s (locksEqToIneq s cells b) := by
  have e := locksEqToIneq_only s cells b
  unfold OnlyLocks at e
  rw [e]
  exact .of (List.suffix_refl _) id rfl rfl rfl rfl

theorem checkActRow_up (s : St) (row : ℕ) : Up s (checkActRow s row).1 := by
  unfold checkActRow
  split
  · exact .refl s
  · simp only
    refine (Up.check s (decide ((s.act row).nInfMin = 0 ∨ (s.act row).nInfMax = 0))).trans ?_
    generalize s.check (decide ((s.act row).nInfMin = 0 ∨ (s.act row).nInfMax = 0)) = t
    have key : ∀ tag : RTag, tag.eq = false → Up t { t with rtag := upd t.rtag row tag } := by
      intro tag ht
      refine ⟨List.suffix_refl _, id, fun j hj => ?_, SGap.of_eq rfl rfl rfl⟩
      have hj : (upd t.rtag row tag j).eq = true := hj
      by_cases e : j = row
      · rw [e, upd_same, ht] at hj; cases hj
      · rw [upd_ne _ _ e] at hj; exact hj
    split
    · exact setRowToInactive_up _ _ _
    · split
      · exact (key { lhsInf := true } rfl).trans ((locksEqToIneq_up _ _ true).trans
          (.of (List.suffix_refl _) id rfl rfl rfl rfl))
      · split
        · exact (key { rhsInf := true } rfl).trans ((locksEqToIneq_up _ _ false).trans
            (.of (List.suffix_refl _) id rfl rfl rfl rfl))
        · exact .refl t

theorem checkActLoop_up (L : List ℕ) (s : St) : Up s (checkActLoop L s).1 := by
  induction L generalizing s with
  | nil => exact .refl s
  | cons row rest ih =>
    unfold checkActLoop
    simp only
    split
    · exact checkActRow_up s row
    · exact (checkActRow_up s row).trans (ih _)

theorem checkActivities_up (s : St) : Up s (checkActivities s).1 := by
  unfold checkActivities
  simp only
  split
  · exact checkActLoop_up _ _
  · exact (checkActLoop_up _ _).trans (deleteInactiveRows_up _)

theorem rowOut_up (s : St) (row : ℕ) : Up s (rowOut s row) := by
  refine ⟨List.suffix_cons _ _, id, fun j hj => ?_, SGap.of_eq rfl rfl rfl⟩
  have hj : (upd s.rtag row { s.rtag row with inactive := true } j).eq = true := hj
  by_cases e : j = row
  · rw [e, upd_same] at hj; rw [e]; exact hj
  · rw [upd_ne _ _ e] at hj; exact hj

theorem emptyRowLoop_up (L : List ℕ) (s : St) : Up s (emptyRowLoop L s).1 := by
  induction L generalizing s with
  | nil => exact .refl s
  | cons row rest ih =>
    unfold emptyRowLoop
    simp only
    split
    · exact Up.check s _
    · exact (rowOut_up s row).trans (ih _)

theorem removeEmptyRows_up (s : St) : Up s (removeEmptyRows s).1 := by
  unfold removeEmptyRows
  simp only
  split
  · exact emptyRowLoop_up _ _
  · exact (emptyRowLoop_up _ _).trans (.of (List.suffix_refl _) id rfl rfl rfl rfl)

theorem colOut_up (s : St) (k : ℕ) (v : D) : Up s (colOut s k v) := by
  refine ⟨List.suffix_cons _ _, id, fun _ => id, SGap.gone (k := k) rfl rfl (fun j hj => ?_) (fun j hj => ?_)⟩
  · show (if s.c k < 0 then upd s.lb k (s.ub k) else s.lb) j = s.lb j
    split
    · exact upd_ne _ _ hj
    · rfl
  · show (if 0 < s.c k then upd s.ub k (s.lb k) else s.ub) j = s.ub j
    split
    · exact upd_ne _ _ hj
    · rfl

theorem emptyColLoop_up (L : List ℕ) (s : St) : Up s (emptyColLoop L s).1 := by
  induction L generalizing s with
  | nil => exact .refl s
  | cons k rest ih =>
    unfold emptyColLoop
    simp only
    split
    · exact Up.check s _
    · rename_i v hv
      exact (colOut_up s k v).trans (ih _)

theorem removeEmptyCols_up (s : St) : Up s (removeEmptyCols s).1 := by
  unfold removeEmptyCols
  simp only
  split
  · exact emptyColLoop_up _ _
  · exact (emptyColLoop_up _ _).trans (.of (List.suffix_refl _) id rfl rfl rfl rfl)

theorem closeBoundsLoop_up (L : List ℕ) (s : St) : Up s (closeBoundsLoop L s).1 := by
  induction L generalizing s with
  | nil => exact .refl s
  | cons k rest ih =>
    unfold closeBoundsLoop
    split
    · exact ih s
    · simp only
      refine (Up.check s (!(s.ctag k).inactive)).trans ?_
      split
      · exact ((Up.fuzz _ _).trans (fixCol_up _ _ _ _)).trans (ih _)
      · split
        · exact .refl _
        · exact ih _

theorem closeBounds_up (s : St) : Up s (closeBounds s).1 := by
  unfold closeBounds
  simp only
  split
  · exact closeBoundsLoop_up _ _
  · exact (closeBoundsLoop_up _ _).trans (delCols_up _)

theorem dualFixStep_up (a : St × List (ℕ × Bool) × Status) (k : ℕ) : Up a.1 (dualFixStep a k).1 := by
  unfold dualFixStep
  simp only
  split
  · exact .refl _
  · split
    · exact .refl _
    · exact .refl _
    · exact (Up.check _ _).trans (fixCol_up _ _ _ _)
    · exact (Up.check _ _).trans (fixCol_up _ _ _ _)
    · exact .refl _
    · exact .refl _

theorem dualFixFold_up (L : List ℕ) (a : St × List (ℕ × Bool) × Status) : Up a.1 (L.foldl dualFixStep a).1 := by
  induction L generalizing a with
  | nil => exact .refl _
  | cons k L ih => exact (dualFixStep_up a k).trans (ih _)

theorem deactivateRows_up (cells : List Cell) (s : St) : Up s (deactivateRows s cells) := by
  refine Up.foldl _ (fun s p => ?_) cells s
  split
  · exact .refl s
  · exact setRowToInactive_up _ _ _

theorem fixColInfTail_up (s : St) (k : ℕ) (pos : Bool) (bound v : D) : Up s (fixColInfTail s k pos bound v) := by
  unfold fixColInfTail
  simp only
  have h : Up s (saveFixedColInf s k pos bound) := by
    unfold saveFixedColInf
    exact (((Up.flag s _).trans (Up.check _ _)).trans (Up.save _ _)).trans (Up.fuzz _ _)
  refine (h.trans (deactivateRows_up ((saveFixedColInf s k pos bound).AT k) _)).trans ?_
  exact ⟨List.suffix_refl _, id, fun _ => id, SGap.gone (k := k) rfl rfl (fun j hj => upd_ne _ _ hj) (fun j hj => upd_ne _ _ hj)⟩

theorem fixColInf_up (s : St) (p : ℕ × Bool) : Up s (if p.2 then fixColPosInf s p.1 else fixColNegInf s p.1) := by
  split
  · exact (((Up.check s _).trans (Up.check _ (s.ctag p.1).ubInf)).trans (Up.check _ (decide (s.up p.1 = 0)))).trans
      (fixColInfTail_up _ p.1 true (s.lb p.1) .pinf)
  · exact (((Up.check s _).trans (Up.check _ (s.ctag p.1).lbInf)).trans (Up.check _ (decide (s.down p.1 = 0)))).trans
      (fixColInfTail_up _ p.1 false (s.ub p.1) .ninf)

theorem simpleDualFix_up (s : St) : Up s (simpleDualFix s).1 := by
  unfold simpleDualFix
  simp only
  refine (Up.check s (decide (s.emptyCols = []))).trans ?_
  generalize s.check (decide (s.emptyCols = [])) = t
  refine (dualFixFold_up (List.range t.n) (t, [], UNCHANGED)).trans ?_
  exact (Up.foldl _ fixColInf_up _ _).trans (delBoth_up _)

/-! ### Propagation -/

theorem propLb_up (fbt : Bool) (s : St) (k : ℕ) (b : D) : Up s (propLb fbt s k b).1 := by
  unfold propLb
  simp only
  refine ((Up.check s (!D.isInf b && !(s.ctag k).inactive)).trans
    (Up.check _ (((s.ctag k).lbInf || D.le (s.lb k) b) && !isHuge b))).trans ?_
  have hl : s.lb = ((s.check (!D.isInf b && !(s.ctag k).inactive)).check
    (((s.ctag k).lbInf || D.le (s.lb k) b) && !isHuge b)).lb := rfl
  have hu : s.ub = ((s.check (!D.isInf b && !(s.ctag k).inactive)).check
    (((s.ctag k).lbInf || D.le (s.lb k) b) && !isHuge b)).ub := rfl
  have hc : s.ctag = ((s.check (!D.isInf b && !(s.ctag k).inactive)).check
    (((s.ctag k).lbInf || D.le (s.lb k) b) && !isHuge b)).ctag := rfl
  have hT : s.AT = ((s.check (!D.isInf b && !(s.ctag k).inactive)).check
    (((s.ctag k).lbInf || D.le (s.lb k) b) && !isHuge b)).AT := rfl
  generalize (s.check (!D.isInf b && !(s.ctag k).inactive)).check
    (((s.ctag k).lbInf || D.le (s.lb k) b) && !isHuge b) = t at *
  rw [hl, hu, hc, hT]
  split
  · exact .refl t
  · rename_i h1
    split
    · exact ((Up.save t _).trans (Up.fuzz _ _)).trans (fixCol_up _ _ _ _)
    · split
      · generalize hb' : (if isIntegral b then b else D.sub b (D.smul BOUND_MARGINAL (D.abs b))) = b'
        have hle : ∀ q, b' = .fin q → ∃ q', b = .fin q' ∧ q ≤ q' := by
          intro q hq
          rw [hq] at hb'
          split at hb'
          · exact ⟨q, hb', le_refl _⟩
          · cases b with
            | fin x =>
              rw [D.abs_fin, D.smul_fin, D.sub_fin] at hb'
              injection hb' with e
              refine ⟨x, rfl, ?_⟩
              have : 0 ≤ BOUND_MARGINAL * |x| := mul_nonneg (by unfold BOUND_MARGINAL FEAS_TOL; norm_num) (abs_nonneg x)
              linarith
            | _ => norm_num [FEAS_TOL, D.sub, D.abs, D.smul, D.lt, D.neg, D.infOf, D.add, BOUND_MARGINAL] at hb' <;> cases hb'
        have e := updActsBoundChange_only { t with ctag := upd t.ctag k { t.ctag k with lbInf := false }, lb := upd t.lb k b' }
          (t.AT k) (t.lb k) b' (!(t.ctag k).lbInf) true
        have hu := updActsBoundChange_upd { t with ctag := upd t.ctag k { t.ctag k with lbInf := false }, lb := upd t.lb k b' }
          (t.AT k) (t.lb k) b' (!(t.ctag k).lbInf) true
        show Up t (St.save _ _)
        refine ⟨?_, fun h => hu h, ?_, ?_⟩
        all_goals generalize updActsBoundChange { t with ctag := upd t.ctag k { t.ctag k with lbInf := false }, lb := upd t.lb k b' } (t.AT k) (t.lb k) b' (!(t.ctag k).lbInf) true = w at e hu ⊢
        all_goals obtain ⟨a, u, rfl⟩ := e
        · exact ⟨[_], rfl⟩
        · exact fun _ => id
        · intro hg j
          by_cases e : j = k
          · subst e
            intro hi _ hub l u' hl hu'
            have hl : upd t.lb j b' j = .fin l := hl
            have hub : (upd t.ctag j _ j).ubInf = false := hub
            rw [upd_same] at hl hub
            have hub : (t.ctag j).ubInf = false := hub
            have hu' : t.ub j = .fin u' := hu'
            obtain ⟨q', hq', hle⟩ := hle l hl
            rw [hub, hq', hu'] at h1
            simp at h1
            linarith
          · show (upd t.ctag k _ j).inactive = _ → (upd t.ctag k _ j).lbInf = _ → (upd t.ctag k _ j).ubInf = _ →
              ∀ l u, upd t.lb k b' j = _ → _ → _
            rw [upd_ne _ _ e, upd_ne _ _ e]
            exact hg j
      · exact .refl t

theorem propUb_up (fbt : Bool) (s : St) (k : ℕ) (b : D) : Up s (propUb fbt s k b).1 := by
  unfold propUb
  simp only
  refine ((Up.check s (!D.isInf b && !(s.ctag k).inactive)).trans
    (Up.check _ (((s.ctag k).ubInf || D.le b (s.ub k)) && !isHuge b))).trans ?_
  have hl : s.lb = ((s.check (!D.isInf b && !(s.ctag k).inactive)).check
    (((s.ctag k).ubInf || D.le b (s.ub k)) && !isHuge b)).lb := rfl
  have hu : s.ub = ((s.check (!D.isInf b && !(s.ctag k).inactive)).check
    (((s.ctag k).ubInf || D.le b (s.ub k)) && !isHuge b)).ub := rfl
  have hc : s.ctag = ((s.check (!D.isInf b && !(s.ctag k).inactive)).check
    (((s.ctag k).ubInf || D.le b (s.ub k)) && !isHuge b)).ctag := rfl
  have hT : s.AT = ((s.check (!D.isInf b && !(s.ctag k).inactive)).check
    (((s.ctag k).ubInf || D.le b (s.ub k)) && !isHuge b)).AT := rfl
  generalize (s.check (!D.isInf b && !(s.ctag k).inactive)).check
    (((s.ctag k).ubInf || D.le b (s.ub k)) && !isHuge b) = t at *
  rw [hl, hu, hc, hT]
  split
  · exact .refl t
  · rename_i h1
    split
    · exact ((Up.save t _).trans (Up.fuzz _ _)).trans (fixCol_up _ _ _ _)
    · split
      · generalize hb' : (if isIntegral b then b else D.add b (D.smul BOUND_MARGINAL (D.abs b))) = b'
        have hle : ∀ q, b' = .fin q → ∃ q', b = .fin q' ∧ q' ≤ q := by
          intro q hq
          rw [hq] at hb'
          split at hb'
          · exact ⟨q, hb', le_refl _⟩
          · cases b with
            | fin x =>
              rw [D.abs_fin, D.smul_fin, D.add_fin] at hb'
              injection hb' with e
              refine ⟨x, rfl, ?_⟩
              have : 0 ≤ BOUND_MARGINAL * |x| := mul_nonneg (by unfold BOUND_MARGINAL FEAS_TOL; norm_num) (abs_nonneg x)
              linarith
            | _ => norm_num [FEAS_TOL, D.abs, D.smul, D.lt, D.neg, D.infOf, D.add, BOUND_MARGINAL] at hb' <;> cases hb'
        have e := updActsBoundChange_only { t with ctag := upd t.ctag k { t.ctag k with ubInf := false }, ub := upd t.ub k b' }
          (t.AT k) (t.ub k) b' (!(t.ctag k).ubInf) false
        have hu := updActsBoundChange_upd { t with ctag := upd t.ctag k { t.ctag k with ubInf := false }, ub := upd t.ub k b' }
          (t.AT k) (t.ub k) b' (!(t.ctag k).ubInf) false
        show Up t (St.save _ _)
        refine ⟨?_, fun h => hu h, ?_, ?_⟩
        all_goals generalize updActsBoundChange { t with ctag := upd t.ctag k { t.ctag k with ubInf := false }, ub := upd t.ub k b' } (t.AT k) (t.ub k) b' (!(t.ctag k).ubInf) false = w at e hu ⊢
        all_goals obtain ⟨a, u, rfl⟩ := e
        · exact ⟨[_], rfl⟩
        · exact fun _ => id
        · intro hg j
          by_cases e : j = k
          · subst e
            intro hi hlb _ l u' hl hu'
            have hu' : upd t.ub j b' j = .fin u' := hu'
            have hlb : (upd t.ctag j _ j).lbInf = false := hlb
            rw [upd_same] at hu' hlb
            have hlb : (t.ctag j).lbInf = false := hlb
            have hl : t.lb j = .fin l := hl
            obtain ⟨q', hq', hle⟩ := hle u' hu'
            rw [hlb, hq', hl] at h1
            simp at h1
            linarith
          · show (upd t.ctag k _ j).inactive = _ → (upd t.ctag k _ j).lbInf = _ → (upd t.ctag k _ j).ubInf = _ →
              ∀ l u, _ → upd t.ub k b' j = _ → _
            rw [upd_ne _ _ e, upd_ne _ _ e]
            exact hg j
      · exact .refl t

theorem propTryUb_up (fbt : Bool) (acc : PropAcc) (k : ℕ) (b : D) : Up acc.1 (propTryUb fbt acc k b).1 := by
  unfold propTryUb
  simp only
  split
  · exact propUb_up _ _ _ _
  · exact .refl _

theorem propTryLb_up (fbt : Bool) (acc : PropAcc) (k : ℕ) (b : D) : Up acc.1 (propTryLb fbt acc k b).1 := by
  unfold propTryLb
  simp only
  split
  · exact propLb_up _ _ _ _
  · exact .refl _

theorem accFold_up (f : PropAcc → Cell → PropAcc) (h : ∀ acc p, Up acc.1 (f acc p).1) (L : List Cell) (acc : PropAcc) :
    Up acc.1 (L.foldl f acc).1 := by
  induction L generalizing acc with
  | nil => exact .refl _
  | cons p L ih => exact (h acc p).trans (ih _)

theorem propRhs_up (fbt : Bool) (i : ℕ) (acc : PropAcc) : Up acc.1 (propRhs fbt i acc).1 := by
  unfold propRhs
  simp only
  split
  · refine accFold_up _ (fun acc p => ?_) _ _
    unfold propRhsCell
    simp only
    split
    · exact .refl _
    · split
      · exact propTryUb_up _ _ _ _
      · exact propTryLb_up _ _ _ _
  · split
    · split
      · exact Up.flag _ _
      · split
        · exact (Up.check acc.1 _).trans <| propTryUb_up fbt (St.check acc.1 _, acc.2) _ _
        · exact (Up.check acc.1 _).trans <| propTryLb_up fbt (St.check acc.1 _, acc.2) _ _
    · exact .refl _

theorem propLhs_up (fbt : Bool) (i : ℕ) (acc : PropAcc) : Up acc.1 (propLhs fbt i acc).1 := by
  unfold propLhs
  simp only
  split
  · refine accFold_up _ (fun acc p => ?_) _ _
    unfold propLhsCell
    simp only
    split
    · exact .refl _
    · split
      · exact propTryLb_up _ _ _ _
      · exact propTryUb_up _ _ _ _
  · split
    · split
      · exact Up.flag _ _
      · split
        · exact (Up.check acc.1 _).trans <| propTryLb_up fbt (St.check acc.1 _, acc.2) _ _
        · exact (Up.check acc.1 _).trans <| propTryUb_up fbt (St.check acc.1 _, acc.2) _ _
    · exact .refl _

theorem propRow_up (fbt : Bool) (s : St) (i : ℕ) : Up s (propRow fbt s i).1 := by
  unfold propRow
  simp only
  have h := ((Up.check s (!(s.rtag i).inactive)).trans (propRhs_up fbt i (s.check (!(s.rtag i).inactive), UNCHANGED, 0))).trans
    (propLhs_up fbt i _)
  split
  · exact h.trans (Up.save _ _)
  · exact h

theorem propLoop_up (fbt : Bool) (fuel ii : ℕ) (s : St) : Up s (propLoop fbt fuel ii s).1 := by
  induction fuel generalizing ii s with
  | zero => exact Up.flag _ _
  | succ fuel ih =>
    unfold propLoop
    split
    · exact .refl s
    · rename_i i _
      split
      · exact ih _ _
      · simp only
        have h0 : Up s { s with act := upd s.act i { s.act i with status := .propagatedThisRound } } :=
          .of (List.suffix_refl _) (fun h => h.act (fun h => h)) rfl rfl rfl rfl
        split
        · exact h0.trans (propRow_up _ _ _)
        · exact (h0.trans (propRow_up _ _ _)).trans (ih _ _)

theorem propNext_sub (s : St) : ∀ i ∈ propNext s, i ∈ s.updActs := by
  have key : ∀ (L l : List ℕ), ∀ i ∈ L.foldl (fun l i => if i ∈ l then l else l ++ [i]) l, i ∈ l ∨ i ∈ L := by
    intro L
    induction L with
    | nil => exact fun l i h => .inl h
    | cons a L ih =>
      intro l i hi
      rcases ih _ i hi with h | h
      · simp only at h
        split at h
        · exact .inl h
        · rcases List.mem_append.mp h with h | h
          · exact .inl h
          · exact .inr (by rw [List.mem_singleton.mp h]; exact List.mem_cons_self)
      · exact .inr (List.mem_cons_of_mem _ h)
  intro i hi
  rcases key _ _ i hi with h | h
  · cases h
  · exact (List.mem_filter.mp h).1

theorem propReset_up (s : St) : Up s (propReset s) := by
  refine .of (List.suffix_refl _) (fun h i hi => ?_) rfl rfl rfl rfl
  have := h i (propNext_sub s i hi)
  unfold propReset
  simp only
  split_ifs <;> exact this

theorem propagatePrimal_up (fbt : Bool) (s : St) : Up s (propagatePrimal fbt s).1 := by
  unfold propagatePrimal
  simp only
  refine ((Up.check s (decide (s.stonRows = []))).trans (Up.check _ (decide (s.emptyRows = [])))).trans ?_
  have hp := propLoop_up fbt (s.updActs.length + 2 * s.m + 1) 0
    ((s.check (decide (s.stonRows = []))).check (decide (s.emptyRows = [])))
  split
  · exact hp
  · refine hp.trans ?_
    exact ((propReset_up _).trans (delCols_up _)).trans ((Up.check _ _).trans (removeEmptyRows_up _))

theorem trivialHead_up (stgs : Settings) (s : St) : Up s (trivialHead stgs s).1 := by
  unfold trivialHead
  simp only
  split
  · exact closeBounds_up s
  · split
    · exact ((closeBounds_up s).trans (removeEmptyCols_up _)).trans (simpleDualFix_up _)
    · exact closeBounds_up s

theorem runTrivial_up (stgs : Settings) (s : St) : Up s (runTrivial stgs s).1 := by
  unfold runTrivial
  simp only
  have h := trivialHead_up stgs s
  split
  · exact h
  · split
    · exact h
    · have h2 := h.trans (stonRowsLoop_up ((trivialHead stgs s).1.m + 2) _)
      split
      · exact h2
      · have h3 := h2.trans (removeEmptyRows_up _)
        split
        · exact h3
        · have h4 := h3.trans (removeEmptyCols_up _)
          split
          · exact h4
          · exact h4.trans (((Up.check _ _).trans (Up.check _ _)).trans (Up.check _ _))

end Verif
