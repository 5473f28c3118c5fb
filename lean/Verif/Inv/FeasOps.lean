import Verif.Inv.FeasDef

/-!
# Bound changes and fixed columns keep `Feas`
-/

namespace Verif

theorem Recomputed.congr {a : Act} {ctag ctag' : ℕ → CTag} {lb lb' ub ub' : ℕ → D} {cells : List Cell}
    (h : ∀ p ∈ cells, (ctag' p.1).lbInf = (ctag p.1).lbInf ∧ (ctag' p.1).ubInf = (ctag p.1).ubInf ∧
      lb' p.1 = lb p.1 ∧ ub' p.1 = ub p.1) (ha : Recomputed a ctag lb ub cells) :
    Recomputed a ctag' lb' ub' cells := by
  have e : actInit ctag' lb' ub' cells = actInit ctag lb ub cells := by
    have e1 : countInfMin ctag' cells = countInfMin ctag cells := by
      rw [countInfMin_eq, countInfMin_eq]
      congr 1
      exact List.countP_congr (fun p hp => by unfold unbMin; rw [(h p hp).1, (h p hp).2.1])
    have e2 : countInfMax ctag' cells = countInfMax ctag cells := by
      rw [countInfMax_eq, countInfMax_eq]
      congr 1
      exact List.countP_congr (fun p hp => by unfold unbMax; rw [(h p hp).1, (h p hp).2.1])
    have e3 : minActNoTags lb' ub' cells = minActNoTags lb ub cells := by
      unfold minActNoTags
      refine List.foldl_ext _ _ _ (fun a p hp => ?_)
      rw [(h p hp).2.2.1, (h p hp).2.2.2]
    have e4 : maxActNoTags lb' ub' cells = maxActNoTags lb ub cells := by
      unfold maxActNoTags
      refine List.foldl_ext _ _ _ (fun a p hp => ?_)
      rw [(h p hp).2.2.1, (h p hp).2.2.2]
    unfold actInit
    rw [e1, e2, e3, e4]
  unfold Recomputed
  rw [e]; exact ha

theorem foldl_act (f : St → Cell → St) (G : (ℕ → D) → (ℕ → D) → List Cell → ℚ → Act → Act)
    (hsame : ∀ s p, SameAct s (f s p)) (ho : ∀ s p j, j ≠ p.1 → (f s p).act j = s.act j)
    (hs : ∀ s p, ActEq ((f s p).act p.1) (G s.lb s.ub (s.A p.1) p.2 (s.act p.1)))
    (cells : List Cell) (hnd : (cells.map Prod.fst).Nodup) (s : St) (i : ℕ) :
    (∀ q, (i, q) ∈ cells → ActEq ((cells.foldl f s).act i) (G s.lb s.ub (s.A i) q (s.act i))) ∧
    ((∀ p ∈ cells, p.1 ≠ i) → (cells.foldl f s).act i = s.act i) := by
  induction cells generalizing s with
  | nil => exact ⟨fun q h => absurd h List.not_mem_nil, fun _ => rfl⟩
  | cons p cells ih =>
    rw [List.map_cons, List.nodup_cons] at hnd
    rw [List.foldl_cons]
    obtain ⟨h1, h2⟩ := ih hnd.2 (f s p)
    have e := hsame s p
    constructor
    · intro q hq
      rcases List.mem_cons.mp hq with rfl | hq
      · rw [h2 (fun r hr e => hnd.1 (List.mem_map.mpr ⟨r, hr, e⟩))]
        exact hs s (i, q)
      · have := h1 q hq
        rw [e.lb, e.ub, e.A, ho s p i (fun e => hnd.1 (List.mem_map.mpr ⟨(i, q), hq, e⟩))] at this
        exact this
    · intro hne
      rw [h2 (fun r hr => hne r (List.mem_cons_of_mem _ hr))]
      exact ho s p i (fun e => hne p List.mem_cons_self e.symm)

theorem noteAltered_act (s : St) (i : ℕ) (alt : Altered) :
    ActEq ((noteAltered s i alt).act i) (s.act i) ∧ ∀ j, j ≠ i → (noteAltered s i alt).act j = s.act j := by
  unfold noteAltered
  simp only
  split
  · split
    · exact ⟨by simp only [upd_same]; exact ⟨rfl, rfl, rfl, rfl⟩, fun j hj => upd_ne _ _ hj⟩
    · exact ⟨by simp only [upd_same]; exact ⟨rfl, rfl, rfl, rfl⟩, fun j hj => upd_ne _ _ hj⟩
    · exact ⟨.refl _, fun _ _ => rfl⟩
  · exact ⟨.refl _, fun _ _ => rfl⟩

theorem updActsBoundChange_act (s : St) (cells : List Cell) (o n : D) (fi lo : Bool)
    (hnd : (cells.map Prod.fst).Nodup) (i : ℕ) :
    (∀ q, (i, q) ∈ cells → ActEq ((updActsBoundChange s cells o n fi lo).act i)
      (updActBoundChange (s.act i) q o n fi lo s.lb s.ub (s.A i)).1) ∧
    ((∀ p ∈ cells, p.1 ≠ i) → (updActsBoundChange s cells o n fi lo).act i = s.act i) := by
  unfold updActsBoundChange
  refine foldl_act _ (fun lb ub cl q a => (updActBoundChange a q o n fi lo lb ub cl).1)
    (fun s p => (sameAct_upd s _ s.updActs).trans (noteAltered_same _ _ _)) (fun s p j hj => ?_)
    (fun s p => ?_) cells hnd s i
  · have := (noteAltered_act { s with act := upd s.act p.1 (updActBoundChange (s.act p.1) p.2 o n fi lo s.lb s.ub (s.A p.1)).1 }
      p.1 (updActBoundChange (s.act p.1) p.2 o n fi lo s.lb s.ub (s.A p.1)).2).2 j hj
    exact this.trans (upd_ne _ _ hj)
  · have := (noteAltered_act { s with act := upd s.act p.1 (updActBoundChange (s.act p.1) p.2 o n fi lo s.lb s.ub (s.A p.1)).1 }
      p.1 (updActBoundChange (s.act p.1) p.2 o n fi lo s.lb s.ub (s.A p.1)).2).1
    simp only [upd_same] at this
    exact this

theorem updActsFixedCol_act (s : St) (cells : List Cell) (oU oL v : D) (ui li : Bool)
    (hnd : (cells.map Prod.fst).Nodup) (i : ℕ) :
    (∀ q, (i, q) ∈ cells → ActEq
      ((updActsFixedCol s cells oU oL v (ui || !D.eqb v oU) (li || !D.eqb v oL) ui li).act i)
      (fixedColAct (s.act i) q s.lb s.ub oU oL v ui li (s.A i))) ∧
    ((∀ p ∈ cells, p.1 ≠ i) →
      (updActsFixedCol s cells oU oL v (ui || !D.eqb v oU) (li || !D.eqb v oL) ui li).act i = s.act i) := by
  unfold updActsFixedCol
  refine foldl_act _ (fun lb ub cl q a => fixedColAct a q lb ub oU oL v ui li cl)
    (fun s p => by unfold updActsFixedColStep; exact (sameAct_upd s _ s.updActs).trans (noteAltered_same _ _ _))
    (fun s p j hj => ?_) (fun s p => ?_) cells hnd s i
  · unfold updActsFixedColStep
    simp only
    rw [(noteAltered_act _ p.1 _).2 j hj]
    exact upd_ne _ _ hj
  · obtain ⟨h1, h2, h3, h4⟩ := updActsFixedColStep_act oU oL v ui li s p
    exact ⟨h3, h4, h1, h2⟩

/-- Everything `Feas` depends on apart from the columns, the log and the activities. -/
structure RestF (s t : St) : Prop where
  m : t.m = s.m
  n : t.n = s.n
  sc : t.subCols = s.subCols
  A : t.A = s.A
  cs : t.colSize = s.colSize
  lhs : t.lhs = s.lhs
  rhs : t.rhs = s.rhs
  rt : t.rtag = s.rtag

theorem effTags_active {s : St} {k : ℕ} (h : (s.ctag k).fixed = false) : effTags s k = s.ctag k := by
  unfold effTags effTag; rw [h]; rfl

section
variable {P : LP} {s t : St} {k : ℕ}

/-- Rows seen by a column change: the row has one cell in the column, or none. -/
theorem GI.cellCases (g : GI s) {i : ℕ} (ha : (s.rtag i).inactive = false) (hk : s.colSize k ≠ -1) :
    (∃ q, (i, q) ∈ s.AT k ∧ (k, q) ∈ s.A i ∧ q ≠ 0) ∨ ((∀ p ∈ s.AT k, p.1 ≠ i) ∧ ∀ p ∈ s.A i, p.1 ≠ k) := by
  have hr := g.rowActive ha
  by_cases h : ∃ q, (i, q) ∈ s.AT k
  · obtain ⟨q, hq⟩ := h
    have := (g.agree i k q hr hk).mpr hq
    exact Or.inl ⟨q, hq, this, (g.rowRange i _ this).2.2⟩
  · refine Or.inr ⟨fun p hp e => h ⟨p.2, by rw [← e]; exact hp⟩, fun p hp e => h ⟨p.2, ?_⟩⟩
    exact (g.agree i k p.2 hr hk).mp (by rw [← e]; exact hp)

/-- A new lower bound. -/
theorem Feas.newLb (h : Feas P s) (g : GI s) (hk : k < P.n) (hc : (s.ctag k).inactive = false) {b : ℚ}
    (r : RestF s t) (lb : t.lb = upd s.lb k (.fin b)) (ub : t.ub = s.ub)
    (ct : t.ctag = upd s.ctag k { s.ctag k with lbInf := false })
    (lg : ∀ j, logVal t.log j = logVal s.log j)
    (ac : ∀ i, ActEq (t.act i) ((updActsBoundChange { s with lb := upd s.lb k (.fin b) } (s.AT k) (s.lb k)
      (.fin b) (!(s.ctag k).lbInf) true).act i))
    (hle : ∀ l, s.lb k = .fin l → l ≤ b) (hgap : ∀ u, s.ub k = .fin u → b ≤ u + FEAS_TOL) : Feas P t := by
  obtain ⟨hfx, hsb⟩ := CTag.inactive_false.mp hc
  have hC := h.col k hk
  have hlog : logVal s.log k = none := hC.new hfx
  have T : ∀ j, Tight s t j := by
    intro j
    by_cases e : j = k
    · subst e
      have c1 : curLb s j = s.lb j := by unfold curLb; rw [hlog]; rfl
      have c2 : curLb t j = .fin b := by unfold curLb; rw [lg, hlog, lb, upd_same]; rfl
      have c3 : curUb t j = curUb s j := by unfold curUb; rw [lg, ub]
      have c4 : slk t j = slk s j := by unfold slk; rw [lg]
      refine ⟨fun l hl => ⟨b, c2, ?_⟩, fun u hu => ⟨u, by rw [c3, hu], by rw [c4]⟩⟩
      rw [c1] at hl
      rw [c4]; linarith [hle l hl]
    · exact .of_eq (lg j) (by rw [lb, upd_ne _ _ e]) (by rw [ub])
  refine ⟨h.valid, r.m.trans h.m, r.n.trans h.n, r.sc.trans h.subs,
    by rw [r.cs]; exact h.crng, by rw [r.rt]; exact h.rrng, fun j hj => ?_, fun i hi => ?_, fun i hi => ?_⟩
  · by_cases e : j = k
    · subst e
      have ctk : t.ctag j = { s.ctag j with lbInf := false } := by rw [ct, upd_same]
      have lbk : t.lb j = .fin b := by rw [lb, upd_same]
      refine ⟨by rw [ctk]; exact hsb, ?_, ?_, ?_, ?_, ?_, ?_, ?_, ?_, ?_⟩
      · intro _; rw [lg]; exact hlog
      · rw [ctk]; intro _ h; cases h
      · intro _; rw [lbk]; exact fun _ => ⟨b, rfl⟩
      · rw [ctk, ub]; exact hC.ubT
      · rw [ctk, ub]; exact hC.ubF
      · intro _ l u hl hu
        rw [lbk] at hl; rw [ub] at hu
        cases hl
        exact hgap u hu
      · rw [ctk]; intro hf; exact absurd (hf.symm.trans hfx) (by simp)
      · intro x hx
        obtain ⟨l, h1, h2⟩ := hC.lo x hx
        obtain ⟨l', h3, h4⟩ := (T j).lo l h1
        exact ⟨l', h3, h2.trans h4⟩
      · intro x hx
        obtain ⟨l, h1, h2⟩ := hC.hi x hx
        obtain ⟨l', h3, h4⟩ := (T j).hi l h1
        exact ⟨l', h3, h4.trans h2⟩
    · exact (h.col j hj).frame (by rw [ct, upd_ne _ _ e]) (by rw [r.cs]; exact id) (by rw [lb, upd_ne _ _ e])
        (by rw [ub]) (lg j)
  · refine (h.row i hi).frame (by rw [r.rt]) (fun _ => by rw [r.A]) (fun _ p _ => by rw [r.cs])
      (fun _ p _ hp => ?_) (by rw [r.lhs]) (by rw [r.rhs]) (fun p _ => T p.1)
    have e : p.1 ≠ k := by intro e; rw [e] at hp; exact g.colActive hc hp
    unfold curLb; rw [lg, lb, upd_ne _ _ e]
  · intro ha
    rw [r.rt] at ha
    have hA := h.act i hi ha
    have hok := h.colsOK g ha
    refine (ac i).rec ?_
    rw [lb, ub, r.A]
    obtain ⟨f1, f2⟩ := updActsBoundChange_act { s with lb := upd s.lb k (.fin b) } (s.AT k) (s.lb k)
      (.fin b) (!(s.ctag k).lbInf) true (g.colSorted k).nodup i
    have he : ∀ j, (effTags t j).lbInf = (upd (effTags s) k { effTags s k with lbInf := false } j).lbInf ∧
        (effTags t j).ubInf = (upd (effTags s) k { effTags s k with lbInf := false } j).ubInf := by
      intro j
      by_cases e : j = k
      · subst e
        rw [upd_same, effTags_active hfx, effTags_active (by rw [ct, upd_same]; exact hfx), ct, upd_same]
        exact ⟨rfl, rfl⟩
      · rw [upd_ne _ _ e]
        unfold effTags
        rw [ct, upd_ne _ _ e]; exact ⟨rfl, rfl⟩
    rcases g.cellCases ha (g.colActive hc) with ⟨q, hq1, hq2, hq0⟩ | ⟨h1, h2⟩
    · refine (f1 q hq1).rec ?_
      have := C22_new_lower_bound (effTags s) s.lb s.ub (s.A i) k q b (s.act i) (g.rowSorted i).nodup hq2
        hq0 hok hA
      rw [effTags_active hfx] at this
      refine this.congr (fun p _ => ⟨?_, ?_, rfl, rfl⟩)
      · have := (he p.1).1; rwa [effTags_active hfx] at this
      · have := (he p.1).2; rwa [effTags_active hfx] at this
    · rw [f2 h1]
      refine Recomputed.congr (fun p hp => ?_) hA
      have e := h2 p hp
      refine ⟨?_, ?_, upd_ne _ _ e, rfl⟩
      · rw [(he p.1).1, upd_ne _ _ e]
      · rw [(he p.1).2, upd_ne _ _ e]

/-- A new upper bound. -/
theorem Feas.newUb (h : Feas P s) (g : GI s) (hk : k < P.n) (hc : (s.ctag k).inactive = false) {b : ℚ}
    (r : RestF s t) (ub : t.ub = upd s.ub k (.fin b)) (lb : t.lb = s.lb)
    (ct : t.ctag = upd s.ctag k { s.ctag k with ubInf := false })
    (lg : ∀ j, logVal t.log j = logVal s.log j)
    (ac : ∀ i, ActEq (t.act i) ((updActsBoundChange { s with ub := upd s.ub k (.fin b) } (s.AT k) (s.ub k)
      (.fin b) (!(s.ctag k).ubInf) false).act i))
    (hle : ∀ l, s.ub k = .fin l → b ≤ l) (hgap : ∀ u, s.lb k = .fin u → u ≤ b + FEAS_TOL) : Feas P t := by
  obtain ⟨hfx, hsb⟩ := CTag.inactive_false.mp hc
  have hC := h.col k hk
  have hlog : logVal s.log k = none := hC.new hfx
  have T : ∀ j, Tight s t j := by
    intro j
    by_cases e : j = k
    · subst e
      have c1 : curUb s j = s.ub j := by unfold curUb; rw [hlog]; rfl
      have c2 : curUb t j = .fin b := by unfold curUb; rw [lg, hlog, ub, upd_same]; rfl
      have c3 : curLb t j = curLb s j := by unfold curLb; rw [lg, lb]
      have c4 : slk t j = slk s j := by unfold slk; rw [lg]
      refine ⟨fun u hu => ⟨u, by rw [c3, hu], by rw [c4]⟩, fun l hl => ⟨b, c2, ?_⟩⟩
      rw [c1] at hl
      rw [c4]; linarith [hle l hl]
    · exact .of_eq (lg j) (by rw [lb]) (by rw [ub, upd_ne _ _ e])
  refine ⟨h.valid, r.m.trans h.m, r.n.trans h.n, r.sc.trans h.subs,
    by rw [r.cs]; exact h.crng, by rw [r.rt]; exact h.rrng, fun j hj => ?_, fun i hi => ?_, fun i hi => ?_⟩
  · by_cases e : j = k
    · subst e
      have ctk : t.ctag j = { s.ctag j with ubInf := false } := by rw [ct, upd_same]
      have ubk : t.ub j = .fin b := by rw [ub, upd_same]
      refine ⟨by rw [ctk]; exact hsb, ?_, ?_, ?_, ?_, ?_, ?_, ?_, ?_, ?_⟩
      · intro _; rw [lg]; exact hlog
      · rw [ctk, lb]; exact hC.lbT
      · rw [ctk, lb]; exact hC.lbF
      · rw [ctk]; intro _ h; cases h
      · intro _; rw [ubk]; exact fun _ => ⟨b, rfl⟩
      · intro _ l u hl hu
        rw [ubk] at hu; rw [lb] at hl
        cases hu
        exact hgap l hl
      · rw [ctk]; intro hf; exact absurd (hf.symm.trans hfx) (by simp)
      · intro x hx
        obtain ⟨l, h1, h2⟩ := hC.lo x hx
        obtain ⟨l', h3, h4⟩ := (T j).lo l h1
        exact ⟨l', h3, h2.trans h4⟩
      · intro x hx
        obtain ⟨l, h1, h2⟩ := hC.hi x hx
        obtain ⟨l', h3, h4⟩ := (T j).hi l h1
        exact ⟨l', h3, h4.trans h2⟩
    · exact (h.col j hj).frame (by rw [ct, upd_ne _ _ e]) (by rw [r.cs]; exact id) (by rw [lb])
        (by rw [ub, upd_ne _ _ e]) (lg j)
  · refine (h.row i hi).frame (by rw [r.rt]) (fun _ => by rw [r.A]) (fun _ p _ => by rw [r.cs])
      (fun _ p _ hp => ?_) (by rw [r.lhs]) (by rw [r.rhs]) (fun p _ => T p.1)
    unfold curLb; rw [lg, lb]
  · intro ha
    rw [r.rt] at ha
    have hA := h.act i hi ha
    have hok := h.colsOK g ha
    refine (ac i).rec ?_
    rw [lb, ub, r.A]
    obtain ⟨f1, f2⟩ := updActsBoundChange_act { s with ub := upd s.ub k (.fin b) } (s.AT k) (s.ub k)
      (.fin b) (!(s.ctag k).ubInf) false (g.colSorted k).nodup i
    have he : ∀ j, (effTags t j).lbInf = (upd (effTags s) k { effTags s k with ubInf := false } j).lbInf ∧
        (effTags t j).ubInf = (upd (effTags s) k { effTags s k with ubInf := false } j).ubInf := by
      intro j
      by_cases e : j = k
      · subst e
        rw [upd_same, effTags_active hfx, effTags_active (by rw [ct, upd_same]; exact hfx), ct, upd_same]
        exact ⟨rfl, rfl⟩
      · rw [upd_ne _ _ e]
        unfold effTags
        rw [ct, upd_ne _ _ e]; exact ⟨rfl, rfl⟩
    rcases g.cellCases ha (g.colActive hc) with ⟨q, hq1, hq2, hq0⟩ | ⟨h1, h2⟩
    · refine (f1 q hq1).rec ?_
      have := C22_new_upper_bound (effTags s) s.lb s.ub (s.A i) k q b (s.act i) (g.rowSorted i).nodup hq2
        hq0 hok hA
      rw [effTags_active hfx] at this
      refine this.congr (fun p _ => ⟨?_, ?_, rfl, rfl⟩)
      · have := (he p.1).1; rwa [effTags_active hfx] at this
      · have := (he p.1).2; rwa [effTags_active hfx] at this
    · rw [f2 h1]
      refine Recomputed.congr (fun p hp => ?_) hA
      have e := h2 p hp
      refine ⟨?_, ?_, rfl, upd_ne _ _ e⟩
      · rw [(he p.1).1, upd_ne _ _ e]
      · rw [(he p.1).2, upd_ne _ _ e]

/-- A column fixed to a number near its bounds. -/
theorem Feas.fixed (h : Feas P s) (g : GI s) (hk : k < P.n) (hc : (s.ctag k).inactive = false) {v : ℚ}
    (r : RestF s t) (lb : t.lb = upd s.lb k (.fin v)) (ub : t.ub = upd s.ub k (.fin v))
    (ct : t.ctag = upd s.ctag k { s.ctag k with fixed := true })
    (lg : ∀ j, j ≠ k → logVal t.log j = logVal s.log j) (lgk : logVal t.log k = some (.fin v))
    (ac : ∀ i, ActEq (t.act i) ((updActsFixedCol { s with lb := upd s.lb k (.fin v), ub := upd s.ub k (.fin v) }
      (s.AT k) (s.ub k) (s.lb k) (.fin v) ((s.ctag k).ubInf || !D.eqb (.fin v) (s.ub k))
      ((s.ctag k).lbInf || !D.eqb (.fin v) (s.lb k)) (s.ctag k).ubInf (s.ctag k).lbInf).act i))
    (hl : ∀ l, s.lb k = .fin l → l ≤ v + FEAS_TOL) (hu : ∀ u, s.ub k = .fin u → v ≤ u + FEAS_TOL) :
    Feas P t := by
  obtain ⟨hfx, hsb⟩ := CTag.inactive_false.mp hc
  have hC := h.col k hk
  have hlog : logVal s.log k = none := hC.new hfx
  have hsk : slk s k = 0 := by unfold slk; rw [hlog]; rfl
  have htk : slk t k = FEAS_TOL := by unfold slk; rw [lgk]; rfl
  have T : ∀ j, Tight s t j := by
    intro j
    by_cases e : j = k
    · subst e
      have c1 : curUb s j = s.ub j := by unfold curUb; rw [hlog]; rfl
      have c2 : curUb t j = .fin v := by unfold curUb; rw [lgk]; rfl
      have c3 : curLb s j = s.lb j := by unfold curLb; rw [hlog]; rfl
      have c4 : curLb t j = .fin v := by unfold curLb; rw [lgk]; rfl
      refine ⟨fun l h => ⟨v, c4, ?_⟩, fun l h => ⟨v, c2, ?_⟩⟩
      · rw [c3] at h; rw [hsk, htk]; linarith [hl l h]
      · rw [c1] at h; rw [hsk, htk]; linarith [hu l h]
    · exact .of_eq (lg j e) (by rw [lb, upd_ne _ _ e]) (by rw [ub, upd_ne _ _ e])
  refine ⟨h.valid, r.m.trans h.m, r.n.trans h.n, r.sc.trans h.subs,
    by rw [r.cs]; exact h.crng, by rw [r.rt]; exact h.rrng, fun j hj => ?_, fun i hi => ?_, fun i hi => ?_⟩
  · by_cases e : j = k
    · subst e
      have ctk : t.ctag j = { s.ctag j with fixed := true } := by rw [ct, upd_same]
      refine ⟨by rw [ctk]; exact hsb, ?_, ?_, ?_, ?_, ?_, ?_, ?_, ?_, ?_⟩
      · rw [ctk]; intro h; cases h
      · rw [ctk]; intro h; cases h
      · rw [ctk]; intro h; cases h
      · rw [ctk]; intro h; cases h
      · rw [ctk]; intro h; cases h
      · rw [ctk]; intro h; cases h
      · intro _; exact ⟨v, lgk, fun _ => ⟨by rw [lb, upd_same], by rw [ub, upd_same]⟩⟩
      · intro x hx
        obtain ⟨l, h1, h2⟩ := hC.lo x hx
        obtain ⟨l', h3, h4⟩ := (T j).lo l h1
        exact ⟨l', h3, h2.trans h4⟩
      · intro x hx
        obtain ⟨l, h1, h2⟩ := hC.hi x hx
        obtain ⟨l', h3, h4⟩ := (T j).hi l h1
        exact ⟨l', h3, h4.trans h2⟩
    · exact (h.col j hj).frame (by rw [ct, upd_ne _ _ e]) (by rw [r.cs]; exact id) (by rw [lb, upd_ne _ _ e])
        (by rw [ub, upd_ne _ _ e]) (lg j e)
  · refine (h.row i hi).frame (by rw [r.rt]) (fun _ => by rw [r.A]) (fun _ p _ => by rw [r.cs])
      (fun _ p _ hp => ?_) (by rw [r.lhs]) (by rw [r.rhs]) (fun p _ => T p.1)
    have e : p.1 ≠ k := by intro e; rw [e] at hp; exact g.colActive hc hp
    unfold curLb; rw [lg _ e, lb, upd_ne _ _ e]
  · intro ha
    rw [r.rt] at ha
    have hA := h.act i hi ha
    have hok := h.colsOK g ha
    refine (ac i).rec ?_
    rw [lb, ub, r.A]
    obtain ⟨f1, f2⟩ := updActsFixedCol_act { s with lb := upd s.lb k (.fin v), ub := upd s.ub k (.fin v) }
      (s.AT k) (s.ub k) (s.lb k) (.fin v) (s.ctag k).ubInf (s.ctag k).lbInf (g.colSorted k).nodup i
    have he : ∀ j, (effTags t j).lbInf =
          (upd (effTags s) k { effTags s k with lbInf := false, ubInf := false } j).lbInf ∧
        (effTags t j).ubInf =
          (upd (effTags s) k { effTags s k with lbInf := false, ubInf := false } j).ubInf := by
      intro j
      by_cases e : j = k
      · subst e
        rw [upd_same]
        unfold effTags effTag
        rw [ct, upd_same]
        exact ⟨rfl, rfl⟩
      · rw [upd_ne _ _ e]
        unfold effTags
        rw [ct, upd_ne _ _ e]; exact ⟨rfl, rfl⟩
    rcases g.cellCases ha (g.colActive hc) with ⟨q, hq1, hq2, hq0⟩ | ⟨h1, h2⟩
    · refine (f1 q hq1).rec ?_
      have := C22_fixed_column (effTags s) s.lb s.ub (s.A i) k q v (s.act i) (g.rowSorted i).nodup hq2
        hq0 hok hA
      rw [effTags_active hfx] at this
      refine this.congr (fun p _ => ⟨?_, ?_, rfl, rfl⟩)
      · have := (he p.1).1; rwa [effTags_active hfx] at this
      · have := (he p.1).2; rwa [effTags_active hfx] at this
    · rw [f2 h1]
      refine Recomputed.congr (fun p hp => ?_) hA
      have e := h2 p hp
      refine ⟨?_, ?_, upd_ne _ _ e, upd_ne _ _ e⟩
      · rw [(he p.1).1, upd_ne _ _ e]
      · rw [(he p.1).2, upd_ne _ _ e]

/-- A row is taken out; its sides are implied. -/
theorem Feas.rowOut (h : Feas P s) {i : ℕ} (hi : i < P.m)
    (m : t.m = s.m) (n : t.n = s.n) (sc : t.subCols = s.subCols) (A : ∀ j, j ≠ i → t.A j = s.A j) (cs : t.colSize = s.colSize)
    (lhs : t.lhs = s.lhs) (rhs : t.rhs = s.rhs) (lb : t.lb = s.lb) (ub : t.ub = s.ub)
    (ct : t.ctag = s.ctag) (rti : (t.rtag i).inactive = true) (rt : ∀ j, j ≠ i → t.rtag j = s.rtag j)
    (lg : ∀ k, logVal t.log k = logVal s.log k) (ac : ∀ j, ActEq (t.act j) (s.act j))
    (hD : ∀ B, P.rhs i = .fin B → DropHi s (P.A i) B) (lD : ∀ B, P.lhs i = .fin B → DropLo s (P.A i) B) :
    Feas P t := by
  have T : ∀ k, Tight s t k := fun k => .of_eq (lg k) (by rw [lb]) (by rw [ub])
  refine ⟨h.valid, m.trans h.m, n.trans h.n, sc.trans h.subs,
    by rw [cs]; exact h.crng, fun j hj => by
      by_cases e : j = i
      · rw [e]; exact hi
      · rw [rt j e] at hj; exact h.rrng j hj, fun k hk => ?_, fun j hj => ?_, fun j hj => ?_⟩
  · exact (h.col k hk).frame (by rw [ct]) (by rw [cs]; exact id) (by rw [lb]) (by rw [ub]) (lg k)
  · by_cases e : j = i
    · subst e
      refine ⟨?_, ?_, ?_, ?_, ?_, ?_, (by rw [rti]; intro h; cases h), (by rw [rti]; intro h; cases h)⟩
      · rw [rti]; intro h; cases h
      · rw [rti]; intro h; cases h
      · rw [rti]; intro h; cases h
      · exact fun _ B hB => (hD B hB).tight (fun p _ => T p.1)
      · rw [rti]; intro h; cases h
      · exact fun _ B hB => (lD B hB).tight (fun p _ => T p.1)
    · exact (h.row j hj).frame (rt j e) (fun _ => A j e) (fun _ p _ => by rw [cs])
        (fun _ p _ _ => by unfold curLb; rw [lg, lb]) (by rw [lhs]) (by rw [rhs]) (fun p _ => T p.1)
  · intro ha
    have e : j ≠ i := by intro e; rw [e, rti] at ha; cases ha
    rw [rt j e] at ha
    have e' : effTags t = effTags s := by unfold effTags; rw [ct]
    rw [lb, ub, A j e, e']
    exact (ac j).rec (h.act j hj ha)

/-- One side of a row is taken out; it is implied. -/
theorem Feas.sideOut (h : Feas P s) {i : ℕ} (hi : i < P.m) (lower : Bool)
    (hact : (s.rtag i).inactive = false)
    (m : t.m = s.m) (n : t.n = s.n) (sc : t.subCols = s.subCols) (A : t.A = s.A) (cs : t.colSize = s.colSize)
    (lhs : ∀ j, (lower = true → j ≠ i) → t.lhs j = s.lhs j)
    (rhs : ∀ j, (lower = false → j ≠ i) → t.rhs j = s.rhs j) (lb : t.lb = s.lb) (ub : t.ub = s.ub)
    (ct : t.ctag = s.ctag)
    (rti : t.rtag i = if lower then { lhsInf := true } else { rhsInf := true })
    (rt : ∀ j, j ≠ i → t.rtag j = s.rtag j)
    (lg : ∀ k, logVal t.log k = logVal s.log k) (ac : ∀ j, ActEq (t.act j) (s.act j))
    (hfin : (s.rtag i).lhsInf = false ∧ (s.rtag i).rhsInf = false)
    (hD : lower = false → ∀ B, P.rhs i = .fin B → DropHi s (P.A i) B)
    (lD : lower = true → ∀ B, P.lhs i = .fin B → DropLo s (P.A i) B)
    (sl : lower = true → t.lhs i = .ninf) (sr : lower = false → t.rhs i = .pinf) :
    Feas P t := by
  have T : ∀ k, Tight s t k := fun k => .of_eq (lg k) (by rw [lb]) (by rw [ub])
  refine ⟨h.valid, m.trans h.m, n.trans h.n, sc.trans h.subs,
    by rw [cs]; exact h.crng, fun j hj => by
      by_cases e : j = i
      · rw [e]; exact hi
      · rw [rt j e] at hj; exact h.rrng j hj, fun k hk => ?_, fun j hj => ?_, fun j hj => ?_⟩
  · exact (h.col k hk).frame (by rw [ct]) (by rw [cs]; exact id) (by rw [lb]) (by rw [ub]) (lg k)
  · by_cases e : j = i
    · subst e
      have hr := h.row j hj
      have eg : gone P t j = gone P s j := by unfold gone curLb; simp only [cs, lg, lb]
      have ha : (t.rtag j).inactive = false := by rw [rti]; cases lower <;> rfl
      refine ⟨?_, ?_, ?_, ?_, ?_, ?_, ?_, ?_⟩
      · intro _; rw [A, cs]; exact hr.cells hact
      · rw [rti]; cases lower <;> exact fun _ h => by cases h
      · cases lower with
        | false => rw [rti]; intro _ h; cases h
        | true =>
          intro _ _; rw [eg, rhs j (fun h => by cases h)]; exact hr.rhs hact hfin.2
      · cases lower with
        | false => exact fun _ B hB => (hD rfl B hB).tight (fun p _ => T p.1)
        | true => rw [rti]; rintro (h | h) <;> cases h
      · cases lower with
        | true => rw [rti]; intro _ h; cases h
        | false =>
          intro _ _; rw [eg, lhs j (fun h => by cases h)]; exact hr.lhs hact hfin.1
      · cases lower with
        | true => exact fun _ B hB => (lD rfl B hB).tight (fun p _ => T p.1)
        | false => rw [rti]; rintro (h | h) <;> cases h
      · cases lower with
        | false => exact fun _ _ => sr rfl
        | true => rw [rti]; intro _ h; cases h
      · cases lower with
        | true => exact fun _ _ => sl rfl
        | false => rw [rti]; intro _ h; cases h
    · exact (h.row j hj).frame (rt j e) (fun _ => by rw [A]) (fun _ p _ => by rw [cs])
        (fun _ p _ _ => by unfold curLb; rw [lg, lb]) (lhs j (fun _ => e)) (rhs j (fun _ => e)) (fun p _ => T p.1)
  · intro ha
    have ha' : (s.rtag j).inactive = false := by
      by_cases e : j = i
      · rw [e]; exact hact
      · rw [rt j e] at ha; exact ha
    have e' : effTags t = effTags s := by unfold effTags; rw [ct]
    rw [lb, ub, A, e']
    exact (ac j).rec (h.act j hj ha')

/-- A column without cells is fixed and taken out. -/
theorem Feas.emptyCol (h : Feas P s) (g : GI s) (hk : k < P.n) (hc : (s.ctag k).inactive = false)
    (hT : s.AT k = []) {v : ℚ}
    (m : t.m = s.m) (n : t.n = s.n) (sc : t.subCols = s.subCols) (A : t.A = s.A) (csk : t.colSize k = -1)
    (cs : ∀ j, j ≠ k → t.colSize j = s.colSize j)
    (lhs : t.lhs = s.lhs) (rhs : t.rhs = s.rhs) (rt : t.rtag = s.rtag)
    (lb : ∀ j, j ≠ k → t.lb j = s.lb j) (ub : ∀ j, j ≠ k → t.ub j = s.ub j)
    (ct : t.ctag = upd s.ctag k { s.ctag k with fixed := true })
    (lg : ∀ j, j ≠ k → logVal t.log j = logVal s.log j) (lgk : logVal t.log k = some (.fin v))
    (ac : ∀ i, ActEq (t.act i) (s.act i))
    (hl : ∀ l, s.lb k = .fin l → l ≤ v + FEAS_TOL) (hu : ∀ u, s.ub k = .fin u → v ≤ u + FEAS_TOL) :
    Feas P t := by
  obtain ⟨hfx, hsb⟩ := CTag.inactive_false.mp hc
  have hC := h.col k hk
  have hlog : logVal s.log k = none := hC.new hfx
  have hsk : slk s k = 0 := by unfold slk; rw [hlog]; rfl
  have htk : slk t k = FEAS_TOL := by unfold slk; rw [lgk]; rfl
  have T : ∀ j, Tight s t j := by
    intro j
    by_cases e : j = k
    · subst e
      have c1 : curUb s j = s.ub j := by unfold curUb; rw [hlog]; rfl
      have c2 : curUb t j = .fin v := by unfold curUb; rw [lgk]; rfl
      have c3 : curLb s j = s.lb j := by unfold curLb; rw [hlog]; rfl
      have c4 : curLb t j = .fin v := by unfold curLb; rw [lgk]; rfl
      refine ⟨fun l h => ⟨v, c4, ?_⟩, fun l h => ⟨v, c2, ?_⟩⟩
      · rw [c3] at h; rw [hsk, htk]; linarith [hl l h]
      · rw [c1] at h; rw [hsk, htk]; linarith [hu l h]
    · exact .of_eq (lg j e) (lb j e) (ub j e)
  have hne : ∀ i, (s.rtag i).inactive = false → ∀ p ∈ P.A i, p.1 = k → i < P.m → False := by
    intro i ha p hp e hi
    have hm : p ∈ s.A i := by
      rw [(h.row i hi).cells ha]
      exact List.mem_filter.mpr ⟨hp, by rw [e]; exact decide_eq_true (g.colActive hc)⟩
    have := (g.agree i k p.2 (g.rowActive ha) (g.colActive hc)).mp (by rw [← e]; exact hm)
    rw [hT] at this; cases this
  refine ⟨h.valid, m.trans h.m, n.trans h.n, sc.trans h.subs,
    fun j hj => by
      by_cases e : j = k
      · rw [e]; exact hk
      · rw [cs j e] at hj; exact h.crng j hj, by rw [rt]; exact h.rrng, fun j hj => ?_, fun i hi => ?_, fun i hi => ?_⟩
  · by_cases e : j = k
    · subst e
      have ctk : t.ctag j = { s.ctag j with fixed := true } := by rw [ct, upd_same]
      refine ⟨by rw [ctk]; exact hsb, ?_, ?_, ?_, ?_, ?_, ?_, ?_, ?_, ?_⟩
      · rw [ctk]; intro h; cases h
      · rw [ctk]; intro h; cases h
      · rw [ctk]; intro h; cases h
      · rw [ctk]; intro h; cases h
      · rw [ctk]; intro h; cases h
      · rw [ctk]; intro h; cases h
      · intro _; exact ⟨v, lgk, fun hx => absurd csk hx⟩
      · intro x hx
        obtain ⟨l, h1, h2⟩ := hC.lo x hx
        obtain ⟨l', h3, h4⟩ := (T j).lo l h1
        exact ⟨l', h3, h2.trans h4⟩
      · intro x hx
        obtain ⟨l, h1, h2⟩ := hC.hi x hx
        obtain ⟨l', h3, h4⟩ := (T j).hi l h1
        exact ⟨l', h3, h4.trans h2⟩
    · exact (h.col j hj).frame (by rw [ct, upd_ne _ _ e]) (by rw [cs j e]; exact id) (lb j e) (ub j e) (lg j e)
  · refine (h.row i hi).frame (by rw [rt]) (fun _ => by rw [A]) (fun ha p hp => ?_)
      (fun ha p hp hs => ?_) (by rw [lhs]) (by rw [rhs]) (fun p _ => T p.1)
    · rw [cs _ (fun e => hne i ha p hp e hi)]
    · have e : p.1 ≠ k := fun e => hne i ha p hp e hi
      unfold curLb; rw [lg _ e, lb _ e]
  · intro ha
    rw [rt] at ha
    have hA := h.act i hi ha
    refine (ac i).rec ?_
    rw [A]
    refine Recomputed.congr (fun p hp => ?_) hA
    have hp' : p ∈ P.A i := by rw [(h.row i hi).cells ha] at hp; exact (List.mem_filter.mp hp).1
    have e : p.1 ≠ k := fun e => hne i ha p hp' e hi
    refine ⟨?_, ?_, lb _ e, ub _ e⟩ <;> · unfold effTags; rw [ct, upd_ne _ _ e]

end

end Verif
