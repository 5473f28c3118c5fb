import Verif.Inv.ListedSton

/-!
# Rows waiting for propagation and row tags: doubleton equality rows
-/

namespace Verif

theorem dropCoeff_status (a : Act) (lb ub : D) (t : CTag) (q : ℚ) : (dropCoeff a lb ub t q).status = a.status := by
  unfold dropCoeff
  simp only
  split_ifs <;> rfl

theorem addCoeff_status (a : Act) (lb ub : D) (t : CTag) (q : ℚ) : (addCoeff a lb ub t q).status = a.status := by
  unfold addCoeff
  simp only
  split_ifs <;> rfl

theorem updActCoeffChange_status (a : Act) (lb ub : D) (old new : ℚ) (t : CTag) :
    (updActCoeffChange a lb ub old new t).1.status = a.status := by
  unfold updActCoeffChange
  simp only
  split_ifs <;> exact (addCoeff_status ..).trans (dropCoeff_status ..)

/-- A piece of a run that keeps the number of rows and the sides as well. -/
structure UpS (s t : St) : Prop where
  lup : Lup s t
  m : t.m = s.m
  rhs : t.rhs = s.rhs

theorem UpS.trans {s t u : St} (h : UpS s t) (h' : UpS t u) : UpS s u :=
  ⟨h.lup.trans h'.lup, h'.m.trans h.m, h'.rhs.trans h.rhs⟩

theorem dtonNoteAct_ups {s : St} {q : ℕ} (hq : q < s.m) : UpS s (dtonNoteAct s q) := by
  unfold dtonNoteAct
  split
  · rename_i hs
    exact ⟨⟨id, fun h => h.push hq hs, fun h => h.push hq, fun _ _ => id⟩, rfl, rfl⟩
  · exact ⟨.refl s, rfl, rfl⟩

theorem dtonRecompute_ups {s : St} {q : ℕ} (hq : q < s.m) (b : Bool) (a : Act) (ha : a.status = (s.act q).status) :
    UpS s (if b then dtonNoteAct { s with act := upd s.act q a } q else s) := by
  split
  · exact UpS.trans (t := { s with act := upd s.act q a }) ⟨Lup.act s q a ha, rfl, rfl⟩
      (dtonNoteAct_ups (s := { s with act := upd s.act q a }) hq)
  · exact ⟨.refl s, rfl, rfl⟩

theorem dtonAct_ups {s : St} {q j k : ℕ} {r : DtonRow} (hq : q < s.m) : UpS s (dtonAct s q j k r) := by
  unfold dtonAct
  simp only
  have h1 : UpS s { s with act := upd s.act q (updActCoeffChange (updActCoeffChange (s.act q) (s.lb j) (s.ub j) r.oldStay r.newStay
      (s.ctag j)).1 (s.lb k) (s.ub k) r.oldSubst 0 (s.ctag k)).1 } :=
    ⟨Lup.act s q _ ((updActCoeffChange_status ..).trans (updActCoeffChange_status ..)), rfl, rfl⟩
  generalize updActCoeffChange (s.act q) (s.lb j) (s.ub j) r.oldStay r.newStay (s.ctag j) = a1 at h1 ⊢
  generalize updActCoeffChange a1.1 (s.lb k) (s.ub k) r.oldSubst 0 (s.ctag k) = a2 at h1 ⊢
  have h2 := dtonRecompute_ups (s := { s with act := upd s.act q a2.1 }) (q := q) hq (a1.2.minRecompute || a2.2.minRecompute)
    { (upd s.act q a2.1) q with min := minActNoTags s.lb s.ub (s.A q) } rfl
  have h3 := h1.trans h2
  simp only at h3
  generalize (if (a1.2.minRecompute || a2.2.minRecompute) = true then _ else _) = t at h3 ⊢
  exact h3.trans (dtonRecompute_ups (by rw [h3.m]; exact hq) (a1.2.maxRecompute || a2.2.maxRecompute) _ rfl)

theorem dtonNoteSize_ups (s : St) (q : ℕ) (o : ℤ) (buf : List ℕ) : UpS s (dtonNoteSize s q o buf).1 := by
  unfold dtonNoteSize
  simp only
  split_ifs
  · exact ⟨(Lup.check s _).trans (.same id rfl rfl rfl rfl rfl rfl rfl), rfl, rfl⟩
  · exact ⟨(Lup.check s _).trans (.same id rfl rfl rfl rfl rfl rfl rfl), rfl, rfl⟩
  · exact ⟨.refl s, rfl, rfl⟩
  · exact ⟨.refl s, rfl, rfl⟩
  · exact ⟨.refl s, rfl, rfl⟩

theorem putCell_rows {cells : List Cell} {ins col : ℕ} {v : ℚ} {p : Cell} (h : p ∈ putCell cells ins col v) :
    p ∈ cells ∨ p.1 = col := by
  unfold putCell at h
  split at h
  · rcases List.mem_append.mp h with h | h
    · exact .inl h
    · exact .inr (by rw [List.mem_singleton.mp h])
  · rename_i x hx
    have hlt : ins < cells.length := by
      by_contra hc
      rw [List.getElem?_eq_none (by omega)] at hx; cases hx
    split at h
    · rcases List.mem_or_eq_of_mem_set h with h | h
      · exact .inl h
      · exact .inr (by rw [h])
    · rcases (List.mem_insertIdx (by omega)).mp h with h | h
      · exact .inr (by rw [h])
      · exact .inl h

theorem insertOrUpdCells_rows {cells col : List Cell} {q : ℕ} {v : ℚ} (h : insertOrUpdCells cells q v = some col)
    {p : Cell} (hp : p ∈ col) : p ∈ cells ∨ p.1 = q := by
  unfold insertOrUpdCells at h
  simp only at h
  split at h
  · split at h
    · cases h; exact .inl (List.mem_of_mem_eraseIdx hp)
    · cases h
  · cases h; exact putCell_rows hp

/-- Column `j` gains at most a cell in row `q`. -/
theorem Lup.col {s t : St} {j q : ℕ} {col : List Cell} (hq : q < s.m) (hc : ∀ p ∈ col, p ∈ s.AT j ∨ p.1 = q)
    (ha : t.asrt = s.asrt) (hm : t.m = s.m) (hu : t.updActs = s.updActs) (hs : t.act = s.act)
    (hT : t.AT = Verif.upd s.AT j col) (hr : t.rtag = s.rtag) (hl : t.lhs = s.lhs) (hh : t.rhs = s.rhs) : Lup s t := by
  have rows : (∀ k, ∀ p ∈ s.AT k, p.1 < s.m) → ∀ k, ∀ p ∈ t.AT k, p.1 < t.m := by
    intro h k p hp
    rw [hT] at hp
    rw [hm]
    by_cases e : k = j
    · rw [e, upd_same] at hp
      rcases hc p hp with hp | hp
      · exact h j p hp
      · rw [hp]; exact hq
    · rw [upd_ne _ _ e] at hp; exact h k p hp
  refine ⟨fun o => by rw [← ha]; exact o, fun c => ⟨by rw [hu]; exact c.nodup, fun i => ?_, fun i => ?_, fun i => ?_, rows c.rows⟩,
    fun c => ⟨fun i => ?_, fun i => ?_, rows c.rows⟩, fun _ _ => tag_of_eq hr hl hh⟩
  · rw [hu, hs]; exact c.mem i
  · rw [hu, hm]; exact c.range i
  · rw [hs]; exact c.status i
  · rw [hu, hm]; exact c.range i
  · rw [hs, hm]; exact c.status i

theorem dtonSides_lup {s : St} {q : ℕ} {aik coef : ℚ} {rhs : D} (h : s.asrt = true → D.isInf rhs = false) :
    Lup s (dtonSides s q aik rhs coef) := by
  unfold dtonSides
  split
  · exact .refl s
  · exact .shift (i := q) (d := D.smul (coef / aik) rhs) (fun o => isInf_smul (h o)) id rfl rfl (fun _ => rfl) rfl rfl rfl rfl

theorem dtonSides_fr (s : St) (q : ℕ) (aik coef : ℚ) (rhs : D) :
    (dtonSides s q aik rhs coef).m = s.m ∧ (dtonSides s q aik rhs coef).asrt = s.asrt ∧
      ∀ i, i ≠ q → (dtonSides s q aik rhs coef).rhs i = s.rhs i := by
  unfold dtonSides
  split
  · exact ⟨rfl, rfl, fun _ _ => rfl⟩
  · refine ⟨rfl, rfl, fun i hi => ?_⟩
    show (if (s.rtag q).rhsInf then s.rhs else upd s.rhs q _) i = _
    split
    · rfl
    · exact upd_ne _ _ hi

theorem dtonNoteSize_ups' {s : St} {q : ℕ} {o : ℤ} {buf : List ℕ} {u : St × List ℕ} (h : dtonNoteSize s q o buf = u) :
    UpS s u.1 := by
  subst h; exact dtonNoteSize_ups s q o buf

/-- The assertions before the size bookkeeping. -/
theorem UpS.after {s t u : St} {c d : Bool} (b : Bool) (h : UpS t u) (ha : t.asrt = (s.asrt && b && c && d)) (hm : t.m = s.m)
    (hu : t.updActs = s.updActs) (hs : t.act = s.act) (hT : t.AT = s.AT) (hr : t.rtag = s.rtag) (hl : t.lhs = s.lhs)
    (hh : t.rhs = s.rhs) : UpS s u ∧ (u.asrt = true → b = true) := by
  have k : t.asrt = true → ((s.asrt = true ∧ b = true) ∧ c = true) ∧ d = true := fun o => by
    rw [ha] at o; simpa only [Bool.and_eq_true] using o
  exact ⟨UpS.trans ⟨.same (fun o => (k o).1.1.1) hm hu hs hT hr hl hh, hm, hh⟩ h, fun o => (k (h.lup.asrt o)).1.1.2⟩

/-- The end of the loop body: sides and activity. -/
theorem dtonTail_lup {s v : St} {i j k q : ℕ} {aik : ℚ} {r : DtonRow} (h5 : UpS s v) (hp : q < s.m)
    (hr : s.asrt = true → D.isInf (s.rhs i) = false) (n5 : v.asrt = true → i ≠ q) :
    Lup s (dtonAct (dtonSides v q aik (v.rhs i) r.oldSubst) q j k r) ∧
      (dtonAct (dtonSides v q aik (v.rhs i) r.oldSubst) q j k r).m = s.m ∧
      ((dtonAct (dtonSides v q aik (v.rhs i) r.oldSubst) q j k r).asrt = true →
        D.isInf ((dtonAct (dtonSides v q aik (v.rhs i) r.oldSubst) q j k r).rhs i) = false) := by
  have f5 : v.asrt = true → D.isInf (v.rhs i) = false := fun o => by rw [h5.rhs]; exact hr (h5.lup.asrt o)
  have h6 := dtonSides_lup (q := q) (aik := aik) (coef := r.oldSubst) f5
  obtain ⟨m6, o6, r6⟩ := dtonSides_fr v q aik r.oldSubst (v.rhs i)
  generalize dtonSides v q aik (v.rhs i) r.oldSubst = y at h6 m6 o6 r6 ⊢
  have h7 := dtonAct_ups (s := y) (q := q) (j := j) (k := k) (r := r) (by rw [m6, h5.m]; exact hp)
  refine ⟨(h5.lup.trans h6).trans h7.lup, by rw [h7.m, m6, h5.m], fun o => ?_⟩
  have ov := h6.asrt (h7.lup.asrt o)
  rw [h7.rhs, r6 i (n5 ov)]
  exact f5 ov

/-- One step of the loop: what it keeps, given that the row exists and the right side of row `i` is finite. -/
theorem dtonSubstRow_lup {i j k : ℕ} {aij aik : ℚ} {s : St} {buf : List ℕ} {p : Cell} (hp : p.1 < s.m)
    (hr : s.asrt = true → D.isInf (s.rhs i) = false) :
    Lup s (dtonSubstRow i j k aij aik (s, buf) p).1 ∧ (dtonSubstRow i j k aij aik (s, buf) p).1.m = s.m ∧
      ((dtonSubstRow i j k aij aik (s, buf) p).1.asrt = true → D.isInf ((dtonSubstRow i j k aij aik (s, buf) p).1.rhs i) = false) := by
  generalize he : dtonSubstRow i j k aij aik (s, buf) p = e
  unfold dtonSubstRow at he
  simp only at he
  split at he
  · subst he; exact ⟨.refl s, rfl, hr⟩
  split at he
  · subst he
    refine ⟨((Lup.check s _).trans (Lup.flag _ _)).trans (Lup.check _ _), rfl, fun o => ?_⟩
    have := (Bool.and_eq_true_iff.mp o).2
    cases this
  · rename_i r _
    generalize hu : dtonNoteSize _ _ _ _ = u at he
    have h4 := dtonNoteSize_ups' hu
    clear hu
    obtain ⟨h4, n3⟩ := h4.after (s := s) (decide (p.1 ≠ i)) rfl rfl rfl rfl rfl rfl rfl rfl
    have n4 : u.1.asrt = true → i ≠ p.1 := fun o e => of_decide_eq_true (n3 o) e.symm
    clear n3
    obtain ⟨w, buf'⟩ := u
    simp only at h4 n4 he
    split at he
    · subst he
      refine ⟨(h4.lup.trans (Lup.flag _ _)).trans (Lup.check _ _), h4.m, fun o => ?_⟩
      have := (Bool.and_eq_true_iff.mp o).2
      cases this
    · rename_i col hcol
      subst he
      have hq : p.1 < w.m := by rw [h4.m]; exact hp
      exact dtonTail_lup (h4.trans ⟨.col (j := j) hq (fun _ hx => insertOrUpdCells_rows hcol hx) rfl rfl rfl rfl rfl rfl rfl rfl,
        rfl, rfl⟩) hp hr n4

theorem dtonFold_lup {i j k : ℕ} {aij aik : ℚ} (L : List Cell) (s : St) (buf : List ℕ) (hp : ∀ p ∈ L, p.1 < s.m)
    (hr : s.asrt = true → D.isInf (s.rhs i) = false) : Lup s (L.foldl (dtonSubstRow i j k aij aik) (s, buf)).1 := by
  induction L generalizing s buf with
  | nil => exact .refl s
  | cons p L ih =>
    rw [List.foldl_cons]
    obtain ⟨h1, h2, h3⟩ := dtonSubstRow_lup (j := j) (k := k) (aij := aij) (aik := aik) (buf := buf) (hp p List.mem_cons_self) hr
    exact h1.trans (ih _ _ (fun q hq => by rw [h2]; exact hp q (List.mem_cons_of_mem _ hq)) h3)

theorem dtonPre_lup (s : St) (i j k : ℕ) : Lup s (dtonPre s i j k) := by
  unfold dtonPre
  simp only
  refine (Lup.flag s (!(s.AT j).any (fun p => decide (p.1 = i)))).trans ?_
  refine .of id rfl rfl (fun _ => rfl) (sub_of_sub (fun t => ?_)) (fun _ => id)
  show upd (upd s.AT j (dropCell i (s.AT j))) k [] t ⊆ s.AT t
  by_cases e : t = k
  · rw [e, upd_same]; exact List.nil_subset _
  · rw [upd_ne _ _ e]
    by_cases e' : t = j
    · rw [e', upd_same]; unfold dropCell; exact List.eraseP_subset
    · rw [upd_ne _ _ e']; exact List.Subset.refl _

theorem dtonNoteCol_lup (s : St) (j : ℕ) : Lup s (dtonNoteCol s j) := by
  unfold dtonNoteCol
  simp only
  split_ifs
  · exact (Lup.check s _).trans (.same id rfl rfl rfl rfl rfl rfl rfl)
  · exact (Lup.check s _).trans (.same id rfl rfl rfl rfl rfl rfl rfl)
  · exact .refl s

theorem dtonPost_lup (x : St × List ℕ) (i j k : ℕ) (cells : List Cell) (aik ck : ℚ) :
    Lup x.1 (dtonPost x i j k cells aik ck).1 := by
  obtain ⟨s, buf⟩ := x
  unfold dtonPost
  simp only
  refine (dtonNoteCol_lup s j).trans ?_
  generalize dtonNoteCol s j = t
  refine Lup.trans (t := { t with ctag := upd t.ctag k { fixed := true, subst := true }, colSize := upd t.colSize k (-1) })
    (.same id rfl rfl rfl rfl rfl rfl rfl) ?_
  exact (Lup.check _ _).trans (.same id rfl rfl rfl rfl rfl rfl rfl)

theorem dtonExecute_lup {s : St} {i : ℕ} {cells : List Cell} {j k : ℕ} {aij aik : ℚ} {buf : List ℕ} {ck : ℚ}
    (hr : s.asrt = true → D.isInf (s.rhs i) = false) : Lup s (dtonExecute s i cells j k aij aik buf ck).1 := by
  by_cases hw : Weak s
  · rw [dtonExecute_pre_post]
    exact ((dtonPre_lup s i j k).trans (dtonFold_lup (s.AT k) (dtonPre s i j k) buf (hw.rows k) hr)).trans (dtonPost_lup _ _ _ _ _ _ _)
  · exact ⟨(dtonExecute_le s i cells j k aij aik buf ck).asrt, fun h => absurd h.weak hw, fun h => absurd h hw,
      fun _ h => absurd h hw⟩

theorem updateUb_rhs (s : St) (k : ℕ) (v : D) (row : ℕ) : (updateUb s k v row).1.rhs = s.rhs := by
  unfold updateUb
  simp only
  split
  · rfl
  · split
    · obtain ⟨a, u, e⟩ := updActsBoundChange_only { s.check (!(s.ctag k).inactive) with ub := upd s.ub k v } (s.AT k) (s.ub k) v
        (!(s.ctag k).ubInf) false
      have e' := congrArg St.rhs e
      exact e'
    · rfl

theorem updateLb_rhs (s : St) (k : ℕ) (v : D) (row : ℕ) : (updateLb s k v row).1.rhs = s.rhs := by
  unfold updateLb
  simp only
  split
  · rfl
  · split
    · obtain ⟨a, u, e⟩ := updActsBoundChange_only { s.check (!(s.ctag k).inactive) with lb := upd s.lb k v } (s.AT k) (s.lb k) v
        (!(s.ctag k).lbInf) true
      have e' := congrArg St.rhs e
      exact e'
    · rfl

theorem modifyBounds_lup (s : St) (i j : ℕ) (aij aik : ℚ) (rhs lbk ubk : D) (t : CTag) :
    Lup s (modifyBounds s i aij aik rhs lbk ubk j t) ∧ (modifyBounds s i aij aik rhs lbk ubk j t).rhs = s.rhs := by
  unfold modifyBounds
  simp only
  split
  · have h : ∀ b : Bool, ∀ v, Lup s (if b then s else (updateUb s j v i).1) ∧ (if b then s else (updateUb s j v i).1).rhs = s.rhs := by
      intro b v; cases b
      · exact ⟨updateUb_lup _ _ _ _, updateUb_rhs _ _ _ _⟩
      · exact ⟨.refl s, rfl⟩
    obtain ⟨h1, h2⟩ := h t.lbInf ((rhs.sub (D.smul aik lbk)).divq aij)
    generalize (if t.lbInf = true then s else _) = u at h1 h2 ⊢
    split
    · exact ⟨h1, h2⟩
    · split
      · exact ⟨h1, h2⟩
      · exact ⟨h1.trans (updateLb_lup _ _ _ _), (updateLb_rhs _ _ _ _).trans h2⟩
  · have h : ∀ b : Bool, ∀ v, Lup s (if b then s else (updateLb s j v i).1) ∧ (if b then s else (updateLb s j v i).1).rhs = s.rhs := by
      intro b v; cases b
      · exact ⟨updateLb_lup _ _ _ _, updateLb_rhs _ _ _ _⟩
      · exact ⟨.refl s, rfl⟩
    obtain ⟨h1, h2⟩ := h t.lbInf ((rhs.sub (D.smul aik lbk)).divq aij)
    generalize (if t.lbInf = true then s else _) = u at h1 h2 ⊢
    split
    · exact ⟨h1, h2⟩
    · split
      · exact ⟨h1, h2⟩
      · exact ⟨h1.trans (updateUb_lup _ _ _ _), (updateUb_rhs _ _ _ _).trans h2⟩

theorem dtonPrep_lup (s : St) (i j k : ℕ) (aij aik : ℚ) : Lup s (dtonPrep s i j k aij aik) :=
  .deact (i := i) id rfl rfl rfl rfl (.inr rfl) rfl rfl

theorem findSubst_lup (env : Env) (s : St) (i : ℕ) : Lup s (findSubst env s i).1 := by
  rcases findSubst_out env s i with h | ⟨_, ⟨h, _⟩ | ⟨t, plan, h⟩⟩ <;> rw [h]
  · exact .refl s
  · exact ((Lup.check s _).trans (Lup.check _ _)).trans (Lup.flag _ _)
  · exact ((Lup.check s _).trans (Lup.check _ _)).trans (.same id rfl rfl rfl rfl rfl rfl rfl)

/-- A substitution is only found in a row with a finite right side. -/
theorem findSubst_fin {env : Env} {s s1 : St} {i j k : ℕ} {aij aik : ℚ} (h : findSubst env s i = (s1, .subst j k aij aik))
    (o : s1.asrt = true) : D.isInf (s1.rhs i) = false := by
  rcases findSubst_out env s i with e | ⟨_, ⟨e, _⟩ | ⟨t, plan, e⟩⟩ <;> rw [h] at e
  · simp at e
  · simp at e
  · obtain ⟨rfl, -⟩ := Prod.mk.inj e
    have o : (s.asrt && ((s.rtag i).eq && !(s.rtag i).inactive) && (D.eqb (s.lhs i) (s.rhs i) && !D.isInf (s.rhs i))) = true := o
    simp only [Bool.and_eq_true, Bool.not_eq_true'] at o
    exact o.2.2

theorem dtonStep_lup (env : Env) (acc : St × List ℕ × Bool) (i : ℕ) : Lup acc.1 (dtonStep env acc i).1 := by
  obtain ⟨s, buf, red⟩ := acc
  unfold dtonStep
  simp only
  have hu := findSubst_lup env s i
  have hf := fun s1 j k aij aik h => findSubst_fin (env := env) (s := s) (s1 := s1) (i := i) (j := j) (k := k) (aij := aij) (aik := aik) h
  generalize findSubst env s i = x at hu hf ⊢
  obtain ⟨s1, plan⟩ := x
  cases plan with
  | skip => exact hu
  | retry => exact hu
  | subst j k aij aik =>
    simp only
    obtain ⟨h1, h2⟩ := modifyBounds_lup s1 i j aij aik (s1.rhs i) (s1.lb k) (s1.ub k) (s1.ctag k)
    have hr : (modifyBounds s1 i aij aik (s1.rhs i) (s1.lb k) (s1.ub k) j (s1.ctag k)).asrt = true →
        D.isInf ((modifyBounds s1 i aij aik (s1.rhs i) (s1.lb k) (s1.ub k) j (s1.ctag k)).rhs i) = false := fun o => by
      rw [h2]; exact hf s1 j k aij aik rfl (h1.asrt o)
    have h3 := hu.trans h1
    generalize modifyBounds s1 i aij aik (s1.rhs i) (s1.lb k) (s1.ub k) j (s1.ctag k) = w at h3 hr ⊢
    split
    · exact h3
    · refine h3.trans ((dtonPrep_lup w i j k aij aik).trans ?_)
      exact dtonExecute_lup (s := dtonPrep w i j k aij aik) hr

theorem dtonSteps_lup (env : Env) (L : List ℕ) (acc : St × List ℕ × Bool) : Lup acc.1 (L.foldl (dtonStep env) acc).1 := by
  induction L generalizing acc with
  | nil => exact .refl _
  | cons i L ih => exact (dtonStep_lup env acc i).trans (ih _)

theorem dtonRound_lup (env : Env) (s : St) : Lup s (dtonRound env s).1 :=
  (dtonSteps_lup env s.dtonRows (s, [], false)).trans (.same id rfl rfl rfl rfl rfl rfl rfl)

theorem dtonLoop_lup (env : Env) (fuel : ℕ) (s : St) : Lup s (dtonLoop env fuel s) := by
  induction fuel generalizing s with
  | zero => exact Lup.flag s true
  | succ fuel ih =>
    unfold dtonLoop
    split
    · exact .refl s
    · simp only
      split
      · exact (dtonRound_lup env s).trans (ih _)
      · exact dtonRound_lup env s

theorem removeDtonRows_lup (env : Env) (s : St) : Lup s (removeDtonRows env s) := by
  unfold removeDtonRows
  simp only
  refine (((Lup.check s (decide (s.stonRows = []))).trans (Lup.check _ (decide (s.emptyRows = [])))).trans
    (Lup.check _ (decide (s.emptyCols = [])))).trans ?_
  generalize ((s.check (decide (s.stonRows = []))).check (decide (s.emptyRows = []))).check (decide (s.emptyCols = [])) = t
  refine (dtonLoop_lup env (t.m + 1) t).trans ?_
  generalize dtonLoop env (t.m + 1) t = u
  split
  · exact .refl u
  · exact (Lup.foldl _ delFixedCol_lup _ u).trans (deleteInactiveCols_lup _)

end Verif
