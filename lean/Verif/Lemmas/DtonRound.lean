import Verif.Model.DtonRound
import Verif.Props.C55_DtonStorage
import Verif.Inv.DtonGood
import Verif.Inv.FwDton

/-!
# Lemmas for a round over the doubleton equalities in the arrays
-/

namespace Verif

theorem Arrays.rows_eq (M : Arrays) : M.rows = M.view := rfl

theorem findSubst_pick {env : Env} {s : St} {i : ℕ} {e0 e1 : Cell} (h : ¬ s.rowSize i < 2) (hA : s.A i = [e0, e1]) :
    findSubst env s i = match dtonPick (dtonChecked s i) e0 e1 with
      | none => (dtonChecked s i, .skip)
      | some none => (dtonChecked s i, .retry)
      | some (some p) => ({ dtonChecked s i with tick := s.tick + 1 },
          if env.space s.tick then .subst p.1 p.2.1 p.2.2.1 p.2.2.2 else .retry) := by
  obtain ⟨c0, a0⟩ := e0
  obtain ⟨c1, a1⟩ := e1
  unfold findSubst
  rw [if_neg h]
  simp only
  rw [show ((s.check ((s.rtag i).eq && !(s.rtag i).inactive)).check
    (D.eqb (s.lhs i) (s.rhs i) && !D.isInf (s.rhs i))).A i = [(c0, a0), (c1, a1)] from hA]
  simp only
  change (if ((dtonChecked s i).ctag c0).inactive || ((dtonChecked s i).ctag c1).inactive then _ else _) = _
  unfold dtonPick
  simp only
  by_cases h1 : (((dtonChecked s i).ctag c0).inactive || ((dtonChecked s i).ctag c1).inactive) = true
  · rw [if_pos h1, if_pos h1]; rfl
  · rw [if_neg h1, if_neg h1]
    generalize hf : dtonSubstFirst a0 a1 ((dtonChecked s i).colSize c0) ((dtonChecked s i).colSize c1) = f
    simp only [show dtonSubstFirst a0 a1 (((s.check ((s.rtag i).eq && !(s.rtag i).inactive)).check
      (D.eqb (s.lhs i) (s.rhs i) && !D.isInf (s.rhs i))).colSize c0) (((s.check ((s.rtag i).eq && !(s.rtag i).inactive)).check
      (D.eqb (s.lhs i) (s.rhs i) && !D.isInf (s.rhs i))).colSize c1) = f from hf]
    by_cases h2 : dtonPivotBad (if f then a1 else a0) (if f then a0 else a1) = true
    · rw [if_pos h2, if_pos h2]; rfl
    · rw [if_neg h2, if_neg h2]
      change (if env.space s.tick then _ else _) = _
      by_cases h3 : env.space s.tick = true
      · rw [if_pos h3]; simp only [if_pos h3]; rfl
      · rw [if_neg h3]; simp only [if_neg h3]; rfl

theorem dtonPick_some {s : St} {e0 e1 : Cell} {j k : ℕ} {aij aik : ℚ} (h : dtonPick s e0 e1 = some (some (j, k, aij, aik))) :
    ((j, aij) = e0 ∧ (k, aik) = e1 ∨ (j, aij) = e1 ∧ (k, aik) = e0) ∧ (s.ctag e0.1).inactive = false ∧
      (s.ctag e1.1).inactive = false := by
  unfold dtonPick at h
  by_cases h0 : ((s.ctag e0.1).inactive || (s.ctag e1.1).inactive) = true
  · rw [if_pos h0] at h; cases h
  · rw [if_neg h0] at h
    simp only [Bool.or_eq_true, not_or, Bool.not_eq_true] at h0
    refine ⟨?_, h0⟩
    simp only at h
    generalize dtonSubstFirst e0.2 e1.2 (s.colSize e0.1) (s.colSize e1.1) = f at h
    by_cases h1 : dtonPivotBad (if f then e1.2 else e0.2) (if f then e0.2 else e1.2) = true
    · rw [if_pos h1] at h; simp at h
    · rw [if_neg h1] at h
      simp only [Option.some.injEq, Prod.mk.injEq] at h
      obtain ⟨h1, h2, h3, h4⟩ := h
      cases f
      · exact .inl ⟨Prod.ext h1.symm h3.symm, Prod.ext h2.symm h4.symm⟩
      · exact .inr ⟨Prod.ext h1.symm h3.symm, Prod.ext h2.symm h4.symm⟩

/-- What `modify_bounds` leaves alone. -/
def boundFrame (s : St) := (s.m, s.n, s.A, s.AT, s.rtag, s.lhs, s.rhs, s.rowSize, s.tick, s.dtonRows)

theorem modifyBounds_boundFrame (s : St) (i : ℕ) (aij aik : ℚ) (rhs lbk ubk : D) (j : ℕ) (tag : CTag) :
    boundFrame (modifyBounds s i aij aik rhs lbk ubk j tag) = boundFrame s := by
  have hU : ∀ (s : St) (v : D), boundFrame (Verif.updateUb s j v i).1 = boundFrame s := fun s v => by
    rcases updateUb_eq s j v i with ⟨st, e⟩ | ⟨a, u, e⟩ <;> rw [e] <;> rfl
  have hL : ∀ (s : St) (v : D), boundFrame (Verif.updateLb s j v i).1 = boundFrame s := fun s v => by
    rcases updateLb_eq s j v i with ⟨st, e⟩ | ⟨a, u, e⟩ <;> rw [e] <;> rfl
  unfold modifyBounds
  simp only
  repeat' split
  all_goals first
    | rfl
    | exact hU _ _
    | exact hL _ _
    | exact (hU _ _).trans (hL _ _)
    | exact (hL _ _).trans (hU _ _)

/-- The assertions of the loop say that a negligible coefficient had a cell. -/
theorem exec_fits {s : St} {i j k : ℕ} {aij aik ck b : ℚ} {cells : List Cell} {buf : List ℕ} (hjk : j ≠ k)
    (hi : (s.rtag i).inactive = true) (hnd : ((s.AT k).map Prod.fst).Nodup)
    (hrows : ∀ p ∈ s.AT k, (s.rtag p.1).inactive = false → SortedC (s.A p.1) ∧ (k, p.2) ∈ s.A p.1 ∧
      s.rowSize p.1 = ((s.A p.1).length : ℤ) ∧ ((∃ w, (p.1, w) ∈ s.AT j) → ∃ w, (j, w) ∈ s.A p.1))
    (hcol : SortedC (s.AT j)) (hb : s.rhs i = .fin b)
    (o : (dtonExecute s i cells j k aij aik buf ck).1.asrt = true) :
    ∀ p ∈ s.AT k, (s.rtag p.1).inactive = false → |newCoef j k (aij / aik) (s.A p.1)| ≤ ZERO_TOL →
      ∃ w, (p.1, w) ∈ s.AT j := by
  rw [dtonExecute_pre_post] at o
  have o := (dtonPost_out _ i j k cells aik ck).2.2.2.2.2.2.1.asrt o
  have hd : dropCell i (s.AT j) = without i (s.AT j) := dropCell_eq hcol.nodup
  have hj : (dtonPre s i j k).AT j = without i (s.AT j) := by
    show upd (upd s.AT j (dropCell i (s.AT j))) k [] j = _
    rw [upd_ne _ _ hjk, upd_same, hd]
  have hsub : ∀ q w, (q, w) ∈ without i (s.AT j) → (q, w) ∈ s.AT j := fun q w h => (List.mem_filter.mp h).1
  have H := (dtonFold_asrt hjk (s.AT k) (dtonPre s i j k) buf hnd hi
    (fun p hp ha => by
      obtain ⟨h1, h2, h3, h4⟩ := hrows p hp ha
      exact ⟨h1, h2, h3, fun ⟨w, hw⟩ => h4 ⟨w, hsub _ _ (by rw [← hj]; exact hw)⟩⟩)
    (by rw [hj]; exact hcol.sublist List.filter_sublist) hb o).1
  intro p hp ha h
  obtain ⟨w, hw⟩ := H.fits p hp ha h
  exact ⟨w, hsub _ _ (by rw [← hj]; exact hw)⟩

/-- The columns of the arrays after the space check. -/
theorem Mat.lists_same {A B : Mat ℚ} (hm : B.m = A.m) (h : ∀ r < A.m, B.rowOf r = A.rowOf r) : B.lists = A.lists := by
  funext c
  unfold Mat.lists
  rw [hm]
  split
  · exact h c ‹_›
  · rfl

/-- The substitution that follows a positive answer. -/
theorem Arrays.exec_refines {M : Arrays} (ok : M.OK) (inv : Inv M.view) {pref : ℕ → ℕ → Bool} {maxShift : ℤ}
    {i j k : ℕ} {aij aik b ck : ℚ} {rowCells : List Cell} {buf : List ℕ} {T : Mat ℚ}
    (hsp : M.AT.sufficientSpace pref j k maxShift = some (true, T)) (hjk : j ≠ k)
    (hrow : (M.s.rtag i).inactive = false) (hmj : (j, aij) ∈ M.view.A i) (hmk : (k, aik) ∈ M.view.A i)
    (hnext : T.pe j < T.nAlloc)
    {s : St} (hsm : s.m = M.s.m) (hsn : s.n = M.s.n) (hrt : s.rtag = upd M.s.rtag i { inactive := true })
    (hrs : s.rowSize = upd M.s.rowSize i (-1)) (hb : s.rhs i = .fin b)
    (o : (Verif.dtonExecute { s with A := upd M.A.lists i [], AT := M.AT.lists } i rowCells j k aij aik buf ck).1.asrt = true) :
    ∃ M' buf', Arrays.dtonExecute ⟨s, M.A.setRange i (M.A.ps i) (M.A.ps i), T⟩ i rowCells j k aij aik buf ck = some (M', buf') ∧
      M'.OK ∧ M'.A.m = M.A.m ∧ M'.AT.m = M.AT.m ∧
      Verif.dtonExecute { s with A := upd M.A.lists i [], AT := M.AT.lists } i rowCells j k aij aik buf ck = (M'.view, buf') := by
  have g := inv.gi
  have hi : i < M.A.m := by rw [ok.rows]; exact (g.rowRange i _ hmj).1
  have hj : j < M.AT.m := by rw [ok.cols]; exact (g.rowRange i _ hmj).2.1
  have hk : k < M.AT.m := by rw [ok.cols]; exact (g.rowRange i _ hmk).2.1
  have lA : ∀ q < M.A.m, M.view.A q = M.A.rowOf q := fun q hq => Mat.lists_of hq
  have lT : ∀ c < M.AT.m, M.view.AT c = M.AT.rowOf c := fun c hc => Mat.lists_of hc
  have hact : ∀ q, (s.rtag q).inactive = false → q ≠ i ∧ (M.s.rtag q).inactive = false := by
    intro q hq
    rw [hrt] at hq
    by_cases e : q = i
    · subst e; rw [upd_same] at hq; cases hq
    · rw [upd_ne _ _ e] at hq; exact ⟨e, hq⟩
  have hri : (s.rtag i).inactive = true := by rw [hrt, upd_same]
  have hAT : ∀ q, (M.s.rtag q).inactive = false → ∀ c v, (c, v) ∈ M.view.A q ↔ (q, v) ∈ M.view.AT c := by
    intro q hq c v
    by_cases hc : M.s.colSize c = -1
    · constructor
      · intro h; exact absurd hc (g.rowIn q hq _ h)
      · intro h; rw [(g.colGone c hc).1] at h; cases h
    · exact g.agree q c v (g.rowActive hq) hc
  have hlA : ∀ q, q ≠ i → upd M.A.lists i [] q = M.view.A q := fun q hq => upd_ne _ _ hq
  have fits := exec_fits (s := { s with A := upd M.A.lists i [], AT := M.AT.lists }) (i := i) (j := j) (k := k) (aij := aij)
    (aik := aik) (b := b) hjk hri (g.colSorted k).nodup
    (fun p hp ha => by
      obtain ⟨h1, h2⟩ := hact p.1 ha
      show SortedC (upd M.A.lists i [] p.1) ∧ (k, p.2) ∈ upd M.A.lists i [] p.1 ∧
        s.rowSize p.1 = ((upd M.A.lists i [] p.1).length : ℤ) ∧ _
      rw [hlA _ h1, hrs, upd_ne _ _ h1]
      refine ⟨g.rowSorted _, (hAT p.1 h2 k p.2).mpr hp, g.rowSz _ (g.rowActive h2), fun ⟨w, hw⟩ => ⟨w, ?_⟩⟩
      show (j, w) ∈ upd M.A.lists i [] p.1
      rw [hlA _ h1]
      exact (hAT p.1 h2 j w).mpr hw)
    (g.colSorted j) hb o
  obtain ⟨M', buf', x1, x2, x3, x4, x5⟩ := Arrays.dtonExecute_refines ok pref maxShift (i := i) (j := j) (k := k) (aij := aij)
    (aik := aik) hi hjk hj hk (fun q hq => by rw [← lA q hq]; exact g.rowSorted q)
    (fun c hc => by rw [← lT c hc]; exact g.colSorted c)
    ⟨aij, by rw [← lT j hj]; exact (hAT i hrow j aij).mp hmj⟩ hsp hsm hsn hri
    (fun q hq ha c hc v => by rw [← lA q hq, ← lT c hc]; exact hAT q (hact q ha).2 c v)
    (fun q hq ha a hka hn => by
      by_contra hle
      obtain ⟨h1, h2⟩ := hact q ha
      have hle := not_lt.mp hle
      rw [← lA q hq] at hka
      have hp := (hAT q h2 k a).mp hka
      have hc : |newCoef j k (aij / aik) (upd M.A.lists i [] q)| ≤ ZERO_TOL := by
        rw [hlA q h1]
        unfold newCoef
        rw [coefAt_cell (g.rowSorted q) hka, coefAt_noCol (fun p hp e => hn p.2 (by rw [← e, ← lA q hq]; exact hp)), zero_sub, abs_neg]
        exact hle
      obtain ⟨w, hw⟩ := fits (q, a) hp ha hc
      exact hn w (by rw [← lA q hq]; exact (hAT q h2 j w).mpr hw))
    hnext rowCells buf ck
  exact ⟨M', buf', x1, x2, x3, x4, x5⟩

theorem dtonNoteSize_tick (s : St) (q : ℕ) (o : ℤ) (buf : List ℕ) : (dtonNoteSize s q o buf).1.tick = s.tick := by
  unfold dtonNoteSize
  split_ifs <;> rfl

theorem dtonSides_tick (s : St) (q : ℕ) (a : ℚ) (r : D) (c : ℚ) : (dtonSides s q a r c).tick = s.tick := by
  unfold dtonSides
  split_ifs <;> rfl

theorem dtonNoteAct_tick (s : St) (q : ℕ) : (dtonNoteAct s q).tick = s.tick := by
  unfold dtonNoteAct
  split_ifs <;> rfl

theorem dtonAct_tick (s : St) (q j k : ℕ) (r : DtonRow) : (dtonAct s q j k r).tick = s.tick := by
  unfold dtonAct
  simp only
  repeat' split
  all_goals first
    | rfl
    | exact dtonNoteAct_tick _ _
    | exact (dtonNoteAct_tick _ _).trans (dtonNoteAct_tick _ _)

theorem dtonSubstRow_tick (i j k : ℕ) (aij aik : ℚ) (acc : St × List ℕ) (p : Cell) :
    (dtonSubstRow i j k aij aik acc p).1.tick = acc.1.tick := by
  obtain ⟨s, buf⟩ := acc
  unfold dtonSubstRow
  simp only
  split
  · rfl
  · split
    · rfl
    · split
      · exact dtonNoteSize_tick _ _ _ _
      · refine (dtonAct_tick _ _ _ _ _).trans ((dtonSides_tick _ _ _ _ _).trans ?_)
        exact dtonNoteSize_tick _ _ _ _

theorem dtonExecute_tick (s : St) (i : ℕ) (cells : List Cell) (j k : ℕ) (aij aik : ℚ) (buf : List ℕ) (ck : ℚ) :
    (dtonExecute s i cells j k aij aik buf ck).1.tick = s.tick := by
  have hf : ∀ (L : List Cell) (acc : St × List ℕ), (L.foldl (dtonSubstRow i j k aij aik) acc).1.tick = acc.1.tick := by
    intro L
    induction L with
    | nil => intro acc; rfl
    | cons p L ih => intro acc; rw [List.foldl_cons, ih, dtonSubstRow_tick]
  have h2 : ∀ s : St, (dtonNoteCol s j).tick = s.tick := by
    intro s; unfold dtonNoteCol; split_ifs <;> rfl
  rw [dtonExecute_pre_post]
  exact (h2 _).trans (hf _ _)

/-- The first two cells of a row of length two. -/
theorem Mat.rowOf_two {A : Mat ℚ} (h : A.Layout) {i : ℕ} (hi : i < A.m) (hl : (A.rowOf i).length = 2) :
    A.rowOf i = [A.cell (A.ps i), A.cell (A.ps i + 1)] ∧ A.getCell (A.ps i) = some (A.cell (A.ps i)) ∧
      A.getCell (A.ps i + 1) = some (A.cell (A.ps i + 1)) := by
  have h1 := h.pe_le_alloc hi
  rw [Mat.rowOf_seg, Mat.seg_length] at hl
  refine ⟨?_, ?_, ?_⟩
  · rw [Mat.rowOf_seg, hl]; rfl
  · unfold Mat.getCell; rw [if_pos (by omega)]
  · unfold Mat.getCell; rw [if_pos (by omega)]

theorem Arrays.findSubst_pick {M : Arrays} {pref : ℕ → ℕ → ℕ → Bool} {maxShift : ℤ} {i : ℕ} {e0 e1 : Cell} (h : ¬ M.s.rowSize i < 2)
    (h0 : M.A.getCell (M.A.ps i) = some e0) (h1 : M.A.getCell (M.A.ps i + 1) = some e1) :
    Arrays.findSubst pref maxShift M i = match dtonPick (dtonChecked M.s i) e0 e1 with
      | none => some (⟨dtonChecked M.s i, M.A, M.AT⟩, .skip)
      | some none => some (⟨dtonChecked M.s i, M.A, M.AT⟩, .retry)
      | some (some p) =>
        (M.AT.sufficientSpace (pref M.s.tick) p.1 p.2.1 maxShift).map fun r =>
          (⟨{ dtonChecked M.s i with tick := M.s.tick + 1 }, M.A, r.2⟩,
            if r.1 then .subst p.1 p.2.1 p.2.2.1 p.2.2.2 else .retry) := by
  unfold Arrays.findSubst
  rw [if_neg h, h0, h1]
  rfl

/-- What one step in the arrays has to do with one step on the lists: `q` is the answer of the space check if there
was one. -/
def StepRefines (pref : ℕ → ℕ → ℕ → Bool) (maxShift : ℤ) (M : Arrays) (buf : List ℕ) (red : Bool) (i : ℕ) (q : Option Bool) : Prop :=
  ∀ env : Env, (∀ a, q = some a → env.space M.s.tick = a) → (dtonStep env (M.view, buf, red) i).1.asrt = true →
    (∃ r, Arrays.dtonStep pref maxShift (M, buf, red) i = some r ∧ r.1.OK ∧ r.1.A.m = M.A.m ∧ r.1.AT.m = M.AT.m ∧
      dtonStep env (M.view, buf, red) i = (r.1.view, r.2) ∧ r.1.s.tick = M.s.tick + (if q.isSome then 1 else 0)) ∨
    (Arrays.dtonStep pref maxShift (M, buf, red) i = none ∧
      ∃ N j k aij aik, Arrays.findSubst pref maxShift M i = some (N, .subst j k aij aik) ∧ j < N.AT.m ∧ N.AT.pe j = N.AT.nAlloc)

/-- The state before the substitution, in the arrays. -/
def prepA (s : St) (i j k : ℕ) (aij aik : ℚ) : St :=
  { s with c := upd s.c j (s.c j - aij / aik * s.c k), off := D.add s.off (D.smul (s.c k) (D.divq (s.rhs i) aik)),
           rtag := upd s.rtag i { inactive := true }, rowSize := upd s.rowSize i (-1), nnz := s.nnz - 2 }

theorem dtonStep_list {env : Env} {s V : St} {buf : List ℕ} {red : Bool} {i j k : ℕ} {aij aik : ℚ}
    (h : findSubst env s i = (V, .subst j k aij aik)) {s2 : St}
    (h2 : modifyBounds V i aij aik (V.rhs i) (V.lb k) (V.ub k) j (V.ctag k) = s2) :
    dtonStep env (s, buf, red) i =
      if (s2.ctag j).inactive then (s2, buf, true)
      else ((dtonExecute (dtonPrep s2 i j k aij aik) i ((s2.A i).take 2) j k aij aik buf ((dtonPrep s2 i j k aij aik).c k)).1,
        (dtonExecute (dtonPrep s2 i j k aij aik) i ((s2.A i).take 2) j k aij aik buf ((dtonPrep s2 i j k aij aik).c k)).2, true) := by
  subst h2
  unfold dtonStep
  simp only [h]
  rfl

theorem Arrays.dtonStep_arr {pref : ℕ → ℕ → ℕ → Bool} {maxShift : ℤ} {M N : Arrays} {buf : List ℕ} {red : Bool} {i j k : ℕ}
    {aij aik : ℚ} {e0 e1 : Cell} (h : Arrays.findSubst pref maxShift M i = some (N, .subst j k aij aik))
    (h0 : N.A.getCell (N.A.ps i) = some e0) (h1 : N.A.getCell (N.A.ps i + 1) = some e1) {s2 : St}
    (h2 : modifyBounds N.view i aij aik (N.s.rhs i) (N.s.lb k) (N.s.ub k) j (N.s.ctag k) = s2) :
    Arrays.dtonStep pref maxShift (M, buf, red) i =
      if (s2.ctag j).inactive then some (⟨s2, N.A, N.AT⟩, buf, true)
      else (Arrays.dtonExecute ⟨prepA s2 i j k aij aik, N.A.setRange i (N.A.ps i) (N.A.ps i), N.AT⟩ i [e0, e1] j k aij aik buf
        ((prepA s2 i j k aij aik).c k)).map (fun r => (r.1, r.2, true)) := by
  subst h2
  unfold Arrays.dtonStep
  simp only [h, h0, h1, Option.bind_eq_bind, Option.bind_some]
  by_cases hc : ((modifyBounds N.view i aij aik (N.s.rhs i) (N.s.lb k) (N.s.ub k) j (N.s.ctag k)).ctag j).inactive = true
  · rw [if_pos hc]
    exact if_pos hc
  · rw [if_neg hc]
    refine (if_neg hc).trans ?_
    rw [Option.map_eq_bind]
    rfl

theorem Arrays.dtonStep_step {M : Arrays} (ok : M.OK) (inv : Inv M.view) {i : ℕ}
    (short : (M.view.A i).length ≤ 2) (pref : ℕ → ℕ → ℕ → Bool) (maxShift : ℤ) (buf : List ℕ) (red : Bool) :
    ∃ q, StepRefines pref maxShift M buf red i q := by
  have g := inv.gi
  by_cases h2 : M.s.rowSize i < 2
  · refine ⟨none, fun env _ _ => .inl ⟨(M, buf, red), ?_, ok, rfl, rfl, ?_, rfl⟩⟩
    · unfold Arrays.dtonStep Arrays.findSubst
      simp [h2]
    · unfold Verif.dtonStep Verif.findSubst
      simp only
      rw [if_pos (show M.view.rowSize i < 2 from h2)]
  have hlen : (M.view.A i).length = 2 := by
    have := g.rowSz i (show M.view.rowSize i ≠ -1 from fun e => h2 (by have e : M.s.rowSize i = -1 := e; omega))
    have e : M.view.rowSize i = M.s.rowSize i := rfl
    omega
  have hi : i < M.A.m := by
    by_contra hn
    have : M.view.A i = [] := if_neg hn
    rw [this] at hlen; simp at hlen
  have hA : M.view.A i = M.A.rowOf i := Mat.lists_of hi
  obtain ⟨hrow, g0, g1⟩ := Mat.rowOf_two ok.layA hi (by rw [← hA]; exact hlen)
  generalize M.A.cell (M.A.ps i) = e0 at hrow g0
  generalize M.A.cell (M.A.ps i + 1) = e1 at hrow g1
  rw [hrow] at hA
  have fA := Arrays.findSubst_pick (pref := pref) (maxShift := maxShift) h2 g0 g1
  have fL := fun env => Verif.findSubst_pick (env := env) (s := M.view) h2 hA
  have hpk : dtonPick (dtonChecked M.view i) e0 e1 = dtonPick (dtonChecked M.s i) e0 e1 := rfl
  rw [hpk] at fL
  cases hp : dtonPick (dtonChecked M.s i) e0 e1 with
  | none =>
    rw [hp] at fA fL
    refine ⟨none, fun env _ _ => .inl ⟨(⟨dtonChecked M.s i, M.A, M.AT⟩, buf, red), ?_,
      ⟨ok.rows, ok.cols, ok.layA, ok.layT, ok.inA, ok.inT⟩, rfl, rfl, ?_, rfl⟩⟩
    · unfold Arrays.dtonStep; simp only [fA]; rfl
    · unfold Verif.dtonStep; simp only [fL env]; rfl
  | some op =>
    cases op with
    | none =>
      rw [hp] at fA fL
      refine ⟨none, fun env _ _ => .inl ⟨(⟨dtonChecked M.s i, M.A, M.AT⟩, buf ++ [i], red), ?_,
        ⟨ok.rows, ok.cols, ok.layA, ok.layT, ok.inA, ok.inT⟩, rfl, rfl, ?_, rfl⟩⟩
      · unfold Arrays.dtonStep; simp only [fA]; rfl
      · unfold Verif.dtonStep; simp only [fL env]; rfl
    | some p =>
      obtain ⟨j, k, aij, aik⟩ := p
      rw [hp] at fA fL
      simp only at fA fL
      obtain ⟨hjk, hc0, hc1⟩ := dtonPick_some hp
      have hs := g.rowSorted i
      rw [hA] at hs
      have hne : e0.1 ≠ e1.1 := by
        simp only [SortedC, List.pairwise_cons] at hs
        have := hs.1 e1 (by simp)
        omega
      have hmj : (j, aij) ∈ M.view.A i := by
        rw [hA]; rcases hjk with ⟨e, -⟩ | ⟨e, -⟩ <;> rw [e] <;> simp
      have hmk : (k, aik) ∈ M.view.A i := by
        rw [hA]; rcases hjk with ⟨-, e⟩ | ⟨-, e⟩ <;> rw [e] <;> simp
      have hjne : j ≠ k := by
        rcases hjk with ⟨e, e'⟩ | ⟨e, e'⟩ <;> rw [← e, ← e'] at hne
        · exact hne
        · exact hne.symm
      have hj : j < M.AT.m := by rw [ok.cols]; exact (g.rowRange i _ hmj).2.1
      have hk : k < M.AT.m := by rw [ok.cols]; exact (g.rowRange i _ hmk).2.1
      obtain ⟨b, T, sp, spf, spt, -, sm, sa⟩ := C55_space_check M.AT ok.layT (pref M.s.tick) maxShift hj hk
        (by rw [← Mat.lists_of hj]; exact g.colSorted j) (by rw [← Mat.lists_of hk]; exact g.colSorted k)
      refine ⟨some b, fun env hq o => ?_⟩
      have hq := hq b rfl
      have fL := fL env
      rw [show env.space M.view.tick = b from hq] at fL
      rw [sp] at fA
      simp only [Option.map_some] at fA
      cases b with
      | false =>
        have e := spf rfl
        subst e
        refine .inl ⟨(⟨{ dtonChecked M.s i with tick := M.s.tick + 1 }, M.A, M.AT⟩, buf ++ [i], red), ?_,
          ⟨ok.rows, ok.cols, ok.layA, ok.layT, ok.inA, ok.inT⟩, rfl, rfl, ?_, rfl⟩
        · unfold Arrays.dtonStep; simp only [fA]; rfl
        · unfold Verif.dtonStep; simp only [fL]; rfl
      | true =>
        obtain ⟨lay, rows, -⟩ := spt rfl
        have hTl : T.lists = M.AT.lists := Mat.lists_same sm rows
        have hV : Arrays.view ⟨{ dtonChecked M.s i with tick := M.s.tick + 1 }, M.A, T⟩ =
            { dtonChecked M.view i with tick := M.view.tick + 1 } := by
          unfold Arrays.view; rw [hTl]; rfl
        generalize h2' : modifyBounds { dtonChecked M.view i with tick := M.view.tick + 1 } i aij aik (M.s.rhs i) (M.s.lb k)
          (M.s.ub k) j (M.s.ctag k) = s2
        have eL := dtonStep_list (buf := buf) (red := red) fL h2'
        have eA := Arrays.dtonStep_arr (buf := buf) (red := red) fA g0 g1 (s2 := s2) (by rw [hV]; exact h2')
        have hF := modifyBounds_boundFrame { dtonChecked M.view i with tick := M.view.tick + 1 } i aij aik (M.s.rhs i) (M.s.lb k)
          (M.s.ub k) j (M.s.ctag k)
        rw [h2'] at hF
        simp only [boundFrame, Prod.mk.injEq] at hF
        obtain ⟨f1, f2, f3, f4, f5, f6, f7, f8, f9, -⟩ := hF
        have f1 : s2.m = M.s.m := f1
        have f2 : s2.n = M.s.n := f2
        have f3 : s2.A = M.A.lists := f3
        have f4 : s2.AT = M.AT.lists := f4
        have f5 : s2.rtag = M.s.rtag := f5
        have f7 : s2.rhs = M.s.rhs := f7
        have f8 : s2.rowSize = M.s.rowSize := f8
        have f9 : s2.tick = M.s.tick + 1 := f9
        have okT : Arrays.OK ⟨s2, M.A, T⟩ := ok.setT f1 f2 sm lay (fun c hc p hp => by rw [rows c hc] at hp; exact ok.inT c hc p hp)
        have hview : Arrays.view ⟨s2, M.A, T⟩ = s2 := by
          unfold Arrays.view; rw [hTl]
          show { s2 with A := M.A.lists, AT := M.AT.lists } = s2
          rw [← f3, ← f4]
        by_cases hin : (s2.ctag j).inactive = true
        · rw [if_pos hin] at eL eA
          exact .inl ⟨_, eA, okT, rfl, sm, by rw [eL, hview], f9⟩
        · rw [if_neg hin] at eL eA
          have hprep : ({ prepA s2 i j k aij aik with A := upd M.A.lists i [], AT := M.AT.lists } : St) = dtonPrep s2 i j k aij aik := by
            rw [← f3, ← f4]; rfl
          have htake : (s2.A i).take 2 = [e0, e1] := by
            rw [f3, show M.A.lists i = [e0, e1] from hA]; rfl
          rw [htake] at eL
          rw [eL] at o
          simp only at o
          have o1 : (dtonPrep s2 i j k aij aik).asrt = true := (dtonExecute_le _ _ _ _ _ _ _ _ _).asrt o
          have o2 : s2.asrt = true := o1
          have o3 : Ok Mode.all (modifyBounds { dtonChecked M.view i with tick := M.view.tick + 1 } i aij aik (M.s.rhs i) (M.s.lb k)
            (M.s.ub k) j (M.s.ctag k)) := by rw [h2']; exact ok_all.mpr o2
          have o4 : Ok Mode.all { dtonChecked M.view i with tick := M.view.tick + 1 } := modifyBounds_ok o3
          have o5 : Ok Mode.all (dtonChecked M.view i) := ⟨o4.1, o4.2⟩
          obtain ⟨-, hra, bb, hbb⟩ := dtonChecked_ok o5
          rcases lt_or_ge (T.pe j) T.nAlloc with hnext | hnext
          · obtain ⟨M', buf', x1, x2, x3, x4, x5⟩ := Arrays.exec_refines ok inv sp hjne hra hmj hmk hnext
              (s := prepA s2 i j k aij aik) (rowCells := [e0, e1]) (buf := buf) (ck := (prepA s2 i j k aij aik).c k) (b := bb)
              f1 f2 (by show upd s2.rtag i _ = _; rw [f5]) (by show upd s2.rowSize i _ = _; rw [f8])
              (by show s2.rhs i = _; rw [f7]; exact hbb) (by rw [hprep]; exact o)
            rw [hprep] at x5
            rw [x1] at eA
            refine .inl ⟨(M', buf', true), eA, x2, x3, x4, ?_, ?_⟩
            · rw [eL]
              have x5' : Verif.dtonExecute (dtonPrep s2 i j k aij aik) i [e0, e1] j k aij aik buf ((dtonPrep s2 i j k aij aik).c k) =
                (M'.view, buf') := x5
              rw [x5']
            · have := Verif.dtonExecute_tick (dtonPrep s2 i j k aij aik) i [e0, e1] j k aij aik buf ((prepA s2 i j k aij aik).c k)
              rw [x5] at this
              exact (show M'.s.tick = s2.tick from this).trans f9
          · have hle : T.pe j ≤ T.nAlloc := lay.pe_le_alloc (by rw [sm]; exact hj)
            have hji : (i, aij) ∈ T.rowOf j := by
              rw [rows j hj, ← Mat.lists_of hj]
              have hcj : M.view.colSize j ≠ -1 := g.rowIn i hra _ hmj
              exact (g.agree i j aij (g.rowActive hra) hcj).mp hmj
            have hrc := C18_remove_coeff_overread T lay j i aij (by rw [sm]; exact hj)
              (by rw [rows j hj, ← Mat.lists_of hj]; exact g.colSorted j) hji (by omega)
            refine .inr ⟨?_, _, j, k, aij, aik, fA, by rw [sm]; exact hj, show T.pe j = T.nAlloc by omega⟩
            rw [eA]
            unfold Arrays.dtonExecute
            simp only [hrc]
            rfl

/-- Where the arrays are left: at row `i`, after the rows `L1`, a substitution has been found and the column that
stays ends where the allocation ends, so that `remove_coeff` reads the cell behind it. -/
def Overreads (pref : ℕ → ℕ → ℕ → Bool) (maxShift : ℤ) (L : List ℕ) (acc : Arrays × List ℕ × Bool) : Prop :=
  ∃ L1 i L2 N N' j k aij aik, L = L1 ++ i :: L2 ∧ L1.foldlM (Arrays.dtonStep pref maxShift) acc = some N ∧
    Arrays.findSubst pref maxShift N.1 i = some (N', .subst j k aij aik) ∧ j < N'.AT.m ∧ N'.AT.pe j = N'.AT.nAlloc

/-- The rows of one round, one after the other. -/
theorem Arrays.dtonSteps_step (pref : ℕ → ℕ → ℕ → Bool) (maxShift : ℤ) (L0 : List ℕ) (N : ℕ) (L : List ℕ) (hL : ∀ i ∈ L, i ∈ L0)
    (cont : Arrays × List ℕ × Bool → ℕ → Bool) :
    ∀ (M : Arrays) (buf : List ℕ) (red : Bool), M.OK → Inv M.view → DtonInv L0 buf red N M.view →
    ∃ ans : ℕ → Bool, ∀ env : Env, (∀ t, M.s.tick ≤ t → env.space t = ans t) →
      (L.foldl (Verif.dtonStep env) (M.view, buf, red)).1.asrt = true →
      (∃ r, L.foldlM (Arrays.dtonStep pref maxShift) (M, buf, red) = some r ∧ r.1.OK ∧ r.1.A.m = M.A.m ∧ r.1.AT.m = M.AT.m ∧
        L.foldl (Verif.dtonStep env) (M.view, buf, red) = (r.1.view, r.2) ∧ ∀ t, r.1.s.tick ≤ t → env.space t = cont r t) ∨
      (L.foldlM (Arrays.dtonStep pref maxShift) (M, buf, red) = none ∧ Overreads pref maxShift L (M, buf, red)) := by
  induction L with
  | nil =>
    intro M buf red ok _ _
    exact ⟨cont (M, buf, red), fun env he _ => .inl ⟨_, rfl, ok, rfl, rfl, rfl, he⟩⟩
  | cons i L ih =>
    intro M buf red ok inv hI
    have hL' : ∀ x ∈ L, x ∈ L0 := fun x hx => hL x (List.mem_cons_of_mem _ hx)
    obtain ⟨q, hq⟩ := Arrays.dtonStep_step ok inv (hI.short i (hL i List.mem_cons_self)) pref maxShift buf red
    have hasrt : ∀ env : Env, ((i :: L).foldl (Verif.dtonStep env) (M.view, buf, red)).1.asrt = true →
        (Verif.dtonStep env (M.view, buf, red) i).1.asrt = true := by
      intro env o
      rw [List.foldl_cons] at o
      have := (dtonSteps_good Mode.all env L0 N L hL' (Verif.dtonStep env (M.view, buf, red) i).1
        (Verif.dtonStep env (M.view, buf, red) i).2.1 (Verif.dtonStep env (M.view, buf, red) i).2.2 (ok_all.mpr o)).1
      exact ok_all.mp this
    cases hs : Arrays.dtonStep pref maxShift (M, buf, red) i with
    | none =>
      refine ⟨fun _ => q.getD true, fun env he o => .inr ⟨?_, ?_⟩⟩
      · rw [List.foldlM_cons, hs]; rfl
      · rcases hq env (fun a ha => by rw [he _ (le_refl _), ha]; rfl) (hasrt env o) with ⟨r, h, -⟩ | ⟨-, N', j, k, aij, aik, h1, h2, h3⟩
        · rw [hs] at h; cases h
        · exact ⟨[], i, L, (M, buf, red), N', j, k, aij, aik, rfl, rfl, h1, h2, h3⟩
    | some r =>
      obtain ⟨M', buf', red'⟩ := r
      by_cases hex : ∃ env : Env, (∀ a, q = some a → env.space M.s.tick = a) ∧
          (Verif.dtonStep env (M.view, buf, red) i).1.asrt = true
      · obtain ⟨env0, hq0, o0⟩ := hex
        have key : ∀ env : Env, (∀ a, q = some a → env.space M.s.tick = a) →
            (Verif.dtonStep env (M.view, buf, red) i).1.asrt = true →
            M'.OK ∧ M'.A.m = M.A.m ∧ M'.AT.m = M.AT.m ∧ Verif.dtonStep env (M.view, buf, red) i = (M'.view, buf', red') ∧
              M'.s.tick = M.s.tick + (if q.isSome then 1 else 0) := by
          intro env h o
          rcases hq env h o with ⟨r, h, h1, h2, h3, h4, h5⟩ | ⟨h, -⟩
          · rw [hs] at h
            obtain rfl := Option.some.inj h
            exact ⟨h1, h2, h3, h4, h5⟩
          · rw [hs] at h; cases h
        obtain ⟨ok', hm, hn, e0, ht⟩ := key env0 hq0 o0
        obtain ⟨run, hI'⟩ := ((dtonStep_good Mode.all env0 L0 buf red N i (hL i List.mem_cons_self) M.view) (ok_all.mpr o0)).2 inv hI
        have inv' := run.inv inv
        rw [e0] at inv' hI'
        obtain ⟨ans, ha⟩ := ih hL' M' buf' red' ok' inv' hI'
        refine ⟨fun t => if t = M.s.tick then q.getD (ans t) else ans t, fun env he o => ?_⟩
        have hq1 : ∀ a, q = some a → env.space M.s.tick = a := by
          intro a h; rw [he _ (le_refl _)]; simp [h]
        obtain ⟨-, -, -, e1, -⟩ := key env hq1 (hasrt env o)
        rw [List.foldl_cons, e1] at o ⊢
        have hag : ∀ t, M'.s.tick ≤ t → env.space t = ans t := by
          intro t htt
          rw [ht] at htt
          cases q with
          | none => rw [he t (by simpa using htt)]; simp
          | some a =>
            have : M.s.tick + 1 ≤ t := by simpa using htt
            rw [he t (by omega)]
            exact if_neg (by omega)
        rcases ha env hag o with ⟨r, h1, h2, h3, h4, h5, h6⟩ | ⟨h1, L1, x, L2, N', N'', j, k, aij, aik, h2, h3, h4⟩
        · refine .inl ⟨r, ?_, h2, h3.trans hm, h4.trans hn, h5, h6⟩
          rw [List.foldlM_cons, hs]; exact h1
        · refine .inr ⟨?_, i :: L1, x, L2, N', N'', j, k, aij, aik, by rw [h2]; rfl, ?_, h4⟩
          · rw [List.foldlM_cons, hs]; exact h1
          · rw [List.foldlM_cons, hs]; exact h3
      · refine ⟨fun _ => q.getD true, fun env he o => absurd ⟨env, fun a ha => ?_, hasrt env o⟩ hex⟩
        rw [he _ (le_refl _), ha]; rfl

/-- One round; `cont` are the answers to give afterwards. -/
theorem Arrays.dtonRound_step (pref : ℕ → ℕ → ℕ → Bool) (maxShift : ℤ) (cont : Arrays × Bool → ℕ → Bool) {M : Arrays} (ok : M.OK)
    (inv : Inv M.view) (cl : Clean M.view) :
    ∃ ans : ℕ → Bool, ∀ env : Env, (∀ t, M.s.tick ≤ t → env.space t = ans t) → (Verif.dtonRound env M.view).1.asrt = true →
      (∃ r, Arrays.dtonRound pref maxShift M = some r ∧ r.1.OK ∧ r.1.A.m = M.A.m ∧ r.1.AT.m = M.AT.m ∧
        Verif.dtonRound env M.view = (r.1.view, r.2) ∧ ∀ t, r.1.s.tick ≤ t → env.space t = cont r t) ∨
      (Arrays.dtonRound pref maxShift M = none ∧ Overreads pref maxShift M.s.dtonRows (M, [], false)) := by
  obtain ⟨ans, h⟩ := Arrays.dtonSteps_step pref maxShift M.s.dtonRows (live M.view) M.s.dtonRows (fun _ h => h)
    (fun r => cont (⟨{ r.1.s with dtonRows := r.2.1 }, r.1.A, r.1.AT⟩, r.2.2)) M [] false ok inv
    ⟨cl, inv.dton, by simp, le_refl _, by simp⟩
  refine ⟨ans, fun env he o => ?_⟩
  rcases h env he o with ⟨r, h1, h2, h3, h4, h5, h6⟩ | ⟨h1, h2⟩
  · refine .inl ⟨(⟨{ r.1.s with dtonRows := r.2.1 }, r.1.A, r.1.AT⟩, r.2.2), ?_, ⟨h2.rows, h2.cols, h2.layA, h2.layT, h2.inA, h2.inT⟩,
      h3, h4, ?_, h6⟩
    · unfold Arrays.dtonRound; rw [h1]; rfl
    · unfold Verif.dtonRound
      simp only
      have h5' : List.foldl (Verif.dtonStep env) (M.view, [], false) M.view.dtonRows = (r.1.view, r.2) := h5
      rw [h5']
      rfl
  · exact .inr ⟨by unfold Arrays.dtonRound; rw [h1]; rfl, h2⟩

/-- Some round of the loop leaves the arrays. -/
inductive LoopOverreads (pref : ℕ → ℕ → ℕ → Bool) (maxShift : ℤ) : Arrays → Prop
  | here {M : Arrays} : Overreads pref maxShift M.s.dtonRows (M, [], false) → LoopOverreads pref maxShift M
  | next {M M' : Arrays} : Arrays.dtonRound pref maxShift M = some (M', true) → LoopOverreads pref maxShift M' →
      LoopOverreads pref maxShift M

/-- The rounds. -/
theorem Arrays.dtonLoop_step (pref : ℕ → ℕ → ℕ → Bool) (maxShift : ℤ) (fuel : ℕ) :
    ∀ M : Arrays, M.OK → Inv M.view → Clean M.view → live M.view < fuel →
    ∃ ans : ℕ → Bool, ∀ env : Env, (∀ t, M.s.tick ≤ t → env.space t = ans t) → (Verif.dtonLoop env fuel M.view).asrt = true →
      (∃ M', Arrays.dtonLoop pref maxShift fuel M = some M' ∧ M'.OK ∧ M'.A.m = M.A.m ∧ M'.AT.m = M.AT.m ∧
        Verif.dtonLoop env fuel M.view = M'.view) ∨
      (Arrays.dtonLoop pref maxShift fuel M = none ∧ LoopOverreads pref maxShift M) := by
  induction fuel with
  | zero => intro M _ _ _ h; omega
  | succ fuel ih =>
    intro M ok inv cl hl
    by_cases hd : M.s.dtonRows = []
    · refine ⟨fun _ => true, fun env _ _ => .inl ⟨M, ?_, ok, rfl, rfl, ?_⟩⟩
      · unfold Arrays.dtonLoop; rw [if_pos hd]
      · unfold Verif.dtonLoop; rw [if_pos (show M.view.dtonRows = [] from hd)]
    have hd' : ¬ M.view.dtonRows = [] := hd
    have ih' : ∀ M : Arrays, ∃ ans : ℕ → Bool, M.OK → Inv M.view → Clean M.view → live M.view < fuel →
        ∀ env : Env, (∀ t, M.s.tick ≤ t → env.space t = ans t) → (Verif.dtonLoop env fuel M.view).asrt = true →
        (∃ M', Arrays.dtonLoop pref maxShift fuel M = some M' ∧ M'.OK ∧ M'.A.m = M.A.m ∧ M'.AT.m = M.AT.m ∧
          Verif.dtonLoop env fuel M.view = M'.view) ∨
        (Arrays.dtonLoop pref maxShift fuel M = none ∧ LoopOverreads pref maxShift M) := by
      intro M
      by_cases h : M.OK ∧ Inv M.view ∧ Clean M.view ∧ live M.view < fuel
      · obtain ⟨ans, ha⟩ := ih M h.1 h.2.1 h.2.2.1 h.2.2.2
        exact ⟨ans, fun _ _ _ _ => ha⟩
      · exact ⟨fun _ => true, fun h1 h2 h3 h4 => absurd ⟨h1, h2, h3, h4⟩ h⟩
    choose f hf using ih'
    obtain ⟨ans, ha⟩ := Arrays.dtonRound_step pref maxShift (fun r => f r.1) ok inv cl
    refine ⟨ans, fun env he o => ?_⟩
    have hr := dtonRound_good Mode.all env fuel M.view
    have oround : (Verif.dtonRound env M.view).1.asrt = true := by
      unfold Verif.dtonLoop at o
      rw [if_neg hd'] at o
      simp only at o
      by_cases h2 : (Verif.dtonRound env M.view).2 = true
      · rw [if_pos h2] at o
        exact ok_all.mp ((dtonLoop_good Mode.all env fuel _).ok (ok_all.mpr o))
      · rw [if_neg h2] at o; exact o
    unfold Verif.dtonLoop at o ⊢
    unfold Arrays.dtonLoop
    rw [if_neg hd'] at o
    rw [if_neg hd, if_neg hd']
    simp only at o ⊢
    rcases ha env he oround with ⟨r, h1, h2, h3, h4, h5, h6⟩ | ⟨h1, h2⟩
    · obtain ⟨M', b⟩ := r
      obtain ⟨run, hc, -, hlv⟩ := (hr (ok_all.mpr oround)).2 inv ⟨cl, by omega⟩
      have inv' := run.inv inv
      rw [h5] at o hc hlv inv' ⊢
      simp only [h1, Option.bind_eq_bind, Option.bind_some] at o hc hlv inv' ⊢
      cases b with
      | true =>
        simp only [if_true] at o ⊢
        rcases hf M' h2 inv' hc (hlv rfl) env h6 o with ⟨N, g1, g2, g3, g4, g5⟩ | ⟨g1, g2⟩
        · exact .inl ⟨N, g1, g2, g3.trans h3, g4.trans h4, g5⟩
        · exact .inr ⟨g1, .next h1 g2⟩
      | false => exact .inl ⟨M', rfl, h2, h3, h4, rfl⟩
    · refine .inr ⟨?_, .here h2⟩
      rw [h1]; rfl

/-- `remove_dton_eq_rows`. -/
theorem Arrays.removeDtonRows_step (pref : ℕ → ℕ → ℕ → Bool) (maxShift : ℤ) {M : Arrays} (ok : M.OK) (inv : Inv M.view)
    (cl : Clean M.view) :
    ∃ ans : ℕ → Bool, ∀ env : Env, (∀ t, M.s.tick ≤ t → env.space t = ans t) → (Verif.removeDtonRows env M.view).asrt = true →
      (∃ M', Arrays.removeDtonRows pref maxShift M = some M' ∧ M'.OK ∧ M'.A.m = M.A.m ∧ M'.AT.m = M.AT.m ∧
        Verif.removeDtonRows env M.view = M'.view) ∨
      (Arrays.removeDtonRows pref maxShift M = none ∧ LoopOverreads pref maxShift
        ⟨((M.s.check (decide (M.s.stonRows = []))).check (decide (M.s.emptyRows = []))).check (decide (M.s.emptyCols = [])),
          M.A, M.AT⟩) := by
  generalize hM1 : (⟨((M.s.check (decide (M.s.stonRows = []))).check (decide (M.s.emptyRows = []))).check
    (decide (M.s.emptyCols = [])), M.A, M.AT⟩ : Arrays) = M1
  have eA : M1.A = M.A := by rw [← hM1]
  have eT : M1.AT = M.AT := by rw [← hM1]
  have et : M1.s.tick = M.s.tick := by rw [← hM1]; rfl
  have em : M1.s.m = M.s.m := by rw [← hM1]; rfl
  have ok1 : M1.OK := by rw [← hM1]; exact ⟨ok.rows, ok.cols, ok.layA, ok.layT, ok.inA, ok.inT⟩
  have hv : M1.view = ((M.view.check (decide (M.view.stonRows = []))).check (decide (M.view.emptyRows = []))).check
      (decide (M.view.emptyCols = [])) := by rw [← hM1]; rfl
  have h1 : Good Mode.all Clean Clean M.view M1.view := by
    rw [hv]
    refine Good.trans (J := Clean) (.check M.view (decide (M.view.stonRows = [])) (fun _ h => h)) ?_
    exact Good.trans (J := Clean) (.check _ (decide (M.view.emptyRows = [])) (fun _ h => h))
      (.check _ _ (fun _ h => h))
  have hlist : ∀ env : Env, Verif.removeDtonRows env M.view = if (Verif.dtonLoop env (M1.s.m + 1) M1.view).fixedCols = []
      then Verif.dtonLoop env (M1.s.m + 1) M1.view
      else Verif.deleteInactiveCols (deleteFixedCols (Verif.dtonLoop env (M1.s.m + 1) M1.view)) := by
    intro env
    unfold Verif.removeDtonRows
    simp only
    rw [← hv]
    rfl
  have harr : Arrays.removeDtonRows pref maxShift M = (Arrays.dtonLoop pref maxShift (M1.s.m + 1) M1).bind (fun M =>
      if M.s.fixedCols = [] then some M else Arrays.deleteInactiveCols ⟨deleteFixedCols M.rows, M.A, M.AT⟩) := by
    unfold Arrays.removeDtonRows
    simp only [hM1, em]
    rfl
  have oloop : ∀ env : Env, (Verif.removeDtonRows env M.view).asrt = true →
      (Verif.dtonLoop env (M1.s.m + 1) M1.view).asrt = true := by
    intro env o
    rw [hlist env] at o
    split at o
    · exact o
    · exact ok_all.mp ((delCols_good Mode.all (fun _ => False) (fun _ => True) _ (fun h => h.elim) (fun _ h => h.elim)).ok
        (ok_all.mpr o))
  by_cases hex : ∃ env : Env, (Verif.removeDtonRows env M.view).asrt = true
  · obtain ⟨env0, o0⟩ := hex
    have o1 : Ok Mode.all M1.view := (dtonLoop_good Mode.all env0 _ _).ok (ok_all.mpr (oloop env0 o0))
    obtain ⟨run, cl1⟩ := (h1 o1).2 inv cl
    have inv1 := run.inv inv
    have hl : live M1.view < M1.s.m + 1 := by
      have : live M1.view ≤ M1.view.m := (Finset.card_filter_le _ _).trans (by simp)
      exact Nat.lt_succ_of_le this
    obtain ⟨ans, ha⟩ := Arrays.dtonLoop_step pref maxShift (M1.s.m + 1) M1 ok1 inv1 cl1 hl
    refine ⟨ans, fun env he o => ?_⟩
    rcases ha env (fun t ht => he t (by rw [← et]; exact ht)) (oloop env o) with ⟨M', g1, g2, g3, g4, g5⟩ | ⟨g1, g2⟩
    · obtain ⟨-, cl2⟩ := ((dtonLoop_good Mode.all env (M1.s.m + 1) M1.view) (ok_all.mpr (oloop env o))).2 inv1 ⟨cl1, hl⟩
      rw [g5] at cl2
      have hf : M'.s.fixedCols = [] := cl2.2.1
      refine .inl ⟨M', ?_, g2, by rw [g3, eA], by rw [g4, eT], ?_⟩
      · rw [harr, g1]; exact if_pos hf
      · rw [hlist, g5]; exact if_pos hf
    · exact .inr ⟨by rw [harr, g1]; rfl, g2⟩
  · exact ⟨fun _ => true, fun env _ o => absurd ⟨env, o⟩ hex⟩

end Verif
