import Verif.Inv.RunTrivialGood

/-!
# Column singletons as elementary steps
-/

namespace Verif

/-- What goes down in every round of `remove_ston_cols` that reduces. -/
def psi (s : St) : ℕ :=
  2 * ((List.range s.n).filter (fun k => !(s.ctag k).inactive)).length +
    ((List.range s.m).filter (fun i => !(s.rtag i).eq)).length

theorem psi_le (s : St) : psi s ≤ 2 * s.n + s.m := by
  unfold psi
  have h1 := List.length_filter_le (fun k => !(s.ctag k).inactive) (List.range s.n)
  have h2 := List.length_filter_le (fun i => !(s.rtag i).eq) (List.range s.m)
  rw [List.length_range] at h1 h2
  omega

theorem psi_congr {s t : St} (hn : t.n = s.n) (hm : t.m = s.m) (hc : t.ctag = s.ctag) (hr : t.rtag = s.rtag) :
    psi t = psi s := by unfold psi; rw [hn, hm, hc, hr]

theorem upd_filter_le (n : ℕ) (f g : ℕ → Bool) (i : ℕ) (h : ∀ j, j ≠ i → g j = f j) :
    ((List.range n).filter g).length ≤ ((List.range n).filter f).length + 1 := by
  induction n with
  | zero => simp
  | succ n ih =>
    rw [List.range_succ, List.filter_append, List.filter_append, List.length_append, List.length_append]
    by_cases e : n = i
    · subst e
      have : (List.range n).filter g = (List.range n).filter f := by
        refine List.filter_congr (fun j hj => h j ?_)
        have := List.mem_range.mp hj; omega
      rw [this]
      have := List.length_filter_le g [n]
      simp only [List.length_singleton] at this
      omega
    · have := h n e
      simp only [List.filter_cons, List.filter_nil, this]
      omega

/-- A column leaves, one row changes its tag. -/
theorem psi_col {s t : St} {k i : ℕ} (hn : t.n = s.n) (hm : t.m = s.m) (hk : k < s.n)
    (hk0 : (s.ctag k).inactive = false) (hk1 : (t.ctag k).inactive = true)
    (hc : ∀ j, j ≠ k → t.ctag j = s.ctag j) (hr : ∀ j, j ≠ i → (t.rtag j).eq = (s.rtag j).eq) :
    psi t + 1 ≤ psi s := by
  unfold psi
  rw [hn, hm]
  have h1 := filter_length_lt_of_imp (List.range s.n) (fun j => !(t.ctag j).inactive)
    (fun j => !(s.ctag j).inactive) (fun j _ hj => by
      by_cases e : j = k
      · subst e; simp [hk0]
      · rw [← hc j e]; exact hj) (List.mem_range.mpr hk) (by simp [hk1]) (by simp [hk0])
  have h2 := upd_filter_le s.m (fun j => !(s.rtag j).eq) (fun j => !(t.rtag j).eq) i
    (fun j hj => by simp [hr j hj])
  omega

/-- A row becomes an equality. -/
theorem psi_row {s t : St} {i : ℕ} (hn : t.n = s.n) (hm : t.m = s.m) (hi : i < s.m)
    (hi0 : (s.rtag i).eq = false) (hi1 : (t.rtag i).eq = true)
    (hc : t.ctag = s.ctag) (hr : ∀ j, j ≠ i → (t.rtag j).eq = (s.rtag j).eq) :
    psi t + 1 ≤ psi s := by
  unfold psi
  rw [hn, hm, hc]
  have h1 := filter_length_lt_of_imp (List.range s.m) (fun j => !(t.rtag j).eq)
    (fun j => !(s.rtag j).eq) (fun j _ hj => by
      by_cases e : j = i
      · subst e; simp [hi0]
      · rw [← hr j e]; exact hj) (List.mem_range.mpr hi) (by simp [hi1]) (by simp [hi0])
  omega

/-- Postcondition of the treatment of one column. -/
def PsiLe (N w : ℕ) (s : St) : Prop := NoCols s ∧ psi s + w ≤ N

theorem psiLe_struct (N w : ℕ) : Struct (PsiLe N w) := fun _ _ h e =>
  ⟨⟨h.fixedCols.trans e.1.1, h.subCols.trans e.1.2⟩, by rw [psi_congr h.n h.m h.ctag h.rtag]; exact e.2⟩

theorem noteShortRow_good (μ : Mode) (I : St → Prop) (hI : Struct I) (s : St) (i : ℕ) (d : Bool) :
    Good μ I I s (noteShortRow s i d) := by
  unfold noteShortRow
  refine Good.trans (J := I) ?_ (.check _ _ (fun _ h => hI _ _ (sameCore_check _ _) h))
  split
  · rename_i h1
    have hc : SameCore s { s.check (!s.stonRows.contains i) with stonRows := s.stonRows ++ [i] } := by
      constructor <;> rfl
    refine .of (fun o => (Ok.check (s := s) (x := !s.stonRows.contains i) ⟨o.1, o.2⟩).1) (fun _ inv hi =>
      ⟨⟨.single (.same hc), fun r hr => ?_, fun r hr => .inl hr, rfl, id⟩, hI _ _ hc hi⟩)
    rcases List.mem_append.mp hr with h | h
    · exact .inl h
    · right
      rw [List.mem_singleton.mp h]
      have := inv.gi.rowSz i (by rw [h1]; decide)
      show (s.A i).length ≤ 1
      omega
  · split
    · rename_i h1
      simp only [Bool.and_eq_true, decide_eq_true_eq] at h1
      have hc : SameCore s { s.check (!s.dtonRows.contains i) with dtonRows := s.dtonRows ++ [i] } := by
        constructor <;> rfl
      refine .of (fun o => (Ok.check (s := s) (x := !s.dtonRows.contains i) ⟨o.1, o.2⟩).1) (fun _ inv hi =>
        ⟨⟨.single (.same hc), fun r hr => .inl hr, fun r hr => ?_, rfl, id⟩, hI _ _ hc hi⟩)
      rcases List.mem_append.mp hr with h | h
      · exact .inl h
      · right
        rw [List.mem_singleton.mp h]
        have := inv.gi.rowSz i (by rw [h1.1.2]; decide)
        show (s.A i).length ≤ 2
        omega
    · exact .refl μ _ s

theorem noteShortRow_ok {μ : Mode} {s : St} {i : ℕ} {d : Bool} (o : Ok μ (noteShortRow s i d)) : s.rowSize i ≠ 0 := by
  unfold noteShortRow at o
  simp only at o
  have := (o.check).2
  split at this
  · exact of_decide_eq_true this
  · split at this
    · exact of_decide_eq_true this
    · exact of_decide_eq_true this

/-- A step that shortens one row, which does not become empty, and removes one column. -/
theorem em_shorten {s t : St} {i k : ℕ} (m : Mono s t) (g : GI t) (hi : t.rowSize i ≠ 0)
    (hia : (t.rtag i).inactive = false) (hA : ∀ r, r ≠ i → t.A r = s.A r)
    (hk : (t.ctag k).inactive = true) (hT : ∀ j, j ≠ k → t.AT j = s.AT j) (her : t.emptyRows = s.emptyRows)
    (hec : t.emptyCols = s.emptyCols) (e : Em s) : Em t := by
  constructor
  · intro r hr ha hA'
    by_cases er : r = i
    · subst er
      have := g.rowSz r (g.rowActive hia)
      rw [hA'] at this
      exact absurd this hi
    · have h1 : (s.rtag r).inactive = false := by
        cases hx : (s.rtag r).inactive with
        | false => rfl
        | true => rw [m.rowIn r hx] at ha; cases ha
      rw [her]
      exact e.1 r (m.m ▸ hr) h1 (hA r er ▸ hA')
  · intro j hj ha hT'
    have hne : j ≠ k := by rintro rfl; rw [ha] at hk; cases hk
    have h1 : (s.ctag j).inactive = false := by
      cases hx : (s.ctag j).inactive with
      | false => rfl
      | true => rw [m.colIn j hx] at ha; cases ha
    rw [hec]
    exact e.2 j (m.n ▸ hj) h1 (hT j hne ▸ hT')

theorem noteDton_good (μ : Mode) (I : St → Prop) (hI : Struct I) (s : St) (i : ℕ) :
    Good μ I I s (noteDton s i) := by
  unfold noteDton
  split
  · rename_i h1
    have hc : SameCore s { s.check (!s.dtonRows.contains i) with dtonRows := s.dtonRows ++ [i] } := by
      constructor <;> rfl
    refine .of (fun o => (Ok.check (s := s) (x := !s.dtonRows.contains i) ⟨o.1, o.2⟩).1) (fun _ inv hi =>
      ⟨⟨.single (.same hc), fun r hr => .inl hr, fun r hr => ?_, rfl, id⟩, hI _ _ hc hi⟩)
    rcases List.mem_append.mp hr with h | h
    · exact .inl h
    · right
      rw [List.mem_singleton.mp h]
      have := inv.gi.rowSz i (by rw [h1]; decide)
      show (s.A i).length ≤ 2
      omega
  · exact .refl μ _ s

/-- What is known when a column singleton is processed. -/
structure StonAt (N i k : ℕ) (q : ℚ) (s : St) : Prop where
  row : (s.rtag i).inactive = false
  col : (s.ctag k).inactive = false
  cells : s.AT k = [(i, q)]
  noCols : NoCols s
  psi : psi s ≤ N

theorem StonAt.check {N i k : ℕ} {q : ℚ} {s : St} (h : StonAt N i k q s) (b : Bool) :
    StonAt N i k q (s.check b) := ⟨h.row, h.col, h.cells, h.noCols, h.psi⟩

theorem StonAt.range {N i k : ℕ} {q : ℚ} {s : St} (h : StonAt N i k q s) (g : GI s) : k < s.n ∧ i < s.m := by
  have := g.colRange k (i, q) (by rw [h.cells]; exact List.mem_cons_self)
  exact ⟨this.1, this.2.1⟩

theorem StonAt.hcols {N i k : ℕ} {q : ℚ} {s : St} (h : StonAt N i k q s) (g : GI s) :
    ∀ p ∈ s.A i, (s.ctag p.1).inactive = false := g.colsActive h.noCols.1 h.noCols.2 h.row

theorem StonAt.any {N i k : ℕ} {q : ℚ} {s : St} (h : StonAt N i k q s) (g : GI s) :
    (s.A i).any (fun p => decide (p.1 = k)) = true := by
  rw [List.any_eq_true]
  refine ⟨(k, q), ?_, by simp⟩
  rw [g.agree i k q (g.rowActive h.row) (g.colActive h.col), h.cells]
  exact List.mem_cons_self

theorem freeColIneq_good (μ : Mode) (hst : μ.ston = true) (N : ℕ) (s : St) (i k : ℕ) (q : ℚ) (side : D) :
    Good μ (StonAt N i k q) (PsiLe N 1) s (freeColIneq s i k q side) := by
  have ef : ∃ b, freeColIneq s i k q side = { s with
      c := costSub s (s.A i) k q
      off := offSub s k q side
      ctag := upd s.ctag k { s.ctag k with subst := true }
      AT := upd s.AT k []
      colSize := upd s.colSize k (-1)
      rowsToDelete := s.rowsToDelete ++ [i]
      rtag := upd s.rtag i { s.rtag i with inactive := true }
      log := .deletedRow i (s.c k / q) :: .subCol k (s.A i) side i (s.c k) :: s.log
      asrt := b } ∧ (b = true → s.asrt = true) := by
    unfold freeColIneq
    rw [subVarInObj_eq]
    exact ⟨s.asrt && !(s.rtag i).inactive, rfl, fun h => (Bool.and_eq_true _ _ ▸ h).1⟩
  have hr : ∀ (i' : Inv s), StonAt N i k q s → Raw μ s (freeColIneq s i k q side) := fun inv h =>
    .freeSton i k q side h.row h.col h.cells (h.hcols inv.gi) (.refl _) hst
  obtain ⟨b, ef, hb⟩ := ef
  rw [ef] at hr ⊢
  refine .of (fun o => ⟨hb o.1, o.2⟩) (fun o inv h => ⟨.of_raw (hr inv h) inv.gi rfl rfl rfl (hT := fun j => by
    by_cases e : j = k
    · left
      show (upd s.ctag k _ j).inactive = true
      rw [e, upd_same]; exact CTag.inactive_subst _
    · right
      exact upd_ne _ _ e), h.noCols, ?_⟩)
  have := h.psi
  refine Nat.le_trans (psi_col (i := i) (k := k) (s := s) rfl rfl (h.range inv.gi).1 h.col ?_ ?_ ?_) this
  · show (upd s.ctag k _ k).inactive = true
    rw [upd_same]; exact CTag.inactive_subst _
  · intro j hj; exact upd_ne _ _ hj
  · intro j hj
    show (upd s.rtag i _ j).eq = _
    rw [upd_ne _ _ hj]

theorem fixColSton_good (μ : Mode) (N : ℕ) (s : St) (i k : ℕ) (q : ℚ) (v : D)
    (hne : (fixColSton s i k q v).rowSize i ≠ 0) :
    Good μ (StonAt N i k q) (PsiLe N 1) s (fixColSton s i k q v) := by
  refine .of (fun o => o) (fun o inv h => ?_)
  have raw : Raw μ s (fixColSton s i k q v) := .fixSton i k q v h.row h.col h.cells (.refl _)
  refine ⟨⟨.single raw, fun _ h => Or.inl h, fun _ h => Or.inl h, ?_, em_shorten (i := i) (k := k) (raw.mono inv.gi)
    (raw.gi inv.gi) hne h.row (fun r hr => ?_) ?_ (fun j hj => ?_) rfl rfl⟩, h.noCols, ?_⟩
  · show (s.undef || !(s.A i).any (fun p => decide (p.1 = k))) = s.undef
    rw [h.any inv.gi]; simp
  · exact upd_ne _ _ hr
  · show (upd s.ctag k _ k).inactive = true
    rw [upd_same]; rfl
  · exact upd_ne _ _ hj
  · refine Nat.le_trans (psi_col (i := i) (k := k) (s := s) rfl rfl (h.range inv.gi).1 h.col ?_ ?_ ?_) h.psi
    · show (upd s.ctag k _ k).inactive = true
      rw [upd_same]; rfl
    · intro j hj; exact upd_ne _ _ hj
    · intro j _; rfl

theorem eqToIneqSide_asrt (s : St) (x : Bool) (i : ℕ) (q : ℚ) (b : D) (upper : Bool) :
    eqToIneqSide { s with asrt := x } i q b upper = { eqToIneqSide s i q b upper with asrt := x } := by
  have key : ∀ (cells : List Cell) (t : St) (x u : Bool),
      locksEqToIneq { t with asrt := x } cells u = { locksEqToIneq t cells u with asrt := x } := by
    intro cells t x u
    rw [locksEqToIneq_eq, locksEqToIneq_eq]
    induction cells generalizing t with
    | nil => rfl
    | cons p cells ih => rw [List.foldl_cons, List.foldl_cons]; exact ih (t.addLock p.1 _ _)
  unfold eqToIneqSide
  cases upper with
  | true =>
    rw [if_pos rfl, if_pos rfl]
    exact key (s.A i) { s with rhs := upd s.rhs i (D.sub (s.rhs i) (D.smul q b))
                               lhs := upd s.lhs i .ninf
                               rtag := upd s.rtag i { lhsInf := true } } x true
  | false =>
    rw [if_neg Bool.false_ne_true, if_neg Bool.false_ne_true]
    exact key (s.A i) { s with lhs := upd s.lhs i (D.sub (s.lhs i) (D.smul q b))
                               rhs := upd s.rhs i .pinf
                               rtag := upd s.rtag i { rhsInf := true } } x false

/-- The state of `colstonEq` before the equality becomes an inequality. -/
def colstonHead (s : St) (i k : ℕ) (q : ℚ) : St :=
  let s := subVarInObj s (s.A i) k q (s.rhs i)
  dropCol { s with ctag := upd s.ctag k { s.ctag k with subst := true } } k

theorem implFree_good (μ : Mode) (hst : μ.ston = true) (N : ℕ) (s t : St) (i k : ℕ) (q : ℚ) (b : D) (upper x : Bool)
    (a : ℕ → Act) (hx : x = true → s.asrt = true)
    (ht : t = { halfStep s i k q b upper with asrt := x, act := a })
    (hs : (s.rtag i).lhsInf = false ∧ (s.rtag i).rhsInf = false) (hne : t.rowSize i ≠ 0) :
    Good μ (StonAt N i k q) (PsiLe N 1) s t := by
  obtain ⟨l, r, u, d, e, -, -⟩ := halfStep_eq s i k q b upper
  have hr : ∀ (i' : Inv s), StonAt N i k q s → Raw μ s t := fun inv h =>
    .half i k q b upper h.row h.col h.cells hs (h.hcols inv.gi) (by rw [ht]; constructor <;> rfl) hst
  rw [ht, e] at hr hne ⊢
  refine .of (fun o => ⟨hx o.1, o.2⟩) (fun o inv h => ?_)
  have raw := hr inv h
  refine ⟨⟨.single raw, fun _ h => Or.inl h, fun _ h => Or.inl h, ?_, em_shorten (i := i) (k := k) (raw.mono inv.gi)
    (raw.gi inv.gi) hne ?_ (fun r hr => ?_) ?_ (fun j hj => ?_) rfl rfl⟩, h.noCols, ?_⟩
  · show (s.undef || !(s.A i).any (fun p => decide (p.1 = k))) = s.undef
    rw [h.any inv.gi]; simp
  · show (upd s.rtag i _ i).inactive = false
    rw [upd_same]
    cases upper <;> rfl
  · exact upd_ne _ _ hr
  · show (upd s.ctag k _ k).inactive = true
    rw [upd_same]; exact CTag.inactive_subst _
  · exact upd_ne _ _ hj
  · refine Nat.le_trans (psi_col (i := i) (k := k) (s := s) rfl rfl (h.range inv.gi).1 h.col ?_ ?_ ?_) h.psi
    · show (upd s.ctag k _ k).inactive = true
      rw [upd_same]; exact CTag.inactive_subst _
    · intro j hj; exact upd_ne _ _ hj
    · intro j hj
      show (upd s.rtag i _ j).eq = _
      rw [upd_ne _ _ hj]

theorem halfStep_head (s : St) (i k : ℕ) (q : ℚ) (b : D) (upper : Bool) :
    halfStep s i k q b upper = eqToIneqSide (removeCoeffH (((colstonHead s i k q).save (.eqToIneq i (s.c k / q))).save
      (.subCol k (s.A i) (s.rhs i) i 0)) i k) i q b upper := by
  unfold halfStep colstonHead
  rw [subVarInObj_eq]
  rfl

theorem head_fields (s : St) (i k : ℕ) (q : ℚ) : (colstonHead s i k q).A = s.A ∧
    (colstonHead s i k q).rhs = s.rhs ∧ (colstonHead s i k q).lb = s.lb ∧ (colstonHead s i k q).ub = s.ub ∧
    (colstonHead s i k q).asrt = s.asrt := by
  unfold colstonHead
  rw [subVarInObj_eq]
  exact ⟨rfl, rfl, rfl, rfl, rfl⟩

theorem implFreeAboveEq_form (s : St) (i k : ℕ) (q : ℚ) : ∃ a x,
    implFreeAboveEq (colstonHead s i k q) i k q (s.c k) =
      { halfStep s i k q (s.lb k) (decide (0 < q)) with asrt := x, act := a } ∧
      (x = true → s.asrt = true) := by
  obtain ⟨h1, h2, h3, h4, h5⟩ := head_fields s i k q
  have e0 := halfStep_head s i k q (s.lb k) (decide (0 < q))
  unfold implFreeAboveEq
  simp only
  generalize hb : (!D.isInf ((colstonHead s i k q).lb k) && _) = b
  rw [h3]
  have e1 : removeCoeffH (((((colstonHead s i k q).save (.eqToIneq i (s.c k / q)))).save
      (.subCol k ((((colstonHead s i k q).save (.eqToIneq i (s.c k / q)))).A i)
        ((((colstonHead s i k q).save (.eqToIneq i (s.c k / q)))).rhs i) i 0)).check b) i k =
      { removeCoeffH (((colstonHead s i k q).save (.eqToIneq i (s.c k / q))).save
      (.subCol k (s.A i) (s.rhs i) i 0)) i k with asrt := s.asrt && b } := by
    rw [← h5, ← h1, ← h2]; rfl
  rw [e1, eqToIneqSide_asrt, ← e0]
  split
  · exact ⟨_, s.asrt && b, rfl, fun h => (Bool.and_eq_true _ _ ▸ h).1⟩
  · exact ⟨_, s.asrt && b, rfl, fun h => (Bool.and_eq_true _ _ ▸ h).1⟩

theorem implFreeBelowEq_form (s : St) (i k : ℕ) (q : ℚ) : ∃ a x,
    implFreeBelowEq (colstonHead s i k q) i k q (s.c k) =
      { halfStep s i k q (s.ub k) (decide (q ≤ 0)) with asrt := x, act := a } ∧
      (x = true → s.asrt = true) := by
  obtain ⟨h1, h2, h3, h4, h5⟩ := head_fields s i k q
  have e0 := halfStep_head s i k q (s.ub k) (decide (q ≤ 0))
  unfold implFreeBelowEq
  simp only
  generalize hb : (!D.isInf ((colstonHead s i k q).ub k) && _) = b
  rw [h4]
  have e1 : removeCoeffH (((((colstonHead s i k q).save (.eqToIneq i (s.c k / q)))).save
      (.subCol k ((((colstonHead s i k q).save (.eqToIneq i (s.c k / q)))).A i)
        ((((colstonHead s i k q).save (.eqToIneq i (s.c k / q)))).rhs i) i 0)).check b) i k =
      { removeCoeffH (((colstonHead s i k q).save (.eqToIneq i (s.c k / q))).save
      (.subCol k (s.A i) (s.rhs i) i 0)) i k with asrt := s.asrt && b } := by
    rw [← h5, ← h1, ← h2]; rfl
  rw [e1, eqToIneqSide_asrt, ← e0]
  split
  · exact ⟨_, s.asrt && b, rfl, fun h => (Bool.and_eq_true _ _ ▸ h).1⟩
  · exact ⟨_, s.asrt && b, rfl, fun h => (Bool.and_eq_true _ _ ▸ h).1⟩

/-- Did the status report a reduction? -/
def redW (st : Status) : ℕ := if hasStatus st REDUCED then 1 else 0

theorem redW_reduced : redW REDUCED = 1 := by decide
theorem redW_unchanged : redW UNCHANGED = 0 := by decide
theorem redW_unbnd : redW UNBNDORINFEAS = 0 := by decide

theorem colstonEq_good (μ : Mode) (hst : μ.ston = true) (N : ℕ) (s : St) (i k : ℕ) (q : ℚ) (above below : Bool) :
    Good μ (StonAt N i k q) (PsiLe N (redW (colstonEq s i k q above below).2)) s
      (colstonEq s i k q above below).1 := by
  unfold colstonEq
  simp only
  generalize hs2 : (s.check (D.eqb (s.lhs i) (s.rhs i))).check _ = s2
  have g : Good μ (StonAt N i k q) (fun t => StonAt N i k q t ∧
      ((t.rtag i).lhsInf = false ∧ (t.rtag i).rhsInf = false)) s s2 := by
    rw [← hs2]
    refine .trans (J := StonAt N i k q) (.check s _ (fun _ h => h.check _)) (.check _ _ (fun h h' => ⟨h'.check _, ?_⟩))
    have h : (!((s.rtag i).inactive || (s.rtag i).lhsInf || (s.rtag i).rhsInf)) = true := h
    rw [Bool.not_eq_true', Bool.or_eq_false_iff, Bool.or_eq_false_iff] at h
    exact ⟨h.1.2, h.2⟩
  split
  · exact g.weaken (fun _ h => h) (fun _ h => ⟨h.1.noCols, by rw [redW_unchanged]; exact h.1.psi⟩)
  · split
    · rw [redW_reduced]
      refine g.trans ?_
      have h := freeColIneq_good μ hst N s2 i k q (s2.rhs i)
      unfold freeColIneq at h
      rw [subVarInObj_eq] at h ⊢
      intro o
      exact ⟨(h o).1, fun inv hi => (h o).2 inv hi.1⟩
    · rw [redW_reduced]
      refine .use noteShortRow_ok (fun hne => ?_)
      refine g.trans (.trans (J := PsiLe N 1) ?_ (noteShortRow_good μ _ (psiLe_struct N 1) _ i true))
      by_cases hab : above = true
      · rw [if_pos hab] at hne ⊢
        obtain ⟨a, x, e, hx⟩ := implFreeAboveEq_form s2 i k q
        exact .assume (fun _ _ h => (implFree_good μ hst N s2 _ i k q _ _ x a hx e h.2 hne).weaken (fun _ h => h.1) (fun _ h => h))
          (fun o => by
            have e' : implFreeAboveEq (dropCol { subVarInObj s2 (s2.A i) k q (s2.rhs i) with
              ctag := upd (subVarInObj s2 (s2.A i) k q (s2.rhs i)).ctag k
                { (subVarInObj s2 (s2.A i) k q (s2.rhs i)).ctag k with subst := true } } k) i k q (s2.c k) = _ := e
            rw [e'] at o
            obtain ⟨l, r, u, d, e2, -, -⟩ := halfStep_eq s2 i k q (s2.lb k) (decide (0 < q))
            rw [e2] at o
            exact ⟨hx o.1, o.2⟩)
      · rw [if_neg hab] at hne ⊢
        obtain ⟨a, x, e, hx⟩ := implFreeBelowEq_form s2 i k q
        exact .assume (fun _ _ h => (implFree_good μ hst N s2 _ i k q _ _ x a hx e h.2 hne).weaken (fun _ h => h.1) (fun _ h => h))
          (fun o => by
            have e' : implFreeBelowEq (dropCol { subVarInObj s2 (s2.A i) k q (s2.rhs i) with
              ctag := upd (subVarInObj s2 (s2.A i) k q (s2.rhs i)).ctag k
                { (subVarInObj s2 (s2.A i) k q (s2.rhs i)).ctag k with subst := true } } k) i k q (s2.c k) = _ := e
            rw [e'] at o
            obtain ⟨l, r, u, d, e2, -, -⟩ := halfStep_eq s2 i k q (s2.ub k) (decide (q ≤ 0))
            rw [e2] at o
            exact ⟨hx o.1, o.2⟩)

/-- An inequality row becomes an equality. -/
theorem toEq_good (μ : Mode) (N : ℕ) (s t : St) (i k : ℕ) (q : ℚ) (l r : D) (u d : ℕ → ℤ) (x : Bool)
    (hx : x = true → s.asrt = true ∧ (GI s → LockShift (s.A i) (s.rtag i) { eq := true } s.up s.down u d))
    (hne : (s.rtag i).eq = false)
    (ht : t = { s with lhs := upd s.lhs i l, rhs := upd s.rhs i r, rtag := upd s.rtag i { eq := true },
                       up := u, down := d, asrt := x }) :
    Good μ (StonAt N i k q) (PsiLe N 1) s t := by
  subst ht
  refine .of (fun o => ⟨(hx o.1).1, o.2⟩) (fun o inv h => ⟨.of_raw (.sides i { eq := true } l r u d h.row rfl
    ((hx o.1).2 inv.gi) (by constructor <;> rfl)) inv.gi rfl rfl rfl, h.noCols, ?_⟩)
  refine Nat.le_trans (psi_row (i := i) (s := s) rfl rfl (h.range inv.gi).2 hne ?_ rfl ?_) h.psi
  · show (upd s.rtag i _ i).eq = true
    rw [upd_same]
  · intro j hj
    show (upd s.rtag i _ j).eq = _
    rw [upd_ne _ _ hj]

theorem LockShift.of_same (cells : List Cell) (t t' : RTag) (u d : ℕ → ℤ) (hl : t'.lhsInf = t.lhsInf)
    (hr : t'.rhsInf = t.rhsInf) : LockShift cells t t' u d u d := by
  refine ⟨fun k v _ => ?_, fun k _ => ⟨rfl, rfl⟩⟩
  unfold lockOf
  rw [hl, hr]
  constructor <;> ring

theorem colstonIneq_good (μ : Mode) (hst : μ.ston = true) (N : ℕ) (s : St) (i k : ℕ) (q : ℚ) (above below : Bool)
    (hne : (s.rtag i).eq = false) :
    Good μ (StonAt N i k q) (PsiLe N (redW (colstonIneq s i k q above below).2)) s
      (colstonIneq s i k q above below).1 := by
  unfold colstonIneq
  split
  · exact (Good.refl μ _ s).weaken (fun _ h => h) (fun _ h => ⟨h.noCols, by rw [redW_unchanged]; exact h.psi⟩)
  · exact (Good.refl μ _ s).weaken (fun _ h => h) (fun _ h => ⟨h.noCols, by rw [redW_unbnd]; exact h.psi⟩)
  · rw [redW_reduced]
    exact .use noteShortRow_ok (fun hne => (Good.check (J := StonAt N i k q) s (!D.isInf (s.lb k)) (fun _ h => h.check _)).trans
      ((fixColSton_good μ N _ i k q _ hne).trans (noteShortRow_good μ _ (psiLe_struct N 1) _ i false)))
  · rw [redW_reduced]
    exact .use noteShortRow_ok (fun hne => (Good.check (J := StonAt N i k q) s (!D.isInf (s.ub k)) (fun _ h => h.check _)).trans
      ((fixColSton_good μ N _ i k q _ hne).trans (noteShortRow_good μ _ (psiLe_struct N 1) _ i false)))
  · rw [redW_reduced]; exact freeColIneq_good μ hst N s i k q _
  · rw [redW_reduced]; exact freeColIneq_good μ hst N s i k q _
  · rw [redW_reduced]
    refine .trans (J := PsiLe N 1) ?_ (noteDton_good μ _ (psiLe_struct N 1) _ i)
    by_cases hl : (s.rtag i).lhsInf = true
    · have e := locksNewLhs_only s (s.A i)
      unfold OnlyLocks at e
      have hsh := fun (g : GI s) (hr : (s.rtag i).rhsInf = false) =>
        locksNewLhs_shift s (s.A i) (g.rowSorted i) (s.rtag i) { eq := true } hr.symm hl rfl
      simp only [hl, if_true]
      generalize hu : (locksNewLhs s (s.A i)).up = u at *
      generalize hd : (locksNewLhs s (s.A i)).down = d at *
      rw [e]
      refine toEq_good μ N s _ i k q (s.rhs i) (s.rhs i) u d (s.asrt && !(s.rtag i).rhsInf) (fun h => ?_) hne ?_
      · rw [Bool.and_eq_true, Bool.not_eq_true'] at h
        exact ⟨h.1, fun g => hsh g h.2⟩
      · rw [upd_self]; rfl
    · have hl : (s.rtag i).lhsInf = false := by simpa using hl
      simp only [hl, Bool.false_eq_true, if_false]
      refine toEq_good μ N s _ i k q (s.rhs i) (s.rhs i) s.up s.down (s.asrt && !(s.rtag i).rhsInf) (fun h => ?_) hne ?_
      · rw [Bool.and_eq_true, Bool.not_eq_true'] at h
        exact ⟨h.1, fun g => .of_same _ _ _ _ _ hl.symm h.2.symm⟩
      · rw [upd_self]; rfl
  · rw [redW_reduced]
    refine .trans (J := PsiLe N 1) ?_ (noteDton_good μ _ (psiLe_struct N 1) _ i)
    by_cases hl : (s.rtag i).rhsInf = true
    · have e := locksNewRhs_only s (s.A i)
      unfold OnlyLocks at e
      have hsh := fun (g : GI s) (hr : (s.rtag i).lhsInf = false) =>
        locksNewRhs_shift s (s.A i) (g.rowSorted i) (s.rtag i) { eq := true } hr.symm hl rfl
      simp only [hl, if_true]
      generalize hu : (locksNewRhs s (s.A i)).up = u at *
      generalize hd : (locksNewRhs s (s.A i)).down = d at *
      rw [e]
      refine toEq_good μ N s _ i k q (s.lhs i) (s.lhs i) u d (s.asrt && !(s.rtag i).lhsInf) (fun h => ?_) hne ?_
      · rw [Bool.and_eq_true, Bool.not_eq_true'] at h
        exact ⟨h.1, fun g => hsh g h.2⟩
      · rw [upd_self]; rfl
    · have hl : (s.rtag i).rhsInf = false := by simpa using hl
      simp only [hl, Bool.false_eq_true, if_false]
      refine toEq_good μ N s _ i k q (s.lhs i) (s.lhs i) s.up s.down (s.asrt && !(s.rtag i).lhsInf) (fun h => ?_) hne ?_
      · rw [Bool.and_eq_true, Bool.not_eq_true'] at h
        exact ⟨h.1, fun g => .of_same _ _ _ _ _ h.2.symm hl.symm⟩
      · rw [upd_self]; rfl

theorem redW_or (a b : Status) : redW (a ||| b) ≤ redW a + redW b := by
  unfold redW hasStatus
  split
  · rename_i h
    by_cases h1 : a &&& REDUCED = 0
    · by_cases h2 : b &&& REDUCED = 0
      · exfalso
        rw [Nat.and_or_distrib_right] at h
        simp [h1, h2] at h
      · simp [h1, h2]
    · simp [h1]
  · omega

theorem stonColStep_good (μ : Mode) (hst : μ.ston = true) (N : ℕ) (s : St) (st : Status) (k : ℕ) :
    Good μ (PsiLe N (redW st)) (PsiLe N (redW (stonColStep (s, st) k).2)) s (stonColStep (s, st) k).1 := by
  unfold stonColStep
  simp only
  split
  · exact .of (fun o => absurd (o.check.2) Bool.false_ne_true) (fun o => absurd (o.check.2) Bool.false_ne_true)
  · rename_i i q rest hT
    generalize hs1 : (s.check (decide (rest = []))).check (!(s.ctag k).inactive) = s1
    have g : Good μ (PsiLe N (redW st)) (fun t => PsiLe N (redW st) t ∧ t.AT k = [(i, q)] ∧
        (t.ctag k).inactive = false) s s1 := by
      rw [← hs1]
      refine .trans (J := fun t => PsiLe N (redW st) t ∧ t.AT k = [(i, q)]) (.check s _ (fun h h' => ⟨h', ?_⟩)) (.check _ _ (fun h h' => ⟨h'.1, h'.2, ?_⟩))
      · show s.AT k = _
        rw [hT, of_decide_eq_true h]
      · exact Bool.not_eq_true' _ |>.mp h
    split
    · exact g.weaken (fun _ h => h) (fun _ h => h.1)
    · rename_i hc
      simp only [Bool.or_eq_true, not_or, Bool.not_eq_true] at hc
      have hw : ∀ (r : St × Status), Good μ (StonAt (N - redW st) i k q) (PsiLe (N - redW st) (redW r.2)) s1 r.1 →
          Good μ (fun t => PsiLe N (redW st) t ∧ t.AT k = [(i, q)] ∧ (t.ctag k).inactive = false)
            (PsiLe N (redW (st ||| r.2))) s1 r.1 := by
        intro r hg
        by_cases hN : redW st ≤ N
        · refine hg.weaken (fun _ h => ⟨hc.1, h.2.2, h.2.1, h.1.1, by have := h.1.2; omega⟩)
            (fun _ h => ⟨h.1, ?_⟩)
          have := h.2
          have := redW_or st r.2
          omega
        · exact .of (fun o => hg.ok o) (fun _ _ h => absurd h.1.2 (by omega))
      by_cases heq : (s1.rtag i).eq = true
      · simp only [heq, if_true]
        exact g.trans (hw _ (colstonEq_good μ hst _ s1 i k q _ _))
      · simp only [heq, Bool.false_eq_true, if_false]
        exact g.trans (hw _ (colstonIneq_good μ hst _ s1 i k q _ _ (by simpa using heq)))

theorem stonColFold_good (μ : Mode) (hst : μ.ston = true) (N : ℕ) (L : List ℕ) (s : St) (st : Status) :
    Good μ (PsiLe N (redW st)) (PsiLe N (redW (L.foldl stonColStep (s, st)).2)) s
      (L.foldl stonColStep (s, st)).1 := by
  induction L generalizing s st with
  | nil => exact .refl μ _ s
  | cons k L ih => exact (stonColStep_good μ hst N s st k).trans (ih _ _)

/-- Nothing is pending and the measure is small. -/
def PsiClean (N w : ℕ) (s : St) : Prop := Clean s ∧ psi s + w ≤ N

theorem stonColsRound_good (μ : Mode) (hst : μ.ston = true) (N : ℕ) (s : St) :
    Good μ (PsiClean N 0) (PsiClean N (redW (stonColsRound s).2)) s (stonColsRound s).1 := by
  have key : ∀ s0 : St, SameCore s s0 → s0.stonRows = s.stonRows → s0.dtonRows = s.dtonRows → s0.undef = s.undef →
      Le s s0 → (∀ i ∈ s.emptyRows, i ∈ s0.emptyRows) → (∀ i ∈ s.emptyCols, i ∈ s0.emptyCols) → Good μ (PsiClean N 0) (PsiClean N (redW (s0.stonCols.foldl stonColStep (s0, UNCHANGED)).2)) s
        (deleteInactiveRows (s0.stonCols.foldl stonColStep (s0, UNCHANGED)).1) := by
    intro s0 hc h1 h2 h3 hle her hec
    have g0 : Good μ (PsiClean N 0) (PsiLe N 0) s s0 := .same hc h1 h2 h3 hle.ok
      (fun _ h => psiLe_struct N 0 _ _ hc ⟨h.1.2, h.2⟩) her hec
    have g1 := stonColFold_good μ hst N s0.stonCols s0 UNCHANGED
    rw [redW_unchanged] at g1
    refine (g0.trans g1).trans (delRows_good μ _ _ _ (fun _ h d => ⟨⟨d.noRows, ?_, ?_⟩, ?_⟩))
    · rw [d.fixedCols]; exact h.1.1
    · rw [d.subCols]; exact h.1.2
    · rw [psi_congr (by rw [d.eq]) (by rw [d.eq]) (by rw [d.eq]) (by rw [d.eq])]
      exact h.2
  have g := key { s with stonCols := s.stonCols.filter (fun k => decide (s.colSize k = 1)) }
    (by constructor <;> rfl) rfl rfl rfl (.eq rfl rfl) (fun _ h => h) (fun _ h => h)
  unfold stonColsRound
  simp only
  generalize List.foldl stonColStep _ _ = r at g
  split
  · exact g.weaken (fun _ h => h) (fun _ h => ⟨h.1, by rw [redW_unbnd]; exact Nat.le_trans (Nat.le_add_right _ _) h.2⟩)
  · split
    · rename_i h
      have e : redW r.2 = 1 := by unfold redW; rw [if_pos h]
      rw [redW_reduced, ← e]; exact g
    · exact g.weaken (fun _ h => h) (fun _ h => ⟨h.1, by rw [redW_unchanged]; exact Nat.le_trans (Nat.le_add_right _ _) h.2⟩)

theorem stonColsLoop_good (μ : Mode) (hst : μ.ston = true) (fuel : ℕ) (s : St) :
    Good μ (fun t => Clean t ∧ psi t + 1 ≤ fuel) Clean s (stonColsLoop fuel s).1 := by
  induction fuel generalizing s with
  | zero => exact .of (fun o => o) (fun _ _ h => by omega)
  | succ fuel ih =>
    unfold stonColsLoop
    simp only
    have g := stonColsRound_good μ hst fuel s
    split
    · rename_i h
      rw [h, redW_reduced] at g
      refine Good.trans (J := PsiClean fuel 1) (g.weaken (fun _ h => ⟨h.1, by omega⟩) (fun _ h => h)) ((ih _).weaken (fun _ h => h) (fun _ h => h))
    · exact g.weaken (fun _ h => ⟨h.1, by omega⟩) (fun _ h => h.1)

theorem removeStonCols_good (μ : Mode) (hst : μ.ston = true) (s : St) : Good μ Clean Clean s (removeStonCols s).1 := by
  unfold removeStonCols
  refine (clean_check3 μ s (decide (s.stonRows = [])) (decide (s.emptyRows = [])) (decide (s.emptyCols = []))).trans ?_
  refine (stonColsLoop_good μ hst _ _).weaken (fun _ h => ⟨h, ?_⟩) (fun _ h => h)
  have := psi_le s
  show psi s + 1 ≤ s.m + 2 * s.n + 1
  omega

end Verif
