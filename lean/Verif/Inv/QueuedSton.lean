import Verif.Inv.QueuedPar
import Verif.Inv.Calls

/-!
# Lists of short rows and columns: column singletons
-/

namespace Verif

/-- A row that is not an equality afterwards is shortened and columns may become empty. -/
theorem Queued.shorten {s t : St} {i : ℕ} {cells : List Cell} (c : Queued s) (hA : t.A = upd s.A i cells)
    (hT : ∀ j, t.AT j = s.AT j ∨ t.AT j = []) (hr : ∀ j, j ≠ i → t.rtag j = s.rtag j) (he : (t.rtag i).eq = false)
    (hc : ∀ k, (s.ctag k).inactive = true → (t.ctag k).inactive = true)
    (h1 : ∀ j ∈ s.stonRows, j ∈ t.stonRows) (h1' : cells.length = 1 → i ∈ t.stonRows)
    (h2 : t.dtonRows = s.dtonRows) (hd : i ∈ s.dtonRows → cells.length ≤ 1) (h3 : t.stonCols = s.stonCols) :
    Queued t := by
  refine ⟨?_, ?_, ?_, by rw [h2]; exact c.dtonNodup, ?_, ?_, by rw [h3]; exact c.colNodup⟩
  · intro j p hj hp hk
    rw [hA] at hp
    by_cases e : j = i
    · rw [e, upd_same] at hp; rw [e]; exact h1' (by rw [hp]; rfl)
    · rw [upd_ne _ _ e] at hp
      exact h1 j (c.ston j p (by rw [← hr j e]; exact hj) hp (act_of_imp (hc p.1) hk))
  · intro j hj hl hje
    rw [hA] at hl
    by_cases e : j = i
    · rw [e, he] at hje; cases hje
    · rw [upd_ne _ _ e] at hl; rw [hr j e] at hj hje; rw [h2]; exact c.dton j hj hl hje
  · intro j hj
    rw [h2] at hj
    by_cases e : j = i
    · refine .inr (.inr ?_)
      rw [hA, e, upd_same]; exact hd (e ▸ hj)
    · rw [hA, upd_ne _ _ e, hr j e]; exact c.dtonMem j hj
  · intro k hk hl
    rw [h3]
    refine c.col k (act_of_imp (hc k) hk) ?_
    rcases hT k with e | e
    · rw [← e]; exact hl
    · rw [e] at hl; cases hl
  · intro k hk
    rw [h3] at hk
    rcases hT k with e | e
    · rw [e]; exact c.colMem k hk
    · rw [e]; simp

theorem noteShortRow_form (w : St) (i : ℕ) (d : Bool) (he : (w.rtag i).eq = false) :
    ∃ x, noteShortRow w i d = { w with asrt := x, stonRows := if w.rowSize i = 1 then w.stonRows ++ [i] else w.stonRows } ∧
      (x = true → w.asrt = true) := by
  unfold noteShortRow
  simp only [he, Bool.and_false, Bool.false_eq_true, if_false]
  by_cases h : w.rowSize i = 1
  · simp only [h, if_true]
    exact ⟨_, rfl, fun h => (Bool.and_eq_true_iff.mp (Bool.and_eq_true_iff.mp h).1).1⟩
  · simp only [h, if_false]
    exact ⟨_, rfl, fun h => (Bool.and_eq_true_iff.mp h).1⟩

/-- What the three kinds of column singletons have in common. -/
structure StonQ (i k : ℕ) (q : ℚ) (s : St) : Prop where
  inv : Inv s
  row : (s.rtag i).inactive = false
  col : (s.ctag k).inactive = false
  cells : s.AT k = [(i, q)]
  queued : Queued s

theorem StonQ.check {i k : ℕ} {q : ℚ} {s : St} (h : StonQ i k q s) (b : Bool) : StonQ i k q (s.check b) := by
  refine ⟨⟨(sameCore_check s b).gi h.inv.gi, h.inv.ston, h.inv.dton⟩, h.row, h.col, h.cells, ?_⟩
  have c := h.queued
  exact ⟨c.ston, c.dton, c.dtonMem, c.dtonNodup, c.col, c.colMem, c.colNodup⟩

theorem StonQ.len {i k : ℕ} {q : ℚ} {s : St} (h : StonQ i k q s) :
    (dropCell k (s.A i)).length + 1 = (s.A i).length ∧ s.rowSize i = ((s.A i).length : ℤ) := by
  have g := h.inv.gi
  refine ⟨dropCell_length (v := q) ?_, g.rowSz i (g.rowActive h.row)⟩
  rw [g.agree i k q (g.rowActive h.row) (g.colActive h.col), h.cells]
  exact List.mem_cons_self

/-- The column leaves its row, which is not an equality afterwards. -/
theorem StonQ.drop {i k : ℕ} {q : ℚ} {s w : St} (h : StonQ i k q s) (d : Bool) (tag : CTag) (ht : tag.inactive = true)
    (hA : w.A = upd s.A i (dropCell k (s.A i))) (hT : w.AT = upd s.AT k [])
    (hr : ∀ j, j ≠ i → w.rtag j = s.rtag j) (he : (w.rtag i).eq = false) (hc : w.ctag = upd s.ctag k tag)
    (hz : w.rowSize i = s.rowSize i - 1)
    (h1 : w.stonRows = s.stonRows) (h2 : w.dtonRows = s.dtonRows) (h3 : w.stonCols = s.stonCols) :
    Queued (noteShortRow w i d) := by
  obtain ⟨x, e, -⟩ := noteShortRow_form w i d he
  obtain ⟨hl, hs⟩ := h.len
  rw [e]
  refine h.queued.shorten (i := i) (cells := dropCell k (s.A i)) hA ?_ hr he ?_ ?_ ?_ h2 ?_ h3
  · intro j
    show w.AT j = _ ∨ w.AT j = _
    rw [hT]
    by_cases e : j = k
    · exact .inr (by rw [e, upd_same])
    · exact .inl (upd_ne _ _ e)
  · intro j hj
    show (w.ctag j).inactive = true
    rw [hc]
    exact upd_ctag_mono (fun _ => ht) j hj
  · intro j hj
    show j ∈ if w.rowSize i = 1 then w.stonRows ++ [i] else w.stonRows
    rw [h1]
    split
    · exact List.mem_append_left _ hj
    · exact hj
  · intro h1
    show i ∈ if w.rowSize i = 1 then w.stonRows ++ [i] else w.stonRows
    rw [if_pos (by omega)]
    exact List.mem_append_right _ List.mem_cons_self
  · intro hi
    have := h.inv.dton i hi
    omega

theorem fixColSton_queued {i k : ℕ} {q : ℚ} {s : St} (h : StonQ i k q s) (he : (s.rtag i).eq = false) (v : D) (d : Bool) :
    Queued (noteShortRow (fixColSton s i k q v) i d) :=
  h.drop d { s.ctag k with fixed := true } (by simp [CTag.inactive]) rfl rfl (fun _ _ => rfl) he rfl
    (upd_same _ _ _) rfl rfl rfl

theorem freeColIneq_queued {i k : ℕ} {q : ℚ} {s : St} (c : Queued s) (side : D)
    (o : (freeColIneq s i k q side).asrt = true) : Queued (freeColIneq s i k q side) := by
  have ef : ∃ b, freeColIneq s i k q side = { s with
      c := costSub s (s.A i) k q
      off := offSub s k q side
      ctag := upd s.ctag k { s.ctag k with subst := true }
      AT := upd s.AT k []
      colSize := upd s.colSize k (-1)
      rowsToDelete := s.rowsToDelete ++ [i]
      rtag := upd s.rtag i { s.rtag i with inactive := true }
      log := .deletedRow i (s.c k / q) :: .subCol k (s.A i) side i (s.c k) :: s.log
      asrt := b } ∧ (b = true → s.asrt = true) := by
    unfold freeColIneq
    rw [subVarInObj_eq]
    exact ⟨s.asrt && !(s.rtag i).inactive, rfl, fun h => (Bool.and_eq_true _ _ ▸ h).1⟩
  obtain ⟨b, ef, hb⟩ := ef
  rw [ef] at o ⊢
  refine (Fr.keep (s := s) ?_ o).2 c
  refine ⟨hb, fun _ => .inr rfl, fun j => ?_, fun j hj => ?_, fun j => ?_, fun j hj => ?_, rfl, rfl, rfl⟩
  · by_cases e : j = k
    · exact .inr (by rw [e]; exact upd_same _ _ _)
    · exact .inl (upd_ne _ _ e)
  · show (upd s.rtag i { s.rtag i with inactive := true } j).inactive = true
    by_cases e : j = i
    · rw [e, upd_same]
    · rw [upd_ne _ _ e]; exact hj
  · show (upd s.rtag i { s.rtag i with inactive := true } j).inactive = true ∨
      (upd s.rtag i { s.rtag i with inactive := true } j).eq = _
    by_cases e : j = i
    · rw [e, upd_same]; exact .inl rfl
    · rw [upd_ne _ _ e]; exact .inr rfl
  · show (upd s.ctag k { s.ctag k with subst := true } j).inactive = true
    exact upd_ctag_mono (fun _ => CTag.inactive_subst _) j hj

theorem halfStep_queued {i k : ℕ} {q : ℚ} {s w : St} (h : StonQ i k q s) (b : D) (upper x : Bool) (a : ℕ → Act) (d : Bool)
    (hw : w = { halfStep s i k q b upper with asrt := x, act := a }) : Queued (noteShortRow w i d) := by
  obtain ⟨l, r, u, d', e, -, -⟩ := halfStep_eq s i k q b upper
  rw [e] at hw
  subst hw
  refine h.drop d { s.ctag k with subst := true } (CTag.inactive_subst _) rfl rfl (fun j hj => upd_ne _ _ hj) ?_ rfl
    (upd_same _ _ _) rfl rfl rfl
  show (upd s.rtag i _ i).eq = false
  rw [upd_same]
  split <;> rfl

theorem colstonEq_queued {i k : ℕ} {q : ℚ} {s : St} (h : StonQ i k q s) (above below : Bool)
    (o : (colstonEq s i k q above below).1.asrt = true) : Queued (colstonEq s i k q above below).1 := by
  revert o
  unfold colstonEq
  simp only
  have h2 := (h.check (D.eqb (s.lhs i) (s.rhs i))).check
    (!((s.rtag i).inactive || (s.rtag i).lhsInf || (s.rtag i).rhsInf))
  have e2 : ((s.check (D.eqb (s.lhs i) (s.rhs i))).check (!(((s.check (D.eqb (s.lhs i) (s.rhs i))).rtag i).inactive ||
    ((s.check (D.eqb (s.lhs i) (s.rhs i))).rtag i).lhsInf || ((s.check (D.eqb (s.lhs i) (s.rhs i))).rtag i).rhsInf))) =
    ((s.check (D.eqb (s.lhs i) (s.rhs i))).check
    (!((s.rtag i).inactive || (s.rtag i).lhsInf || (s.rtag i).rhsInf))) := rfl
  rw [e2]
  generalize (s.check (D.eqb (s.lhs i) (s.rhs i))).check
    (!((s.rtag i).inactive || (s.rtag i).lhsInf || (s.rtag i).rhsInf)) = s2 at h2 ⊢
  split
  · exact fun _ => h2.queued
  · split
    · intro o
      have h := freeColIneq_queued (i := i) (k := k) (q := q) h2.queued (s2.rhs i)
      unfold freeColIneq at h
      rw [subVarInObj_eq] at h o ⊢
      exact h o
    · intro _
      by_cases hab : above = true
      · rw [if_pos hab]
        obtain ⟨a, x, e, -⟩ := implFreeAboveEq_form s2 i k q
        exact halfStep_queued h2 _ _ x a true e
      · rw [if_neg hab]
        obtain ⟨a, x, e, -⟩ := implFreeBelowEq_form s2 i k q
        exact halfStep_queued h2 _ _ x a true e

theorem toEq_queued {i k : ℕ} {q : ℚ} {s w : St} (h : StonQ i k q s) (hne : (s.rtag i).eq = false)
    (ha : w.asrt = true → s.asrt = true) (hA : w.A = s.A) (hT : w.AT = s.AT) (hr : w.rtag = upd s.rtag i { eq := true })
    (hc : w.ctag = s.ctag) (h1 : w.stonRows = s.stonRows) (h2 : w.dtonRows = s.dtonRows) (h3 : w.stonCols = s.stonCols)
    (hz : w.rowSize = s.rowSize) (o : (noteDton w i).asrt = true) : Queued (noteDton w i) := by
  have hl := h.len.2
  have e : (noteDton w i).A = w.A ∧ (noteDton w i).AT = w.AT ∧ (noteDton w i).rtag = w.rtag ∧ (noteDton w i).ctag = w.ctag ∧
      (noteDton w i).stonRows = w.stonRows ∧ (noteDton w i).stonCols = w.stonCols ∧
      (noteDton w i).dtonRows = (if w.rowSize i = 2 then w.dtonRows ++ [i] else w.dtonRows) ∧
      ((noteDton w i).asrt = true → w.asrt = true) := by
    unfold noteDton
    by_cases h2 : w.rowSize i = 2
    · rw [if_pos h2, if_pos h2]
      exact ⟨rfl, rfl, rfl, rfl, rfl, rfl, rfl, fun h => (Bool.and_eq_true_iff.mp h).1⟩
    · rw [if_neg h2, if_neg h2]
      exact ⟨rfl, rfl, rfl, rfl, rfl, rfl, rfl, id⟩
  obtain ⟨e1, e2, e3, e4, e5, e6, e7, e8⟩ := e
  generalize noteDton w i = t at *
  refine (Keep.toEq (s := s) (t := t) (i := i) (x := { eq := true }) (by intro h'; rw [h.row] at h'; cases h')
    (fun o => ⟨ha (e8 o), hne, h.row⟩) rfl (e1.trans hA) (e2.trans hT) (e3.trans hr) (e4.trans hc) (e5.trans h1) (e6.trans h3)
    ?_ o).2 h.queued
  rw [e7, hz, hl, h2]
  by_cases h : (s.A i).length = 2
  · rw [if_pos h, if_pos (by omega)]
  · rw [if_neg h, if_neg (by omega)]

theorem colstonIneq_queued {i k : ℕ} {q : ℚ} {s : St} (h : StonQ i k q s) (hne : (s.rtag i).eq = false) (above below : Bool)
    (o : (colstonIneq s i k q above below).1.asrt = true) : Queued (colstonIneq s i k q above below).1 := by
  revert o
  unfold colstonIneq
  split
  · exact fun _ => h.queued
  · exact fun _ => h.queued
  · exact fun _ => fixColSton_queued (h.check _) hne _ _
  · exact fun _ => fixColSton_queued (h.check _) hne _ _
  · exact fun o => freeColIneq_queued h.queued _ o
  · exact fun o => freeColIneq_queued h.queued _ o
  · simp only
    have e := locksNewLhs_only s (s.A i)
    unfold OnlyLocks at e
    intro o
    by_cases hl : (s.rtag i).lhsInf = true
    · simp only [hl, if_true] at o ⊢
      rw [e] at o ⊢
      exact toEq_queued h hne (fun h => (Bool.and_eq_true_iff.mp (show (s.asrt && _) = true from h)).1) rfl rfl rfl rfl rfl rfl rfl rfl o
    · simp only [hl, Bool.false_eq_true, if_false] at o ⊢
      exact toEq_queued h hne (fun h => (Bool.and_eq_true_iff.mp (show (s.asrt && _) = true from h)).1) rfl rfl rfl rfl rfl rfl rfl rfl o
  · simp only
    have e := locksNewRhs_only s (s.A i)
    unfold OnlyLocks at e
    intro o
    by_cases hl : (s.rtag i).rhsInf = true
    · simp only [hl, if_true] at o ⊢
      rw [e] at o ⊢
      exact toEq_queued h hne (fun h => (Bool.and_eq_true_iff.mp (show (s.asrt && _) = true from h)).1) rfl rfl rfl rfl rfl rfl rfl rfl o
    · simp only [hl, Bool.false_eq_true, if_false] at o ⊢
      exact toEq_queued h hne (fun h => (Bool.and_eq_true_iff.mp (show (s.asrt && _) = true from h)).1) rfl rfl rfl rfl rfl rfl rfl rfl o

theorem stonColStep_queued {s : St} {st : Status} {k : ℕ} (i : Inv s) (c : Queued s)
    (o : (stonColStep (s, st) k).1.asrt = true) : Queued (stonColStep (s, st) k).1 := by
  revert o
  unfold stonColStep
  simp only
  split
  · intro o
    exact absurd (Bool.and_eq_true_iff.mp (show (s.asrt && false) = true from o)).2 (by decide)
  · rename_i r q rest hT
    have hr : ∀ t : St, Keep (s.check (decide (rest = [])) |>.check (!(s.ctag k).inactive)) t → t.asrt = true →
        rest = [] ∧ (s.ctag k).inactive = false := by
      intro t hk o
      have h := (hk o).1
      have h : (s.asrt && decide (rest = []) && !(s.ctag k).inactive) = true := h
      simp only [Bool.and_eq_true, decide_eq_true_eq, Bool.not_eq_true'] at h
      exact ⟨h.1.2, h.2⟩
    split
    · exact fun o => (((Fr.check _ _).trans (Fr.check _ _)).keep o).2 c
    · rename_i hc
      simp only [Bool.or_eq_true, not_or, Bool.not_eq_true] at hc
      have mk : rest = [] → (s.ctag k).inactive = false → StonQ r k q s := fun h1 h2 =>
        ⟨i, hc.1, h2, by rw [hT, h1], c⟩
      generalize hs1 : (s.check (decide (rest = []))).check (!(s.ctag k).inactive) = s1 at *
      have mk1 : rest = [] → (s.ctag k).inactive = false → StonQ r k q s1 := fun h1 h2 => by
        rw [← hs1]; exact ((mk h1 h2).check _).check _
      by_cases heq : (s1.rtag r).eq = true
      · simp only [heq, if_true]
        intro o
        have o1 : s1.asrt = true := ((colstonEq_good Mode.all rfl (psi s1) s1 r k q _ _).ok (ok_all.mpr o)).1
        obtain ⟨h1, h2⟩ := hr s1 (.refl _) o1
        exact colstonEq_queued (mk1 h1 h2) _ _ o
      · simp only [heq, Bool.false_eq_true, if_false]
        intro o
        have hne : (s1.rtag r).eq = false := by simpa using heq
        have o1 : s1.asrt = true := ((colstonIneq_good Mode.all rfl (psi s1) s1 r k q _ _ hne).ok (ok_all.mpr o)).1
        obtain ⟨h1, h2⟩ := hr s1 (.refl _) o1
        exact colstonIneq_queued (mk1 h1 h2) hne _ _ o

theorem Good.withQ {μ : Mode} {I J : St → Prop} {a b : St} (g : Good μ I J a b)
    (h : b.asrt = true → Inv a → I a → Queued a → Queued b) :
    Good μ (fun s => I s ∧ Queued s) (fun s => J s ∧ Queued s) a b := by
  intro o
  obtain ⟨o', k⟩ := g o
  refine ⟨o', fun i hi => ?_⟩
  obtain ⟨r, hj⟩ := k i hi.1
  exact ⟨r, hj, h o.1 i hi.1 hi.2⟩

theorem stonColFold_goodQ (μ : Mode) (hst : μ.ston = true) (N : ℕ) (L : List ℕ) (s : St) (st : Status) :
    Good μ (fun t => PsiLe N (redW st) t ∧ Queued t)
      (fun t => PsiLe N (redW (L.foldl stonColStep (s, st)).2) t ∧ Queued t) s (L.foldl stonColStep (s, st)).1 := by
  induction L generalizing s st with
  | nil => exact .refl μ _ s
  | cons k L ih =>
    exact ((stonColStep_good μ hst N s st k).withQ (fun o i _ c => stonColStep_queued i c o)).trans (ih _ _)

theorem stonColsRound_queued {s : St} (i : Inv s) (hc : Clean s) (c : Queued s) (o : (stonColsRound s).1.asrt = true) :
    Queued (stonColsRound s).1 := by
  have hQ : Queued { s with stonCols := s.stonCols.filter (fun k => decide (s.colSize k = 1)) } := by
    refine ⟨c.ston, c.dton, c.dtonMem, c.dtonNodup, fun k hk hl => ?_, fun k hk => ?_, c.colNodup.filter _⟩
    · have hk : (s.ctag k).inactive = false := hk
      have hl : (s.AT k).length = 1 := hl
      refine List.mem_filter.mpr ⟨c.col k hk hl, ?_⟩
      have := i.gi.colSz k hk
      rw [hl] at this
      simp [this]
    · exact c.colMem k (List.mem_filter.mp hk).1
  have hs : Inv { s with stonCols := s.stonCols.filter (fun k => decide (s.colSize k = 1)) } :=
    ⟨i.gi.of_eq rfl rfl rfl rfl rfl (fun _ => rfl) rfl rfl rfl rfl rfl rfl rfl rfl, i.ston, i.dton⟩
  have hn : NoCols { s with stonCols := s.stonCols.filter (fun k => decide (s.colSize k = 1)) } := hc.2
  have h1 : (stonColsRound s).1 = deleteInactiveRows
      ((s.stonCols.filter (fun k => decide (s.colSize k = 1))).foldl stonColStep
        ({ s with stonCols := s.stonCols.filter (fun k => decide (s.colSize k = 1)) }, UNCHANGED)).1 := by
    unfold stonColsRound
    simp only
    split
    · rfl
    · split <;> rfl
  rw [h1] at o ⊢
  generalize ({ s with stonCols := s.stonCols.filter (fun k => decide (s.colSize k = 1)) } : St) = s0 at hQ hs hn o ⊢
  obtain ⟨o', k⟩ := deleteInactiveRows_keep _ o
  refine k ?_
  have g := stonColFold_goodQ Mode.all rfl (psi s0) (s.stonCols.filter (fun k => decide (s.colSize k = 1))) s0 UNCHANGED
    (ok_all.mpr o')
  exact (g.2 hs ⟨⟨hn, by rw [redW_unchanged]; exact Nat.le_refl _⟩, hQ⟩).2.2

theorem stonColsLoop_goodQ (μ : Mode) (hst : μ.ston = true) (fuel : ℕ) (s : St) :
    Good μ (fun t => (Clean t ∧ psi t + 1 ≤ fuel) ∧ Queued t) (fun t => Clean t ∧ Queued t) s (stonColsLoop fuel s).1 := by
  induction fuel generalizing s with
  | zero => exact .of (fun o => o) (fun _ _ h => by have := h.1.2; omega)
  | succ fuel ih =>
    unfold stonColsLoop
    simp only
    have g := (stonColsRound_good μ hst fuel s).withQ (fun o i h c => stonColsRound_queued i h.1 c o)
    split
    · rename_i h
      rw [h, redW_reduced] at g
      refine Good.trans (J := fun t => PsiClean fuel 1 t ∧ Queued t) (g.weaken (fun _ h => ⟨⟨h.1.1, by have := h.1.2; omega⟩, h.2⟩) (fun _ h => h))
        ((ih _).weaken (fun _ h => h) (fun _ h => h))
    · exact g.weaken (fun _ h => ⟨⟨h.1.1, by have := h.1.2; omega⟩, h.2⟩) (fun _ h => ⟨h.1.1, h.2⟩)

theorem removeStonCols_queued {s : St} (i : Inv s) (hc : Clean s) (c : Queued s) (o : (removeStonCols s).1.asrt = true) :
    Queued (removeStonCols s).1 := by
  unfold removeStonCols at o ⊢
  simp only at o ⊢
  have hsame : SameCore s (((s.check (decide (s.stonRows = []))).check (decide (s.emptyRows = []))).check
    (decide (s.emptyCols = []))) := by constructor <;> rfl
  have f : Fr s (((s.check (decide (s.stonRows = []))).check (decide (s.emptyRows = []))).check
    (decide (s.emptyCols = []))) := ((Fr.check _ _).trans (Fr.check _ _)).trans (Fr.check _ _)
  have hi : Inv (((s.check (decide (s.stonRows = []))).check (decide (s.emptyRows = []))).check
    (decide (s.emptyCols = []))) := ⟨hsame.gi i.gi, i.ston, i.dton⟩
  have hcl := hsame.clean hc
  have hps := psi_le (((s.check (decide (s.stonRows = []))).check (decide (s.emptyRows = []))).check
    (decide (s.emptyCols = [])))
  have hQ : (((s.check (decide (s.stonRows = []))).check (decide (s.emptyRows = []))).check
    (decide (s.emptyCols = []))).asrt = true → Queued (((s.check (decide (s.stonRows = []))).check (decide (s.emptyRows = []))).check
    (decide (s.emptyCols = []))) := fun o => (f.keep o).2 c
  generalize ((s.check (decide (s.stonRows = []))).check (decide (s.emptyRows = []))).check
    (decide (s.emptyCols = [])) = t at *
  have g := stonColsLoop_goodQ Mode.all rfl (t.m + 2 * t.n + 1) t (ok_all.mpr o)
  exact (g.2 hi ⟨⟨hcl, by omega⟩, hQ g.1.1⟩).2.2

end Verif
