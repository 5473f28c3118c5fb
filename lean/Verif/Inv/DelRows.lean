import Verif.Inv.Basic
import Verif.Lemmas.Sides

/-! # `delete_inactive_rows` on the structural invariant -/

namespace Verif

/-- Only column sizes and locks differ. -/
def OnlyCols (s s' : St) : Prop :=
  s' = { s with colSize := s'.colSize, up := s'.up, down := s'.down }

theorem OnlyCols.trans {a b c : St} (h : OnlyCols a b) (h' : OnlyCols b c) : OnlyCols a c := by
  unfold OnlyCols at *; rw [h', h]

theorem delRowCell_only (t : RTag) (s : St) (p : Cell) : OnlyCols s (delRowCell t s p) := by
  unfold delRowCell; split <;> rfl

theorem delRowCells_only (t : RTag) (cells : List Cell) (s : St) :
    OnlyCols s (cells.foldl (delRowCell t) s) := by
  induction cells generalizing s with
  | nil => rfl
  | cons p l ih => rw [List.foldl_cons]; exact (delRowCell_only t s p).trans (ih _)

theorem delRowCell_other (t : RTag) (s : St) (p : Cell) {k : ℕ} (h : p.1 ≠ k) :
    (delRowCell t s p).colSize k = s.colSize k ∧ (delRowCell t s p).up k = s.up k ∧
    (delRowCell t s p).down k = s.down k := by
  unfold delRowCell
  split
  · exact ⟨rfl, rfl, rfl⟩
  · simp only [lockDel, St.addLock]
    exact ⟨upd_ne _ _ h.symm, upd_ne _ _ h.symm, upd_ne _ _ h.symm⟩

theorem delRowCell_same (t : RTag) (s : St) (p : Cell) (h : s.colSize p.1 ≠ -1) :
    (delRowCell t s p).colSize p.1 = s.colSize p.1 - 1 ∧
    (delRowCell t s p).up p.1 = s.up p.1 - (lockOf p.2 t).1 ∧
    (delRowCell t s p).down p.1 = s.down p.1 - (lockOf p.2 t).2 := by
  unfold delRowCell
  rw [if_neg h]
  simp only [lockDel, St.addLock, upd_same]
  refine ⟨trivial, ?_, ?_⟩ <;> ring

theorem delRowCells_gone (t : RTag) (cells : List Cell) (s : St) {k : ℕ} (h : s.colSize k = -1) :
    (cells.foldl (delRowCell t) s).colSize k = -1 := by
  induction cells generalizing s with
  | nil => exact h
  | cons p l ih =>
    rw [List.foldl_cons]
    apply ih
    by_cases e : p.1 = k
    · unfold delRowCell; rw [e, if_pos h]; exact h
    · rw [(delRowCell_other t s p e).1]; exact h

theorem delRowCells_col (t : RTag) (cells : List Cell) (s : St) (k : ℕ)
    (h : ((mids k cells).length : ℤ) ≤ s.colSize k) :
    (cells.foldl (delRowCell t) s).colSize k = s.colSize k - ((mids k cells).length : ℤ) ∧
    (cells.foldl (delRowCell t) s).up k = s.up k - ((mids k cells).map (fun p => (lockOf p.2 t).1)).sum ∧
    (cells.foldl (delRowCell t) s).down k =
      s.down k - ((mids k cells).map (fun p => (lockOf p.2 t).2)).sum := by
  induction cells generalizing s with
  | nil => simp [mids]
  | cons p l ih =>
    rw [List.foldl_cons]
    by_cases e : p.1 = k
    · have hm : mids k (p :: l) = p :: mids k l := by simp [mids, e]
      rw [hm] at h ⊢
      rw [List.length_cons] at h
      push_cast at h
      have hs : s.colSize p.1 ≠ -1 := by rw [e]; omega
      obtain ⟨h1, h2, h3⟩ := delRowCell_same t s p hs
      rw [e] at h1 h2 h3
      obtain ⟨g1, g2, g3⟩ := ih (delRowCell t s p) (by rw [h1]; omega)
      rw [g1, g2, g3, h1, h2, h3]
      simp only [List.length_cons, List.map_cons, List.sum_cons]
      push_cast
      refine ⟨by ring, by ring, by ring⟩
    · have hm : mids k (p :: l) = mids k l := by simp [mids, e]
      rw [hm] at h ⊢
      obtain ⟨h1, h2, h3⟩ := delRowCell_other t s p e
      obtain ⟨g1, g2, g3⟩ := ih (delRowCell t s p) (by rw [h1]; exact h)
      rw [g1, g2, g3, h1, h2, h3]
      exact ⟨rfl, rfl, rfl⟩

/-- One row is removed from `A`. -/
theorem delOneRow_eq (s : St) (row : ℕ) (hsz : s.rowSize row = ((s.A row).length : ℤ)) :
    ∃ cs u d, delOneRow s row =
      { s with
        A := upd s.A row []
        rowSize := upd s.rowSize row (-1)
        nnz := s.nnz - ((s.A row).length : ℤ)
        colSize := cs
        up := u
        down := d } ∧
      cs = ((s.A row).foldl (delRowCell (s.rtag row)) s).colSize ∧
      u = ((s.A row).foldl (delRowCell (s.rtag row)) s).up ∧
      d = ((s.A row).foldl (delRowCell (s.rtag row)) s).down := by
  have hc : s.check (decide (s.rowSize row ≠ -1)) = s := by
    have : decide (s.rowSize row ≠ -1) = true := by
      rw [decide_eq_true_eq, hsz]; omega
    rw [this]; unfold St.check; simp
  unfold delOneRow
  simp only
  rw [hc]
  by_cases h0 : s.rowSize row = 0
  · have hA : s.A row = [] := by
      have : ((s.A row).length : ℤ) = 0 := by rw [← hsz]; exact h0
      exact List.length_eq_zero_iff.mp (by exact_mod_cast this)
    rw [if_pos h0, hA]
    refine ⟨s.colSize, s.up, s.down, ?_, rfl, rfl, rfl⟩
    have : upd s.A row [] = s.A := by rw [← hA]; exact upd_self _ _
    rw [this]; simp
  · rw [if_neg h0]
    -- the fold only looks at column sizes and locks
    have key : ∀ (cells : List Cell) (u : St) (t : RTag) (nz : ℤ) (rs : ℕ → ℤ),
        cells.foldl (delRowCell t) { u with nnz := nz, rowSize := rs } =
          { cells.foldl (delRowCell t) u with nnz := nz, rowSize := rs } := by
      intro cells
      induction cells with
      | nil => intro u t nz rs; rfl
      | cons p l ih =>
        intro u t nz rs
        rw [List.foldl_cons, List.foldl_cons, ← ih]
        congr 1
        unfold delRowCell
        simp only
        split <;> rfl
    rw [key]
    have ho := delRowCells_only (s.rtag row) (s.A row) s
    generalize (s.A row).foldl (delRowCell (s.rtag row)) s = v at ho
    refine ⟨v.colSize, v.up, v.down, ?_, rfl, rfl, rfl⟩
    rw [ho]
    simp only [hsz]

/-- What the first loop of `delete_inactive_rows` has done after the rows of `L`. -/
structure RowsOut (s s' : St) (L : List ℕ) : Prop where
  eq : s' = { s with A := s'.A, rowSize := s'.rowSize, nnz := s'.nnz, colSize := s'.colSize,
                     up := s'.up, down := s'.down }
  A : ∀ i, s'.A i = if i ∈ L then [] else s.A i
  rowSize : ∀ i, s'.rowSize i = if i ∈ L then -1 else s.rowSize i
  nnz : ∀ M, (∀ i ∈ L, M ≤ i → s.A i = []) →
    s'.nnz - ∑ i ∈ Finset.range M, ((s'.A i).length : ℤ) =
      s.nnz - ∑ i ∈ Finset.range M, ((s.A i).length : ℤ)
  gone : ∀ k, s.colSize k = -1 → s'.colSize k = -1
  col : ∀ k, s.colSize k ≠ -1 →
    s'.colSize k = s.colSize k - (L.map (fun i => ((mids k (s.A i)).length : ℤ))).sum ∧
    s'.up k = s.up k -
      (L.map (fun i => ((mids k (s.A i)).map (fun p => (lockOf p.2 (s.rtag i)).1)).sum)).sum ∧
    s'.down k = s.down k -
      (L.map (fun i => ((mids k (s.A i)).map (fun p => (lockOf p.2 (s.rtag i)).2)).sum)).sum

theorem rowsOut_fold (s0 : St) (L : List ℕ) (hnd : L.Nodup)
    (hsz : ∀ i ∈ L, s0.rowSize i = ((s0.A i).length : ℤ))
    (hcol : ∀ k, s0.colSize k ≠ -1 →
      (L.map (fun i => ((mids k (s0.A i)).length : ℤ))).sum ≤ s0.colSize k) :
    RowsOut s0 (L.foldl delOneRow s0) L := by
  induction L using List.reverseRecOn with
  | nil =>
    refine ⟨rfl, fun i => by simp, fun i => by simp, fun _ _ => rfl, fun k h => h, fun k _ => by simp⟩
  | append_singleton L r ih =>
    rw [List.nodup_append] at hnd
    have hr : r ∉ L := fun h => hnd.2.2 r h r (by simp) rfl
    have hpos : ∀ k, (0 : ℤ) ≤ (L.map (fun i => ((mids k (s0.A i)).length : ℤ))).sum := fun k =>
      List.sum_nonneg (fun x hx => by
        obtain ⟨i, _, rfl⟩ := List.mem_map.mp hx; omega)
    have hL := ih hnd.1 (fun i hi => hsz i (List.mem_append_left _ hi)) (fun k hk => by
      have := hcol k hk
      rw [List.map_append, List.sum_append] at this
      simp only [List.map_cons, List.map_nil, List.sum_cons, List.sum_nil] at this
      omega)
    rw [List.foldl_append, List.foldl_cons, List.foldl_nil]
    generalize L.foldl delOneRow s0 = s at hL
    have hAr : s.A r = s0.A r := by rw [hL.A, if_neg hr]
    have hszr : s.rowSize r = ((s.A r).length : ℤ) := by
      rw [hL.rowSize, if_neg hr, hAr]; exact hsz r (by simp)
    have hrt : s.rtag = s0.rtag := by rw [hL.eq]
    obtain ⟨cs, u, d, he, hcs, hu, hd⟩ := delOneRow_eq s r hszr
    rw [hAr, hrt] at hcs hu hd
    have hA' : ∀ i, (delOneRow s r).A i = if i ∈ L ++ [r] then [] else s0.A i := by
      intro i
      rw [he]; simp only
      by_cases e : i = r
      · rw [e, upd_same, if_pos (by simp)]
      · rw [upd_ne _ _ e, hL.A]; simp [e]
    refine ⟨?_, hA', ?_, ?_, ?_, ?_⟩
    · rw [he]; simp only; rw [hL.eq]
    · intro i
      rw [he]; simp only
      by_cases e : i = r
      · rw [e, upd_same, if_pos (by simp)]
      · rw [upd_ne _ _ e, hL.rowSize]; simp [e]
    · intro M hM
      rw [← hL.nnz M (fun i hi => hM i (List.mem_append_left _ hi))]
      rw [he]
      simp only
      by_cases hlt : r < M
      · rw [sum_upd_len s.A r M hlt []]
        simp only [List.length_nil]; push_cast; ring
      · have h0 : s.A r = [] := by rw [hAr]; exact hM r (by simp) (by omega)
        rw [← h0, upd_self, h0]; simp
    · intro k hk
      rw [he]; simp only
      rw [hcs]
      exact delRowCells_gone _ _ _ (hL.gone k hk)
    · intro k hk
      obtain ⟨c1, c2, c3⟩ := hL.col k hk
      have hle := hcol k hk
      rw [List.map_append, List.sum_append] at hle
      simp only [List.map_cons, List.map_nil, List.sum_cons, List.sum_nil, add_zero] at hle
      obtain ⟨g1, g2, g3⟩ := delRowCells_col (s0.rtag r) (s0.A r) s k (by rw [c1]; omega)
      rw [he]
      simp only
      rw [hcs, hu, hd, g1, g2, g3, c1, c2, c3]
      simp only [List.map_append, List.sum_append, List.map_cons, List.map_nil, List.sum_cons,
        List.sum_nil]
      refine ⟨by ring, by ring, by ring⟩

/-- The live part of a column: its cells in rows that are not gone. -/
def liveCol (s : St) (k : ℕ) : List Cell :=
  (s.AT k).filter (fun p => decide (s.rowSize p.1 ≠ -1))

theorem check_true (s : St) : s.check true = s := by unfold St.check; simp

theorem filter_length_eq {l : List Cell} {q : Cell → Bool}
    (h : (l.filter q).length = l.length) : l.filter q = l :=
  List.filter_eq_self.mpr (List.length_filter_eq_length_iff.mp h)

theorem delCompactCol_eq (s : St) (col : ℕ)
    (h : (s.ctag col).inactive = false → s.colSize col = ((liveCol s col).length : ℤ)) :
    ∃ ec sc, delCompactCol s col =
      { s with
        AT := if (s.ctag col).inactive then s.AT else upd s.AT col (liveCol s col)
        emptyCols := ec
        stonCols := sc } ∧
      (∀ k ∈ ec, k ∈ s.emptyCols ∨ (k = col ∧ (s.ctag col).inactive = false ∧ liveCol s col = [])) := by
  cases hi : (s.ctag col).inactive with
  | true =>
    refine ⟨s.emptyCols, s.stonCols, ?_, fun k hk => Or.inl hk⟩
    unfold delCompactCol
    simp [hi]
  | false =>
    have h := h hi
    have hne : s.colSize col ≠ -1 := by rw [h]; omega
    unfold delCompactCol
    rw [hi, Bool.false_or]
    by_cases he : s.colSize col = ((s.AT col).length : ℤ)
    · have hf : liveCol s col = s.AT col := by
        apply filter_length_eq
        have := h.symm.trans he
        unfold liveCol at this
        exact_mod_cast this
      refine ⟨s.emptyCols, s.stonCols, ?_, fun k hk => Or.inl hk⟩
      rw [if_pos (by simpa using he), if_neg (by simp), hf, upd_self]
    · rw [if_neg (by simpa using he), if_neg (by simp)]
      have hc : s.check (decide (s.colSize col ≠ -1)) = s := by
        rw [decide_eq_true hne]; exact check_true s
      simp only [hc]
      by_cases h0 : s.colSize col = 0
      · have hl : liveCol s col = [] := by
          have : ((liveCol s col).length : ℤ) = 0 := by rw [← h]; exact h0
          exact List.length_eq_zero_iff.mp (by exact_mod_cast this)
        refine ⟨s.emptyCols ++ [col], s.stonCols, ?_, ?_⟩
        · rw [if_pos h0]
          simp only [upd_same, List.filter_nil, upd_upd, List.length_nil, h0, Nat.cast_zero, decide_true]
          rw [hl]
          exact check_true _
        · intro k hk
          rcases List.mem_append.mp hk with hk | hk
          · exact Or.inl hk
          · exact Or.inr ⟨List.mem_singleton.mp hk, by simp, hl⟩
      · rw [if_neg h0]
        have hd : decide (s.colSize col = ((liveCol s col).length : ℤ)) = true := by
          rw [decide_eq_true_eq]; exact h
        by_cases h1 : s.colSize col = 1
        · refine ⟨s.emptyCols, s.stonCols ++ [col], ?_, fun k hk => Or.inl hk⟩
          rw [if_pos h1]
          simp only [upd_same]
          unfold liveCol at hd ⊢
          rw [hd]
          exact check_true _
        · refine ⟨s.emptyCols, s.stonCols, ?_, fun k hk => Or.inl hk⟩
          rw [if_neg h1]
          simp only [upd_same]
          unfold liveCol at hd ⊢
          rw [hd]
          exact check_true _

/-- What the compaction of the columns below `N` has done. -/
structure ColsOut (s s' : St) (N : ℕ) : Prop where
  eq : s' = { s with AT := s'.AT, emptyCols := s'.emptyCols, stonCols := s'.stonCols }
  AT : ∀ k, s'.AT k = if k < N ∧ (s.ctag k).inactive = false then liveCol s k else s.AT k
  empty : ∀ k ∈ s'.emptyCols, k ∈ s.emptyCols ∨
    ((s.ctag k).inactive = false ∧ k < N ∧ liveCol s k = [])

theorem colsOut_fold (s0 : St)
    (h : ∀ k, (s0.ctag k).inactive = false → s0.colSize k = ((liveCol s0 k).length : ℤ)) (N : ℕ) :
    ColsOut s0 ((List.range N).foldl delCompactCol s0) N := by
  induction N with
  | zero => exact ⟨rfl, fun k => by simp, fun k hk => Or.inl hk⟩
  | succ N ih =>
    rw [List.range_succ, List.foldl_append, List.foldl_cons, List.foldl_nil]
    generalize (List.range N).foldl delCompactCol s0 = s at ih
    have hct : s.ctag = s0.ctag := by rw [ih.eq]
    have hcs : s.colSize = s0.colSize := by rw [ih.eq]
    have hrs : s.rowSize = s0.rowSize := by rw [ih.eq]
    have hATN : s.AT N = s0.AT N := by rw [ih.AT, if_neg (by omega)]
    have hlv : liveCol s N = liveCol s0 N := by unfold liveCol; rw [hATN, hrs]
    obtain ⟨ec, sc, he, hec⟩ := delCompactCol_eq s N (by rw [hct, hcs, hlv]; exact h N)
    refine ⟨?_, ?_, ?_⟩
    · rw [he]; simp only; rw [ih.eq]
    · intro k
      rw [he]; simp only
      rw [hct, hlv]
      cases hi : (s0.ctag N).inactive with
      | true =>
        rw [if_pos rfl, ih.AT]
        by_cases hk : k < N ∧ (s0.ctag k).inactive = false
        · rw [if_pos hk, if_pos ⟨by omega, hk.2⟩]
        · rw [if_neg hk, if_neg]
          rintro ⟨h1, h2⟩
          by_cases e : k = N
          · rw [e, hi] at h2; cases h2
          · exact hk ⟨by omega, h2⟩
      | false =>
        rw [if_neg Bool.false_ne_true]
        by_cases e : k = N
        · rw [e, upd_same, if_pos ⟨by omega, hi⟩]
        · rw [upd_ne _ _ e, ih.AT]
          by_cases hk : k < N ∧ (s0.ctag k).inactive = false
          · rw [if_pos hk, if_pos ⟨by omega, hk.2⟩]
          · rw [if_neg hk, if_neg (fun h' => hk ⟨by omega, h'.2⟩)]
    · intro k hk
      rw [he] at hk; simp only at hk
      rcases hec k hk with hk | ⟨rfl, h1, h2⟩
      · rcases ih.empty k hk with h' | ⟨h1, h2, h3⟩
        · exact Or.inl h'
        · exact Or.inr ⟨h1, by omega, h3⟩
      · exact Or.inr ⟨by rw [← hct]; exact h1, by omega, by rw [← hlv]; exact h2⟩

/-- The cells of a column outside the rows of `L`. -/
def offRows (L : List ℕ) (l : List Cell) : List Cell := l.filter (fun p => decide (p.1 ∉ L))

/-- `s'` is `s` with the pending rows deleted, stated on the matrices and counters themselves. -/
structure RowsDeleted (s s' : St) : Prop where
  eq : s' = { s with A := s'.A, AT := s'.AT, rowSize := s'.rowSize, colSize := s'.colSize,
                     up := s'.up, down := s'.down, nnz := s'.nnz, rowsToDelete := [],
                     emptyCols := s'.emptyCols, stonCols := s'.stonCols }
  A : ∀ i, s'.A i = if i ∈ s.rowsToDelete then [] else s.A i
  rowSize : ∀ i, s'.rowSize i = if i ∈ s.rowsToDelete then -1 else s.rowSize i
  AT : ∀ k, (s.ctag k).inactive = false → s'.AT k = offRows s.rowsToDelete (s.AT k)
  ATpend : ∀ k, (s.ctag k).inactive = true → s'.AT k = s.AT k
  colGone : ∀ k, s.colSize k = -1 ↔ s'.colSize k = -1
  empty : ∀ k ∈ s'.emptyCols, k ∈ s.emptyCols ∨ ((s.ctag k).inactive = false ∧ s'.AT k = [])
  gi : GI s'

theorem deleteInactiveRows_deleted {s : St} (g : GI s) : RowsDeleted s (deleteInactiveRows s) := by
  by_cases hL : s.rowsToDelete = []
  · have he : deleteInactiveRows s = s := by unfold deleteInactiveRows; rw [if_pos hL]
    rw [he]
    refine ⟨by rw [← hL], fun i => by simp [hL], fun i => by simp [hL], fun k _ => ?_,
      fun k _ => rfl, fun k => Iff.rfl, fun k hk => Or.inl hk, g⟩
    unfold offRows; rw [hL]; simp
  -- counting
  have hag : ∀ k, s.colSize k ≠ -1 → ∀ i ∈ s.rowsToDelete, ∀ v, (k, v) ∈ s.A i ↔ (i, v) ∈ s.AT k :=
    fun k hk i hi v => g.agree i k v (g.rowsDel i hi).2 hk
  have hswap := fun (w : Cell → ℤ) k (hk : s.colSize k ≠ -1) =>
    swap_sum w s.A (s.AT k) k s.rowsToDelete g.rowsNodup (fun i _ => g.rowSorted i) (g.colSorted k)
      (hag k hk)
  have hcnt : ∀ k, s.colSize k ≠ -1 →
      (s.rowsToDelete.map (fun i => ((mids k (s.A i)).length : ℤ))).sum =
        (((s.AT k).filter (fun p => decide (p.1 ∈ s.rowsToDelete))).length : ℤ) := by
    intro k hk
    have := hswap (fun _ => 1) k hk
    simp only [List.map_const', List.sum_replicate, nsmul_eq_mul, mul_one] at this
    exact this.symm
  have hlive : ∀ k, ((s.AT k).filter (fun p => decide (p.1 ∈ s.rowsToDelete))).length +
      ((s.AT k).filter (fun p => decide (p.1 ∉ s.rowsToDelete) && decide (s.rowSize p.1 ≠ -1))).length =
      ((s.AT k).filter (fun p => decide (s.rowSize p.1 ≠ -1))).length := by
    intro k
    generalize s.AT k = T
    induction T with
    | nil => rfl
    | cons p T ih =>
      by_cases h1 : p.1 ∈ s.rowsToDelete
      · have h2 := (g.rowsDel p.1 h1).2
        simp only [List.filter_cons, h1, h2, ne_eq, not_true_eq_false, not_false_eq_true, decide_true,
          decide_false, Bool.false_and, Bool.false_eq_true, if_true, if_false, List.length_cons]
        simp only [ne_eq] at ih
        omega
      · by_cases h2 : s.rowSize p.1 = -1
        · simp only [List.filter_cons, h1, h2, ne_eq, not_true_eq_false, not_false_eq_true, decide_true,
            decide_false, Bool.and_false, Bool.false_eq_true, if_false]
          simpa only [ne_eq] using ih
        · simp only [List.filter_cons, h1, h2, ne_eq, not_false_eq_true, decide_true,
            decide_false, Bool.and_true, Bool.false_eq_true, if_true, if_false, List.length_cons]
          simp only [ne_eq] at ih
          omega
  have hout := rowsOut_fold s s.rowsToDelete g.rowsNodup
    (fun i hi => g.rowSz i (g.rowsDel i hi).2)
    (fun k hk => by
      rw [hcnt k hk]
      have := g.colPend k hk
      have := hlive k
      omega)
  have hdef : deleteInactiveRows s =
      { (List.range s.n).foldl delCompactCol (s.rowsToDelete.foldl delOneRow s) with
        rowsToDelete := [] } := by
    unfold deleteInactiveRows
    rw [if_neg hL]
    have : (s.rowsToDelete.foldl delOneRow s).n = s.n := by rw [hout.eq]
    simp only [this]
  generalize s.rowsToDelete.foldl delOneRow s = s1 at hout hdef
  have hct : s1.ctag = s.ctag := by rw [hout.eq]
  have hrt : s1.rtag = s.rtag := by rw [hout.eq]
  have hAT1 : s1.AT = s.AT := by rw [hout.eq]
  have hlive1 : ∀ k, liveCol s1 k =
      (s.AT k).filter (fun p => decide (p.1 ∉ s.rowsToDelete) && decide (s.rowSize p.1 ≠ -1)) := by
    intro k
    unfold liveCol
    rw [hAT1]
    apply List.filter_congr
    intro p _
    rw [hout.rowSize]
    by_cases h : p.1 ∈ s.rowsToDelete <;> simp [h]
  have hsz1 : ∀ k, s.colSize k ≠ -1 → s1.colSize k =
      s.colSize k - (((s.AT k).filter (fun p => decide (p.1 ∈ s.rowsToDelete))).length : ℤ) := by
    intro k hk
    rw [(hout.col k hk).1, hcnt k hk]
  have hoff : ∀ k, (s.ctag k).inactive = false → liveCol s1 k = offRows s.rowsToDelete (s.AT k) := by
    intro k hk
    rw [hlive1]
    unfold offRows
    apply List.filter_congr
    intro p hp
    simp [g.colIn k hk p hp]
  have hsz1a : ∀ k, (s.ctag k).inactive = false → s1.colSize k = ((liveCol s1 k).length : ℤ) := by
    intro k hk
    rw [hsz1 k (g.colActive hk), hlive1, g.colSz k hk]
    have h1 := hlive k
    have h2 : ((s.AT k).filter (fun p => decide (s.rowSize p.1 ≠ -1))) = s.AT k :=
      List.filter_eq_self.mpr (fun p hp => by simpa using g.colIn k hk p hp)
    rw [h2] at h1
    omega
  have hcols := colsOut_fold s1 (by rw [hct]; exact hsz1a) s.n
  generalize (List.range s.n).foldl delCompactCol s1 = s2 at hcols hdef
  have hA2 : s2.A = s1.A := by rw [hcols.eq]
  have hrs2 : s2.rowSize = s1.rowSize := by rw [hcols.eq]
  have hcs2 : s2.colSize = s1.colSize := by rw [hcols.eq]
  have hgone : ∀ k, s.colSize k = -1 ↔ s1.colSize k = -1 := by
    intro k
    refine ⟨hout.gone k, fun h => ?_⟩
    by_contra hk
    have h1 := hsz1 k hk
    have h2 := g.colPend k hk
    have h3 := hlive k
    omega
  have hrowfalse : ∀ k, ¬ k < s.n → s.AT k = [] := by
    intro k hk
    cases h : s.AT k with
    | nil => rfl
    | cons p l => exact absurd (g.colRange k p (by rw [h]; simp)).1 hk
  have hATa : ∀ k, (s.ctag k).inactive = false → s2.AT k = offRows s.rowsToDelete (s.AT k) := by
    intro k hk
    rw [hcols.AT, hct, hoff k hk, hAT1]
    by_cases hn : k < s.n
    · rw [if_pos ⟨hn, hk⟩]
    · rw [if_neg (fun h => hn h.1), hrowfalse k hn]; rfl
  have hATp : ∀ k, (s.ctag k).inactive = true → s2.AT k = s.AT k := by
    intro k hk
    rw [hcols.AT, hct, if_neg (fun h => by rw [hk] at h; cases h.2), hAT1]
  have hATsub : ∀ k p, p ∈ s2.AT k → p ∈ s.AT k := by
    intro k p hp
    cases hk : (s.ctag k).inactive with
    | true => rw [← hATp k hk]; exact hp
    | false => rw [hATa k hk] at hp; exact (List.mem_filter.mp hp).1
  have hAsub : ∀ i p, p ∈ s1.A i → i ∉ s.rowsToDelete ∧ p ∈ s.A i := by
    intro i p hp
    rw [hout.A] at hp
    by_cases h : i ∈ s.rowsToDelete
    · rw [if_pos h] at hp; cases hp
    · rw [if_neg h] at hp; exact ⟨h, hp⟩
  rw [hdef]
  refine ⟨?_, ?_, ?_, ?_, ?_, ?_, ?_, ?_⟩
  · simp only; rw [hcols.eq]; simp only; rw [hout.eq]
  · intro i; simp only; rw [hA2]; exact hout.A i
  · intro i; simp only; rw [hrs2]; exact hout.rowSize i
  · exact hATa
  · exact hATp
  · intro k; simp only; rw [hcs2]; exact hgone k
  · intro k hk
    simp only at hk ⊢
    rcases hcols.empty k hk with h | ⟨h1, h2, h3⟩
    · left; rw [hout.eq] at h; exact h
    · right
      rw [hct] at h1
      exact ⟨h1, by rw [hATa k h1, ← hoff k h1]; exact h3⟩
  · have hm : s2.m = s.m := by rw [hcols.eq]; simp only; rw [hout.eq]
    have hn : s2.n = s.n := by rw [hcols.eq]; simp only; rw [hout.eq]
    have hrt2 : s2.rtag = s.rtag := by rw [hcols.eq]; simp only; rw [hrt]
    have hct2 : s2.ctag = s.ctag := by rw [hcols.eq]; simp only; rw [hct]
    have hfc : s2.fixedCols = s.fixedCols := by rw [hcols.eq]; simp only; rw [hout.eq]
    have hsc : s2.subCols = s.subCols := by rw [hcols.eq]; simp only; rw [hout.eq]
    have hnz : s2.nnz = s1.nnz := by rw [hcols.eq]
    have hup : s2.up = s1.up := by rw [hcols.eq]
    have hdn : s2.down = s1.down := by rw [hcols.eq]
    have hnotdel : ∀ i, s1.rowSize i ≠ -1 → i ∉ s.rowsToDelete ∧ s.rowSize i ≠ -1 := by
      intro i hi
      rw [hout.rowSize] at hi
      by_cases h : i ∈ s.rowsToDelete
      · rw [if_pos h] at hi; exact absurd rfl hi
      · rw [if_neg h] at hi; exact ⟨h, hi⟩
    constructor <;> simp only [hm, hn, hrt2, hct2, hfc, hsc, hA2, hrs2, hcs2]
    · intro i hi
      obtain ⟨h1, h2⟩ := hnotdel i hi
      rw [hout.rowSize, hout.A, if_neg h1, if_neg h1]; exact g.rowSz i h2
    · intro i hi
      rw [hout.A]
      rw [hout.rowSize] at hi
      by_cases h : i ∈ s.rowsToDelete
      · rw [if_pos h]; exact ⟨rfl, (g.rowsDel i h).1⟩
      · rw [if_neg h] at hi ⊢; exact g.rowGone i hi
    · intro k hk
      obtain ⟨h1, h2⟩ := g.colGone k ((hgone k).mpr hk)
      rw [hATp k h2]; exact ⟨h1, h2⟩
    · intro k hk
      rw [hATa k hk, ← hoff k hk]; exact hsz1a k hk
    · intro k hk
      have hk0 : s.colSize k ≠ -1 := fun e => hk ((hgone k).mp e)
      cases hi : (s.ctag k).inactive with
      | true =>
        rw [hATp k hi]
        have h1 := hlive1 k
        unfold liveCol at h1
        rw [hAT1] at h1
        rw [h1, hsz1 k hk0]
        have h2 := hlive k
        have h3 := g.colPend k hk0
        omega
      | false =>
        rw [hATa k hi, ← hoff k hi, hsz1a k hi]
        exact_mod_cast List.length_filter_le _ _
    · intro i k v hi hk
      obtain ⟨h1, h2⟩ := hnotdel i hi
      have hk0 : s.colSize k ≠ -1 := fun e => hk ((hgone k).mp e)
      rw [hout.A, if_neg h1, g.agree i k v h2 hk0]
      cases hc : (s.ctag k).inactive with
      | true => rw [hATp k hc]
      | false =>
        rw [hATa k hc]; unfold offRows
        rw [List.mem_filter]
        simp [h1]
    · intro i hi p hp
      obtain ⟨h1, h2⟩ := hAsub i p hp
      intro e
      exact g.rowIn i hi p h2 ((hgone p.1).mpr e)
    · intro k hk p hp
      rw [hATa k hk] at hp
      obtain ⟨h1, h2⟩ := List.mem_filter.mp hp
      rw [decide_eq_true_eq] at h2
      rw [hout.rowSize, if_neg h2]
      exact g.colIn k hk p h1
    · intro i
      rw [hout.A]
      by_cases h : i ∈ s.rowsToDelete
      · rw [if_pos h]; exact List.Pairwise.nil
      · rw [if_neg h]; exact g.rowSorted i
    · intro k
      cases hc : (s.ctag k).inactive with
      | true => rw [hATp k hc]; exact g.colSorted k
      | false => rw [hATa k hc]; exact (g.colSorted k).filter _
    · intro i p hp
      exact g.rowRange i p (hAsub i p hp).2
    · intro k p hp
      exact g.colRange k p (hATsub k p hp)
    · intro i hi hs
      obtain ⟨h1, h2⟩ := hnotdel i hs
      exact absurd (g.rowPend i hi h2) h1
    · intro k hi hs
      exact g.colPendIn k hi (fun e => hs ((hgone k).mp e))
    · intro i hi; cases hi
    · exact List.nodup_nil
    · intro k hk
      obtain ⟨h1, h2⟩ := g.colsDel k hk
      exact ⟨h1, fun e => h2 ((hgone k).mpr e)⟩
    · exact g.colsNodup
    · have h1 := hout.nnz s.m (fun i _ hge => by
        cases h : s.A i with
        | nil => rfl
        | cons p l => have := (g.rowRange i p (by rw [h]; simp)).1; omega)
      rw [hnz]
      have h2 := g.nnz
      omega
    · intro k hk
      have hk0 := g.colActive hk
      obtain ⟨_, h2, h3⟩ := hout.col k hk0
      rw [hup, hdn, h2, h3]
      have hl := g.locks k hk
      rw [countLocks_eq] at hl ⊢
      have hl1 := congrArg Prod.fst hl
      have hl2 := congrArg Prod.snd hl
      simp only at hl1 hl2
      have hs1 := hswap (fun p => (lockOf p.2 (s.rtag p.1)).1) k hk0
      have hs2 := hswap (fun p => (lockOf p.2 (s.rtag p.1)).2) k hk0
      simp only at hs1 hs2
      rw [hATa k hk, hl1, hl2, ← hs1, ← hs2]
      have hpart : ∀ w : Cell → ℤ, ((s.AT k).map w).sum -
          (((s.AT k).filter (fun p => decide (p.1 ∈ s.rowsToDelete))).map w).sum =
          ((offRows s.rowsToDelete (s.AT k)).map w).sum := by
        intro w
        unfold offRows
        generalize s.AT k = T
        induction T with
        | nil => rfl
        | cons p T ih =>
          by_cases h : p.1 ∈ s.rowsToDelete
          · simp only [List.filter_cons, h, not_true_eq_false, decide_true, decide_false,
              Bool.false_eq_true, if_true, if_false, List.map_cons, List.sum_cons]
            rw [← ih]; ring
          · simp only [List.filter_cons, h, not_false_eq_true, decide_true, decide_false,
              Bool.false_eq_true, if_true, if_false, List.map_cons, List.sum_cons]
            rw [← ih]; ring
      rw [hpart, hpart]

end Verif
