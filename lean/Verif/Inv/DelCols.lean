import Verif.Inv.DelRows

/-! # `delete_inactive_cols_from_A_and_AT` on the structural invariant -/

namespace Verif

/-- The size decrement in the loop over a deleted column. -/
def decSize (sz : ℕ → ℤ) (p : Cell) : ℕ → ℤ :=
  if sz p.1 = -1 then sz else upd sz p.1 (sz p.1 - 1)

theorem delOneCol_eq (s : St) (col : ℕ) :
    delOneCol s col = { s with
      colSize := upd s.colSize col (-1)
      rowSize := (s.AT col).foldl decSize s.rowSize
      AT := upd s.AT col [] } := rfl

theorem decSize_gone (cells : List Cell) (sz : ℕ → ℤ) {i : ℕ} (h : sz i = -1) :
    cells.foldl decSize sz i = -1 := by
  induction cells generalizing sz with
  | nil => exact h
  | cons p l ih =>
    rw [List.foldl_cons]
    apply ih
    unfold decSize
    by_cases e : p.1 = i
    · rw [e, if_pos h]; exact h
    · split
      · exact h
      · rw [upd_ne _ _ (Ne.symm e)]; exact h

theorem decSize_row (cells : List Cell) (sz : ℕ → ℤ) (i : ℕ)
    (h : ((mids i cells).length : ℤ) ≤ sz i) :
    cells.foldl decSize sz i = sz i - ((mids i cells).length : ℤ) := by
  induction cells generalizing sz with
  | nil => simp [mids]
  | cons p l ih =>
    rw [List.foldl_cons]
    by_cases e : p.1 = i
    · have hm : mids i (p :: l) = p :: mids i l := by simp [mids, e]
      rw [hm, List.length_cons] at h ⊢
      push_cast at h ⊢
      have h1 : decSize sz p i = sz i - 1 := by
        unfold decSize
        rw [e, if_neg (by omega), upd_same]
      rw [ih _ (by rw [h1]; omega), h1]; ring
    · have hm : mids i (p :: l) = mids i l := by simp [mids, e]
      rw [hm] at h ⊢
      have h1 : decSize sz p i = sz i := by
        unfold decSize
        split
        · rfl
        · exact upd_ne _ _ (Ne.symm e)
      rw [ih _ (by rw [h1]; exact h), h1]

/-- What the loops over the columns to delete have done after the columns of `D`. -/
structure ColsGone (s s' : St) (D : List ℕ) : Prop where
  eq : s' = { s with AT := s'.AT, rowSize := s'.rowSize, colSize := s'.colSize }
  AT : ∀ k, s'.AT k = if k ∈ D then [] else s.AT k
  colSize : ∀ k, s'.colSize k = if k ∈ D then -1 else s.colSize k
  gone : ∀ i, s.rowSize i = -1 → s'.rowSize i = -1
  row : ∀ i, s.rowSize i ≠ -1 →
    s'.rowSize i = s.rowSize i - (D.map (fun k => ((mids i (s.AT k)).length : ℤ))).sum

theorem colsGone_fold (s0 : St) (D : List ℕ) (hnd : D.Nodup)
    (hrow : ∀ i, s0.rowSize i ≠ -1 →
      (D.map (fun k => ((mids i (s0.AT k)).length : ℤ))).sum ≤ s0.rowSize i) :
    ColsGone s0 (D.foldl delOneCol s0) D := by
  induction D using List.reverseRecOn with
  | nil => exact ⟨rfl, fun k => by simp, fun k => by simp, fun i h => h, fun i _ => by simp⟩
  | append_singleton D r ih =>
    rw [List.nodup_append] at hnd
    have hr : r ∉ D := fun h => hnd.2.2 r h r (by simp) rfl
    have hD := ih hnd.1 (fun i hi => by
      have := hrow i hi
      rw [List.map_append, List.sum_append] at this
      simp only [List.map_cons, List.map_nil, List.sum_cons, List.sum_nil] at this
      omega)
    rw [List.foldl_append, List.foldl_cons, List.foldl_nil]
    generalize D.foldl delOneCol s0 = s at hD
    have hATr : s.AT r = s0.AT r := by rw [hD.AT, if_neg hr]
    rw [delOneCol_eq, hATr]
    refine ⟨?_, ?_, ?_, ?_, ?_⟩
    · simp only; rw [hD.eq]
    · intro k
      simp only
      by_cases e : k = r
      · rw [e, upd_same, if_pos (by simp)]
      · rw [upd_ne _ _ e, hD.AT]; simp [e]
    · intro k
      simp only
      by_cases e : k = r
      · rw [e, upd_same, if_pos (by simp)]
      · rw [upd_ne _ _ e, hD.colSize]; simp [e]
    · intro i hi
      exact decSize_gone _ _ (hD.gone i hi)
    · intro i hi
      have h1 := hD.row i hi
      have h2 := hrow i hi
      rw [List.map_append, List.sum_append] at h2 ⊢
      simp only [List.map_cons, List.map_nil, List.sum_cons, List.sum_nil, add_zero] at h2 ⊢
      rw [decSize_row _ _ _ (by rw [h1]; omega), h1]; ring

/-- The live part of a row: its cells in columns that are not gone. -/
def liveRow (s : St) (i : ℕ) : List Cell :=
  (s.A i).filter (fun p => decide (s.colSize p.1 ≠ -1))

/-- How one row compaction may extend the work lists. -/
structure RowLists (s s' : St) (row : ℕ) : Prop where
  empty : ∀ i ∈ s'.emptyRows, i ∈ s.emptyRows ∨
    (i = row ∧ (s.rtag row).inactive = false ∧ liveRow s row = [])
  ston : ∀ i ∈ s'.stonRows, i ∈ s.stonRows ∨
    (i = row ∧ (s.rtag row).inactive = false ∧ (liveRow s row).length = 1 ∧ 2 ≤ (s.A row).length)
  dton : ∀ i ∈ s'.dtonRows, i ∈ s.dtonRows ∨
    (i = row ∧ (s.rtag row).inactive = false ∧ (liveRow s row).length = 2 ∧ (s.rtag row).eq = true)
  asrt : s'.asrt = true → s.asrt = true

theorem check_asrt {s : St} {b : Bool} (h : (s.check b).asrt = true) : s.asrt = true := by
  unfold St.check at h
  simp only [Bool.and_eq_true] at h
  exact h.1

theorem delCompactRow_eq (s : St) (row : ℕ)
    (h : (s.rtag row).inactive = false → s.rowSize row = ((liveRow s row).length : ℤ)) :
    ∃ er sr dr z as, delCompactRow s row =
      { s with
        A := if (s.rtag row).inactive then s.A else upd s.A row (liveRow s row)
        nnz := z
        emptyRows := er
        stonRows := sr
        dtonRows := dr
        asrt := as } ∧
      z = (if (s.rtag row).inactive then s.nnz
        else s.nnz - (((s.A row).length : ℤ) - ((liveRow s row).length : ℤ))) ∧
      RowLists s (delCompactRow s row) row := by
  cases hi : (s.rtag row).inactive with
  | true =>
    have he : delCompactRow s row = s := by unfold delCompactRow; simp [hi]
    rw [he]
    exact ⟨s.emptyRows, s.stonRows, s.dtonRows, s.nnz, s.asrt, by simp, by simp,
      fun i h => Or.inl h, fun i h => Or.inl h, fun i h => Or.inl h, fun h => h⟩
  | false =>
    have h := h hi
    have hne : s.rowSize row ≠ -1 := by rw [h]; omega
    by_cases he : s.rowSize row = ((s.A row).length : ℤ)
    · have hf : liveRow s row = s.A row := by
        apply filter_length_eq
        have := h.symm.trans he
        unfold liveRow at this
        exact_mod_cast this
      have he : delCompactRow s row = s := by unfold delCompactRow; simp [he]
      rw [he, hf]
      refine ⟨s.emptyRows, s.stonRows, s.dtonRows, s.nnz, s.asrt, by simp [upd_self], by simp,
        fun i h => Or.inl h, fun i h => Or.inl h, fun i h => Or.inl h, fun h => h⟩
    · have hlt : (liveRow s row).length < (s.A row).length := by
        have h1 : (liveRow s row).length ≤ (s.A row).length := List.length_filter_le _ _
        omega
      have hc : s.check (decide (s.rowSize row ≠ -1)) = s := by
        rw [decide_eq_true hne]; exact check_true s
      have hd : decide (s.rowSize row = ((liveRow s row).length : ℤ)) = true := by
        rw [decide_eq_true_eq]; exact h
      have hcond : ((s.rtag row).inactive || decide (s.rowSize row = ((s.A row).length : ℤ))) = false := by
        rw [hi]; simpa using he
      have hun : delCompactRow s row =
          (let s := if s.rowSize row = 0 then
              let s := s.check (!s.emptyRows.contains row)
              { s with emptyRows := s.emptyRows ++ [row]
                       nnz := s.nnz - ((s.A row).length : ℤ)
                       A := upd s.A row [] }
            else if s.rowSize row = 1 then
              let s := s.check (!s.stonRows.contains row)
              { s with stonRows := s.stonRows ++ [row] }
            else if s.rowSize row = 2 ∧ (s.rtag row).eq = true then
              let s := s.check (!s.dtonRows.contains row)
              { s with dtonRows := s.dtonRows ++ [row] }
            else s
          let cells := (s.A row).filter (fun p => decide (s.colSize p.1 ≠ -1))
          let s := { s with nnz := s.nnz - (((s.A row).length : ℤ) - (cells.length : ℤ))
                            A := upd s.A row cells }
          s.check (decide (s.rowSize row = ((s.A row).length : ℤ)))) := by
        unfold delCompactRow
        rw [hcond, if_neg Bool.false_ne_true]
        simp only [hc]
      rw [if_neg Bool.false_ne_true, if_neg Bool.false_ne_true]
      by_cases h0 : s.rowSize row = 0
      · have hl : liveRow s row = [] := by
          have : ((liveRow s row).length : ℤ) = 0 := by rw [← h]; exact h0
          exact List.length_eq_zero_iff.mp (by exact_mod_cast this)
        rw [if_pos h0] at hun
        simp only [upd_same, List.filter_nil, upd_upd, List.length_nil, Nat.cast_zero, sub_zero] at hun
        have hr0 : (s.check (!s.emptyRows.contains row)).rowSize row = 0 := h0
        rw [hr0, show decide ((0 : ℤ) = 0) = true from rfl, check_true] at hun
        refine ⟨s.emptyRows ++ [row], s.stonRows, s.dtonRows, s.nnz - ((s.A row).length : ℤ),
          (s.check (!s.emptyRows.contains row)).asrt, ?_, by rw [hl]; simp, ?_⟩
        · rw [hun, hl]; rfl
        · rw [hun]
          refine ⟨?_, fun i h => Or.inl h, fun i h => Or.inl h, fun h => check_asrt h⟩
          intro i hmem
          rcases List.mem_append.mp hmem with hk | hk
          · exact Or.inl hk
          · exact Or.inr ⟨List.mem_singleton.mp hk, by simp [hi], hl⟩
      · rw [if_neg h0] at hun
        have h' : ∀ t : St, t.rowSize = s.rowSize → t.A = s.A → t.colSize = s.colSize →
            (let cells := (t.A row).filter (fun p => decide (t.colSize p.1 ≠ -1))
             let u := { t with nnz := t.nnz - (((t.A row).length : ℤ) - (cells.length : ℤ))
                               A := upd t.A row cells }
             u.check (decide (u.rowSize row = ((u.A row).length : ℤ)))) =
            { t with nnz := t.nnz - (((s.A row).length : ℤ) - ((liveRow s row).length : ℤ))
                     A := upd s.A row (liveRow s row) } := by
          intro t e1 e2 e3
          simp only [upd_same, e1, e2, e3]
          unfold liveRow at hd ⊢
          rw [hd]
          exact check_true _
        by_cases h1 : s.rowSize row = 1
        · rw [if_pos h1] at hun
          replace hun := hun.trans (h' ({ s.check (!s.stonRows.contains row) with stonRows := s.stonRows ++ [row] }) rfl rfl rfl)
          refine ⟨s.emptyRows, s.stonRows ++ [row], s.dtonRows, _,
            (s.check (!s.stonRows.contains row)).asrt, hun, rfl, ?_⟩
          rw [hun]
          refine ⟨fun i h => Or.inl h, ?_, fun i h => Or.inl h, fun h => check_asrt h⟩
          intro i hmem
          rcases List.mem_append.mp hmem with hk | hk
          · exact Or.inl hk
          · exact Or.inr ⟨List.mem_singleton.mp hk, hi, by omega, by omega⟩
        · rw [if_neg h1] at hun
          by_cases h2 : s.rowSize row = 2 ∧ (s.rtag row).eq = true
          · rw [if_pos h2] at hun
            replace hun := hun.trans (h' ({ s.check (!s.dtonRows.contains row) with dtonRows := s.dtonRows ++ [row] }) rfl rfl rfl)
            refine ⟨s.emptyRows, s.stonRows, s.dtonRows ++ [row], _,
              (s.check (!s.dtonRows.contains row)).asrt, hun, rfl, ?_⟩
            rw [hun]
            refine ⟨fun i h => Or.inl h, fun i h => Or.inl h, ?_, fun h => check_asrt h⟩
            intro i hmem
            rcases List.mem_append.mp hmem with hk | hk
            · exact Or.inl hk
            · exact Or.inr ⟨List.mem_singleton.mp hk, hi, by omega, h2.2⟩
          · rw [if_neg h2] at hun
            replace hun := hun.trans (h' (s) rfl rfl rfl)
            refine ⟨s.emptyRows, s.stonRows, s.dtonRows, _, s.asrt, hun, rfl, ?_⟩
            rw [hun]
            exact ⟨fun i h => Or.inl h, fun i h => Or.inl h, fun i h => Or.inl h, fun h => h⟩

/-- What the compaction of the rows below `N` has done. -/
structure RowsCompact (s s' : St) (N : ℕ) : Prop where
  eq : s' = { s with A := s'.A, nnz := s'.nnz, emptyRows := s'.emptyRows, stonRows := s'.stonRows,
                     dtonRows := s'.dtonRows, asrt := s'.asrt }
  A : ∀ i, s'.A i = if i < N ∧ (s.rtag i).inactive = false then liveRow s i else s.A i
  nnz : ∀ M, N ≤ M → s'.nnz - ∑ i ∈ Finset.range M, ((s'.A i).length : ℤ) =
      s.nnz - ∑ i ∈ Finset.range M, ((s.A i).length : ℤ)
  empty : ∀ i ∈ s'.emptyRows, i ∈ s.emptyRows ∨ ((s.rtag i).inactive = false ∧ liveRow s i = [])
  ston : ∀ i ∈ s'.stonRows, i ∈ s.stonRows ∨
    ((s.rtag i).inactive = false ∧ (liveRow s i).length = 1 ∧ 2 ≤ (s.A i).length)
  dton : ∀ i ∈ s'.dtonRows, i ∈ s.dtonRows ∨
    ((s.rtag i).inactive = false ∧ (liveRow s i).length = 2 ∧ (s.rtag i).eq = true)
  asrt : s'.asrt = true → s.asrt = true

theorem rowsCompact_fold (s0 : St)
    (h : ∀ i, (s0.rtag i).inactive = false → s0.rowSize i = ((liveRow s0 i).length : ℤ)) (N : ℕ) :
    RowsCompact s0 ((List.range N).foldl delCompactRow s0) N := by
  induction N with
  | zero => exact ⟨rfl, fun k => by simp, fun M _ => rfl, fun k hk => Or.inl hk, fun k hk => Or.inl hk,
      fun k hk => Or.inl hk, fun h => h⟩
  | succ N ih =>
    rw [List.range_succ, List.foldl_append, List.foldl_cons, List.foldl_nil]
    generalize (List.range N).foldl delCompactRow s0 = s at ih
    have hct : s.rtag = s0.rtag := by rw [ih.eq]
    have hcs : s.rowSize = s0.rowSize := by rw [ih.eq]
    have hrs : s.colSize = s0.colSize := by rw [ih.eq]
    have hATN : s.A N = s0.A N := by rw [ih.A, if_neg (by omega)]
    have hlv : liveRow s N = liveRow s0 N := by unfold liveRow; rw [hATN, hrs]
    obtain ⟨er, sr, dr, z, as, he, hz, hl⟩ := delCompactRow_eq s N (by rw [hct, hcs, hlv]; exact h N)
    refine ⟨?_, ?_, ?_, ?_, ?_, ?_, fun h => ih.asrt (hl.asrt h)⟩
    · rw [he]; simp only; rw [ih.eq]
    · intro k
      rw [he]; simp only
      rw [hct, hlv]
      cases hi : (s0.rtag N).inactive with
      | true =>
        rw [if_pos rfl, ih.A]
        by_cases hk : k < N ∧ (s0.rtag k).inactive = false
        · rw [if_pos hk, if_pos ⟨by omega, hk.2⟩]
        · rw [if_neg hk, if_neg]
          rintro ⟨h1, h2⟩
          by_cases e : k = N
          · rw [e, hi] at h2; cases h2
          · exact hk ⟨by omega, h2⟩
      | false =>
        rw [if_neg Bool.false_ne_true]
        by_cases e : k = N
        · rw [e, upd_same, if_pos ⟨by omega, hi⟩]
        · rw [upd_ne _ _ e, ih.A]
          by_cases hk : k < N ∧ (s0.rtag k).inactive = false
          · rw [if_pos hk, if_pos ⟨by omega, hk.2⟩]
          · rw [if_neg hk, if_neg (fun h' => hk ⟨by omega, h'.2⟩)]
    · intro M hM
      rw [← ih.nnz M (by omega), he]
      simp only
      rw [hz]
      cases hi : (s.rtag N).inactive with
      | true => rw [if_pos rfl]; rfl
      | false =>
        rw [if_neg Bool.false_ne_true, if_neg Bool.false_ne_true, sum_upd_len s.A N M (by omega)]
        ring
    · intro i hi
      rcases hl.empty i hi with h' | ⟨rfl, h1, h2⟩
      · exact ih.empty i h'
      · exact Or.inr ⟨by rw [← hct]; exact h1, by rw [← hlv]; exact h2⟩
    · intro i hi
      rcases hl.ston i hi with h' | ⟨rfl, h1, h2, h3⟩
      · exact ih.ston i h'
      · exact Or.inr ⟨by rw [← hct]; exact h1, by rw [← hlv]; exact h2, by rw [← hATN]; exact h3⟩
    · intro i hi
      rcases hl.dton i hi with h' | ⟨rfl, h1, h2, h3⟩
      · exact ih.dton i h'
      · exact Or.inr ⟨by rw [← hct]; exact h1, by rw [← hlv]; exact h2, by rw [← hct]; exact h3⟩

/-- The cells of a row outside the columns of `D`. -/
def offCols (D : List ℕ) (l : List Cell) : List Cell := l.filter (fun p => decide (p.1 ∉ D))

/-- `s'` is `s` with the pending columns deleted, stated on the matrices and counters. -/
structure ColsDeleted (s s' : St) : Prop where
  eq : s' = { s with A := s'.A, AT := s'.AT, rowSize := s'.rowSize, colSize := s'.colSize,
                     nnz := s'.nnz, fixedCols := [], subCols := [], emptyRows := s'.emptyRows,
                     stonRows := s'.stonRows, dtonRows := s'.dtonRows, asrt := s'.asrt }
  A : ∀ i, s'.A i = offCols (s.fixedCols ++ s.subCols) (s.A i)
  AT : ∀ k, s'.AT k = if k ∈ s.fixedCols ++ s.subCols then [] else s.AT k
  colSize : ∀ k, s'.colSize k = if k ∈ s.fixedCols ++ s.subCols then -1 else s.colSize k
  rowGone : ∀ i, s.rowSize i = -1 ↔ s'.rowSize i = -1
  empty : ∀ i ∈ s'.emptyRows, i ∈ s.emptyRows ∨ ((s.rtag i).inactive = false ∧ s'.A i = [])
  ston : ∀ i ∈ s'.stonRows, i ∈ s.stonRows ∨
    ((s.rtag i).inactive = false ∧ (s'.A i).length = 1 ∧ 2 ≤ (s.A i).length)
  dton : ∀ i ∈ s'.dtonRows, i ∈ s.dtonRows ∨
    ((s.rtag i).inactive = false ∧ (s'.A i).length = 2 ∧ (s.rtag i).eq = true)
  asrt : s'.asrt = true → s.asrt = true
  gi : GI s'

theorem deleteInactiveCols_deleted {s : St} (g : GI s) (hrd : s.rowsToDelete = []) :
    ColsDeleted s (deleteInactiveCols s) := by
  have hag : ∀ i, s.rowSize i ≠ -1 → ∀ k ∈ s.fixedCols ++ s.subCols, ∀ v,
      (i, v) ∈ s.AT k ↔ (k, v) ∈ s.A i :=
    fun i hi k hk v => (g.agree i k v hi (g.colsDel k hk).2).symm
  have hcnt : ∀ i, s.rowSize i ≠ -1 →
      ((s.fixedCols ++ s.subCols).map (fun k => ((mids i (s.AT k)).length : ℤ))).sum =
        (((s.A i).filter (fun p => decide (p.1 ∈ s.fixedCols ++ s.subCols))).length : ℤ) := by
    intro i hi
    have := swap_sum (fun _ => 1) s.AT (s.A i) i (s.fixedCols ++ s.subCols) g.colsNodup
      (fun k _ => g.colSorted k) (g.rowSorted i) (hag i hi)
    simp only [List.map_const', List.sum_replicate, nsmul_eq_mul, mul_one] at this
    exact this.symm
  have hgone := colsGone_fold s (s.fixedCols ++ s.subCols) g.colsNodup (fun i hi => by
    rw [hcnt i hi, g.rowSz i hi]
    exact_mod_cast List.length_filter_le _ _)
  rw [List.foldl_append] at hgone
  have hdef : deleteInactiveCols s =
      { (List.range s.m).foldl delCompactRow (s.subCols.foldl delOneCol (s.fixedCols.foldl delOneCol s)) with
        fixedCols := [], subCols := [] } := by
    unfold deleteInactiveCols
    have hsub : (s.fixedCols.foldl delOneCol s).subCols = s.subCols := by
      generalize s.fixedCols = L
      have : ∀ (L : List ℕ) (t : St), (L.foldl delOneCol t).subCols = t.subCols := by
        intro L
        induction L with
        | nil => intro t; rfl
        | cons a L ih => intro t; rw [List.foldl_cons, ih]; rfl
      exact this L s
    have hm : (s.subCols.foldl delOneCol (s.fixedCols.foldl delOneCol s)).m = s.m := by rw [hgone.eq]
    simp only [hsub, hm]
  generalize s.subCols.foldl delOneCol (s.fixedCols.foldl delOneCol s) = s1 at hgone hdef
  have hrt : s1.rtag = s.rtag := by rw [hgone.eq]
  have hA1 : s1.A = s.A := by rw [hgone.eq]
  have hact : ∀ i, s.rowSize i ≠ -1 → (s.rtag i).inactive = false := by
    intro i hi
    cases h : (s.rtag i).inactive with
    | false => rfl
    | true =>
      have := g.rowPend i h hi
      rw [hrd] at this; cases this
  have hoff : ∀ i, (s.rtag i).inactive = false →
      liveRow s1 i = offCols (s.fixedCols ++ s.subCols) (s.A i) := by
    intro i hi
    unfold liveRow offCols
    rw [hA1]
    apply List.filter_congr
    intro p hp
    rw [hgone.colSize]
    by_cases h : p.1 ∈ s.fixedCols ++ s.subCols
    · simp only [h, if_true]; simp
    · simp only [h, if_false]; simpa using g.rowIn i hi p hp
  have hlen : ∀ l : List Cell, (l.filter (fun p => decide (p.1 ∈ s.fixedCols ++ s.subCols))).length +
      (offCols (s.fixedCols ++ s.subCols) l).length = l.length := by
    intro l
    unfold offCols
    generalize s.fixedCols ++ s.subCols = D
    induction l with
    | nil => rfl
    | cons p T ih =>
      by_cases h : p.1 ∈ D
      · simp only [List.filter_cons, h, not_true_eq_false, decide_true, decide_false,
          Bool.false_eq_true, if_true, if_false, List.length_cons]
        omega
      · simp only [List.filter_cons, h, not_false_eq_true, decide_true, decide_false,
          Bool.false_eq_true, if_true, if_false, List.length_cons]
        omega
  have hrs1 : ∀ i, s.rowSize i ≠ -1 → s1.rowSize i = ((offCols (s.fixedCols ++ s.subCols) (s.A i)).length : ℤ) := by
    intro i hi
    rw [hgone.row i hi, hcnt i hi, g.rowSz i hi]
    have := hlen (s.A i)
    omega
  have hcomp := rowsCompact_fold s1 (fun i hi => by
    rw [hrt] at hi
    rw [hoff i hi]; exact hrs1 i (g.rowActive hi)) s.m
  generalize (List.range s.m).foldl delCompactRow s1 = s2 at hcomp hdef
  have hA2 : ∀ i, s2.A i = offCols (s.fixedCols ++ s.subCols) (s.A i) := by
    intro i
    rw [hcomp.A, hrt, hA1]
    have hout : s.A i = [] → s.A i = offCols (s.fixedCols ++ s.subCols) (s.A i) := by
      intro h; rw [h]; rfl
    by_cases hi : i < s.m ∧ (s.rtag i).inactive = false
    · rw [if_pos hi, hoff i hi.2]
    · rw [if_neg hi]
      apply hout
      cases h : s.A i with
      | nil => rfl
      | cons p l =>
        have h1 := (g.rowRange i p (by rw [h]; simp)).1
        have h2 : s.rowSize i ≠ -1 := fun e => by
          rw [(g.rowGone i e).1] at h; cases h
        exact absurd ⟨h1, hact i h2⟩ hi
  have hATs : s2.AT = s1.AT := by rw [hcomp.eq]
  have hcs2 : s2.colSize = s1.colSize := by rw [hcomp.eq]
  have hrs2 : s2.rowSize = s1.rowSize := by rw [hcomp.eq]
  have hrg : ∀ i, s.rowSize i = -1 ↔ s1.rowSize i = -1 := by
    intro i
    refine ⟨hgone.gone i, fun h => ?_⟩
    by_contra hi
    rw [hrs1 i hi] at h
    omega
  have hlive2 : ∀ i, (s.rtag i).inactive = false → liveRow s1 i = s2.A i := fun i hi => by
    rw [hoff i hi, hA2]
  rw [hdef]
  refine ⟨?_, hA2, ?_, ?_, ?_, ?_, ?_, ?_, ?_, ?_⟩
  · simp only; rw [hcomp.eq]; simp only; rw [hgone.eq]
  · intro k; simp only; rw [hATs]; exact hgone.AT k
  · intro k; simp only; rw [hcs2]; exact hgone.colSize k
  · intro i; simp only; rw [hrs2]; exact hrg i
  · intro i hi
    simp only at hi ⊢
    rcases hcomp.empty i hi with h | ⟨h1, h2⟩
    · left; rw [hgone.eq] at h; exact h
    · right; rw [hrt] at h1; exact ⟨h1, by rw [← hlive2 i h1]; exact h2⟩
  · intro i hi
    simp only at hi ⊢
    rcases hcomp.ston i hi with h | ⟨h1, h2, h3⟩
    · left; rw [hgone.eq] at h; exact h
    · right; rw [hrt] at h1; rw [hA1] at h3; exact ⟨h1, by rw [← hlive2 i h1]; exact h2, h3⟩
  · intro i hi
    simp only at hi ⊢
    rcases hcomp.dton i hi with h | ⟨h1, h2, h3⟩
    · left; rw [hgone.eq] at h; exact h
    · right; rw [hrt] at h1 h3; exact ⟨h1, by rw [← hlive2 i h1]; exact h2, h3⟩
  · intro h
    have := hcomp.asrt h
    rw [hgone.eq] at this; exact this
  · have hm : s2.m = s.m := by rw [hcomp.eq]; simp only; rw [hgone.eq]
    have hn : s2.n = s.n := by rw [hcomp.eq]; simp only; rw [hgone.eq]
    have hrt2 : s2.rtag = s.rtag := by rw [hcomp.eq]; simp only; rw [hrt]
    have hct2 : s2.ctag = s.ctag := by rw [hcomp.eq]; simp only; rw [hgone.eq]
    have hrd2 : s2.rowsToDelete = s.rowsToDelete := by rw [hcomp.eq]; simp only; rw [hgone.eq]
    have hnz1 : s1.nnz = s.nnz := by rw [hgone.eq]
    have hup : s2.up = s.up := by rw [hcomp.eq]; simp only; rw [hgone.eq]
    have hdn : s2.down = s.down := by rw [hcomp.eq]; simp only; rw [hgone.eq]
    have hcol : ∀ k, s1.colSize k ≠ -1 → k ∉ s.fixedCols ++ s.subCols ∧ s.colSize k ≠ -1 ∧
        (s.ctag k).inactive = false := by
      intro k hk
      rw [hgone.colSize] at hk
      by_cases h : k ∈ s.fixedCols ++ s.subCols
      · rw [if_pos h] at hk; exact absurd rfl hk
      · rw [if_neg h] at hk
        refine ⟨h, hk, ?_⟩
        cases hc : (s.ctag k).inactive with
        | false => rfl
        | true => exact absurd (g.colPendIn k hc hk) h
    have hcolact : ∀ k, (s.ctag k).inactive = false → k ∉ s.fixedCols ++ s.subCols := by
      intro k hk h
      rw [(g.colsDel k h).1] at hk; cases hk
    constructor <;> simp only [hm, hn, hrt2, hct2, hup, hdn, hrs2, hcs2, hATs, hrd2]
    · intro i hi
      rw [hA2]; exact hrs1 i (fun e => hi ((hrg i).mp e))
    · intro i hi
      obtain ⟨h1, h2⟩ := g.rowGone i ((hrg i).mpr hi)
      rw [hA2, h1]; exact ⟨rfl, h2⟩
    · intro k hk
      rw [hgone.AT]
      rw [hgone.colSize] at hk
      by_cases h : k ∈ s.fixedCols ++ s.subCols
      · rw [if_pos h]; exact ⟨rfl, (g.colsDel k h).1⟩
      · rw [if_neg h] at hk ⊢; exact g.colGone k hk
    · intro k hk
      have h := hcolact k hk
      rw [hgone.colSize, hgone.AT, if_neg h, if_neg h]; exact g.colSz k hk
    · intro k hk
      obtain ⟨h1, h2, h3⟩ := hcol k hk
      rw [hgone.colSize, hgone.AT, if_neg h1, if_neg h1, g.colSz k h3]
      exact_mod_cast List.length_filter_le _ _
    · intro i k v hi hk
      obtain ⟨h1, h2, h3⟩ := hcol k hk
      rw [hgone.AT, if_neg h1, hA2, ← g.agree i k v (fun e => hi ((hrg i).mp e)) h2]
      unfold offCols
      rw [List.mem_filter]
      simp only [h1, not_false_eq_true, decide_true, and_true]
    · intro i hi p hp
      rw [hA2] at hp
      obtain ⟨h1, h2⟩ := List.mem_filter.mp hp
      rw [decide_eq_true_eq] at h2
      rw [hgone.colSize, if_neg h2]
      exact g.rowIn i hi p h1
    · intro k hk p hp
      rw [hgone.AT, if_neg (hcolact k hk)] at hp
      exact fun e => g.colIn k hk p hp ((hrg p.1).mpr e)
    · intro i; rw [hA2]; exact (g.rowSorted i).filter _
    · intro k
      rw [hgone.AT]
      split
      · exact List.Pairwise.nil
      · exact g.colSorted k
    · intro i p hp
      rw [hA2] at hp
      exact g.rowRange i p (List.mem_filter.mp hp).1
    · intro k p hp
      rw [hgone.AT] at hp
      split at hp
      · cases hp
      · exact g.colRange k p hp
    · intro i hi hs
      exact g.rowPend i hi (fun e => hs ((hrg i).mp e))
    · intro k hi hs
      have := (hcol k hs).2.2
      rw [this] at hi; cases hi
    · intro i hi
      obtain ⟨h1, h2⟩ := g.rowsDel i hi
      exact ⟨h1, fun e => h2 ((hrg i).mpr e)⟩
    · exact g.rowsNodup
    · intro k hk; simp at hk
    · simp
    · have h1 := hcomp.nnz s.m (le_refl _)
      have h2 := g.nnz
      rw [hA1, hnz1] at h1
      omega
    · intro k hk
      rw [hgone.AT, if_neg (hcolact k hk)]; exact g.locks k hk

end Verif
