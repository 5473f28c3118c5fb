import Verif.Inv.AsrtGrow

/-!
# The assertions of the deletion routines

The deletion routines keep the lists of empty rows and columns free of repetitions, and their
assertions hold.
-/

namespace Verif

/-- What the lists of empty rows and columns contain. -/
structure ELists (s : St) : Prop where
  rnd : s.emptyRows.Nodup
  cnd : s.emptyCols.Nodup
  row : ∀ i ∈ s.emptyRows, (s.rtag i).inactive = false ∧ s.A i = []
  col : ∀ k ∈ s.emptyCols, (s.ctag k).inactive = false ∧ s.AT k = []

theorem ELists.of {s t : St} (h : ELists s) (hr : t.emptyRows = s.emptyRows) (hc : t.emptyCols = s.emptyCols)
    (hrow : ∀ i ∈ s.emptyRows, (t.rtag i).inactive = (s.rtag i).inactive ∧ t.A i = s.A i)
    (hcol : ∀ k ∈ s.emptyCols, (t.ctag k).inactive = (s.ctag k).inactive ∧ t.AT k = s.AT k) : ELists t := by
  refine ⟨hr ▸ h.rnd, hc ▸ h.cnd, fun i hi => ?_, fun k hk => ?_⟩
  · rw [hr] at hi
    rw [(hrow i hi).1, (hrow i hi).2]; exact h.row i hi
  · rw [hc] at hk
    rw [(hcol k hk).1, (hcol k hk).2]; exact h.col k hk

theorem ELists.same {s t : St} (h : ELists s) (hr : t.emptyRows = s.emptyRows) (hc : t.emptyCols = s.emptyCols)
    (h1 : t.rtag = s.rtag) (h2 : t.A = s.A) (h3 : t.ctag = s.ctag) (h4 : t.AT = s.AT) : ELists t :=
  h.of hr hc (fun i _ => by rw [h1, h2]; exact ⟨rfl, rfl⟩) (fun k _ => by rw [h3, h4]; exact ⟨rfl, rfl⟩)

/-! ### Rows -/

theorem nodup_concat {l : List ℕ} {a : ℕ} (h : l.Nodup) (ha : a ∉ l) : (l ++ [a]).Nodup :=
  List.nodup_append.mpr ⟨h, List.nodup_singleton a, fun x hx y hy e => ha (by
    rw [List.mem_singleton.mp hy] at e; exact e ▸ hx)⟩

theorem delCompactCol_nodup (s : St) (col : ℕ) (he : col ∈ s.emptyCols → s.AT col = []) :
    (∀ k, k ≠ col → k ∈ (delCompactCol s col).emptyCols → k ∈ s.emptyCols) ∧
      (s.emptyCols.Nodup → (delCompactCol s col).emptyCols.Nodup) := by
  unfold delCompactCol
  split
  · exact ⟨fun _ _ => id, id⟩
  · rename_i hc
    simp only
    split
    · rename_i h0
      refine ⟨fun k hk h => (List.mem_append.mp h).resolve_right (fun h => hk (List.mem_singleton.mp h)),
        fun h => nodup_concat h (fun hm => hc ?_)⟩
      have h0 : s.colSize col = 0 := h0
      rw [he hm, h0]
      simp
    · split
      · exact ⟨fun _ _ => id, id⟩
      · exact ⟨fun _ _ => id, id⟩

theorem delCompactCol_foldNodup (s0 : St) (he : ∀ k ∈ s0.emptyCols, s0.AT k = []) (N : ℕ) :
    (∀ k, N ≤ k → ((List.range N).foldl delCompactCol s0).AT k = s0.AT k ∧
      (k ∈ ((List.range N).foldl delCompactCol s0).emptyCols → k ∈ s0.emptyCols)) ∧
      (s0.emptyCols.Nodup → ((List.range N).foldl delCompactCol s0).emptyCols.Nodup) := by
  induction N with
  | zero => exact ⟨fun k _ => ⟨rfl, id⟩, id⟩
  | succ N ih =>
    rw [List.range_succ, List.foldl_append, List.foldl_cons, List.foldl_nil]
    generalize (List.range N).foldl delCompactCol s0 = s at ih
    obtain ⟨hA, hn⟩ := ih
    have hk := hA N le_rfl
    obtain ⟨h1, h2⟩ := delCompactCol_nodup s N (fun h => by rw [hk.1]; exact he N (hk.2 h))
    obtain ⟨-, -, -, f4, -⟩ := delCompactCol_frame s N
    refine ⟨fun k hkN => ?_, fun h => h2 (hn h)⟩
    have hne : k ≠ N := by omega
    obtain ⟨a, b⟩ := hA k (by omega)
    exact ⟨(f4 k hne).trans a, fun h => b (h1 k hne h)⟩

theorem delRows_fwd {s : St} (g : GI s) (e : ELists s) :
    (deleteInactiveRows s).asrt = s.asrt ∧ ELists (deleteInactiveRows s) := by
  have d := deleteInactiveRows_deleted g
  refine ⟨by rw [d.eq], ?_, ?_, fun i hi => ?_, fun k hk => ?_⟩
  · rw [d.eq]; exact e.rnd
  · unfold deleteInactiveRows
    split
    · exact e.cnd
    · obtain ⟨-, a2, a3, a4⟩ := delOneRow_fold s.rowsToDelete s
      have := (delCompactCol_foldNodup (s.rowsToDelete.foldl delOneRow s) (fun k hk => by
        rw [a2]; rw [a3] at hk; exact (e.col k hk).2) (s.rowsToDelete.foldl delOneRow s).n).2
      exact this (by rw [a3]; exact e.cnd)
  · have hr : (deleteInactiveRows s).emptyRows = s.emptyRows := by rw [d.eq]
    have ht : (deleteInactiveRows s).rtag = s.rtag := by rw [d.eq]
    rw [hr] at hi
    rw [ht, d.A, (e.row i hi).2]
    exact ⟨(e.row i hi).1, by split <;> rfl⟩
  · have ht : (deleteInactiveRows s).ctag = s.ctag := by rw [d.eq]
    rw [ht]
    rcases d.empty k hk with h | h
    · refine ⟨(e.col k h).1, ?_⟩
      rw [d.AT k (e.col k h).1, (e.col k h).2]; rfl
    · exact h

/-! ### Columns -/

theorem delCompactRow_fwd (s : St) (row : ℕ)
    (hsz : (s.rtag row).inactive = false → s.rowSize row = (((delCompactRow s row).A row).length : ℤ))
    (hle : (s.rtag row).inactive = false → s.rowSize row ≤ ((s.A row).length : ℤ))
    (he : row ∈ s.emptyRows → s.A row = []) (hs : row ∈ s.stonRows → (s.A row).length ≤ 1)
    (hd : row ∈ s.dtonRows → (s.A row).length ≤ 2) (ha : s.asrt = true) :
    (delCompactRow s row).asrt = true ∧
      (∀ i, i ≠ row → (i ∈ (delCompactRow s row).emptyRows → i ∈ s.emptyRows) ∧
        (i ∈ (delCompactRow s row).stonRows → i ∈ s.stonRows) ∧
        (i ∈ (delCompactRow s row).dtonRows → i ∈ s.dtonRows)) ∧
      (s.emptyRows.Nodup → (delCompactRow s row).emptyRows.Nodup) := by
  have hmem : ∀ {l : List ℕ} {i : ℕ}, i ≠ row → i ∈ l ++ [row] → i ∈ l := fun hi h =>
    (List.mem_append.mp h).resolve_right (fun h => hi (List.mem_singleton.mp h))
  unfold delCompactRow at hsz ⊢
  split
  · exact ⟨ha, fun _ _ => ⟨id, id, id⟩, id⟩
  · rename_i hc
    rw [if_neg hc] at hsz
    simp only [Bool.or_eq_true, not_or, Bool.not_eq_true, decide_eq_true_eq] at hc
    have hsz := hsz hc.1
    have hle := hle hc.1
    have hlt : s.rowSize row < ((s.A row).length : ℤ) := lt_of_le_of_ne hle hc.2
    simp only at hsz ⊢
    have hne : s.rowSize row ≠ -1 := by rw [hsz]; omega
    have hcc : s.check (decide (s.rowSize row ≠ -1)) = s := by rw [decide_eq_true hne]; exact check_true s
    rw [hcc] at hsz ⊢
    have fin : ∀ t : St, t.asrt = true → t.rowSize = s.rowSize →
        s.rowSize row = ((upd t.A row ((t.A row).filter (fun p => decide (t.colSize p.1 ≠ -1))) row).length : ℤ) →
        (St.check { t with nnz := t.nnz - (((t.A row).length : ℤ) - (((t.A row).filter (fun p => decide (t.colSize p.1 ≠ -1))).length : ℤ))
                           A := upd t.A row ((t.A row).filter (fun p => decide (t.colSize p.1 ≠ -1))) }
          (decide (t.rowSize row = ((upd t.A row ((t.A row).filter (fun p => decide (t.colSize p.1 ≠ -1))) row).length : ℤ)))).asrt = true := by
      intro t h1 h2 h3
      rw [h2, decide_eq_true h3, check_true]
      exact h1
    have hch : ∀ b : Bool, b = true → (s.check b).asrt = true := fun b hb => by rw [hb, check_true]; exact ha
    by_cases h0 : s.rowSize row = 0
    · rw [if_pos h0] at hsz ⊢
      have hn : row ∉ s.emptyRows := fun h => by rw [he h, h0] at hlt; simp at hlt
      refine ⟨fin _ (hch _ ?_) rfl hsz, fun i hi => ⟨hmem hi, id, id⟩, fun h => nodup_concat h hn⟩
      simpa using hn
    · rw [if_neg h0] at hsz ⊢
      by_cases h1 : s.rowSize row = 1
      · rw [if_pos h1] at hsz ⊢
        have hn : row ∉ s.stonRows := fun h => by have := hs h; omega
        refine ⟨fin _ (hch _ ?_) rfl hsz, fun i hi => ⟨id, hmem hi, id⟩, id⟩
        simpa using hn
      · rw [if_neg h1] at hsz ⊢
        by_cases h2 : s.rowSize row = 2 ∧ (s.rtag row).eq = true
        · rw [if_pos h2] at hsz ⊢
          have hn : row ∉ s.dtonRows := fun h => by have := hd h; omega
          refine ⟨fin _ (hch _ ?_) rfl hsz, fun i hi => ⟨id, id, hmem hi⟩, id⟩
          simpa using hn
        · rw [if_neg h2] at hsz ⊢
          exact ⟨fin _ ha rfl hsz, fun i hi => ⟨id, id, id⟩, id⟩

theorem delCompactRow_foldA (s0 : St) (N : ℕ) :
    ((List.range N).foldl delCompactRow s0).rtag = s0.rtag ∧
    ((List.range N).foldl delCompactRow s0).rowSize = s0.rowSize ∧
    (∀ i, N ≤ i → ((List.range N).foldl delCompactRow s0).A i = s0.A i) := by
  induction N with
  | zero => exact ⟨rfl, rfl, fun _ _ => rfl⟩
  | succ N ih =>
    rw [List.range_succ, List.foldl_append, List.foldl_cons, List.foldl_nil]
    generalize (List.range N).foldl delCompactRow s0 = s at ih
    obtain ⟨h1, h2, -, h4, -⟩ := delCompactRow_frame s N
    exact ⟨h1.trans ih.1, h2.trans ih.2.1, fun i hi => (h4 i (by omega)).trans (ih.2.2 i (by omega))⟩

theorem delCompactRow_foldFwd (s0 : St)
    (hle : ∀ i, (s0.rtag i).inactive = false → s0.rowSize i ≤ ((s0.A i).length : ℤ))
    (he : ∀ i ∈ s0.emptyRows, s0.A i = []) (hs : ∀ i ∈ s0.stonRows, (s0.A i).length ≤ 1)
    (hd : ∀ i ∈ s0.dtonRows, (s0.A i).length ≤ 2) (ha : s0.asrt = true) (N : ℕ)
    (hsz : ∀ i < N, (s0.rtag i).inactive = false →
      s0.rowSize i = ((((List.range N).foldl delCompactRow s0).A i).length : ℤ)) :
    ((List.range N).foldl delCompactRow s0).asrt = true ∧
      (∀ i, N ≤ i → (i ∈ ((List.range N).foldl delCompactRow s0).emptyRows → i ∈ s0.emptyRows) ∧
        (i ∈ ((List.range N).foldl delCompactRow s0).stonRows → i ∈ s0.stonRows) ∧
        (i ∈ ((List.range N).foldl delCompactRow s0).dtonRows → i ∈ s0.dtonRows)) ∧
      (s0.emptyRows.Nodup → ((List.range N).foldl delCompactRow s0).emptyRows.Nodup) := by
  induction N with
  | zero => exact ⟨ha, fun _ _ => ⟨id, id, id⟩, id⟩
  | succ N ih =>
    obtain ⟨a1, a2, a3⟩ := delCompactRow_foldA s0 N
    rw [List.range_succ, List.foldl_append, List.foldl_cons, List.foldl_nil] at hsz ⊢
    obtain ⟨-, -, -, h4, -⟩ := delCompactRow_frame ((List.range N).foldl delCompactRow s0) N
    have ih := ih (fun i hi hact => by rw [hsz i (by omega) hact, h4 i (by omega)])
    generalize (List.range N).foldl delCompactRow s0 = s at *
    obtain ⟨i1, i2, i3⟩ := ih
    have hN := a3 N le_rfl
    obtain ⟨c1, c2, c3⟩ := i2 N le_rfl
    obtain ⟨f1, f2, f3⟩ := delCompactRow_fwd s N (fun h => by rw [a2]; rw [a1] at h; exact hsz N (by omega) h)
      (fun h => by rw [a2, hN]; rw [a1] at h; exact hle N h) (fun h => by rw [hN]; exact he N (c1 h))
      (fun h => by rw [hN]; exact hs N (c2 h)) (fun h => by rw [hN]; exact hd N (c3 h)) i1
    refine ⟨f1, fun i hi => ?_, fun h => f3 (i3 h)⟩
    obtain ⟨d1, d2, d3⟩ := i2 i (by omega)
    obtain ⟨e1, e2, e3⟩ := f2 i (by omega)
    exact ⟨fun h => d1 (e1 h), fun h => d2 (e2 h), fun h => d3 (e3 h)⟩

theorem delOneCol_foldAll (L : List ℕ) (s : St) :
    (L.foldl delOneCol s).rtag = s.rtag ∧ (L.foldl delOneCol s).A = s.A ∧
    (L.foldl delOneCol s).emptyRows = s.emptyRows ∧ (L.foldl delOneCol s).stonRows = s.stonRows ∧
    (L.foldl delOneCol s).dtonRows = s.dtonRows ∧ (L.foldl delOneCol s).asrt = s.asrt ∧
    (L.foldl delOneCol s).m = s.m := by
  induction L generalizing s with
  | nil => exact ⟨rfl, rfl, rfl, rfl, rfl, rfl, rfl⟩
  | cons r L ih => exact ih (delOneCol s r)

theorem delCols_fwd {s : St} (g : GI s) (hrd : s.rowsToDelete = []) (e : ELists s)
    (hs : ∀ i ∈ s.stonRows, (s.A i).length ≤ 1) (hd : ∀ i ∈ s.dtonRows, (s.A i).length ≤ 2) (ha : s.asrt = true) :
    (deleteInactiveCols s).asrt = true ∧ ELists (deleteInactiveCols s) := by
  have d := deleteInactiveCols_deleted g hrd
  have hrt : (deleteInactiveCols s).rtag = s.rtag := by rw [d.eq]
  have hct : (deleteInactiveCols s).ctag = s.ctag := by rw [d.eq]
  have hec : (deleteInactiveCols s).emptyCols = s.emptyCols := by rw [d.eq]
  have key : (deleteInactiveCols s).asrt = true ∧ (deleteInactiveCols s).emptyRows.Nodup := by
    have hsz : ∀ i, (s.rtag i).inactive = false →
        (deleteInactiveCols s).rowSize i = (((deleteInactiveCols s).A i).length : ℤ) := fun i hi =>
      d.gi.rowSz i (d.gi.rowActive (by rw [hrt]; exact hi))
    have hlen : ∀ i, ((deleteInactiveCols s).A i).length ≤ (s.A i).length := fun i => by
      rw [d.A]; exact List.length_filter_le _ _
    unfold deleteInactiveCols at hsz hlen ⊢
    simp only at hsz hlen ⊢
    obtain ⟨a1, a2, a3, a4, a5, a6, a7⟩ := delOneCol_foldAll s.fixedCols s
    generalize s.fixedCols.foldl delOneCol s = t at *
    obtain ⟨b1, b2, b3, b4, b5, b6, b7⟩ := delOneCol_foldAll t.subCols t
    generalize t.subCols.foldl delOneCol t = u at *
    obtain ⟨c1, c2, c3⟩ := delCompactRow_foldA u u.m
    have := delCompactRow_foldFwd u (fun i hi => ?_) (fun i hi => ?_) (fun i hi => ?_) (fun i hi => ?_)
      (by rw [b6, a6]; exact ha) u.m (fun i _ hi => ?_)
    · exact ⟨this.1, this.2.2 (by rw [b3, a3]; exact e.rnd)⟩
    · rw [b1, a1] at hi
      have h1 := hsz i hi
      have h2 := hlen i
      rw [c2] at h1
      rw [h1, b2, a2]
      exact_mod_cast h2
    · rw [b2, a2]; rw [b3, a3] at hi; exact (e.row i hi).2
    · rw [b2, a2]; rw [b4, a4] at hi; exact hs i hi
    · rw [b2, a2]; rw [b5, a5] at hi; exact hd i hi
    · rw [b1, a1] at hi
      have h1 := hsz i hi
      rw [c2] at h1
      exact h1
  refine ⟨key.1, key.2, by rw [hec]; exact e.cnd, fun i hi => ?_, fun k hk => ?_⟩
  · rw [hrt]
    rcases d.empty i hi with h | h
    · refine ⟨(e.row i h).1, ?_⟩
      rw [d.A, (e.row i h).2]; rfl
    · exact h
  · rw [hec] at hk
    obtain ⟨h1, h2⟩ := e.col k hk
    rw [hct, d.AT, if_neg (fun h => by rw [(g.colsDel k h).1] at h1; cases h1)]
    exact ⟨h1, h2⟩

/-! ### Fixed columns -/

theorem delFixedCol_fwd (s : St) (k : ℕ) (v : ℚ) (hf : (s.ctag k).fixed = true) (hl : s.lb k = .fin v)
    (hu : s.ub k = .fin v) : (delFixedCol s k).asrt = s.asrt := by
  have h1 : ((s.check (s.ctag k).fixed).check (!D.isInf (s.ub k))).check (D.eqb (s.lb k) (s.ub k)) = s := by
    rw [hf, hl, hu]
    simp [St.check, D.isInf]
  unfold delFixedCol
  rw [h1]
  simp only
  split
  · rfl
  · have : ∀ (v : D) (L : List Cell) (s : St), (L.foldl (shiftSides v) s).asrt = s.asrt := by
      intro v L
      induction L with
      | nil => exact fun s => rfl
      | cons p L ih =>
        intro s
        rw [List.foldl_cons, ih]
        unfold shiftSides
        split <;> rfl
    exact this _ _ s

theorem deleteFixedCols_fwd {s : St} (h : ∀ k ∈ s.fixedCols, (s.ctag k).fixed = true ∧ ∃ v, s.lb k = .fin v ∧ s.ub k = .fin v) :
    (deleteFixedCols s).asrt = s.asrt := by
  unfold deleteFixedCols
  have fr : ∀ (s : St) (k : ℕ), (delFixedCol s k).ctag = s.ctag ∧ (delFixedCol s k).lb = s.lb ∧ (delFixedCol s k).ub = s.ub := by
    intro s k
    have sh : ∀ (v : D) (L : List Cell) (s : St), (L.foldl (shiftSides v) s).ctag = s.ctag ∧
        (L.foldl (shiftSides v) s).lb = s.lb ∧ (L.foldl (shiftSides v) s).ub = s.ub := by
      intro v L
      induction L with
      | nil => exact fun s => ⟨rfl, rfl, rfl⟩
      | cons p L ih =>
        intro s
        rw [List.foldl_cons]
        obtain ⟨a, b, c⟩ := ih (shiftSides v s p)
        rw [a, b, c]
        unfold shiftSides
        split <;> exact ⟨rfl, rfl, rfl⟩
    unfold delFixedCol
    simp only
    split
    · exact ⟨rfl, rfl, rfl⟩
    · exact sh _ _ _
  generalize s.fixedCols = L at h
  induction L generalizing s with
  | nil => rfl
  | cons k L ih =>
    rw [List.foldl_cons]
    obtain ⟨a, b, c⟩ := fr s k
    rw [ih (fun j hj => by rw [a, b, c]; exact h j (List.mem_cons_of_mem _ hj))]
    obtain ⟨h1, v, h2, h3⟩ := h k List.mem_cons_self
    exact delFixedCol_fwd s k v h1 h2 h3

end Verif
