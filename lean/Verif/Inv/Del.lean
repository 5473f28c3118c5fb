import Verif.Inv.Frames

/-!
# Deletion of rows and columns as elementary steps
-/

namespace Verif

/-- The sticky flags only get worse. -/
structure Le (s t : St) : Prop where
  asrt : t.asrt = true → s.asrt = true
  tiny : t.tiny = false → s.tiny = false
  near : t.near = false → s.near = false

theorem Le.refl (s : St) : Le s s := ⟨id, id, id⟩
theorem Le.trans {s t u : St} (h : Le s t) (h' : Le t u) : Le s u :=
  ⟨fun e => h.asrt (h'.asrt e), fun e => h.tiny (h'.tiny e), fun e => h.near (h'.near e)⟩
theorem Le.ok {μ : Mode} {s t : St} (h : Le s t) (o : Ok μ t) : Ok μ s :=
  ⟨h.asrt o.1, fun e => h.tiny (o.2.1 e), fun e => h.near (o.2.2 e)⟩
theorem Le.check (s : St) (b : Bool) : Le s (s.check b) := ⟨check_asrt, id, id⟩
theorem Le.eq {s t : St} (h : t.asrt = s.asrt) (h' : t.tiny = s.tiny)
    (h'' : t.near = s.near := by rfl) : Le s t := by
  refine ⟨?_, ?_, ?_⟩
  · rw [h]; exact id
  · rw [h']; exact id
  · rw [h'']; exact id

theorem Le.foldl {α : Type} (f : St → α → St) (h : ∀ s p, Le s (f s p)) (l : List α) (s : St) :
    Le s (l.foldl f s) := by
  induction l generalizing s with
  | nil => exact .refl s
  | cons p l ih => exact (h s p).trans (ih _)

theorem delRowCell_le (t : RTag) (s : St) (p : Cell) : Le s (delRowCell t s p) := by
  unfold delRowCell
  split
  · exact .refl s
  · exact .eq rfl rfl

theorem delOneRow_le (s : St) (row : ℕ) : Le s (delOneRow s row) := by
  unfold delOneRow
  refine (Le.check s (decide (s.rowSize row ≠ -1))).trans ?_
  simp only
  generalize s.check (decide (s.rowSize row ≠ -1)) = t
  split
  · exact .eq rfl rfl
  · refine Le.trans (t := { t with nnz := t.nnz - t.rowSize row, rowSize := upd t.rowSize row (-1) })
      (.eq rfl rfl) ?_
    exact (Le.foldl _ (delRowCell_le _) _ _).trans (.eq rfl rfl)

theorem delCompactCol_le (s : St) (col : ℕ) : Le s (delCompactCol s col) := by
  unfold delCompactCol
  split
  · exact .refl s
  · simp only
    refine (Le.check s (decide (s.colSize col ≠ -1))).trans ?_
    generalize s.check (decide (s.colSize col ≠ -1)) = t
    refine Le.trans ?_ (Le.check _ _)
    split
    · exact .eq rfl rfl
    · split
      · exact .eq rfl rfl
      · exact .eq rfl rfl

theorem deleteInactiveRows_le (s : St) : Le s (deleteInactiveRows s) := by
  unfold deleteInactiveRows
  split
  · exact .refl s
  · refine (Le.foldl _ delOneRow_le s.rowsToDelete s).trans ?_
    exact (Le.foldl _ delCompactCol_le (List.range (s.rowsToDelete.foldl delOneRow s).n) _).trans
      (.eq rfl rfl)

theorem delCompactRow_le (s : St) (row : ℕ) : Le s (delCompactRow s row) := by
  unfold delCompactRow
  split
  · exact .refl s
  · simp only
    refine (Le.check s (decide (s.rowSize row ≠ -1))).trans ?_
    generalize s.check (decide (s.rowSize row ≠ -1)) = t
    refine Le.trans ?_ (Le.check _ _)
    split
    · exact (Le.check t _).trans (.eq rfl rfl)
    · split
      · exact (Le.check t _).trans (.eq rfl rfl)
      · split
        · exact (Le.check t _).trans (.eq rfl rfl)
        · exact .eq rfl rfl

theorem deleteInactiveCols_le (s : St) : Le s (deleteInactiveCols s) := by
  unfold deleteInactiveCols
  have h : ∀ s k, Le s (delOneCol s k) := fun s k => .eq rfl rfl
  refine (Le.foldl _ h s.fixedCols s).trans ?_
  simp only
  generalize s.fixedCols.foldl delOneCol s = t
  refine (Le.foldl _ h t.subCols t).trans ?_
  generalize t.subCols.foldl delOneCol t = u
  exact (Le.foldl _ delCompactRow_le (List.range u.m) u).trans (.eq rfl rfl)

theorem shiftSides_le (v : D) (s : St) (p : Cell) : Le s (shiftSides v s p) := by
  unfold shiftSides
  split
  · exact .refl s
  · exact .eq rfl rfl

theorem delFixedCol_le (s : St) (k : ℕ) : Le s (delFixedCol s k) := by
  unfold delFixedCol
  refine ((Le.check s (s.ctag k).fixed).trans (Le.check _ (!D.isInf (s.ub k)))).trans
    (Le.trans (Le.check _ (D.eqb (s.lb k) (s.ub k))) ?_)
  simp only
  split
  · exact .refl _
  · exact (Le.foldl _ (shiftSides_le _) _ _).trans (.eq rfl rfl)

theorem deleteFixedCols_le (s : St) : Le s (deleteFixedCols s) := Le.foldl _ delFixedCol_le _ _

theorem delCompactCol_frame (s : St) (col : ℕ) : (delCompactCol s col).ctag = s.ctag ∧
    (delCompactCol s col).colSize = s.colSize ∧ (∀ k ∈ s.emptyCols, k ∈ (delCompactCol s col).emptyCols) ∧
    (∀ k, k ≠ col → (delCompactCol s col).AT k = s.AT k) ∧
    ((s.ctag col).inactive = false → s.colSize col = 0 → s.AT col ≠ [] → col ∈ (delCompactCol s col).emptyCols) := by
  unfold delCompactCol
  split
  · rename_i h
    refine ⟨rfl, rfl, fun _ h => h, fun _ _ => rfl, fun h1 h2 h3 => ?_⟩
    rw [h1, h2] at h
    simp only [Bool.false_or, decide_eq_true_eq] at h
    exact absurd (List.eq_nil_of_length_eq_zero (by omega)) h3
  · simp only
    split
    · refine ⟨rfl, rfl, fun _ h => List.mem_append_left _ h, fun k hk => ?_, fun _ _ _ => List.mem_append_right _ List.mem_cons_self⟩
      show upd (upd s.AT col []) col _ k = _
      rw [upd_ne _ _ hk, upd_ne _ _ hk]
    · rename_i h0
      split
      · refine ⟨rfl, rfl, fun _ h => h, fun k hk => ?_, fun _ h => absurd h h0⟩
        exact upd_ne _ _ hk
      · refine ⟨rfl, rfl, fun _ h => h, fun k hk => ?_, fun _ h => absurd h h0⟩
        exact upd_ne _ _ hk

theorem delCompactCol_fold (L : List ℕ) (s : St) :
    (∀ k ∈ s.emptyCols, k ∈ (L.foldl delCompactCol s).emptyCols) ∧ (L.foldl delCompactCol s).colSize = s.colSize ∧
    (∀ k ∈ L, (s.ctag k).inactive = false → s.colSize k = 0 → s.AT k ≠ [] →
      k ∈ (L.foldl delCompactCol s).emptyCols) := by
  induction L generalizing s with
  | nil => exact ⟨fun _ h => h, rfl, fun _ h => (by cases h)⟩
  | cons col L ih =>
    obtain ⟨h1, h2, h3, h4, h5⟩ := delCompactCol_frame s col
    obtain ⟨i1, i2, i3⟩ := ih (delCompactCol s col)
    refine ⟨fun k hk => i1 k (h3 k hk), i2.trans h2, fun k hk ha hz hn => ?_⟩
    by_cases e : k = col
    · subst e; exact i1 _ (h5 ha hz hn)
    · exact i3 k ((List.mem_cons.mp hk).resolve_left e) (h1 ▸ ha) (h2 ▸ hz) (h4 k e ▸ hn)

theorem delOneRow_frame (s : St) (row : ℕ) : (delOneRow s row).ctag = s.ctag ∧ (delOneRow s row).AT = s.AT ∧
    (delOneRow s row).emptyCols = s.emptyCols ∧ (delOneRow s row).n = s.n := by
  unfold delOneRow
  simp only
  split
  · exact ⟨rfl, rfl, rfl, rfl⟩
  · simp only
    have key : ∀ (tg : RTag) (l : List Cell) (t : St), (l.foldl (delRowCell tg) t).ctag = t.ctag ∧
        (l.foldl (delRowCell tg) t).AT = t.AT ∧ (l.foldl (delRowCell tg) t).emptyCols = t.emptyCols ∧
        (l.foldl (delRowCell tg) t).n = t.n := by
      intro tg l
      induction l with
      | nil => intro t; exact ⟨rfl, rfl, rfl, rfl⟩
      | cons p l ih =>
        intro t
        have h0 : (delRowCell tg t p).ctag = t.ctag ∧ (delRowCell tg t p).AT = t.AT ∧
            (delRowCell tg t p).emptyCols = t.emptyCols ∧ (delRowCell tg t p).n = t.n := by
          unfold delRowCell
          split
          · exact ⟨rfl, rfl, rfl, rfl⟩
          · exact ⟨rfl, rfl, rfl, rfl⟩
        obtain ⟨a, b, c, d⟩ := ih (delRowCell tg t p)
        exact ⟨a.trans h0.1, b.trans h0.2.1, c.trans h0.2.2.1, d.trans h0.2.2.2⟩
    obtain ⟨a, b, c, d⟩ := key ((s.check (decide (s.rowSize row ≠ -1))).rtag row) (s.A row)
      { s.check (decide (s.rowSize row ≠ -1)) with nnz := s.nnz - s.rowSize row, rowSize := upd s.rowSize row (-1) }
    exact ⟨a, b, c, d⟩

theorem delOneRow_fold (L : List ℕ) (s : St) : (L.foldl delOneRow s).ctag = s.ctag ∧
    (L.foldl delOneRow s).AT = s.AT ∧ (L.foldl delOneRow s).emptyCols = s.emptyCols ∧ (L.foldl delOneRow s).n = s.n := by
  induction L generalizing s with
  | nil => exact ⟨rfl, rfl, rfl, rfl⟩
  | cons r L ih =>
    obtain ⟨a, b, c, d⟩ := delOneRow_frame s r
    obtain ⟨a', b', c', d'⟩ := ih (delOneRow s r)
    exact ⟨a'.trans a, b'.trans b, c'.trans c, d'.trans d⟩

theorem delRows_em {s : St} (g : GI s) (e : Em s) : Em (deleteInactiveRows s) := by
  have d := deleteInactiveRows_deleted g
  have hm : (deleteInactiveRows s).m = s.m := by rw [d.eq]
  have hn : (deleteInactiveRows s).n = s.n := by rw [d.eq]
  have hr : (deleteInactiveRows s).rtag = s.rtag := by rw [d.eq]
  have hc : (deleteInactiveRows s).ctag = s.ctag := by rw [d.eq]
  have he : (deleteInactiveRows s).emptyRows = s.emptyRows := by rw [d.eq]
  constructor
  · intro i hi ha hA
    rw [hm] at hi; rw [hr] at ha; rw [he]
    refine e.1 i hi ha ?_
    rw [d.A] at hA
    split at hA
    · rename_i h
      have := (g.rowsDel i h).1
      rw [ha] at this; cases this
    · exact hA
  · intro k hk ha hT
    rw [hn] at hk; rw [hc] at ha
    have hsz := d.gi.colSz k (by rw [hc]; exact ha)
    rw [hT] at hsz
    unfold deleteInactiveRows at hsz hT ⊢
    split at hsz
    · rename_i h
      rw [if_pos h] at hT ⊢
      exact e.2 k hk ha hT
    · rename_i h
      rw [if_neg h] at hT ⊢
      simp only at hsz hT ⊢
      obtain ⟨a, b, c, dd⟩ := delOneRow_fold s.rowsToDelete s
      obtain ⟨f1, f2, f3⟩ := delCompactCol_fold (List.range (s.rowsToDelete.foldl delOneRow s).n) (s.rowsToDelete.foldl delOneRow s)
      rw [f2] at hsz
      by_cases h0 : s.AT k = []
      · exact f1 k (by rw [c]; exact e.2 k hk ha h0)
      · exact f3 k (by rw [dd]; exact List.mem_range.mpr hk) (by rw [a]; exact ha) hsz (by rw [b]; exact h0)

theorem delCompactRow_frame (s : St) (row : ℕ) : (delCompactRow s row).rtag = s.rtag ∧
    (delCompactRow s row).rowSize = s.rowSize ∧ (∀ k ∈ s.emptyRows, k ∈ (delCompactRow s row).emptyRows) ∧
    (∀ k, k ≠ row → (delCompactRow s row).A k = s.A k) ∧
    ((s.rtag row).inactive = false → s.rowSize row = 0 → s.A row ≠ [] → row ∈ (delCompactRow s row).emptyRows) := by
  unfold delCompactRow
  split
  · rename_i h
    refine ⟨rfl, rfl, fun _ h => h, fun _ _ => rfl, fun h1 h2 h3 => ?_⟩
    rw [h1, h2] at h
    simp only [Bool.false_or, decide_eq_true_eq] at h
    exact absurd (List.eq_nil_of_length_eq_zero (by omega)) h3
  · simp only
    split
    · refine ⟨rfl, rfl, fun _ h => List.mem_append_left _ h, fun k hk => ?_, fun _ _ _ => List.mem_append_right _ List.mem_cons_self⟩
      show upd (upd s.A row []) row _ k = _
      rw [upd_ne _ _ hk, upd_ne _ _ hk]
    · rename_i h0
      split
      · refine ⟨rfl, rfl, fun _ h => h, fun k hk => ?_, fun _ h => absurd h h0⟩
        exact upd_ne _ _ hk
      · split
        · refine ⟨rfl, rfl, fun _ h => h, fun k hk => ?_, fun _ h => absurd h h0⟩
          exact upd_ne _ _ hk
        · refine ⟨rfl, rfl, fun _ h => h, fun k hk => ?_, fun _ h => absurd h h0⟩
          exact upd_ne _ _ hk

theorem delCompactRow_fold (L : List ℕ) (s : St) :
    (∀ k ∈ s.emptyRows, k ∈ (L.foldl delCompactRow s).emptyRows) ∧ (L.foldl delCompactRow s).rowSize = s.rowSize ∧
    (∀ k ∈ L, (s.rtag k).inactive = false → s.rowSize k = 0 → s.A k ≠ [] →
      k ∈ (L.foldl delCompactRow s).emptyRows) := by
  induction L generalizing s with
  | nil => exact ⟨fun _ h => h, rfl, fun _ h => (by cases h)⟩
  | cons row L ih =>
    obtain ⟨h1, h2, h3, h4, h5⟩ := delCompactRow_frame s row
    obtain ⟨i1, i2, i3⟩ := ih (delCompactRow s row)
    refine ⟨fun k hk => i1 k (h3 k hk), i2.trans h2, fun k hk ha hz hn => ?_⟩
    by_cases e : k = row
    · subst e; exact i1 _ (h5 ha hz hn)
    · exact i3 k ((List.mem_cons.mp hk).resolve_left e) (h1 ▸ ha) (h2 ▸ hz) (h4 k e ▸ hn)

theorem delOneCol_fold (L : List ℕ) (s : St) : (L.foldl delOneCol s).rtag = s.rtag ∧ (L.foldl delOneCol s).A = s.A ∧
    (L.foldl delOneCol s).emptyRows = s.emptyRows ∧ (L.foldl delOneCol s).m = s.m := by
  induction L generalizing s with
  | nil => exact ⟨rfl, rfl, rfl, rfl⟩
  | cons r L ih => exact ih (delOneCol s r)

theorem delCols_em {s : St} (g : GI s) (hrd : s.rowsToDelete = []) (e : Em s) : Em (deleteInactiveCols s) := by
  have d := deleteInactiveCols_deleted g hrd
  have hm : (deleteInactiveCols s).m = s.m := by rw [d.eq]
  have hn : (deleteInactiveCols s).n = s.n := by rw [d.eq]
  have hr : (deleteInactiveCols s).rtag = s.rtag := by rw [d.eq]
  have hc : (deleteInactiveCols s).ctag = s.ctag := by rw [d.eq]
  have he : (deleteInactiveCols s).emptyCols = s.emptyCols := by rw [d.eq]
  constructor
  · intro i hi ha hA
    rw [hm] at hi; rw [hr] at ha
    have hsz := d.gi.rowSz i (d.gi.rowActive (by rw [hr]; exact ha))
    rw [hA] at hsz
    unfold deleteInactiveCols at hsz hA ⊢
    simp only at hsz hA ⊢
    obtain ⟨a, b, c, dd⟩ := delOneCol_fold s.fixedCols s
    obtain ⟨a', b', c', dd'⟩ := delOneCol_fold (s.fixedCols.foldl delOneCol s).subCols (s.fixedCols.foldl delOneCol s)
    generalize (s.fixedCols.foldl delOneCol s).subCols.foldl delOneCol (s.fixedCols.foldl delOneCol s) = u at *
    obtain ⟨f1, f2, f3⟩ := delCompactRow_fold (List.range u.m) u
    rw [f2] at hsz
    by_cases h0 : s.A i = []
    · exact f1 i (by rw [c', c]; exact e.1 i hi ha h0)
    · exact f3 i (by rw [dd', dd]; exact List.mem_range.mpr hi) (by rw [a', a]; exact ha) hsz (by rw [b', b]; exact h0)
  · intro k hk ha hA
    rw [hn] at hk; rw [hc] at ha; rw [he]
    refine e.2 k hk ha ?_
    rw [d.AT] at hA
    split at hA
    · rename_i h
      have := (g.colsDel k h).1
      rw [ha] at this; cases this
    · exact hA

theorem delRows_good (μ : Mode) (I J : St → Prop) (s : St)
    (hJ : Inv s → I s → RowsDeleted s (deleteInactiveRows s) → J (deleteInactiveRows s)) :
    Good μ I J s (deleteInactiveRows s) := by
  refine .of (deleteInactiveRows_le s).ok (fun _ i hi => ?_)
  have d := deleteInactiveRows_deleted i.gi
  have hs : (deleteInactiveRows s).stonRows = s.stonRows := by rw [d.eq]
  have hd : (deleteInactiveRows s).dtonRows = s.dtonRows := by rw [d.eq]
  exact ⟨⟨.single (.delRows (.refl _)), fun _ h => Or.inl (hs ▸ h), fun _ h => Or.inl (hd ▸ h), by rw [d.eq],
    delRows_em i.gi⟩, hJ i hi d⟩

theorem RowsDeleted.noRows {s t : St} (d : RowsDeleted s t) : t.rowsToDelete = [] := by rw [d.eq]
theorem RowsDeleted.fixedCols {s t : St} (d : RowsDeleted s t) : t.fixedCols = s.fixedCols := by rw [d.eq]
theorem RowsDeleted.subCols {s t : St} (d : RowsDeleted s t) : t.subCols = s.subCols := by rw [d.eq]

/-- What deletion of columns does to the lists. -/
structure ColsDel (s t : St) : Prop where
  m : t.m = s.m
  noRows : t.rowsToDelete = []
  noFixed : t.fixedCols = []
  noSub : t.subCols = []
  len : ∀ i, (t.A i).length ≤ (s.A i).length
  ston : ∀ i ∈ t.stonRows, i ∈ s.stonRows ∨ ((s.rtag i).inactive = false ∧ (t.A i).length = 1 ∧ 2 ≤ (s.A i).length)
  dton : ∀ i ∈ t.dtonRows, i ∈ s.dtonRows ∨ (t.A i).length = 2
  rowSize : ∀ i, s.rowSize i = -1 → t.rowSize i = -1
  rtag : t.rtag = s.rtag

theorem delCols_good (μ : Mode) (I J : St → Prop) (s : St) (hN : I s → NoRows s)
    (hJ : Inv s → I s → ColsDel s (deleteInactiveCols (deleteFixedCols s)) →
      J (deleteInactiveCols (deleteFixedCols s))) :
    Good μ I J s (deleteInactiveCols (deleteFixedCols s)) := by
  refine .of ((deleteFixedCols_le s).trans (deleteInactiveCols_le _)).ok (fun _ i hi => ?_)
  obtain ⟨l, r, a, o, b, e⟩ := deleteFixedCols_eq s
  have g1 : GI (deleteFixedCols s) := by
    rw [e]
    exact i.gi.of_eq rfl rfl rfl rfl rfl (fun _ => rfl) rfl rfl rfl rfl rfl rfl rfl rfl
  have d := deleteInactiveCols_deleted g1 (by rw [e]; exact hN hi)
  have hA : (deleteFixedCols s).A = s.A := by rw [e]
  have hst : (deleteFixedCols s).stonRows = s.stonRows := by rw [e]
  have hdt : (deleteFixedCols s).dtonRows = s.dtonRows := by rw [e]
  have hun : (deleteFixedCols s).undef = s.undef := by rw [e]
  have hrt : (deleteFixedCols s).rtag = s.rtag := by rw [e]
  have hrs : (deleteFixedCols s).rowSize = s.rowSize := by rw [e]
  have hm : (deleteFixedCols s).m = s.m := by rw [e]
  have hrd : (deleteFixedCols s).rowsToDelete = s.rowsToDelete := by rw [e]
  have cd : ColsDel s (deleteInactiveCols (deleteFixedCols s)) := by
    refine ⟨by rw [d.eq]; exact hm, by rw [d.eq]; exact hrd.trans (hN hi), by rw [d.eq], by rw [d.eq],
      fun j => ?_, fun j hj => ?_, fun j hj => ?_, fun j hj => ?_, by rw [d.eq]; exact hrt⟩
    · rw [d.A, hA]; exact List.length_filter_le _ _
    · rcases d.ston j hj with h | h
      · exact Or.inl (hst ▸ h)
      · right
        rw [hrt, hA] at h
        obtain ⟨h1, h2, h3⟩ := h
        refine ⟨h1, h2, ?_⟩
        omega
    · rcases d.dton j hj with h | h
      · exact Or.inl (hdt ▸ h)
      · right; exact h.2.1
    · exact (d.rowGone j).mp (by rw [hrs]; exact hj)
  refine ⟨⟨.single (.delCols (hN hi) (.refl _)), fun j hj => ?_, fun j hj => ?_, ?_, fun em => ?_⟩, hJ i hi cd⟩
  · rcases cd.ston j hj with h | h
    · exact Or.inl h
    · exact Or.inr h.2.1.le
  · rcases cd.dton j hj with h | h
    · exact Or.inl h
    · exact Or.inr h.le
  · rw [d.eq]; exact hun
  · refine delCols_em g1 (hrd.trans (hN hi)) ?_
    have h : Em { s with lhs := l, rhs := r, act := a, off := o, asrt := b } := em
    rw [e]; exact h

/-- Rows first, then columns. -/
theorem delBoth_good (μ : Mode) (I : St → Prop) (s : St) :
    Good μ I Clean s (deleteInactiveCols (deleteFixedCols (deleteInactiveRows s))) :=
  (delRows_good μ I NoRows s (fun _ _ d => d.noRows)).trans
    (delCols_good μ NoRows Clean _ id (fun _ _ d => ⟨d.noRows, d.noFixed, d.noSub⟩))

end Verif
