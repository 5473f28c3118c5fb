import Verif.Inv.Reach

/-!
# The lists of short rows and columns are complete

`Queued s` says that the lists from which the explorers take their work miss nothing: every active row
with one cell, every active equality with two cells and every active column with one cell is listed,
and nothing is listed that does not belong there.  `Keep s t` says that a piece of a run in which all
tracked assertions hold preserves this.  For most functions it follows from the frame `Fr`.
-/

namespace Verif

/-- The lists of singleton rows, doubleton equalities and singleton columns are complete. -/
structure Queued (s : St) : Prop where
  ston : ∀ i p, (s.rtag i).inactive = false → s.A i = [p] → (s.ctag p.1).inactive = false → i ∈ s.stonRows
  dton : ∀ i, (s.rtag i).inactive = false → (s.A i).length = 2 → (s.rtag i).eq = true → i ∈ s.dtonRows
  dtonMem : ∀ i ∈ s.dtonRows, (s.rtag i).eq = true ∨ (s.rtag i).inactive = true ∨ (s.A i).length ≤ 1
  dtonNodup : s.dtonRows.Nodup
  col : ∀ k, (s.ctag k).inactive = false → (s.AT k).length = 1 → k ∈ s.stonCols
  colMem : ∀ k ∈ s.stonCols, (s.AT k).length ≤ 1
  colNodup : s.stonCols.Nodup

/-- A piece of a run that preserves `Queued` if the assertions hold. -/
def Keep (s t : St) : Prop := t.asrt = true → s.asrt = true ∧ (Queued s → Queued t)

theorem Keep.refl (s : St) : Keep s s := fun h => ⟨h, id⟩

theorem Keep.trans {s t u : St} (h : Keep s t) (h' : Keep t u) : Keep s u := fun o =>
  ⟨(h (h' o).1).1, fun c => (h' o).2 ((h (h' o).1).2 c)⟩

theorem Keep.foldl {α : Type} (f : St → α → St) (h : ∀ s p, Keep s (f s p)) (l : List α) (s : St) :
    Keep s (l.foldl f s) := by
  induction l generalizing s with
  | nil => exact .refl s
  | cons p l ih => exact (h s p).trans (ih _)

/-- Rows and columns only become inactive, equalities stay equalities, and the lists of short rows and
columns are not touched. -/
structure Fr (s t : St) : Prop where
  asrt : t.asrt = true → s.asrt = true
  A : ∀ i, (t.rtag i).inactive = true ∨ t.A i = s.A i
  AT : ∀ k, t.AT k = s.AT k ∨ t.AT k = []
  row : ∀ i, (s.rtag i).inactive = true → (t.rtag i).inactive = true
  eq : ∀ i, (t.rtag i).inactive = true ∨ (t.rtag i).eq = (s.rtag i).eq
  col : ∀ k, (s.ctag k).inactive = true → (t.ctag k).inactive = true
  ston : t.stonRows = s.stonRows
  dton : t.dtonRows = s.dtonRows
  stonc : t.stonCols = s.stonCols

theorem act_of_imp {a b : Bool} (h : a = true → b = true) (hb : b = false) : a = false := by
  cases a with
  | false => rfl
  | true => rw [h rfl] at hb; cases hb

theorem Fr.keep {s t : St} (h : Fr s t) : Keep s t := by
  refine fun o => ⟨h.asrt o, fun c => ⟨?_, ?_, ?_, ?_, ?_, ?_, ?_⟩⟩
  · intro i p hi hA hp
    rw [h.ston]
    refine c.ston i p (act_of_imp (h.row i) hi) ?_ (act_of_imp (h.col p.1) hp)
    rcases h.A i with e | e
    · rw [hi] at e; cases e
    · rw [← e]; exact hA
  · intro i hi hA he
    rw [h.dton]
    refine c.dton i (act_of_imp (h.row i) hi) ?_ ?_
    · rcases h.A i with e | e
      · rw [hi] at e; cases e
      · rw [← e]; exact hA
    · rcases h.eq i with e | e
      · rw [hi] at e; cases e
      · rw [← e]; exact he
  · intro i hi
    rw [h.dton] at hi
    cases hx : (t.rtag i).inactive with
    | true => exact .inr (.inl rfl)
    | false =>
      have hA := (h.A i).resolve_left (by rw [hx]; exact Bool.false_ne_true)
      have he := (h.eq i).resolve_left (by rw [hx]; exact Bool.false_ne_true)
      rw [hA, he]
      rcases c.dtonMem i hi with e | e | e
      · exact .inl e
      · rw [h.row i e] at hx; cases hx
      · exact .inr (.inr e)
  · rw [h.dton]; exact c.dtonNodup
  · intro k hk hl
    rw [h.stonc]
    refine c.col k (act_of_imp (h.col k) hk) ?_
    rcases h.AT k with e | e
    · rw [← e]; exact hl
    · rw [e] at hl; cases hl
  · intro k hk
    rw [h.stonc] at hk
    rcases h.AT k with e | e
    · rw [e]; exact c.colMem k hk
    · rw [e]; simp
  · rw [h.stonc]; exact c.colNodup

theorem Fr.refl (s : St) : Fr s s :=
  ⟨id, fun _ => .inr rfl, fun _ => .inl rfl, fun _ => id, fun _ => .inr rfl, fun _ => id, rfl, rfl, rfl⟩

theorem Fr.trans {s t u : St} (h : Fr s t) (h' : Fr t u) : Fr s u := by
  refine ⟨fun o => h.asrt (h'.asrt o), fun i => ?_, fun k => ?_, fun i e => h'.row i (h.row i e), fun i => ?_,
    fun k e => h'.col k (h.col k e), h'.ston.trans h.ston, h'.dton.trans h.dton, h'.stonc.trans h.stonc⟩
  · rcases h'.A i with e | e
    · exact .inl e
    · rcases h.A i with e' | e'
      · exact .inl (h'.row i e')
      · exact .inr (e.trans e')
  · rcases h'.AT k with e | e
    · rw [e]; exact h.AT k
    · exact .inr e
  · rcases h'.eq i with e | e
    · exact .inl e
    · rcases h.eq i with e' | e'
      · exact .inl (h'.row i e')
      · exact .inr (e.trans e')

theorem Fr.foldl {α : Type} (f : St → α → St) (h : ∀ s p, Fr s (f s p)) (l : List α) (s : St) :
    Fr s (l.foldl f s) := by
  induction l generalizing s with
  | nil => exact .refl s
  | cons p l ih => exact (h s p).trans (ih _)

/-- Neither matrices nor row tags change. -/
theorem Fr.of {s t : St} (ha : t.asrt = true → s.asrt = true) (hA : t.A = s.A) (hT : t.AT = s.AT)
    (hr : t.rtag = s.rtag) (hc : ∀ k, (s.ctag k).inactive = true → (t.ctag k).inactive = true)
    (h1 : t.stonRows = s.stonRows) (h2 : t.dtonRows = s.dtonRows) (h3 : t.stonCols = s.stonCols) : Fr s t :=
  ⟨ha, fun i => .inr (by rw [hA]), fun k => .inl (by rw [hT]), fun i => by rw [hr]; exact id,
    fun i => .inr (by rw [hr]), hc, h1, h2, h3⟩

theorem Fr.same {s t : St} (ha : t.asrt = true → s.asrt = true) (hA : t.A = s.A) (hT : t.AT = s.AT)
    (hr : t.rtag = s.rtag) (hc : t.ctag = s.ctag)
    (h1 : t.stonRows = s.stonRows) (h2 : t.dtonRows = s.dtonRows) (h3 : t.stonCols = s.stonCols) : Fr s t :=
  .of ha hA hT hr (fun k => by rw [hc]; exact id) h1 h2 h3

theorem Keep.same {s t : St} (ha : t.asrt = true → s.asrt = true) (hA : t.A = s.A) (hT : t.AT = s.AT)
    (hr : t.rtag = s.rtag) (hc : t.ctag = s.ctag)
    (h1 : t.stonRows = s.stonRows) (h2 : t.dtonRows = s.dtonRows) (h3 : t.stonCols = s.stonCols) : Keep s t :=
  (Fr.same ha hA hT hr hc h1 h2 h3).keep

theorem Fr.check (s : St) (b : Bool) : Fr s (s.check b) :=
  .same (fun h => (Bool.and_eq_true_iff.mp (show (s.asrt && b) = true from h)).1) rfl rfl rfl rfl rfl rfl rfl
theorem Fr.flag (s : St) (b : Bool) : Fr s (s.flag b) := .same id rfl rfl rfl rfl rfl rfl rfl
theorem Fr.fuzz (s : St) (b : Bool) : Fr s (s.fuzz b) := .same id rfl rfl rfl rfl rfl rfl rfl
theorem Fr.save (s : St) (r : Rec) : Fr s (s.save r) := .same id rfl rfl rfl rfl rfl rfl rfl

theorem ActOnly.fr {s t : St} (h : ActOnly s t) : Fr s t := by
  obtain ⟨a, u, rfl⟩ := h
  exact .same id rfl rfl rfl rfl rfl rfl rfl

/-- One column tag changes without losing its activity marks. -/
theorem upd_ctag_mono {c : ℕ → CTag} {k : ℕ} {t : CTag} (h : (c k).inactive = true → t.inactive = true) (j : ℕ)
    (hj : (c j).inactive = true) : (upd c k t j).inactive = true := by
  by_cases e : j = k
  · rw [e, upd_same]; exact h (e ▸ hj)
  · rw [upd_ne _ _ e]; exact hj

/-- One row becomes inactive. -/
theorem Fr.deact {s t : St} {i : ℕ} {x : RTag} (hx : x.inactive = true) (ha : t.asrt = true → s.asrt = true)
    (hA : ∀ j, j ≠ i → t.A j = s.A j) (hT : t.AT = s.AT) (hr : t.rtag = upd s.rtag i x) (hc : t.ctag = s.ctag)
    (h1 : t.stonRows = s.stonRows) (h2 : t.dtonRows = s.dtonRows) (h3 : t.stonCols = s.stonCols) : Fr s t := by
  have hi : (t.rtag i).inactive = true := by rw [hr, upd_same]; exact hx
  have hn : ∀ j, j ≠ i → t.rtag j = s.rtag j := fun j hj => by rw [hr, upd_ne _ _ hj]
  refine ⟨ha, fun j => ?_, fun k => .inl (by rw [hT]), fun j hj => ?_, fun j => ?_, fun k => by rw [hc]; exact id, h1, h2, h3⟩
  · by_cases e : j = i
    · exact .inl (e ▸ hi)
    · exact .inr (hA j e)
  · by_cases e : j = i
    · rw [e]; exact hi
    · rw [hn j e]; exact hj
  · by_cases e : j = i
    · exact .inl (e ▸ hi)
    · exact .inr (by rw [hn j e])

/-! ### Bounds and rows -/

theorem setRowToInactive_fr (s : St) (i : ℕ) (val : ℚ) : Fr s (setRowToInactive s i val) :=
  (Fr.check s (!(s.rtag i).inactive)).trans
    (.deact (i := i) (x := { s.rtag i with inactive := true }) rfl id (fun _ _ => rfl) rfl rfl rfl rfl rfl rfl)

theorem fixCol_frq (s : St) (k : ℕ) (val : D) (ck : ℚ) : Fr s (fixCol s k val ck).1 := by
  unfold fixCol
  simp only
  split
  · exact (Fr.check s _).trans (Fr.check _ _)
  · refine ((Fr.check s (decide (0 < s.colSize k))).trans (Fr.check _ (!(s.ctag k).inactive))).trans ?_
    generalize (s.check (decide (0 < s.colSize k))).check (!(s.ctag k).inactive) = t
    refine Fr.trans (t := { (setColToFixed t k).save (.fixedCol k val ck (t.AT k)) with
      ub := upd t.ub k val, lb := upd t.lb k val }) ?_ (updActsFixedCol_only _ _ _ _ _ _ _ _ _).fr
    exact (Fr.check t (!(t.ctag k).inactive)).trans (.of id rfl rfl rfl (upd_ctag_mono (fun _ => rfl)) rfl rfl rfl)

theorem updateLb_fr (s : St) (k : ℕ) (v : D) (row : ℕ) : Fr s (updateLb s k v row).1 := by
  unfold updateLb
  simp only
  split
  · exact Fr.check s _
  · split
    · refine (Fr.check s (!(s.ctag k).inactive)).trans ?_
      generalize s.check (!(s.ctag k).inactive) = t
      have e := (updActsBoundChange_only { t with lb := upd t.lb k v } (t.AT k) (s.lb k) v (!(t.ctag k).lbInf) true).fr
      generalize updActsBoundChange { t with lb := upd t.lb k v } (t.AT k) (s.lb k) v (!(t.ctag k).lbInf) true = w at e ⊢
      refine Fr.trans (t := { t with lb := upd t.lb k v }) (.same id rfl rfl rfl rfl rfl rfl rfl) (e.trans ?_)
      exact .of id rfl rfl rfl (upd_ctag_mono id) rfl rfl rfl
    · exact Fr.check s _

theorem updateUb_fr (s : St) (k : ℕ) (v : D) (row : ℕ) : Fr s (updateUb s k v row).1 := by
  unfold updateUb
  simp only
  split
  · exact Fr.check s _
  · split
    · refine (Fr.check s (!(s.ctag k).inactive)).trans ?_
      generalize s.check (!(s.ctag k).inactive) = t
      have e := (updActsBoundChange_only { t with ub := upd t.ub k v } (t.AT k) (s.ub k) v (!(t.ctag k).ubInf) false).fr
      generalize updActsBoundChange { t with ub := upd t.ub k v } (t.AT k) (s.ub k) v (!(t.ctag k).ubInf) false = w at e ⊢
      refine Fr.trans (t := { t with ub := upd t.ub k v }) (.same id rfl rfl rfl rfl rfl rfl rfl) (e.trans ?_)
      exact .of id rfl rfl rfl (upd_ctag_mono id) rfl rfl rfl
    · exact Fr.check s _

/-! ### Deletions -/

theorem delRowCell_fr (t : RTag) (s : St) (p : Cell) : Fr s (delRowCell t s p) := by
  unfold delRowCell
  split
  · exact .refl s
  · exact .same id rfl rfl rfl rfl rfl rfl rfl

/-- Rows only lose all their cells. -/
theorem Keep.dropRow {s t : St} (ha : t.asrt = true → s.asrt = true) (hA : ∀ i, t.A i = s.A i ∨ t.A i = [])
    (hT : t.AT = s.AT) (hr : t.rtag = s.rtag) (hc : t.ctag = s.ctag)
    (h1 : t.stonRows = s.stonRows) (h2 : t.dtonRows = s.dtonRows) (h3 : t.stonCols = s.stonCols) : Keep s t := by
  refine fun o => ⟨ha o, fun c => ⟨?_, ?_, ?_, by rw [h2]; exact c.dtonNodup, ?_, ?_, by rw [h3]; exact c.colNodup⟩⟩
  · intro i p hi hp hk
    rw [hr] at hi; rw [hc] at hk; rw [h1]
    rcases hA i with e | e
    · exact c.ston i p hi (e ▸ hp) hk
    · rw [e] at hp; cases hp
  · intro i hi hl he
    rw [hr] at hi he; rw [h2]
    rcases hA i with e | e
    · exact c.dton i hi (e ▸ hl) he
    · rw [e] at hl; cases hl
  · intro i hi
    rw [h2] at hi; rw [hr]
    rcases hA i with e | e
    · rw [e]; exact c.dtonMem i hi
    · rw [e]; exact .inr (.inr (by simp))
  · intro k hk hl
    rw [hc] at hk; rw [hT] at hl; rw [h3]
    exact c.col k hk hl
  · intro k hk
    rw [h3] at hk; rw [hT]
    exact c.colMem k hk

theorem delOneRow_keep (s : St) (row : ℕ) : Keep s (delOneRow s row) := by
  unfold delOneRow
  simp only
  refine (Fr.check s (decide (s.rowSize row ≠ -1))).keep.trans ?_
  generalize s.check (decide (s.rowSize row ≠ -1)) = t
  split
  · exact .same id rfl rfl rfl rfl rfl rfl rfl
  · refine Keep.trans (t := { t with nnz := t.nnz - t.rowSize row, rowSize := upd t.rowSize row (-1) })
      (.same id rfl rfl rfl rfl rfl rfl rfl) ?_
    refine ((Fr.foldl _ (delRowCell_fr (t.rtag row)) (t.A row) _).keep).trans ?_
    refine .dropRow id (fun i => ?_) rfl rfl rfl rfl rfl rfl
    by_cases e : i = row
    · exact .inr (by rw [e]; exact upd_same _ _ _)
    · exact .inl (upd_ne _ _ e)

theorem delCompactCol_keep (s : St) (col : ℕ) : Keep s (delCompactCol s col) := by
  unfold delCompactCol
  split
  · exact .refl s
  · rename_i h0
    simp only
    simp only [Bool.or_eq_true, decide_eq_true_eq, not_or] at h0
    -- one column is shortened, and listed if it has one cell left
    have key : ∀ (t : St) (cells : List Cell), (t.asrt = true → s.asrt = true) →
        (t.asrt = true → cells.length ≤ (s.AT col).length) → (t.asrt = true → cells.length = 1 → col ∈ t.stonCols) →
        (t.asrt = true → t.stonCols ≠ s.stonCols → cells.length = 1 ∧ t.stonCols = s.stonCols ++ [col] ∧ (s.AT col).length ≠ 1) →
        t.A = s.A → t.AT = upd s.AT col cells → t.rtag = s.rtag → t.ctag = s.ctag → t.stonRows = s.stonRows →
        t.dtonRows = s.dtonRows → Keep s t := by
      intro t cells ha hle hin hnew hA hT hr hc h1 h2 o
      have hsub : ∀ j ∈ s.stonCols, j ∈ t.stonCols := by
        intro j hj
        by_cases e : t.stonCols = s.stonCols
        · rw [e]; exact hj
        · rw [(hnew o e).2.1]; exact List.mem_append_left _ hj
      refine ⟨ha o, fun c => ⟨?_, ?_, ?_, by rw [h2]; exact c.dtonNodup, ?_, ?_, ?_⟩⟩
      · rw [hr, hA, hc, h1]; exact c.ston
      · rw [hr, hA, h2]; exact c.dton
      · rw [hr, hA, h2]; exact c.dtonMem
      · intro j hj hl
        rw [hc] at hj; rw [hT] at hl
        by_cases e : j = col
        · rw [e, upd_same] at hl; rw [e]; exact hin o hl
        · rw [upd_ne _ _ e] at hl; exact hsub j (c.col j hj hl)
      · intro j hj
        rw [hT]
        by_cases e : j = col
        · rw [e, upd_same]
          by_cases e' : t.stonCols = s.stonCols
          · exact (hle o).trans (c.colMem col (by rw [← e', ← e]; exact hj))
          · rw [(hnew o e').1]
        · rw [upd_ne _ _ e]
          by_cases e' : t.stonCols = s.stonCols
          · exact c.colMem j (e' ▸ hj)
          · rw [(hnew o e').2.1] at hj
            rcases List.mem_append.mp hj with h | h
            · exact c.colMem j h
            · exact absurd (List.mem_singleton.mp h) e
      · by_cases e' : t.stonCols = s.stonCols
        · rw [e']; exact c.colNodup
        · obtain ⟨h4, h5, h6⟩ := hnew o e'
          rw [h5, List.nodup_append]
          refine ⟨c.colNodup, List.nodup_singleton _, fun a ha b hb e => ?_⟩
          rw [List.mem_singleton.mp hb] at e
          have := c.colMem a ha
          rw [e] at this
          have := hle o
          omega
    have hchk : ∀ {a b d : Bool}, (a && b && d) = true → a = true ∧ b = true ∧ d = true := by
      intro a b d h; simpa [and_assoc] using h
    by_cases hz : s.colSize col = 0
    · have e : (if (s.check (decide (s.colSize col ≠ -1))).colSize col = 0 then
          { s.check (decide (s.colSize col ≠ -1)) with
            emptyCols := s.emptyCols ++ [col], AT := upd s.AT col [] }
        else if (s.check (decide (s.colSize col ≠ -1))).colSize col = 1 then
          { s.check (decide (s.colSize col ≠ -1)) with stonCols := s.stonCols ++ [col] }
        else s.check (decide (s.colSize col ≠ -1))) = { s.check (decide (s.colSize col ≠ -1)) with
            emptyCols := s.emptyCols ++ [col], AT := upd s.AT col [] } := if_pos hz
      refine key _ [] ?_ (fun _ => by simp) (fun _ h => by cases h) ?_ ?_ ?_ ?_ ?_ ?_ ?_
      all_goals simp only [St.check] at e ⊢
      all_goals simp only [e]
      all_goals try rfl
      · intro h; exact (hchk h).1
      · exact fun _ h => absurd rfl h
      · funext j
        by_cases hj : j = col
        · rw [hj]; simp
        · simp [upd_ne _ _ hj]
    · by_cases ho : s.colSize col = 1
      · have e : (if (s.check (decide (s.colSize col ≠ -1))).colSize col = 0 then
            { s.check (decide (s.colSize col ≠ -1)) with
              emptyCols := s.emptyCols ++ [col], AT := upd s.AT col [] }
          else if (s.check (decide (s.colSize col ≠ -1))).colSize col = 1 then
            { s.check (decide (s.colSize col ≠ -1)) with stonCols := s.stonCols ++ [col] }
          else s.check (decide (s.colSize col ≠ -1))) =
            { s.check (decide (s.colSize col ≠ -1)) with stonCols := s.stonCols ++ [col] } := by
          rw [if_neg (show ¬ (s.check (decide (s.colSize col ≠ -1))).colSize col = 0 from hz)]
          exact if_pos ho
        refine key _ ((s.AT col).filter (fun p => decide (s.rowSize p.1 ≠ -1))) ?_ (fun _ => List.length_filter_le _ _)
          ?_ ?_ ?_ ?_ ?_ ?_ ?_ ?_
        all_goals simp only [St.check] at e ⊢
        all_goals simp only [e]
        all_goals try rfl
        · intro h; exact (hchk h).1
        · exact fun _ _ => by simp
        · intro h _
          have := (hchk h).2.2
          simp only [upd_same, decide_eq_true_eq] at this
          refine ⟨by omega, trivial, ?_⟩
          intro e'
          exact h0.2 (by rw [ho, e']; rfl)
      · have e : (if (s.check (decide (s.colSize col ≠ -1))).colSize col = 0 then
            { s.check (decide (s.colSize col ≠ -1)) with
              emptyCols := s.emptyCols ++ [col], AT := upd s.AT col [] }
          else if (s.check (decide (s.colSize col ≠ -1))).colSize col = 1 then
            { s.check (decide (s.colSize col ≠ -1)) with stonCols := s.stonCols ++ [col] }
          else s.check (decide (s.colSize col ≠ -1))) = s.check (decide (s.colSize col ≠ -1)) := by
          rw [if_neg (show ¬ (s.check (decide (s.colSize col ≠ -1))).colSize col = 0 from hz)]
          exact if_neg ho
        refine key _ ((s.AT col).filter (fun p => decide (s.rowSize p.1 ≠ -1))) ?_ (fun _ => List.length_filter_le _ _)
          ?_ ?_ ?_ ?_ ?_ ?_ ?_ ?_
        all_goals simp only [St.check] at e ⊢
        all_goals simp only [e]
        all_goals try rfl
        · intro h; exact (hchk h).1
        · intro h h1
          have := (hchk h).2.2
          simp only [upd_same, decide_eq_true_eq] at this
          exact absurd (by omega) ho
        · exact fun _ h => absurd rfl h

theorem deleteInactiveRows_keep (s : St) : Keep s (deleteInactiveRows s) := by
  unfold deleteInactiveRows
  split
  · exact .refl s
  · simp only
    refine (Keep.foldl delOneRow delOneRow_keep s.rowsToDelete s).trans ?_
    generalize s.rowsToDelete.foldl delOneRow s = t
    refine (Keep.foldl delCompactCol delCompactCol_keep (List.range t.n) t).trans ?_
    exact .same id rfl rfl rfl rfl rfl rfl rfl

theorem delOneCol_keep (s : St) (col : ℕ) : Keep s (delOneCol s col) := by
  refine Fr.keep ⟨id, fun _ => .inr rfl, fun k => ?_, fun _ => id, fun _ => .inr rfl, fun _ => id, rfl, rfl, rfl⟩
  by_cases e : k = col
  · exact .inr (by rw [e]; exact upd_same _ _ _)
  · exact .inl (upd_ne _ _ e)

/-- One row is shortened, and listed if it is short and active. -/
theorem Keep.shrinkRow {s t : St} {row : ℕ} {cells : List Cell} (ha : t.asrt = true → s.asrt = true)
    (hA : t.A = upd s.A row cells) (hT : t.AT = s.AT) (hr : t.rtag = s.rtag) (hc : t.ctag = s.ctag)
    (h3 : t.stonCols = s.stonCols) (hle : cells.length ≤ (s.A row).length)
    (hs : t.asrt = true → cells.length = 1 → row ∈ t.stonRows)
    (hd : t.asrt = true → cells.length = 2 → (s.rtag row).eq = true → row ∈ t.dtonRows)
    (h1 : ∀ i ∈ s.stonRows, i ∈ t.stonRows)
    (h2 : t.asrt = true → t.dtonRows = s.dtonRows ∨
      (t.dtonRows = s.dtonRows ++ [row] ∧ row ∉ s.dtonRows ∧ (s.rtag row).eq = true)) : Keep s t := by
  intro o
  have hsub : ∀ j ∈ s.dtonRows, j ∈ t.dtonRows := by
    intro j hj
    rcases h2 o with e | ⟨e, _⟩
    · rw [e]; exact hj
    · rw [e]; exact List.mem_append_left _ hj
  refine ⟨ha o, fun c => ⟨?_, ?_, ?_, ?_, by rw [hc, hT, h3]; exact c.col, by rw [hT, h3]; exact c.colMem,
    by rw [h3]; exact c.colNodup⟩⟩
  · intro i p hi hp hk
    rw [hr] at hi; rw [hc] at hk; rw [hA] at hp
    by_cases e : i = row
    · rw [e, upd_same] at hp; rw [e]; exact hs o (by rw [hp]; rfl)
    · rw [upd_ne _ _ e] at hp; exact h1 i (c.ston i p hi hp hk)
  · intro i hi hl he
    rw [hr] at hi he; rw [hA] at hl
    by_cases e : i = row
    · rw [e, upd_same] at hl; rw [e] at he ⊢; exact hd o hl he
    · rw [upd_ne _ _ e] at hl; exact hsub i (c.dton i hi hl he)
  · intro i hi
    rw [hr]
    have old : i ∈ s.dtonRows → (s.rtag i).eq = true ∨ (s.rtag i).inactive = true ∨ (t.A i).length ≤ 1 := by
      intro hi
      rcases c.dtonMem i hi with e | e | e
      · exact .inl e
      · exact .inr (.inl e)
      · refine .inr (.inr ?_)
        rw [hA]
        by_cases e' : i = row
        · rw [e', upd_same]; rw [e'] at e; exact hle.trans e
        · rw [upd_ne _ _ e']; exact e
    rcases h2 o with e | ⟨e, _, he⟩
    · exact old (e ▸ hi)
    · rw [e] at hi
      rcases List.mem_append.mp hi with h | h
      · exact old h
      · rw [List.mem_singleton.mp h]; exact .inl he
  · rcases h2 o with e | ⟨e, hn, _⟩
    · rw [e]; exact c.dtonNodup
    · rw [e, List.nodup_append]
      refine ⟨c.dtonNodup, List.nodup_singleton _, fun a ha b hb e => ?_⟩
      rw [List.mem_singleton.mp hb] at e
      exact hn (e ▸ ha)

theorem delCompactRow_keep (s : St) (row : ℕ) : Keep s (delCompactRow s row) := by
  unfold delCompactRow
  split
  · exact .refl s
  · simp only
    refine (Fr.check s (decide (s.rowSize row ≠ -1))).keep.trans ?_
    generalize s.check (decide (s.rowSize row ≠ -1)) = s
    by_cases hz : s.rowSize row = 0
    · rw [if_pos hz]
      refine .shrinkRow (row := row) (cells := []) ?_ ?_ rfl rfl rfl rfl (by simp) (fun _ h => by cases h)
        (fun _ h => by cases h) (fun _ h => h) (fun _ => .inl rfl)
      · intro h
        have h : (s.asrt && _ && _) = true := h
        simp only [Bool.and_eq_true] at h; exact h.1.1
      · funext j
        show upd (upd s.A row []) row (((upd s.A row []) row).filter _) j = _
        by_cases e : j = row
        · rw [e]; simp
        · simp [upd_ne _ _ e]
    · rw [if_neg hz]
      by_cases h1 : s.rowSize row = 1
      · rw [if_pos h1]
        refine .shrinkRow (row := row) (cells := (s.A row).filter (fun p => decide (s.colSize p.1 ≠ -1))) ?_ rfl rfl rfl rfl rfl
          (List.length_filter_le _ _) (fun _ _ => List.mem_append_right _ List.mem_cons_self) ?_
          (fun _ h => List.mem_append_left _ h) (fun _ => .inl rfl)
        · intro h
          have h : (s.asrt && _ && _) = true := h
          simp only [Bool.and_eq_true] at h; exact h.1.1
        · intro h hl
          have h : (s.asrt && _ && decide (s.rowSize row = ((upd s.A row _ row).length : ℤ))) = true := h
          rw [upd_same] at h
          simp only [Bool.and_eq_true, decide_eq_true_eq] at h
          have : s.rowSize row = (((s.A row).filter (fun p => decide (s.colSize p.1 ≠ -1))).length : ℤ) := h.2
          rw [hl] at this
          omega
      · rw [if_neg h1]
        by_cases h2 : s.rowSize row = 2 ∧ (s.rtag row).eq = true
        · rw [if_pos h2]
          refine .shrinkRow (row := row) (cells := (s.A row).filter (fun p => decide (s.colSize p.1 ≠ -1))) ?_ rfl rfl rfl rfl rfl
            (List.length_filter_le _ _) ?_ (fun _ _ _ => List.mem_append_right _ List.mem_cons_self)
            (fun _ h => h) (fun h => .inr ⟨rfl, ?_, h2.2⟩)
          · intro h
            have h : (s.asrt && _ && _) = true := h
            simp only [Bool.and_eq_true] at h; exact h.1.1
          · intro h hl
            have h : (s.asrt && _ && decide (s.rowSize row = ((upd s.A row _ row).length : ℤ))) = true := h
            rw [upd_same] at h
            simp only [Bool.and_eq_true, decide_eq_true_eq] at h
            have : s.rowSize row = (((s.A row).filter (fun p => decide (s.colSize p.1 ≠ -1))).length : ℤ) := h.2
            rw [hl] at this
            omega
          · have h : (s.asrt && (!s.dtonRows.contains row) && _) = true := h
            simp only [Bool.and_eq_true] at h
            simpa using h.1.2
        · rw [if_neg h2]
          have hf : (s.check (decide (s.rowSize row = (((s.A row).filter (fun p => decide (s.colSize p.1 ≠ -1))).length : ℤ)))).asrt = true →
              s.rowSize row = (((s.A row).filter (fun p => decide (s.colSize p.1 ≠ -1))).length : ℤ) := by
            intro h
            have h : (s.asrt && _) = true := h
            simp only [Bool.and_eq_true, decide_eq_true_eq] at h
            exact h.2
          have hu : ((upd s.A row ((s.A row).filter (fun p => decide (s.colSize p.1 ≠ -1))) row).length : ℤ) =
            (((s.A row).filter (fun p => decide (s.colSize p.1 ≠ -1))).length : ℤ) := by rw [upd_same]
          refine .shrinkRow (row := row) (cells := (s.A row).filter (fun p => decide (s.colSize p.1 ≠ -1))) ?_ rfl rfl rfl rfl rfl
            (List.length_filter_le _ _) ?_ ?_ (fun _ h => h) (fun h => .inl rfl)
          · intro h
            have h : (s.asrt && _) = true := h
            simp only [Bool.and_eq_true] at h; exact h.1
          · intro h hl
            have h : (s.asrt && decide (s.rowSize row = ((upd s.A row _ row).length : ℤ))) = true := h
            rw [upd_same] at h
            simp only [Bool.and_eq_true, decide_eq_true_eq] at h
            have : s.rowSize row = (((s.A row).filter (fun p => decide (s.colSize p.1 ≠ -1))).length : ℤ) := h.2
            rw [hl] at this
            omega
          · intro h hl he
            have h : (s.asrt && decide (s.rowSize row = ((upd s.A row _ row).length : ℤ))) = true := h
            rw [upd_same] at h
            simp only [Bool.and_eq_true, decide_eq_true_eq] at h
            have : s.rowSize row = (((s.A row).filter (fun p => decide (s.colSize p.1 ≠ -1))).length : ℤ) := h.2
            rw [hl] at this
            exact absurd ⟨this, he⟩ h2

theorem deleteInactiveCols_keep (s : St) : Keep s (deleteInactiveCols s) := by
  unfold deleteInactiveCols
  simp only
  refine (Keep.foldl delOneCol delOneCol_keep s.fixedCols s).trans ?_
  generalize s.fixedCols.foldl delOneCol s = t
  refine (Keep.foldl delOneCol delOneCol_keep t.subCols t).trans ?_
  generalize t.subCols.foldl delOneCol t = t
  refine (Keep.foldl delCompactRow delCompactRow_keep (List.range t.m) t).trans ?_
  exact .same id rfl rfl rfl rfl rfl rfl rfl

theorem shiftSides_fr (v : D) (s : St) (p : Cell) : Fr s (shiftSides v s p) := by
  unfold shiftSides
  split
  · exact .refl s
  · exact .same id rfl rfl rfl rfl rfl rfl rfl

theorem delFixedCol_fr (s : St) (k : ℕ) : Fr s (delFixedCol s k) := by
  unfold delFixedCol
  simp only
  refine (((Fr.check s (s.ctag k).fixed).trans (Fr.check _ (!D.isInf (s.ub k)))).trans
    (Fr.check _ (D.eqb (s.lb k) (s.ub k)))).trans ?_
  generalize ((s.check (s.ctag k).fixed).check (!D.isInf (s.ub k))).check (D.eqb (s.lb k) (s.ub k)) = t
  split
  · exact .refl t
  · exact (Fr.foldl _ (shiftSides_fr (t.ub k)) (t.AT k) t).trans (.same id rfl rfl rfl rfl rfl rfl rfl)

theorem delCols_keep (s : St) : Keep s (deleteInactiveCols (deleteFixedCols s)) :=
  (Fr.foldl delFixedCol delFixedCol_fr s.fixedCols s).keep.trans (deleteInactiveCols_keep _)

theorem delBoth_keep (s : St) : Keep s (deleteInactiveCols (deleteFixedCols (deleteInactiveRows s))) :=
  (deleteInactiveRows_keep s).trans (delCols_keep _)

/-! ### The trivial explorers -/

theorem emptyRowLoop_frq (L : List ℕ) (s : St) : Fr s (emptyRowLoop L s).1 := by
  induction L generalizing s with
  | nil => exact .refl s
  | cons row rest ih =>
    unfold emptyRowLoop
    simp only
    refine (Fr.check s (decide (s.rowSize row = 0))).trans ?_
    split
    · exact .refl _
    · refine Fr.trans ?_ (ih _)
      exact .deact (i := row) (x := { s.rtag row with inactive := true }) rfl id (fun _ _ => rfl) rfl rfl rfl rfl rfl rfl

theorem removeEmptyRows_keep (s : St) : Keep s (removeEmptyRows s).1 := by
  unfold removeEmptyRows
  simp only
  split
  · exact (emptyRowLoop_frq _ _).keep
  · exact (emptyRowLoop_frq _ _).keep.trans (.same id rfl rfl rfl rfl rfl rfl rfl)

theorem emptyColLoop_frq (L : List ℕ) (s : St) : Fr s (emptyColLoop L s).1 := by
  induction L generalizing s with
  | nil => exact .refl s
  | cons k rest ih =>
    unfold emptyColLoop
    simp only
    refine (Fr.check s (decide (s.colSize k = 0) && !(s.ctag k).inactive)).trans ?_
    split
    · exact .refl _
    · refine Fr.trans ?_ (ih _)
      exact .of id rfl rfl rfl (upd_ctag_mono (fun _ => rfl)) rfl rfl rfl

theorem removeEmptyCols_keep (s : St) : Keep s (removeEmptyCols s).1 := by
  unfold removeEmptyCols
  simp only
  split
  · exact (emptyColLoop_frq _ _).keep
  · exact (emptyColLoop_frq _ _).keep.trans (.same id rfl rfl rfl rfl rfl rfl rfl)

theorem closeBoundsLoop_fr (L : List ℕ) (s : St) : Fr s (closeBoundsLoop L s).1 := by
  induction L generalizing s with
  | nil => exact .refl s
  | cons k rest ih =>
    unfold closeBoundsLoop
    split
    · exact ih s
    · simp only
      refine (Fr.check s (!(s.ctag k).inactive)).trans ?_
      split
      · exact ((Fr.fuzz _ _).trans (fixCol_frq _ _ _ _)).trans (ih _)
      · split
        · exact .refl _
        · exact ih _

theorem closeBounds_keep (s : St) : Keep s (closeBounds s).1 := by
  unfold closeBounds
  simp only
  split
  · exact (closeBoundsLoop_fr _ _).keep
  · exact (closeBoundsLoop_fr _ _).keep.trans (delCols_keep _)

theorem dualFixStep_fr (a : St × List (ℕ × Bool) × Status) (k : ℕ) : Fr a.1 (dualFixStep a k).1 := by
  unfold dualFixStep
  simp only
  split
  · exact .refl _
  · split
    · exact .refl _
    · exact .refl _
    · exact (Fr.check _ _).trans (fixCol_frq _ _ _ _)
    · exact (Fr.check _ _).trans (fixCol_frq _ _ _ _)
    · exact .refl _
    · exact .refl _

theorem dualFixFold_fr (L : List ℕ) (a : St × List (ℕ × Bool) × Status) : Fr a.1 (L.foldl dualFixStep a).1 := by
  induction L generalizing a with
  | nil => exact .refl _
  | cons k L ih => exact (dualFixStep_fr a k).trans (ih _)

theorem fixColInfTail_fr (s : St) (k : ℕ) (pos : Bool) (bound v : D) : Fr s (fixColInfTail s k pos bound v) := by
  unfold fixColInfTail
  simp only
  have h : Fr s (saveFixedColInf s k pos bound) := by
    unfold saveFixedColInf
    exact (((Fr.flag s _).trans (Fr.check _ _)).trans (Fr.save _ _)).trans (Fr.fuzz _ _)
  have h2 : Fr (saveFixedColInf s k pos bound) (deactivateRows (saveFixedColInf s k pos bound) ((saveFixedColInf s k pos bound).AT k)) := by
    refine Fr.foldl _ (fun s p => ?_) _ _
    split
    · exact .refl s
    · exact setRowToInactive_fr _ _ _
  refine (h.trans h2).trans ?_
  refine ⟨id, fun _ => .inr rfl, fun j => ?_, fun _ => id, fun _ => .inr rfl, upd_ctag_mono (fun _ => rfl), rfl, rfl, rfl⟩
  by_cases e : j = k
  · exact .inr (by rw [e]; exact upd_same _ _ _)
  · exact .inl (upd_ne _ _ e)

theorem fixColInf_fr (s : St) (p : ℕ × Bool) : Fr s (if p.2 then fixColPosInf s p.1 else fixColNegInf s p.1) := by
  split
  · exact (((Fr.check s _).trans (Fr.check _ (s.ctag p.1).ubInf)).trans (Fr.check _ (decide (s.up p.1 = 0)))).trans
      (fixColInfTail_fr _ p.1 true (s.lb p.1) .pinf)
  · exact (((Fr.check s _).trans (Fr.check _ (s.ctag p.1).lbInf)).trans (Fr.check _ (decide (s.down p.1 = 0)))).trans
      (fixColInfTail_fr _ p.1 false (s.ub p.1) .ninf)

theorem simpleDualFix_keep (s : St) : Keep s (simpleDualFix s).1 := by
  unfold simpleDualFix
  simp only
  refine (Fr.check s (decide (s.emptyCols = []))).keep.trans ?_
  generalize s.check (decide (s.emptyCols = [])) = t
  refine (dualFixFold_fr (List.range t.n) (t, [], UNCHANGED)).keep.trans ?_
  exact (Fr.foldl _ fixColInf_fr _ _).keep.trans (delBoth_keep _)

/-! ### Singleton rows -/

theorem removeStonRow_fr (s : St) (row : ℕ) : Fr s (removeStonRow s row).1 := by
  unfold removeStonRow
  split
  · exact .refl s
  · rename_i k aik rest _
    simp only
    refine (Fr.check s (!(s.rtag row).inactive && !(s.ctag k).subst)).trans ?_
    generalize s.check (!(s.rtag row).inactive && !(s.ctag k).subst) = t
    split
    · exact .refl t
    · refine (Fr.check t (!(t.ctag k).inactive)).trans ?_
      generalize t.check (!(t.ctag k).inactive) = t
      split
      · refine (Fr.check t (D.eqb (s.lhs row) (s.rhs row))).trans ?_
        generalize t.check (D.eqb (s.lhs row) (s.rhs row)) = t
        have h := fixCol_frq t k (D.divq (s.rhs row) aik) (t.c k)
        split
        · exact h
        · refine h.trans ?_
          generalize (fixCol t k (D.divq (s.rhs row) aik) (t.c k)).1 = t
          exact .deact (i := row) (x := { inactive := true }) rfl id (fun j hj => upd_ne _ _ hj) rfl rfl rfl rfl rfl rfl
      · have hU : ∀ (b : Bool) (t : St) (v : D), Fr t (if b then (t, UNCHANGED) else updateUb t k v row).1 := by
          intro b t v; cases b
          · exact updateUb_fr _ _ _ _
          · exact .refl t
        have hL : ∀ (b : Bool) (t : St) (v : D), Fr t (if b then (t, UNCHANGED) else updateLb t k v row).1 := by
          intro b t v; cases b
          · exact updateLb_fr _ _ _ _
          · exact .refl t
        split
        · have h1 := hU (t.rtag row).rhsInf t (D.divq (s.rhs row) aik)
          generalize (if (t.rtag row).rhsInf = true then (t, UNCHANGED) else updateUb t k (D.divq (s.rhs row) aik) row) = r at h1 ⊢
          have h2 := hL (t.rtag row).lhsInf r.1 (D.divq (s.lhs row) aik)
          generalize (if (t.rtag row).lhsInf = true then (r.1, UNCHANGED) else updateLb r.1 k (D.divq (s.lhs row) aik) row) = r' at h2 ⊢
          split_ifs
          · exact h1
          · exact h1.trans h2
          · exact (h1.trans h2).trans (setRowToInactive_fr _ _ _)
        · have h1 := hL (t.rtag row).rhsInf t (D.divq (s.rhs row) aik)
          generalize (if (t.rtag row).rhsInf = true then (t, UNCHANGED) else updateLb t k (D.divq (s.rhs row) aik) row) = r at h1 ⊢
          have h2 := hU (t.rtag row).lhsInf r.1 (D.divq (s.lhs row) aik)
          generalize (if (t.rtag row).lhsInf = true then (r.1, UNCHANGED) else updateUb r.1 k (D.divq (s.lhs row) aik) row) = r' at h2 ⊢
          split_ifs
          · exact h1
          · exact h1.trans h2
          · exact (h1.trans h2).trans (setRowToInactive_fr _ _ _)

/-- Nothing is left to do for a row of the list of singleton rows. -/
def StonDone (s : St) (i : ℕ) : Prop :=
  (s.rtag i).inactive = true ∨ ∀ p, s.A i = [p] → (s.ctag p.1).inactive = true

theorem Fr.done {s t : St} (h : Fr s t) {i : ℕ} (d : StonDone s i) : StonDone t i := by
  rcases d with d | d
  · exact .inl (h.row i d)
  · rcases h.A i with e | e
    · exact .inl e
    · exact .inr (fun p hp => h.col _ (d p (e ▸ hp)))

theorem setRowToInactive_done (s : St) (i : ℕ) (v : ℚ) : StonDone (setRowToInactive s i v) i :=
  .inl (by show (upd s.rtag i _ i).inactive = true; rw [upd_same])

theorem removeStonRow_done (s : St) (row : ℕ) (h : (removeStonRow s row).2 ≠ INFEASIBLE) :
    StonDone (removeStonRow s row).1 row := by
  revert h
  unfold removeStonRow
  split
  · rename_i hA
    exact fun _ => .inr (fun p hp => by rw [hA] at hp; cases hp)
  · rename_i k aik rest hA
    simp only
    have hA : (s.check (!(s.rtag row).inactive && !(s.ctag k).subst)).A row = (k, aik) :: rest := hA
    generalize s.check (!(s.rtag row).inactive && !(s.ctag k).subst) = t at hA ⊢
    split
    · rename_i hf
      refine fun _ => .inr (fun p hp => ?_)
      have hp : t.A row = [p] := hp
      rw [hA] at hp
      have : (k, aik) = p := (List.cons.inj hp).1
      show (t.ctag p.1).inactive = true
      rw [← this]
      simp [CTag.inactive, hf]
    · generalize t.check (!(t.ctag k).inactive) = t
      split
      · generalize t.check (D.eqb (s.lhs row) (s.rhs row)) = t
        split
        · exact fun h => absurd rfl h
        · exact fun _ => .inl (by show (upd _ row ({ inactive := true } : RTag) row).inactive = true; rw [upd_same])
      · split
        · generalize (if (t.rtag row).rhsInf = true then (t, UNCHANGED) else updateUb t k (D.divq (s.rhs row) aik) row) = r
          generalize (if (t.rtag row).lhsInf = true then (r.1, UNCHANGED) else updateLb r.1 k (D.divq (s.lhs row) aik) row) = r'
          split_ifs
          · exact fun h => absurd rfl h
          · exact fun h => absurd rfl h
          · exact fun _ => setRowToInactive_done _ _ _
        · generalize (if (t.rtag row).rhsInf = true then (t, UNCHANGED) else updateLb t k (D.divq (s.rhs row) aik) row) = r
          generalize (if (t.rtag row).lhsInf = true then (r.1, UNCHANGED) else updateUb r.1 k (D.divq (s.lhs row) aik) row) = r'
          split_ifs
          · exact fun h => absurd rfl h
          · exact fun h => absurd rfl h
          · exact fun _ => setRowToInactive_done _ _ _

theorem stonEqLoop_fr (L : List ℕ) (s : St) : Fr s (stonEqLoop L s).1 := by
  induction L generalizing s with
  | nil => exact .refl s
  | cons row rest ih =>
    unfold stonEqLoop
    split
    · exact ih s
    · simp only
      split
      · exact removeStonRow_fr s row
      · exact (removeStonRow_fr s row).trans (ih _)

theorem stonIneqLoop_fr (L : List ℕ) (s : St) : Fr s (stonIneqLoop L s).1 := by
  induction L generalizing s with
  | nil => exact .refl s
  | cons row rest ih =>
    unfold stonIneqLoop
    split
    · exact ih s
    · simp only
      split
      · exact removeStonRow_fr s row
      · exact (removeStonRow_fr s row).trans (ih _)

/-- After the first loop the listed equalities are done. -/
theorem stonEqLoop_done (L : List ℕ) (s : St) (h : (stonEqLoop L s).2 ≠ INFEASIBLE) :
    ∀ i ∈ L, StonDone (stonEqLoop L s).1 i ∨ ((stonEqLoop L s).1.rtag i).eq = false := by
  induction L generalizing s with
  | nil => exact fun _ h => by cases h
  | cons row rest ih =>
    have keepEq : ∀ t, (t.rtag row).eq = false ∨ StonDone t row →
        StonDone (stonEqLoop rest t).1 row ∨ ((stonEqLoop rest t).1.rtag row).eq = false := by
      intro t ht
      rcases ht with ht | ht
      · rcases (stonEqLoop_fr rest t).eq row with e | e
        · exact .inl (.inl e)
        · exact .inr (e.trans ht)
      · exact .inl ((stonEqLoop_fr rest t).done ht)
    revert h
    unfold stonEqLoop
    split
    · rename_i hc
      intro h i hi
      rcases List.mem_cons.mp hi with rfl | hi
      · refine keepEq s ?_
        rw [Bool.or_eq_true] at hc
        rcases hc with e | e
        · exact .inl (by simpa using e)
        · exact .inr (.inl e)
      · exact ih s h i hi
    · simp only
      split
      · exact fun h => absurd rfl h
      · rename_i hne
        intro h i hi
        rcases List.mem_cons.mp hi with rfl | hi
        · exact keepEq _ (.inr (removeStonRow_done s i hne))
        · exact ih _ h i hi

/-- After the second loop all listed rows are done. -/
theorem stonIneqLoop_done (L : List ℕ) (s : St) (h : (stonIneqLoop L s).2 ≠ INFEASIBLE)
    (h0 : ∀ i ∈ L, StonDone s i ∨ (s.rtag i).eq = false) : ∀ i ∈ L, StonDone (stonIneqLoop L s).1 i := by
  induction L generalizing s with
  | nil => exact fun _ h => by cases h
  | cons row rest ih =>
    revert h
    unfold stonIneqLoop
    split
    · rename_i hc
      intro h i hi
      rcases List.mem_cons.mp hi with rfl | hi
      · refine (stonIneqLoop_fr rest s).done ?_
        rw [Bool.or_eq_true] at hc
        rcases hc with e | e
        · exact .inl e
        · exact (h0 i List.mem_cons_self).resolve_right (by rw [e]; simp)
      · exact ih s h (fun j hj => h0 j (List.mem_cons_of_mem _ hj)) i hi
    · simp only
      split
      · exact fun h => absurd rfl h
      · rename_i hne
        intro h i hi
        rcases List.mem_cons.mp hi with rfl | hi
        · exact (stonIneqLoop_fr rest _).done (removeStonRow_done s i hne)
        · refine ih _ h (fun j hj => ?_) i hi
          rcases h0 j (List.mem_cons_of_mem _ hj) with e | e
          · exact .inl ((removeStonRow_fr s row).done e)
          · rcases (removeStonRow_fr s row).eq j with e' | e'
            · exact .inl (.inl e')
            · exact .inr (e'.trans e)

theorem removeStonRows_keep (s : St) : Keep s (removeStonRows s).1 := by
  unfold removeStonRows
  split
  · exact .refl s
  · simp only
    split
    · exact (stonEqLoop_fr _ _).keep
    · rename_i h1
      split
      · exact ((stonEqLoop_fr _ _).trans (stonIneqLoop_fr _ _)).keep
      · rename_i h2
        have f := (stonEqLoop_fr s.stonRows s).trans (stonIneqLoop_fr s.stonRows _)
        have d := stonIneqLoop_done _ _ h2 (stonEqLoop_done _ _ h1)
        generalize (stonIneqLoop s.stonRows (stonEqLoop s.stonRows s).1).1 = t at f d ⊢
        refine f.keep.trans (Keep.trans (t := { t with stonRows := [] }) (fun o => ⟨o, fun c => ?_⟩) (delBoth_keep _))
        refine ⟨fun i p hi hp hk => ?_, c.dton, c.dtonMem, c.dtonNodup, c.col, c.colMem, c.colNodup⟩
        have hi : (t.rtag i).inactive = false := hi
        have hp : t.A i = [p] := hp
        have hk : (t.ctag p.1).inactive = false := hk
        have hm := c.ston i p hi hp hk
        rw [f.ston] at hm
        rcases d i hm with e | e
        · rw [hi] at e; cases e
        · rw [e p hp] at hk; cases hk

theorem stonRowsLoop_keep (fuel : ℕ) (s : St) : Keep s (stonRowsLoop fuel s).1 := by
  induction fuel generalizing s with
  | zero => exact (Fr.flag s true).keep
  | succ fuel ih =>
    unfold stonRowsLoop
    simp only
    split
    · exact removeStonRows_keep s
    · split
      · exact (removeStonRows_keep s).trans (ih _)
      · exact removeStonRows_keep s

theorem trivialHead_keep (stgs : Settings) (s : St) : Keep s (trivialHead stgs s).1 := by
  unfold trivialHead
  simp only
  split
  · exact closeBounds_keep s
  · split
    · exact ((closeBounds_keep s).trans (removeEmptyCols_keep _)).trans (simpleDualFix_keep _)
    · exact closeBounds_keep s

theorem runTrivial_keep (stgs : Settings) (s : St) : Keep s (runTrivial stgs s).1 := by
  unfold runTrivial
  simp only
  have h := trivialHead_keep stgs s
  split
  · exact h
  · split
    · exact h
    · have h2 := h.trans (stonRowsLoop_keep ((trivialHead stgs s).1.m + 2) _)
      split
      · exact h2
      · have h3 := h2.trans (removeEmptyRows_keep _)
        split
        · exact h3
        · have h4 := h3.trans (removeEmptyCols_keep _)
          split
          · exact h4
          · exact h4.trans (((Fr.check _ _).trans (Fr.check _ _)).trans (Fr.check _ _)).keep

end Verif
