import Verif.Model.DelMat
import Verif.Lemmas.Mat

/-! Helper lemmas about deletion in the arrays. -/

namespace Verif

/-- Cells `j .. j + cnt - 1`. -/
def Mat.seg (A : Mat ℚ) (j cnt : ℕ) : List Cell := (List.range cnt).map fun k => A.cell (j + k)

theorem Mat.rowOf_seg (A : Mat ℚ) (i : ℕ) : A.rowOf i = A.seg (A.ps i) (A.pe i - A.ps i) := rfl

theorem Mat.seg_succ (A : Mat ℚ) (j cnt : ℕ) : A.seg j (cnt + 1) = A.cell j :: A.seg (j + 1) cnt := by
  unfold Mat.seg
  rw [List.range_succ_eq_map, List.map_cons, List.map_map]
  refine congrArg₂ _ rfl (List.map_congr_left (fun k _ => ?_))
  show A.cell (j + (k + 1)) = A.cell (j + 1 + k)
  congr 1; omega

theorem Mat.seg_congr {A B : Mat ℚ} {j cnt : ℕ} (h : ∀ k, j ≤ k → k < j + cnt → B.cell k = A.cell k) :
    B.seg j cnt = A.seg j cnt :=
  List.map_congr_left (fun k hk => h _ (by omega) (by have := List.mem_range.mp hk; omega))

theorem Mat.seg_length (A : Mat ℚ) (j cnt : ℕ) : (A.seg j cnt).length = cnt := by simp [Mat.seg]

/-- The cells that stay, in order; nothing outside the range is touched. -/
theorem Mat.compLoop_spec (size : ℕ → ℤ) (lim : ℕ) (cnt : ℕ) : ∀ (j shift : ℕ) (A : Mat ℚ), shift ≤ j →
    j + cnt ≤ A.nAlloc → (∀ p ∈ A.seg j cnt, p.1 < lim) →
    ∃ B sh, Mat.compLoop size lim j shift cnt A = some (B, sh) ∧ B = { A with cell := B.cell } ∧
      (∀ k, k < j - shift ∨ j + cnt ≤ k → B.cell k = A.cell k) ∧
      ((A.seg j cnt).filter (fun p => decide (size p.1 ≠ -1))).length + sh = cnt + shift ∧
      B.seg (j - shift) ((A.seg j cnt).filter (fun p => decide (size p.1 ≠ -1))).length =
        (A.seg j cnt).filter (fun p => decide (size p.1 ≠ -1)) := by
  induction cnt with
  | zero =>
    intro j shift A _ _ _
    exact ⟨A, shift, rfl, rfl, fun _ _ => rfl, by simp [Mat.seg], by simp [Mat.seg]⟩
  | succ cnt ih =>
    intro j shift A hsh ha hp
    rw [Mat.seg_succ] at hp ⊢
    have hg : A.getCell j = some (A.cell j) := by unfold Mat.getCell; rw [if_pos (by omega)]
    have hl := hp _ List.mem_cons_self
    have hp := fun p h => hp p (List.mem_cons_of_mem _ h)
    rw [Mat.compLoop, hg]
    simp only [Option.bind_eq_bind, Option.bind_some, guard, if_pos hl]
    by_cases h : size (A.cell j).1 = -1
    · obtain ⟨B, sh, e, h1, h2, h3, h4⟩ := ih (j + 1) (shift + 1) A (by omega) (by omega) hp
      have es : j + 1 - (shift + 1) = j - shift := by omega
      rw [es] at h2 h4
      refine ⟨B, sh, ?_, h1, fun k hk => h2 k (by omega), ?_, ?_⟩
      · simpa [h] using e
      · rw [List.filter_cons_of_neg (by simp [h])]; omega
      · rw [List.filter_cons_of_neg (by simp [h])]; exact h4
    · have hs : A.setCell (j - shift) (A.cell j) =
          some { A with cell := Function.update A.cell (j - shift) (A.cell j) } := by
        unfold Mat.setCell; rw [if_pos (by omega)]
      have hseg : Mat.seg { A with cell := Function.update A.cell (j - shift) (A.cell j) } (j + 1) cnt =
          A.seg (j + 1) cnt :=
        Mat.seg_congr (fun k hk _ => Function.update_of_ne (by omega) _ _)
      obtain ⟨B, sh, e, h1, h2, h3, h4⟩ := ih (j + 1) shift
        { A with cell := Function.update A.cell (j - shift) (A.cell j) } (by omega)
        (by show j + 1 + cnt ≤ A.nAlloc; omega) (by rw [hseg]; exact hp)
      rw [hseg] at h3 h4
      refine ⟨B, sh, ?_, ?_, fun k hk => ?_, ?_, ?_⟩
      · simpa [h, hs] using e
      · rw [h1]
      · rw [h2 k (by omega)]
        exact Function.update_of_ne (by omega) _ _
      · rw [List.filter_cons_of_pos (by simp [h]), List.length_cons]; omega
      · rw [List.filter_cons_of_pos (by simp [h]), List.length_cons, Mat.seg_succ]
        refine congrArg₂ _ ?_ ?_
        · rw [h2 _ (by omega)]; exact Function.update_self ..
        · rw [show j - shift + 1 = j + 1 - shift by omega]; exact h4

/-- Compaction of row `r`: the row is filtered, the other rows and the layout stay. -/
theorem Mat.compact_spec {size : ℕ → ℤ} {lim : ℕ} {A : Mat ℚ} (hA : A.Layout) {r : ℕ} (hr : r < A.m)
    (hp : ∀ p ∈ A.rowOf r, p.1 < lim) :
    ∃ B sh, Mat.compact size lim A r = some (B, sh) ∧ B.m = A.m ∧ B.Layout ∧
      B.rowOf r = (A.rowOf r).filter (fun p => decide (size p.1 ≠ -1)) ∧
      (∀ i, i < A.m → i ≠ r → B.rowOf i = A.rowOf i) ∧ B.ps = A.ps ∧
      B.pe r - B.ps r = ((A.rowOf r).filter (fun p => decide (size p.1 ≠ -1))).length ∧ B.ps r ≤ B.pe r ∧
      ((A.rowOf r).length : ℤ) - ((A.rowOf r).filter (fun p => decide (size p.1 ≠ -1))).length = sh := by
  have hle := hA.le r hr
  have hall := hA.pe_le_alloc hr
  obtain ⟨B, sh, e, h1, h2, h3, h4⟩ := Mat.compLoop_spec size lim (A.pe r - A.ps r) (A.ps r) 0 A (by omega) (by omega) hp
  rw [Nat.sub_zero] at h2 h4
  rw [← Mat.rowOf_seg] at h3 h4
  have h3 : ((A.rowOf r).filter (fun p => decide (size p.1 ≠ -1))).length + sh = A.pe r - A.ps r := h3
  have eps : B.ps = A.ps := by rw [h1]
  have epe : B.pe = A.pe := by rw [h1]
  have em : B.m = A.m := by rw [h1]
  have eal : B.nAlloc = A.nAlloc := by rw [h1]
  refine ⟨B.setRange r (B.ps r) (B.pe r - sh), sh, ?_, em, ?_, ?_, fun i hi hne => ?_, ?_, ?_, ?_, ?_⟩
  · unfold Mat.compact; rw [e]; rfl
  · refine ⟨fun i hi => ?_, fun i hi => ?_, ?_⟩
    · show Function.update B.ps r (B.ps r) i ≤ Function.update B.pe r (B.pe r - sh) i
      rw [Function.update_eq_self]
      by_cases hir : i = r
      · subst hir; rw [Function.update_self, eps, epe]; omega
      · rw [Function.update_of_ne hir, eps, epe]; exact hA.le i (em ▸ hi)
    · show Function.update B.pe r (B.pe r - sh) i ≤ Function.update B.ps r (B.ps r) (i + 1)
      rw [Function.update_eq_self]
      have := hA.next i (em ▸ hi)
      by_cases hir : i = r
      · subst hir; rw [Function.update_self, eps, epe]; omega
      · rw [Function.update_of_ne hir, eps, epe]; exact this
    · show Function.update B.ps r (B.ps r) B.m ≤ B.nAlloc
      rw [Function.update_eq_self, eps, em, eal]; exact hA.alloc
  · rw [Mat.rowOf_seg]
    show Mat.seg _ (Function.update B.ps r (B.ps r) r) (Function.update B.pe r (B.pe r - sh) r -
      Function.update B.ps r (B.ps r) r) = _
    rw [Function.update_self, Function.update_self, eps, epe]
    have : A.pe r - sh - A.ps r = ((A.rowOf r).filter (fun p => decide (size p.1 ≠ -1))).length := by omega
    rw [this]
    exact h4
  · refine Mat.rowOf_congr ?_ ?_ (fun k hk hk' => ?_)
    · show Function.update B.ps r (B.ps r) i = _
      rw [Function.update_eq_self, eps]
    · show Function.update B.pe r (B.pe r - sh) i = _
      rw [Function.update_of_ne hne, epe]
    · refine h2 k ?_
      rcases Nat.lt_or_gt_of_ne hne with h | h
      · have := hA.pe_le_ps h (by omega); omega
      · have := hA.pe_le_ps h (by omega); omega
  · show Function.update B.ps r (B.ps r) = _
    rw [Function.update_eq_self, eps]
  · show Function.update B.pe r (B.pe r - sh) r - Function.update B.ps r (B.ps r) r = _
    rw [Function.update_self, Function.update_self, eps, epe]; omega
  · show Function.update B.ps r (B.ps r) r ≤ Function.update B.pe r (B.pe r - sh) r
    rw [Function.update_self, Function.update_self, eps, epe]; omega
  · have : (A.rowOf r).length = A.pe r - A.ps r := by rw [Mat.rowOf_seg, Mat.seg_length]
    rw [this]; omega

/-- Emptying row `r`. -/
theorem Mat.clear_spec {A : Mat ℚ} (hA : A.Layout) {r : ℕ} (hr : r < A.m) :
    (A.setRange r (A.ps r) (A.ps r)).Layout ∧ (A.setRange r (A.ps r) (A.ps r)).rowOf r = [] ∧
      ∀ i, i ≠ r → (A.setRange r (A.ps r) (A.ps r)).rowOf i = A.rowOf i := by
  refine ⟨⟨fun i hi => ?_, fun i hi => ?_, ?_⟩, ?_, fun i hne => ?_⟩
  · show Function.update A.ps r (A.ps r) i ≤ Function.update A.pe r (A.ps r) i
    rw [Function.update_eq_self]
    by_cases hir : i = r
    · subst hir; rw [Function.update_self]
    · rw [Function.update_of_ne hir]; exact hA.le i hi
  · show Function.update A.pe r (A.ps r) i ≤ Function.update A.ps r (A.ps r) (i + 1)
    rw [Function.update_eq_self]
    have h1 := hA.next i hi
    have h2 := hA.le i hi
    by_cases hir : i = r
    · subst hir; rw [Function.update_self]; omega
    · rw [Function.update_of_ne hir]; exact h1
  · show Function.update A.ps r (A.ps r) A.m ≤ A.nAlloc
    rw [Function.update_eq_self]; exact hA.alloc
  · rw [Mat.rowOf_seg]
    show Mat.seg _ _ (Function.update A.pe r (A.ps r) r - Function.update A.ps r (A.ps r) r) = []
    rw [Function.update_self, Function.update_self, Nat.sub_self]; rfl
  · refine Mat.rowOf_congr ?_ ?_ (fun _ _ _ => rfl)
    · show Function.update A.ps r (A.ps r) i = _
      rw [Function.update_eq_self]
    · show Function.update A.pe r (A.ps r) i = _
      rw [Function.update_of_ne hne]

/-- The rows of a matrix in memory, as lists. -/
def Mat.lists (A : Mat ℚ) (i : ℕ) : List Cell := if i < A.m then A.rowOf i else []

/-- The state that the memory represents. -/
def Arrays.view (M : Arrays) : St := { M.s with A := M.A.lists, AT := M.AT.lists }

/-- Layout and ranges of the two matrices. -/
structure Arrays.OK (M : Arrays) : Prop where
  rows : M.A.m = M.s.m
  cols : M.AT.m = M.s.n
  layA : M.A.Layout
  layT : M.AT.Layout
  inA : ∀ i < M.A.m, ∀ p ∈ M.A.rowOf i, p.1 < M.AT.m
  inT : ∀ k < M.AT.m, ∀ p ∈ M.AT.rowOf k, p.1 < M.A.m

theorem Mat.lists_eq {A B : Mat ℚ} {r : ℕ} {l : List Cell} (hm : B.m = A.m) (hr : r < A.m) (h : B.rowOf r = l)
    (ho : ∀ i, i < A.m → i ≠ r → B.rowOf i = A.rowOf i) : B.lists = upd A.lists r l := by
  funext i
  unfold Mat.lists
  rw [hm]
  by_cases hi : i = r
  · subst hi; rw [upd_same, if_pos hr, h]
  · rw [upd_ne _ _ hi]
    split
    · exact ho i ‹_› hi
    · rfl

theorem Arrays.rowLoop_spec (A : Mat ℚ) (n : ℕ) (t : RTag) (cnt : ℕ) : ∀ (j : ℕ) (s : St), j + cnt ≤ A.nAlloc →
    (∀ p ∈ A.seg j cnt, p.1 < n) →
    Arrays.rowLoop A n t j cnt s = some ((A.seg j cnt).foldl (delRowCell t) s) := by
  induction cnt with
  | zero => intro j s _ _; rfl
  | succ cnt ih =>
    intro j s ha hp
    rw [Mat.seg_succ] at hp ⊢
    have hg : A.getCell j = some (A.cell j) := by unfold Mat.getCell; rw [if_pos (by omega)]
    rw [Arrays.rowLoop, hg]
    simp only [Option.bind_eq_bind, Option.bind_some, guard, if_pos (hp _ List.mem_cons_self)]
    exact ih (j + 1) _ (by omega) (fun p h => hp p (List.mem_cons_of_mem _ h))

theorem Arrays.colLoop_spec (AT : Mat ℚ) (m : ℕ) (cnt : ℕ) : ∀ (j : ℕ) (sz : ℕ → ℤ), j + cnt ≤ AT.nAlloc →
    (∀ p ∈ AT.seg j cnt, p.1 < m) →
    Arrays.colLoop AT m j cnt sz = some ((AT.seg j cnt).foldl (fun sz p =>
      if sz p.1 = -1 then sz else upd sz p.1 (sz p.1 - 1)) sz) := by
  induction cnt with
  | zero => intro j s _ _; rfl
  | succ cnt ih =>
    intro j s ha hp
    rw [Mat.seg_succ] at hp ⊢
    have hg : AT.getCell j = some (AT.cell j) := by unfold Mat.getCell; rw [if_pos (by omega)]
    rw [Arrays.colLoop, hg]
    simp only [Option.bind_eq_bind, Option.bind_some, guard, if_pos (hp _ List.mem_cons_self)]
    exact ih (j + 1) _ (by omega) (fun p h => hp p (List.mem_cons_of_mem _ h))

theorem delRowCell_lists (t : RTag) (L : List Cell) (a b : ℕ → List Cell) (s : St) :
    L.foldl (delRowCell t) { s with A := a, AT := b } = { L.foldl (delRowCell t) s with A := a, AT := b } := by
  induction L generalizing s with
  | nil => rfl
  | cons p L ih =>
    rw [List.foldl_cons, List.foldl_cons, ← ih]
    congr 1
    unfold delRowCell
    split <;> rfl

theorem delRowCell_frame (t : RTag) (L : List Cell) (s : St) :
    (L.foldl (delRowCell t) s).m = s.m ∧ (L.foldl (delRowCell t) s).n = s.n ∧
    (L.foldl (delRowCell t) s).rowsToDelete = s.rowsToDelete := by
  induction L generalizing s with
  | nil => exact ⟨rfl, rfl, rfl⟩
  | cons p L ih =>
    rw [List.foldl_cons]
    obtain ⟨a, b, c⟩ := ih (delRowCell t s p)
    have : (delRowCell t s p).m = s.m ∧ (delRowCell t s p).n = s.n ∧
        (delRowCell t s p).rowsToDelete = s.rowsToDelete := by
      unfold delRowCell; split <;> exact ⟨rfl, rfl, rfl⟩
    exact ⟨a.trans this.1, b.trans this.2.1, c.trans this.2.2⟩

/-- What one step on the memory is to the step on the lists. -/
def Arrays.Step (M : Arrays) (o : Option Arrays) (t : St) : Prop :=
  ∃ M', o = some M' ∧ M'.OK ∧ M'.view = t ∧ M'.A.m = M.A.m ∧ M'.AT.m = M.AT.m

theorem Arrays.delOneRow_step {M : Arrays} (h : M.OK) {row : ℕ} (hr : row < M.A.m) :
    M.Step (M.delOneRow row) (Verif.delOneRow M.view row) := by
  unfold Arrays.delOneRow Verif.delOneRow
  simp only [guard, if_pos hr, Option.bind_eq_bind, Option.pure_def, Option.bind_some]
  by_cases h0 : M.s.rowSize row = 0
  · have a : (M.s.check (decide (M.s.rowSize row ≠ -1))).rowSize row = 0 := h0
    have b : (M.view.check (decide (M.view.rowSize row ≠ -1))).rowSize row = 0 := h0
    rw [if_pos a, if_pos b]
    exact ⟨_, rfl, ⟨h.rows, h.cols, h.layA, h.layT, h.inA, h.inT⟩, rfl, rfl, rfl⟩
  · have a : ¬ (M.s.check (decide (M.s.rowSize row ≠ -1))).rowSize row = 0 := h0
    have b : ¬ (M.view.check (decide (M.view.rowSize row ≠ -1))).rowSize row = 0 := h0
    rw [if_neg a, if_neg b]
    have hle := h.layA.le row hr
    have hal := h.layA.pe_le_alloc hr
    rw [Arrays.rowLoop_spec _ _ _ _ _ _ (by omega) (h.inA row hr)]
    obtain ⟨l1, l2, l3⟩ := Mat.clear_spec h.layA hr
    refine ⟨_, rfl, ?_, ?_, rfl, rfl⟩
    · obtain ⟨f1, f2, -⟩ := delRowCell_frame (M.s.rtag row) (M.A.seg (M.A.ps row) (M.A.pe row - M.A.ps row))
        { M.s.check (decide (M.s.rowSize row ≠ -1)) with
          nnz := M.s.nnz - M.s.rowSize row, rowSize := upd M.s.rowSize row (-1) }
      refine ⟨h.rows.trans f1.symm, h.cols.trans f2.symm, l1, h.layT, fun i hi => ?_, h.inT⟩
      by_cases hir : i = row
      · subst hir
        intro p hp
        rw [show Mat.rowOf _ i = [] from l2] at hp; cases hp
      · intro p hp
        rw [show Mat.rowOf _ i = M.A.rowOf i from l3 i hir] at hp
        exact h.inA i hi p hp
    · have e1 : (M.A.setRange row (M.A.ps row) (M.A.ps row)).lists = upd M.A.lists row [] :=
        Mat.lists_eq rfl hr l2 (fun i _ hi => l3 i hi)
      have e2 : M.A.lists row = M.A.seg (M.A.ps row) (M.A.pe row - M.A.ps row) := by
        unfold Mat.lists; rw [if_pos hr]; rfl
      have e3 := delRowCell_lists (M.s.rtag row) (M.A.lists row) M.A.lists M.AT.lists
        { M.s.check (decide (M.s.rowSize row ≠ -1)) with
          nnz := M.s.nnz - M.s.rowSize row, rowSize := upd M.s.rowSize row (-1) }
      show ({ (M.A.seg (M.A.ps row) (M.A.pe row - M.A.ps row)).foldl (delRowCell (M.s.rtag row))
          { M.s.check (decide (M.s.rowSize row ≠ -1)) with
            nnz := M.s.nnz - M.s.rowSize row, rowSize := upd M.s.rowSize row (-1) } with
          A := (M.A.setRange row (M.A.ps row) (M.A.ps row)).lists, AT := M.AT.lists } : St) =
        { (M.A.lists row).foldl (delRowCell (M.s.rtag row))
          { M.s.check (decide (M.s.rowSize row ≠ -1)) with
            nnz := M.s.nnz - M.s.rowSize row, rowSize := upd M.s.rowSize row (-1)
            A := M.A.lists, AT := M.AT.lists } with
          A := upd ((M.A.lists row).foldl (delRowCell (M.s.rtag row))
          { M.s.check (decide (M.s.rowSize row ≠ -1)) with
            nnz := M.s.nnz - M.s.rowSize row, rowSize := upd M.s.rowSize row (-1)
            A := M.A.lists, AT := M.AT.lists }).A row [] }
      rw [e3, e1, e2]

theorem Arrays.delOneCol_step {M : Arrays} (h : M.OK) {col : ℕ} (hc : col < M.AT.m) :
    M.Step (M.delOneCol col) (Verif.delOneCol M.view col) := by
  unfold Arrays.delOneCol
  simp only [guard, if_pos hc, Option.bind_eq_bind, Option.pure_def, Option.bind_some]
  have hle := h.layT.le col hc
  have hal := h.layT.pe_le_alloc hc
  rw [Arrays.colLoop_spec _ _ _ _ _ (by omega) (h.inT col hc)]
  obtain ⟨l1, l2, l3⟩ := Mat.clear_spec h.layT hc
  refine ⟨_, rfl, ⟨h.rows, h.cols, h.layA, l1, h.inA, fun i hi => ?_⟩, ?_, rfl, rfl⟩
  · by_cases hir : i = col
    · subst hir
      intro p hp
      rw [show Mat.rowOf _ i = [] from l2] at hp; cases hp
    · intro p hp
      rw [show Mat.rowOf _ i = M.AT.rowOf i from l3 i hir] at hp
      exact h.inT i hi p hp
  · have e1 : (M.AT.setRange col (M.AT.ps col) (M.AT.ps col)).lists = upd M.AT.lists col [] :=
      Mat.lists_eq rfl hc l2 (fun i _ hi => l3 i hi)
    have e2 : M.AT.lists col = M.AT.seg (M.AT.ps col) (M.AT.pe col - M.AT.ps col) := by
      unfold Mat.lists; rw [if_pos hc]; rfl
    unfold Arrays.view Verif.delOneCol
    simp only [e1, e2]

theorem Mat.lists_of {A : Mat ℚ} {i : ℕ} (h : i < A.m) : A.lists i = A.rowOf i := if_pos h

theorem Mat.rowOf_len {A : Mat ℚ} (h : A.Layout) {i : ℕ} (hi : i < A.m) :
    ((A.rowOf i).length : ℤ) = (A.pe i : ℤ) - A.ps i := by
  have := h.le i hi
  rw [Mat.rowOf_seg, Mat.seg_length]; omega

theorem Arrays.OK.setT {M : Arrays} (h : M.OK) {s : St} {T : Mat ℚ} (hm : s.m = M.s.m) (hn : s.n = M.s.n) (ht : T.m = M.AT.m)
    (hl : T.Layout) (hT : ∀ k < M.AT.m, ∀ p ∈ T.rowOf k, p.1 < M.A.m) : Arrays.OK ⟨s, M.A, T⟩ :=
  ⟨h.rows.trans hm.symm, (ht.trans h.cols).trans hn.symm, h.layA, hl, fun i hi p hp => by
    show p.1 < T.m
    rw [ht]; exact h.inA i hi p hp, fun k hk => hT k (ht ▸ hk)⟩

theorem Arrays.OK.setA {M : Arrays} (h : M.OK) {s : St} {T : Mat ℚ} (hm : s.m = M.s.m) (hn : s.n = M.s.n) (ht : T.m = M.A.m)
    (hl : T.Layout) (hT : ∀ k < M.A.m, ∀ p ∈ T.rowOf k, p.1 < M.AT.m) : Arrays.OK ⟨s, T, M.AT⟩ :=
  ⟨(ht.trans h.rows).trans hm.symm, h.cols.trans hn.symm, hl, h.layT, fun k hk => hT k (ht ▸ hk), fun i hi p hp => by
    show p.1 < T.m
    rw [ht]; exact h.inT i hi p hp⟩

theorem compact_in {B A : Mat ℚ} {f : Cell → Bool} {r lim : ℕ} (hr : B.rowOf r = (A.rowOf r).filter f)
    (ho : ∀ i, i < A.m → i ≠ r → B.rowOf i = A.rowOf i) (h : ∀ k < A.m, ∀ p ∈ A.rowOf k, p.1 < lim) :
    ∀ k < A.m, ∀ p ∈ B.rowOf k, p.1 < lim := by
  intro k hk p hp
  by_cases e : k = r
  · subst e
    rw [hr] at hp
    exact h k hk p (List.mem_filter.mp hp).1
  · rw [ho k hk e] at hp; exact h k hk p hp

/-- The part of `delCompactCol` after the switch. -/
theorem Arrays.compactCol {M : Arrays} (h : M.OK) {col : ℕ} (hc : col < M.AT.m) :
    M.Step ((Mat.compact M.s.rowSize M.A.m M.AT col).bind (fun c =>
        some { M with s := M.s.check (decide ((c.1.ps col : ℤ) + M.s.colSize col = c.1.pe col)), AT := c.1 }))
      (let cells := (M.view.AT col).filter (fun p => decide (M.view.rowSize p.1 ≠ -1))
       let s := { M.view with AT := upd M.view.AT col cells }
       s.check (decide (s.colSize col = ((s.AT col).length : ℤ)))) := by
  obtain ⟨B, sh, e, hm, hl, h1, h2, h3, h4, h5, h6⟩ := Mat.compact_spec (size := M.s.rowSize) h.layT hc (h.inT col hc)
  rw [e]
  refine ⟨_, rfl, h.setT rfl rfl hm hl (compact_in h1 h2 h.inT), ?_, rfl, hm⟩
  have e1 : B.lists = upd M.AT.lists col ((M.AT.lists col).filter (fun p => decide (M.s.rowSize p.1 ≠ -1))) :=
    Mat.lists_eq hm hc (by rw [Mat.lists_of hc]; exact h1) h2
  have e2 : (decide ((B.ps col : ℤ) + M.s.colSize col = B.pe col)) =
      decide (M.s.colSize col = ((upd M.AT.lists col
        ((M.AT.lists col).filter (fun p => decide (M.s.rowSize p.1 ≠ -1))) col).length : ℤ)) := by
    rw [upd_same, Mat.lists_of hc, decide_eq_decide]
    have h4' : B.pe col - B.ps col = ((M.AT.rowOf col).filter (fun p => decide (M.s.rowSize p.1 ≠ -1))).length := h4
    rw [← h4']
    omega
  show ({ M.s.check (decide ((B.ps col : ℤ) + M.s.colSize col = B.pe col)) with A := M.A.lists, AT := B.lists } : St) = _
  rw [e1, e2]
  rfl

theorem Arrays.delCompactCol_step {M : Arrays} (h : M.OK) {col : ℕ} (hc : col < M.AT.m) :
    M.Step (M.delCompactCol col) (Verif.delCompactCol M.view col) := by
  have el : ((M.view.AT col).length : ℤ) = (M.AT.pe col : ℤ) - M.AT.ps col := by
    show ((M.AT.lists col).length : ℤ) = _
    rw [Mat.lists_of hc]; exact Mat.rowOf_len h.layT hc
  unfold Arrays.delCompactCol Verif.delCompactCol
  rw [el]
  by_cases h0 : ((M.s.ctag col).inactive || decide (M.s.colSize col = (M.AT.pe col : ℤ) - M.AT.ps col)) = true
  · have h0' : ((M.view.ctag col).inactive || decide (M.view.colSize col = (M.AT.pe col : ℤ) - M.AT.ps col)) = true := h0
    rw [if_pos h0, if_pos h0']
    exact ⟨M, rfl, h, rfl, rfl, rfl⟩
  · have h0' : ¬ ((M.view.ctag col).inactive || decide (M.view.colSize col = (M.AT.pe col : ℤ) - M.AT.ps col)) = true := h0
    rw [if_neg h0, if_neg h0']
    by_cases h1 : M.s.colSize col = 0
    · have a : (M.s.check (decide (M.s.colSize col ≠ -1))).colSize col = 0 := h1
      have b : (M.view.check (decide (M.view.colSize col ≠ -1))).colSize col = 0 := h1
      simp only [if_pos a, if_pos b]
      obtain ⟨l1, l2, l3⟩ := Mat.clear_spec h.layT hc
      have hin : ∀ k < M.AT.m, ∀ p ∈ (M.AT.setRange col (M.AT.ps col) (M.AT.ps col)).rowOf k, p.1 < M.A.m := by
        intro k hk p hp
        by_cases e : k = col
        · subst e; rw [l2] at hp; cases hp
        · rw [l3 k e] at hp; exact h.inT k hk p hp
      have key := Arrays.compactCol (M := ⟨{ M.s.check (decide (M.s.colSize col ≠ -1)) with
        emptyCols := M.s.emptyCols ++ [col] }, M.A, M.AT.setRange col (M.AT.ps col) (M.AT.ps col)⟩)
        (h.setT rfl rfl rfl l1 hin) hc
      have e1 : (M.AT.setRange col (M.AT.ps col) (M.AT.ps col)).lists = upd M.AT.lists col [] :=
        Mat.lists_eq rfl hc l2 (fun i _ hi => l3 i hi)
      obtain ⟨M', k1, k2, k3, k4, k5⟩ := key
      refine ⟨M', k1, k2, k3.trans ?_, k4, k5⟩
      unfold Arrays.view
      simp only [e1]
      rfl
    · have a : ¬ (M.s.check (decide (M.s.colSize col ≠ -1))).colSize col = 0 := h1
      have b : ¬ (M.view.check (decide (M.view.colSize col ≠ -1))).colSize col = 0 := h1
      simp only [if_neg a, if_neg b]
      by_cases h2 : M.s.colSize col = 1
      · have a : (M.s.check (decide (M.s.colSize col ≠ -1))).colSize col = 1 := h2
        have b : (M.view.check (decide (M.view.colSize col ≠ -1))).colSize col = 1 := h2
        simp only [if_pos a, if_pos b]
        exact Arrays.compactCol (M := ⟨{ M.s.check (decide (M.s.colSize col ≠ -1)) with
          stonCols := M.s.stonCols ++ [col] }, M.A, M.AT⟩) (h.setT rfl rfl rfl h.layT h.inT) hc
      · have a : ¬ (M.s.check (decide (M.s.colSize col ≠ -1))).colSize col = 1 := h2
        have b : ¬ (M.view.check (decide (M.view.colSize col ≠ -1))).colSize col = 1 := h2
        simp only [if_neg a, if_neg b]
        exact Arrays.compactCol (M := ⟨M.s.check (decide (M.s.colSize col ≠ -1)), M.A, M.AT⟩)
          (h.setT rfl rfl rfl h.layT h.inT) hc

/-- The part of `delCompactRow` after the switch. -/
theorem Arrays.compactRow {M : Arrays} (h : M.OK) {row : ℕ} (hr : row < M.A.m) :
    M.Step ((Mat.compact M.s.colSize M.AT.m M.A row).bind (fun c =>
        some { M with
          s := ({ M.s with nnz := M.s.nnz - (c.2 : ℤ) }).check (decide ((c.1.ps row : ℤ) + M.s.rowSize row = c.1.pe row))
          A := c.1 }))
      (let cells := (M.view.A row).filter (fun p => decide (M.view.colSize p.1 ≠ -1))
       let s := { M.view with nnz := M.view.nnz - (((M.view.A row).length : ℤ) - (cells.length : ℤ))
                              A := upd M.view.A row cells }
       s.check (decide (s.rowSize row = ((s.A row).length : ℤ)))) := by
  obtain ⟨B, sh, e, hm, hl, h1, h2, h3, h4, h5, h6⟩ := Mat.compact_spec (size := M.s.colSize) h.layA hr (h.inA row hr)
  rw [e]
  refine ⟨_, rfl, h.setA rfl rfl hm hl (compact_in h1 h2 h.inA), ?_, hm, rfl⟩
  have e1 : B.lists = upd M.A.lists row ((M.A.lists row).filter (fun p => decide (M.s.colSize p.1 ≠ -1))) :=
    Mat.lists_eq hm hr (by rw [Mat.lists_of hr]; exact h1) h2
  have e2 : (decide ((B.ps row : ℤ) + M.s.rowSize row = B.pe row)) =
      decide (M.s.rowSize row = ((upd M.A.lists row
        ((M.A.lists row).filter (fun p => decide (M.s.colSize p.1 ≠ -1))) row).length : ℤ)) := by
    rw [upd_same, Mat.lists_of hr, decide_eq_decide]
    have h4' : B.pe row - B.ps row = ((M.A.rowOf row).filter (fun p => decide (M.s.colSize p.1 ≠ -1))).length := h4
    rw [← h4']
    omega
  have e3 : (sh : ℤ) = ((M.A.lists row).length : ℤ) -
      (((M.A.lists row).filter (fun p => decide (M.s.colSize p.1 ≠ -1))).length : ℤ) := by
    rw [Mat.lists_of hr]; exact h6.symm
  show ({ M.s.check (decide ((B.ps row : ℤ) + M.s.rowSize row = B.pe row)) with
    nnz := M.s.nnz - (sh : ℤ), A := B.lists, AT := M.AT.lists } : St) = _
  rw [e1, e2, e3]
  rfl

theorem Arrays.delCompactRow_step {M : Arrays} (h : M.OK) {row : ℕ} (hr : row < M.A.m) :
    M.Step (M.delCompactRow row) (Verif.delCompactRow M.view row) := by
  have el : ((M.view.A row).length : ℤ) = (M.A.pe row : ℤ) - M.A.ps row := by
    show ((M.A.lists row).length : ℤ) = _
    rw [Mat.lists_of hr]; exact Mat.rowOf_len h.layA hr
  unfold Arrays.delCompactRow Verif.delCompactRow
  by_cases h0 : ((M.s.rtag row).inactive || decide (M.s.rowSize row = (M.A.pe row : ℤ) - M.A.ps row)) = true
  · have h0' : ((M.view.rtag row).inactive || decide (M.view.rowSize row = ((M.view.A row).length : ℤ))) = true := by
      rw [el]; exact h0
    rw [if_pos h0, if_pos h0']
    exact ⟨M, rfl, h, rfl, rfl, rfl⟩
  · have h0' : ¬ ((M.view.rtag row).inactive || decide (M.view.rowSize row = ((M.view.A row).length : ℤ))) = true := by
      rw [el]; exact h0
    rw [if_neg h0, if_neg h0']
    by_cases h1 : M.s.rowSize row = 0
    · have a : (M.s.check (decide (M.s.rowSize row ≠ -1))).rowSize row = 0 := h1
      have b : (M.view.check (decide (M.view.rowSize row ≠ -1))).rowSize row = 0 := h1
      simp only [if_pos a, if_pos b]
      obtain ⟨l1, l2, l3⟩ := Mat.clear_spec h.layA hr
      have hin : ∀ k < M.A.m, ∀ p ∈ (M.A.setRange row (M.A.ps row) (M.A.ps row)).rowOf k, p.1 < M.AT.m := by
        intro k hk p hp
        by_cases e : k = row
        · subst e; rw [l2] at hp; cases hp
        · rw [l3 k e] at hp; exact h.inA k hk p hp
      have key := Arrays.compactRow (M := ⟨{ (M.s.check (decide (M.s.rowSize row ≠ -1))).check
        (!M.s.emptyRows.contains row) with
        emptyRows := M.s.emptyRows ++ [row], nnz := M.s.nnz - ((M.A.pe row : ℤ) - M.A.ps row) },
        M.A.setRange row (M.A.ps row) (M.A.ps row), M.AT⟩)
        (h.setA rfl rfl rfl l1 hin) hr
      have e1 : (M.A.setRange row (M.A.ps row) (M.A.ps row)).lists = upd M.A.lists row [] :=
        Mat.lists_eq rfl hr l2 (fun i _ hi => l3 i hi)
      obtain ⟨M', k1, k2, k3, k4, k5⟩ := key
      refine ⟨M', k1, k2, k3.trans ?_, k4, k5⟩
      have el' : ((M.A.lists row).length : ℤ) = (M.A.pe row : ℤ) - M.A.ps row := el
      unfold Arrays.view
      simp only [e1, ← el']
      rfl
    · have a : ¬ (M.s.check (decide (M.s.rowSize row ≠ -1))).rowSize row = 0 := h1
      have b : ¬ (M.view.check (decide (M.view.rowSize row ≠ -1))).rowSize row = 0 := h1
      simp only [if_neg a, if_neg b]
      by_cases h2 : M.s.rowSize row = 1
      · have a : (M.s.check (decide (M.s.rowSize row ≠ -1))).rowSize row = 1 := h2
        have b : (M.view.check (decide (M.view.rowSize row ≠ -1))).rowSize row = 1 := h2
        simp only [if_pos a, if_pos b]
        exact Arrays.compactRow (M := ⟨{ (M.s.check (decide (M.s.rowSize row ≠ -1))).check (!M.s.stonRows.contains row) with
          stonRows := M.s.stonRows ++ [row] }, M.A, M.AT⟩) (h.setA rfl rfl rfl h.layA h.inA) hr
      · have a : ¬ (M.s.check (decide (M.s.rowSize row ≠ -1))).rowSize row = 1 := h2
        have b : ¬ (M.view.check (decide (M.view.rowSize row ≠ -1))).rowSize row = 1 := h2
        simp only [if_neg a, if_neg b]
        by_cases h3 : M.s.rowSize row = 2 ∧ (M.s.rtag row).eq = true
        · have a : (M.s.check (decide (M.s.rowSize row ≠ -1))).rowSize row = 2 ∧
            ((M.s.check (decide (M.s.rowSize row ≠ -1))).rtag row).eq = true := h3
          have b : (M.view.check (decide (M.view.rowSize row ≠ -1))).rowSize row = 2 ∧
            ((M.view.check (decide (M.view.rowSize row ≠ -1))).rtag row).eq = true := h3
          simp only [if_pos a, if_pos b]
          exact Arrays.compactRow (M := ⟨{ (M.s.check (decide (M.s.rowSize row ≠ -1))).check (!M.s.dtonRows.contains row) with
            dtonRows := M.s.dtonRows ++ [row] }, M.A, M.AT⟩) (h.setA rfl rfl rfl h.layA h.inA) hr
        · have a : ¬ ((M.s.check (decide (M.s.rowSize row ≠ -1))).rowSize row = 2 ∧
            ((M.s.check (decide (M.s.rowSize row ≠ -1))).rtag row).eq = true) := h3
          have b : ¬ ((M.view.check (decide (M.view.rowSize row ≠ -1))).rowSize row = 2 ∧
            ((M.view.check (decide (M.view.rowSize row ≠ -1))).rtag row).eq = true) := h3
          simp only [if_neg a, if_neg b]
          exact Arrays.compactRow (M := ⟨M.s.check (decide (M.s.rowSize row ≠ -1)), M.A, M.AT⟩)
            (h.setA rfl rfl rfl h.layA h.inA) hr

theorem Arrays.Step.trans {M N : Arrays} {o : Option Arrays} {t : St} (h : N.Step o t) (ha : N.A.m = M.A.m)
    (ht : N.AT.m = M.AT.m) : M.Step o t := by
  obtain ⟨M', a, b, c, d, e⟩ := h
  exact ⟨M', a, b, c, d.trans ha, e.trans ht⟩

/-- Steps in a row. -/
theorem Arrays.fold_step {f : Arrays → ℕ → Option Arrays} {g : St → ℕ → St} {ok : Arrays → ℕ → Prop}
    (hf : ∀ M k, M.OK → ok M k → M.Step (f M k) (g M.view k))
    (hok : ∀ M N k, N.A.m = M.A.m → N.AT.m = M.AT.m → ok M k → ok N k) (L : List ℕ) :
    ∀ M : Arrays, M.OK → (∀ k ∈ L, ok M k) → M.Step (L.foldlM f M) (L.foldl g M.view) := by
  induction L with
  | nil => intro M h _; exact ⟨M, rfl, h, rfl, rfl, rfl⟩
  | cons k L ih =>
    intro M h hL
    obtain ⟨N, a, b, c, d, e⟩ := hf M k h (hL k List.mem_cons_self)
    rw [List.foldlM_cons, a, List.foldl_cons, ← c]
    exact (ih N b (fun j hj => hok M N j d e (hL j (List.mem_cons_of_mem _ hj)))).trans d e

theorem Arrays.deleteInactiveRows_step {M : Arrays} (h : M.OK) (hR : ∀ i ∈ M.s.rowsToDelete, i < M.A.m) :
    M.Step M.deleteInactiveRows (Verif.deleteInactiveRows M.view) := by
  unfold Arrays.deleteInactiveRows Verif.deleteInactiveRows
  by_cases h0 : M.s.rowsToDelete = []
  · have h0' : M.view.rowsToDelete = [] := h0
    rw [if_pos h0, if_pos h0']
    exact ⟨M, rfl, h, rfl, rfl, rfl⟩
  · have h0' : ¬ M.view.rowsToDelete = [] := h0
    rw [if_neg h0, if_neg h0']
    obtain ⟨N, a, b, c, d, e⟩ := Arrays.fold_step (f := Arrays.delOneRow) (g := Verif.delOneRow) (ok := fun M i => i < M.A.m)
      (fun M k hM hk => Arrays.delOneRow_step hM hk) (fun M N k h1 _ hk => by rw [h1]; exact hk) M.s.rowsToDelete M h hR
    obtain ⟨N', a', b', c', d', e'⟩ := Arrays.fold_step (f := Arrays.delCompactCol) (g := Verif.delCompactCol)
      (ok := fun M k => k < M.AT.m) (fun M k hM hk => Arrays.delCompactCol_step hM hk)
      (fun M N k _ h1 hk => by rw [h1]; exact hk) (List.range N.AT.m) N b (fun k hk => List.mem_range.mp hk)
    have ec : (M.view.rowsToDelete.foldl Verif.delOneRow M.view) = N.view := c.symm
    have en : N.AT.m = N.view.n := b.cols
    refine ⟨{ N' with s := { N'.s with rowsToDelete := [] } }, ?_, ⟨b'.rows, b'.cols, b'.layA, b'.layT, b'.inA, b'.inT⟩, ?_,
      d'.trans d, e'.trans e⟩
    · simp only [a, a', Option.bind_eq_bind, Option.bind_some]
    · simp only [ec, ← en, ← c']
      rfl

theorem Arrays.deleteInactiveCols_step {M : Arrays} (h : M.OK) (hF : ∀ k ∈ M.s.fixedCols ++ M.s.subCols, k < M.AT.m) :
    M.Step M.deleteInactiveCols (Verif.deleteInactiveCols M.view) := by
  unfold Arrays.deleteInactiveCols Verif.deleteInactiveCols
  have step := fun (L : List ℕ) => Arrays.fold_step (f := Arrays.delOneCol) (g := Verif.delOneCol) (ok := fun M k => k < M.AT.m)
      (fun M k hM hk => Arrays.delOneCol_step hM hk) (fun M N k _ h1 hk => by rw [h1]; exact hk) L
  have sub : ∀ (L : List ℕ) (s : St), (L.foldl Verif.delOneCol s).subCols = s.subCols := by
    intro L
    induction L with
    | nil => intro s; rfl
    | cons k L ih => intro s; exact (ih _).trans rfl
  obtain ⟨N, a, b, c, d, e⟩ := step M.s.fixedCols M h (fun k hk => hF k (List.mem_append_left _ hk))
  have es : N.s.subCols = M.s.subCols := by
    have : N.view.subCols = M.view.subCols := by rw [c]; exact sub _ _
    exact this
  obtain ⟨O, a1, b1, c1, d1, e1⟩ := step N.s.subCols N b (fun k hk => by
    rw [e]; rw [es] at hk; exact hF k (List.mem_append_right _ hk))
  obtain ⟨Q, a2, b2, c2, d2, e2⟩ := Arrays.fold_step (f := Arrays.delCompactRow) (g := Verif.delCompactRow)
    (ok := fun M k => k < M.A.m) (fun M k hM hk => Arrays.delCompactRow_step hM hk)
    (fun M N k h1 _ hk => by rw [h1]; exact hk) (List.range O.A.m) O b1 (fun k hk => List.mem_range.mp hk)
  have ec : M.view.fixedCols.foldl Verif.delOneCol M.view = N.view := c.symm
  have ec1 : N.view.subCols.foldl Verif.delOneCol N.view = O.view := c1.symm
  have en : O.A.m = O.view.m := b1.rows
  refine ⟨{ Q with s := { Q.s with fixedCols := [], subCols := [] } }, ?_,
    ⟨b2.rows, b2.cols, b2.layA, b2.layT, b2.inA, b2.inT⟩, ?_, (d2.trans d1).trans d, (e2.trans e1).trans e⟩
  · simp only [a, a1, a2, Option.bind_eq_bind, Option.bind_some]
  · simp only [ec, ec1, ← en, ← c2]
    rfl

end Verif
