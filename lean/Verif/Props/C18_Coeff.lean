import Verif.Lemmas.Mat
import Mathlib.Tactic.IntervalCases
import Mathlib.Tactic.Ring

/-!
# C18: single-coefficient edits change exactly one coefficient
-/

namespace Verif
open Mat
variable {α : Type}

/-! ## Specification on sorted rows -/

/-- A stored row is sorted by column, without repetitions. -/
def RowSorted (l : List (ℕ × α)) : Prop := l.Pairwise fun a b => a.1 < b.1

/-- Coefficient of column `c` in a row. -/
def coefOf (z : α) (l : List (ℕ × α)) (c : ℕ) : α := ((l.find? fun e => e.1 = c).map (·.2)).getD z

/-- The row with column `c` set to `v`: smaller columns, the new entry, larger columns. -/
def setSpec (l : List (ℕ × α)) (c : ℕ) (v : α) : List (ℕ × α) :=
  (l.filter fun e => e.1 < c) ++ (c, v) :: (l.filter fun e => c < e.1)

/-- The row without column `c`. -/
def delSpec (l : List (ℕ × α)) (c : ℕ) : List (ℕ × α) := l.filter fun e => e.1 ≠ c

/-! ## Cells versus lists -/

theorem getElem_rowOf (A : Mat α) (r t : ℕ) (h : t < (A.rowOf r).length) :
    (A.rowOf r)[t] = A.cell (A.ps r + t) := by simp [rowOf]

theorem length_rowOf (A : Mat α) (r : ℕ) : (A.rowOf r).length = A.pe r - A.ps r := by simp [rowOf]

/-- Number of leading entries with column `< c`. -/
def insPos (l : List (ℕ × α)) (c : ℕ) : ℕ := (l.takeWhile fun e => e.1 < c).length

theorem findInsertion_eq (A : Mat α) (c s n : ℕ) :
    findInsertion A c s n = s + insPos ((List.range n).map fun k => A.cell (s + k)) c := by
  induction n generalizing s with
  | zero => simp [findInsertion, insPos]
  | succ n ih =>
    rw [findInsertion, List.range_succ_eq_map, List.map_cons]
    simp only [insPos, List.takeWhile_cons, Nat.add_zero]
    by_cases h : (A.cell s).1 ≥ c
    · rw [if_pos h]; simp [Nat.not_lt.mpr h]
    · rw [if_neg h, ih]
      have h' : (A.cell s).1 < c := by omega
      simp only [h', decide_true, if_true, List.length_cons, insPos, List.map_map]
      have : (fun k => A.cell (s + 1 + k)) = ((fun k => A.cell (s + k)) ∘ Nat.succ) := by
        funext k; simp only [Function.comp]; congr 1; omega
      rw [this]; omega

theorem findInsertion_row (A : Mat α) (c r : ℕ) :
    findInsertion A c (A.ps r) (A.pe r - A.ps r) = A.ps r + insPos (A.rowOf r) c :=
  findInsertion_eq A c _ _

theorem insPos_le (l : List (ℕ × α)) (c : ℕ) : insPos l c ≤ l.length :=
  (List.takeWhile_sublist _).length_le

theorem take_insPos {l : List (ℕ × α)} (hs : RowSorted l) (c : ℕ) :
    l.take (insPos l c) = l.filter fun e => e.1 < c := by
  induction l with
  | nil => simp [insPos]
  | cons a l ih =>
    obtain ⟨h1, h2⟩ := List.pairwise_cons.mp hs
    by_cases h : a.1 < c
    · simp only [insPos, List.takeWhile_cons, h, decide_true, if_true, List.length_cons,
        List.take_succ_cons, List.filter_cons]
      rw [← ih h2]; rfl
    · simp only [insPos, List.takeWhile_cons, h, decide_false, List.filter_cons]
      simp only [Bool.false_eq_true, if_false, List.length_nil, List.take_zero]
      symm; rw [List.filter_eq_nil_iff]
      intro b hb; have := h1 b hb; simp; omega

theorem drop_insPos {l : List (ℕ × α)} (hs : RowSorted l) (c : ℕ) :
    l.drop (insPos l c) = l.filter fun e => c ≤ e.1 := by
  induction l with
  | nil => simp [insPos]
  | cons a l ih =>
    obtain ⟨h1, h2⟩ := List.pairwise_cons.mp hs
    by_cases h : a.1 < c
    · simp only [insPos, List.takeWhile_cons, h, decide_true, if_true, List.length_cons,
        List.drop_succ_cons, List.filter_cons, show ¬ c ≤ a.1 by omega, decide_false]
      rw [← ih h2]; rfl
    · simp only [insPos, List.takeWhile_cons, h, decide_false]
      simp only [Bool.false_eq_true, if_false, List.length_nil, List.drop_zero]
      symm; rw [List.filter_eq_self]
      intro b hb
      rcases List.mem_cons.mp hb with rfl | hb
      · simp; omega
      · have := h1 b hb; simp; omega

/-- At the insertion position there is either the column itself or a larger one. -/
theorem drop_insPos_split {l : List (ℕ × α)} (hs : RowSorted l) (c : ℕ) :
    (∃ v, (c, v) ∈ l ∧ l.drop (insPos l c) = (c, v) :: l.filter fun e => c < e.1) ∨
    ((∀ v, (c, v) ∉ l) ∧ l.drop (insPos l c) = l.filter fun e => c < e.1) := by
  rw [drop_insPos hs]
  induction l with
  | nil => right; simp
  | cons a l ih =>
    obtain ⟨h1, h2⟩ := List.pairwise_cons.mp hs
    rcases lt_trichotomy a.1 c with h | h | h
    · rcases ih h2 with ⟨v, hv, e⟩ | ⟨hv, e⟩
      · left; refine ⟨v, by simp [hv], ?_⟩
        simp only [List.filter_cons, show ¬ c ≤ a.1 by omega, show ¬ c < a.1 by omega, decide_false]
        exact e
      · right; refine ⟨?_, ?_⟩
        · intro v hmem
          rcases List.mem_cons.mp hmem with rfl | hmem
          · simp at h
          · exact hv v hmem
        · simp only [List.filter_cons, show ¬ c ≤ a.1 by omega, show ¬ c < a.1 by omega, decide_false]
          exact e
    · left; refine ⟨a.2, by rw [← h]; simp, ?_⟩
      simp only [List.filter_cons, show c ≤ a.1 by omega, show ¬ c < a.1 by omega, decide_false,
        decide_true, if_true]
      rw [← h]
      simp only [Bool.false_eq_true, if_false]
      congr 1
      apply List.filter_congr
      intro b hb; have := h1 b hb; simp; omega
    · right; refine ⟨?_, ?_⟩
      · intro v hmem
        rcases List.mem_cons.mp hmem with rfl | hmem
        · simp at h
        · have := h1 _ hmem; simp at this; omega
      · apply List.filter_congr
        intro b hb
        rcases List.mem_cons.mp hb with rfl | hb
        · simp; omega
        · have := h1 b hb; simp; omega

theorem coefOf_mem {l : List (ℕ × α)} (hs : RowSorted l) {c : ℕ} {v z : α} (h : (c, v) ∈ l) :
    coefOf z l c = v := by
  induction l with
  | nil => simp at h
  | cons a l ih =>
    obtain ⟨h1, h2⟩ := List.pairwise_cons.mp hs
    by_cases hac : a.1 = c
    · rcases List.mem_cons.mp h with rfl | hm
      · simp [coefOf]
      · have := h1 _ hm; simp at this; omega
    · rcases List.mem_cons.mp h with rfl | hm
      · simp at hac
      · have := ih h2 hm
        simp only [coefOf, List.find?_cons, hac, decide_false] at this ⊢
        exact this

theorem coefOf_not_mem {l : List (ℕ × α)} {c : ℕ} {z : α} (h : ∀ v, (c, v) ∉ l) :
    coefOf z l c = z := by
  have : l.find? (fun e => e.1 = c) = none := by
    rw [List.find?_eq_none]
    intro e he hec
    simp only [decide_eq_true_eq] at hec
    exact h e.2 (by rw [← hec]; exact he)
  simp [coefOf, this]

/-- Effect of an edit confined to one row's cells and the gap after it. -/
theorem rows_of_local_edit {A B : Mat α} (h : A.Layout) {r : ℕ} (hr : r < A.m)
    (hm : B.m = A.m) (ha : B.nAlloc = A.nAlloc) (hps : B.ps = A.ps)
    (hpe : ∀ i, i ≠ r → B.pe i = A.pe i) (hlo : A.ps r ≤ B.pe r) (hhi : B.pe r ≤ A.ps (r + 1))
    (hc : ∀ k, (k < A.ps r ∨ A.ps (r + 1) ≤ k) → B.cell k = A.cell k) :
    B.Layout ∧ ∀ i < A.m, i ≠ r → B.rowOf i = A.rowOf i := by
  refine ⟨⟨?_, ?_, ?_⟩, ?_⟩
  · intro i hi; rw [hps]
    by_cases hir : i = r
    · subst hir; exact hlo
    · rw [hpe i hir]; exact h.le i (by omega)
  · intro i hi; rw [hps]
    by_cases hir : i = r
    · subst hir; exact hhi
    · rw [hpe i hir]; exact h.next i (by omega)
  · rw [hps, hm, ha]; exact h.alloc
  · intro i hi hir
    apply rowOf_congr (by rw [hps]) (hpe i hir)
    intro k hk1 hk2
    apply hc
    rcases Nat.lt_or_gt_of_ne hir with hlt | hgt
    · left; have := h.pe_le_ps hlt (by omega : r ≤ A.m); omega
    · right; have := h.ps_mono (i := r + 1) (j := i) (by omega) (by omega); omega

theorem rowOf_insert {A B : Mat α} {r p : ℕ} {e : ℕ × α} (hle : A.ps r ≤ A.pe r)
    (hp : p ≤ (A.rowOf r).length) (hps : B.ps r = A.ps r) (hpe : B.pe r = A.pe r + 1)
    (h1 : ∀ k, A.ps r ≤ k → k < A.ps r + p → B.cell k = A.cell k)
    (h2 : B.cell (A.ps r + p) = e)
    (h3 : ∀ k, A.ps r + p ≤ k → k < A.pe r → B.cell (k + 1) = A.cell k) :
    B.rowOf r = (A.rowOf r).take p ++ e :: (A.rowOf r).drop p := by
  have hl := length_rowOf A r
  apply List.ext_getElem
  · rw [length_rowOf, hps, hpe]; simp; omega
  · intro t ht1 ht2
    rw [getElem_rowOf, hps]
    rw [length_rowOf, hps, hpe] at ht1
    rcases lt_trichotomy t p with htp | htp | htp
    · rw [List.getElem_append_left (by simp; omega), List.getElem_take, getElem_rowOf]
      exact h1 _ (by omega) (by omega)
    · subst htp
      rw [List.getElem_append_right (by simp)]
      simp only [List.length_take, show t - min t (A.rowOf r).length = 0 by omega,
        List.getElem_cons_zero]
      exact h2
    · rw [List.getElem_append_right (by simp; omega)]
      have hq : t - (List.take p (A.rowOf r)).length = (t - p - 1) + 1 := by
        rw [List.length_take]; omega
      simp only [hq, List.getElem_cons_succ, List.getElem_drop, getElem_rowOf]
      rw [show A.ps r + t = (A.ps r + (p + (t - p - 1))) + 1 by omega]
      exact h3 _ (by omega) (by omega)

theorem rowOf_erase {A B : Mat α} {r p : ℕ} (hle : A.ps r ≤ A.pe r)
    (hp : p < (A.rowOf r).length) (hps : B.ps r = A.ps r) (hpe : B.pe r = A.pe r - 1)
    (h1 : ∀ k, A.ps r ≤ k → k < A.ps r + p → B.cell k = A.cell k)
    (h3 : ∀ k, A.ps r + p ≤ k → k + 1 < A.pe r → B.cell k = A.cell (k + 1)) :
    B.rowOf r = (A.rowOf r).take p ++ (A.rowOf r).drop (p + 1) := by
  have hl := length_rowOf A r
  apply List.ext_getElem
  · rw [length_rowOf, hps, hpe]; simp; omega
  · intro t ht1 ht2
    rw [getElem_rowOf, hps]
    rw [length_rowOf, hps, hpe] at ht1
    by_cases htp : t < p
    · rw [List.getElem_append_left (by simp; omega), List.getElem_take, getElem_rowOf]
      exact h1 _ (by omega) (by omega)
    · rw [List.getElem_append_right (by simp; omega)]
      simp only [List.length_take, List.getElem_drop, getElem_rowOf]
      rw [show A.ps r + (p + 1 + (t - min p (A.rowOf r).length)) = (A.ps r + t) + 1 by omega]
      exact h3 _ (by omega) (by omega)

theorem rowOf_set {A B : Mat α} {r p : ℕ} {e : ℕ × α}
    (hp : p < (A.rowOf r).length) (hps : B.ps r = A.ps r) (hpe : B.pe r = A.pe r)
    (h1 : ∀ k, k ≠ A.ps r + p → B.cell k = A.cell k) (h2 : B.cell (A.ps r + p) = e) :
    B.rowOf r = (A.rowOf r).take p ++ e :: (A.rowOf r).drop (p + 1) := by
  rw [← (List.set_eq_take_append_cons_drop.trans (if_pos hp))]
  apply List.ext_getElem
  · simp [length_rowOf, hps, hpe]
  · intro t ht1 ht2
    rw [getElem_rowOf, hps, List.getElem_set]
    by_cases htp : p = t
    · subst htp; simp [h2]
    · rw [if_neg htp, getElem_rowOf]; exact h1 _ (by omega)

theorem insPos_eq_length_iff {l : List (ℕ × α)} {c : ℕ} :
    insPos l c = l.length ↔ l.drop (insPos l c) = [] := by
  rw [List.drop_eq_nil_iff]
  have := insPos_le l c
  omega

theorem getElem_insPos {l : List (ℕ × α)} {c : ℕ} {e : ℕ × α} {t : List (ℕ × α)}
    (h : l.drop (insPos l c) = e :: t) :
    ∃ hlt : insPos l c < l.length, l[insPos l c] = e ∧ l.drop (insPos l c + 1) = t := by
  have hlt : insPos l c < l.length := by
    by_contra hc
    rw [List.drop_eq_nil_of_le (by omega)] at h
    simp at h
  refine ⟨hlt, ?_, ?_⟩
  · rw [List.drop_eq_getElem_cons hlt] at h
    exact (List.cons.inj h).1
  · rw [List.drop_eq_getElem_cons hlt] at h
    exact (List.cons.inj h).2

/-- **C18, insert or update.** With a sorted row, room for one more entry (or the column
already there) and a value that is not negligible, `insert_or_update_coeff` makes the row
exactly "the old row with column `col` set to `val`", leaves every other row unchanged, keeps
the layout, changes `nnz` and the row size by the change in the number of entries, and returns
the previous coefficient (`0` if there was none). -/
theorem C18_insert_or_update (A : Mat α) (h : A.Layout) (small : α → Bool) (z : α) (row col : ℕ)
    (val : α) (hrow : row < A.m) (hs : RowSorted (A.rowOf row)) (hv : small val = false)
    (hroom : (∃ v, (col, v) ∈ A.rowOf row) ∨ A.pe row < A.ps (row + 1)) :
    ∃ B d, A.insertOrUpdate small z row col val = some (coefOf z (A.rowOf row) col, B, d) ∧
      B.Layout ∧ B.m = A.m ∧ B.n = A.n ∧ B.nAlloc = A.nAlloc ∧
      B.rowOf row = setSpec (A.rowOf row) col val ∧
      (∀ i < A.m, i ≠ row → B.rowOf i = A.rowOf i) ∧
      d = ((B.rowOf row).length : ℤ) - (A.rowOf row).length ∧ (B.nnz : ℤ) = A.nnz + d ∧
      B.ps = A.ps ∧ (∀ i, i ≠ row → B.pe i = A.pe i) ∧
      (∀ c, c < A.ps row ∨ A.ps (row + 1) ≤ c → B.cell c = A.cell c) := by
  set l := A.rowOf row with hl
  have hle := h.le row hrow
  have hnx := h.next row hrow
  have hal : A.ps (row + 1) ≤ A.nAlloc := le_trans (h.ps_mono hrow le_rfl) h.alloc
  have hlen : l.length = A.pe row - A.ps row := length_rowOf A row
  have hpl := insPos_le l col
  unfold insertOrUpdate
  simp only [findInsertion_row, ← hl, hv, if_true]
  have hcell : ∀ hlt : insPos l col < l.length, A.cell (A.ps row + insPos l col) = l[insPos l col] :=
    fun hlt => (getElem_rowOf A row _ hlt).symm
  rcases drop_insPos_split hs col with ⟨v, hvm, hd⟩ | ⟨hnm, hd⟩
  · -- the column exists
    obtain ⟨hlt, hg, hd1⟩ := getElem_insPos hd
    have hk : A.ps row + insPos l col < A.nAlloc := by omega
    have hcc : A.cell (A.ps row + insPos l col) = (col, v) := by rw [hcell hlt, hg]
    rw [if_neg (by omega)]
    simp only [hcc, if_true, setCell, hk, Option.bind_eq_bind, Option.bind_some]
    have hB : Mat.rowOf { A with cell := Function.update A.cell (A.ps row + insPos l col) (col, val) } row
        = setSpec l col val := by
      refine (rowOf_set (A := A) (r := row) (p := insPos l col) (e := (col, val)) hlt rfl rfl
        (B := { A with cell := Function.update A.cell (A.ps row + insPos l col) (col, val) })
        (fun k hk => Function.update_of_ne hk _ _) (Function.update_self ..)).trans ?_
      rw [← hl, take_insPos hs, hd1]; rfl
    obtain ⟨hLay, hoth⟩ := rows_of_local_edit (A := A)
      (B := { A with cell := Function.update A.cell (A.ps row + insPos l col) (col, val) }) h hrow
      rfl rfl rfl (fun _ _ => rfl) hle hnx
      (by intro k hk; simp only; rw [Function.update_of_ne (by omega)])
    refine ⟨_, 0, by rw [coefOf_mem hs hvm], hLay, rfl, rfl, rfl, hB, hoth, ?_, by simp, rfl, fun _ _ => rfl, ?_⟩
    · rw [length_rowOf, hlen]; simp
    · intro k hk; simp only; rw [Function.update_of_ne (by omega)]
  · -- the column is new
    have hroom' : A.pe row < A.ps (row + 1) := by
      rcases hroom with ⟨v, hv⟩ | h
      · exact absurd hv (hnm v)
      · exact h
    have hgen : ∀ B : Mat α, B.m = A.m → B.n = A.n → B.nnz = A.nnz + 1 → B.nAlloc = A.nAlloc →
        B.ps = A.ps → B.pe = Function.update A.pe row (A.pe row + 1) →
        (∀ k, k < A.ps row + insPos l col → B.cell k = A.cell k) →
        B.cell (A.ps row + insPos l col) = (col, val) →
        (∀ k, A.ps row + insPos l col ≤ k → k < A.pe row → B.cell (k + 1) = A.cell k) →
        (∀ k, A.pe row < k → B.cell k = A.cell k) →
        B.Layout ∧ B.m = A.m ∧ B.n = A.n ∧ B.nAlloc = A.nAlloc ∧
          B.rowOf row = setSpec l col val ∧ (∀ i < A.m, i ≠ row → B.rowOf i = A.rowOf i) ∧
          (1 : ℤ) = ((B.rowOf row).length : ℤ) - l.length ∧ (B.nnz : ℤ) = A.nnz + 1 ∧
      B.ps = A.ps ∧ (∀ i, i ≠ row → B.pe i = A.pe i) ∧
      (∀ c, c < A.ps row ∨ A.ps (row + 1) ≤ c → B.cell c = A.cell c) := by
      intro B b1 b2 b3 b4 b5 b6 c1 c2 c3 c4
      have hpe : B.pe row = A.pe row + 1 := by rw [b6]; simp
      have hB : B.rowOf row = setSpec l col val := by
        rw [rowOf_insert (A := A) (p := insPos l col) (e := (col, val)) hle hpl (by rw [b5]) hpe
          (fun k _ hk => c1 k hk) c2 c3, ← hl, take_insPos hs, hd]; rfl
      obtain ⟨hLay, hoth⟩ := rows_of_local_edit (A := A) (B := B) h hrow b1 b4 b5
        (fun i hi => by rw [b6, Function.update_of_ne hi]) (by omega) (by omega)
        (by intro k hk
            rcases hk with hk | hk
            · exact c1 k (by omega)
            · exact c4 k (by omega))
      refine ⟨hLay, b1, b2, b4, hB, hoth, ?_, by rw [b3]; push_cast; ring, b5,
        fun i hi => by rw [b6, Function.update_of_ne hi], ?_⟩
      · rw [length_rowOf, hpe, b5, hlen]; omega
      · intro k hk
        rcases hk with hk | hk
        · exact c1 k (by omega)
        · exact c4 k (by omega)
    by_cases hend : A.ps row + insPos l col = A.pe row
    · rw [if_pos hend]
      simp only [setCell, show A.ps row + insPos l col < A.nAlloc by omega, if_true,
        Option.bind_eq_bind, Option.bind_some]
      rw [coefOf_not_mem hnm]
      refine ⟨_, 1, rfl, hgen _ rfl rfl rfl rfl rfl rfl ?_ ?_ ?_ ?_⟩
      · intro k hk; simp only; rw [Function.update_of_ne (by omega)]
      · simp
      · intro k h1 h2; omega
      · intro k hk; simp only; rw [Function.update_of_ne (by omega)]
    · rw [if_neg hend]
      have hlt : insPos l col < l.length := by omega
      have hne : (A.cell (A.ps row + insPos l col)).1 ≠ col := by
        intro he
        rw [hcell hlt] at he
        exact hnm _ (by rw [← he]; exact List.getElem_mem hlt)
      rw [if_neg hne]
      simp only [memmove, show A.ps row + insPos l col + 1 + (A.pe row - (A.ps row + insPos l col)) ≤ A.nAlloc by omega,
        show A.ps row + insPos l col + (A.pe row - (A.ps row + insPos l col)) ≤ A.nAlloc by omega,
        and_self, if_true, setCell, show A.ps row + insPos l col < A.nAlloc by omega,
        Option.bind_eq_bind, Option.bind_some]
      rw [coefOf_not_mem hnm]
      refine ⟨_, 1, rfl, hgen _ rfl rfl rfl rfl rfl rfl ?_ ?_ ?_ ?_⟩
      · intro k hk; simp only; rw [Function.update_of_ne (by omega), if_neg (by omega)]
      · simp
      · intro k h1 h2; simp only; rw [Function.update_of_ne (by omega), if_pos (by omega)]
        congr 1; omega
      · intro k hk; simp only; rw [Function.update_of_ne (by omega), if_neg (by omega)]

theorem delSpec_split {l : List (ℕ × α)} (hs : RowSorted l) {c : ℕ} :
    (l.filter fun e => e.1 < c) ++ (l.filter fun e => c < e.1) = delSpec l c := by
  unfold delSpec
  induction l with
  | nil => rfl
  | cons a l ih =>
    obtain ⟨h1, h2⟩ := List.pairwise_cons.mp hs
    have ih := ih h2
    rcases lt_trichotomy a.1 c with h | h | h
    · simp only [List.filter_cons, h, decide_true, if_true, show ¬ c < a.1 by omega, decide_false,
        show a.1 ≠ c by omega, ne_eq, not_false_eq_true, List.cons_append] at ih ⊢
      simp at ih ⊢; exact ih
    · simp only [List.filter_cons, show ¬ a.1 < c by omega, show ¬ c < a.1 by omega, decide_false,
        ne_eq, h, not_true_eq_false] at ih ⊢
      simp at ih ⊢; exact ih
    · have e : (l.filter fun e => e.1 < c) = [] := by
        rw [List.filter_eq_nil_iff]; intro b hb; have := h1 b hb; simp; omega
      rw [e] at ih
      simp only [List.filter_cons, show ¬ a.1 < c by omega, h, decide_true, decide_false, if_true,
        show a.1 ≠ c by omega, ne_eq, not_false_eq_true, e, List.nil_append] at ih ⊢
      simp at ih ⊢; exact ih

/-- **C18, cancellation.** With a negligible value and the column present,
`insert_or_update_coeff` deletes exactly that coefficient. -/
theorem C18_insert_or_update_cancel (A : Mat α) (h : A.Layout) (small : α → Bool) (z : α)
    (row col : ℕ) (val v : α) (hrow : row < A.m) (hs : RowSorted (A.rowOf row))
    (hv : small val = true) (hmem : (col, v) ∈ A.rowOf row) :
    ∃ B, A.insertOrUpdate small z row col val = some (z, B, -1) ∧
      B.Layout ∧ B.rowOf row = delSpec (A.rowOf row) col ∧
      (∀ i < A.m, i ≠ row → B.rowOf i = A.rowOf i) ∧ (1 ≤ A.nnz → B.nnz + 1 = A.nnz) ∧
      (B.rowOf row).length + 1 = (A.rowOf row).length ∧ B.m = A.m ∧ B.nAlloc = A.nAlloc ∧
      B.ps = A.ps ∧ (∀ i, i ≠ row → B.pe i = A.pe i) ∧
      (∀ c, c < A.ps row ∨ A.ps (row + 1) ≤ c → B.cell c = A.cell c) := by
  set l := A.rowOf row with hl
  have hle := h.le row hrow
  have hnx := h.next row hrow
  have hal : A.ps (row + 1) ≤ A.nAlloc := le_trans (h.ps_mono hrow le_rfl) h.alloc
  have hlen : l.length = A.pe row - A.ps row := length_rowOf A row
  unfold insertOrUpdate
  simp only [findInsertion_row, ← hl, hv]
  rcases drop_insPos_split hs col with ⟨w, hvm, hd⟩ | ⟨hnm, hd⟩
  swap
  · exact absurd hmem (hnm v)
  obtain ⟨hlt, hg, hd1⟩ := getElem_insPos hd
  have hdel : l.take (insPos l col) ++ l.drop (insPos l col + 1) = delSpec l col := by
    rw [take_insPos hs, hd1, delSpec_split hs]
  have hgen : ∀ B : Mat α, B.m = A.m → B.nnz = A.nnz - 1 → B.nAlloc = A.nAlloc →
      B.ps = A.ps → B.pe = Function.update A.pe row (A.pe row - 1) →
      (∀ k, k < A.ps row + insPos l col → B.cell k = A.cell k) →
      (∀ k, A.ps row + insPos l col ≤ k → k + 1 < A.pe row → B.cell k = A.cell (k + 1)) →
      (∀ k, A.pe row ≤ k → B.cell k = A.cell k) →
      B.Layout ∧ B.rowOf row = delSpec l col ∧ (∀ i < A.m, i ≠ row → B.rowOf i = A.rowOf i) ∧
        (1 ≤ A.nnz → B.nnz + 1 = A.nnz) ∧ (B.rowOf row).length + 1 = l.length ∧ B.m = A.m ∧ B.nAlloc = A.nAlloc ∧
      B.ps = A.ps ∧ (∀ i, i ≠ row → B.pe i = A.pe i) ∧
      (∀ c, c < A.ps row ∨ A.ps (row + 1) ≤ c → B.cell c = A.cell c) := by
    intro B b1 b3 b4 b5 b6 c1 c3 c4
    have hpe : B.pe row = A.pe row - 1 := by rw [b6]; simp
    have hB : B.rowOf row = delSpec l col := by
      rw [rowOf_erase (A := A) (p := insPos l col) hle hlt (by rw [b5]) hpe
        (fun k _ hk => c1 k hk) c3, ← hl, hdel]
    obtain ⟨hLay, hoth⟩ := rows_of_local_edit (A := A) (B := B) h hrow b1 b4 b5
      (fun i hi => by rw [b6, Function.update_of_ne hi]) (by omega) (by omega)
      (by intro k hk
          rcases hk with hk | hk
          · exact c1 k (by omega)
          · exact c4 k (by omega))
    refine ⟨hLay, hB, hoth, by omega, ?_, b1, b4, b5, fun i hi => by rw [b6, Function.update_of_ne hi], ?_⟩
    · rw [length_rowOf, hpe, b5, hlen]; omega
    · intro k hk
      rcases hk with hk | hk
      · exact c1 k (by omega)
      · exact c4 k (by omega)
  simp only [Bool.true_eq_false, if_false]
  rw [if_neg (by omega)]
  by_cases hlast : A.ps row + insPos l col + 1 = A.pe row
  · rw [if_pos hlast]
    exact ⟨_, rfl, hgen _ rfl rfl rfl rfl rfl (fun _ _ => rfl) (fun k _ _ => by omega) (fun _ _ => rfl)⟩
  · rw [if_neg hlast]
    simp only [memmove, show A.ps row + insPos l col + (A.pe row - (A.ps row + insPos l col) - 1) ≤ A.nAlloc by omega,
      show A.ps row + insPos l col + 1 + (A.pe row - (A.ps row + insPos l col) - 1) ≤ A.nAlloc by omega,
      and_self, if_true, Option.bind_eq_bind, Option.bind_some]
    refine ⟨_, rfl, hgen _ rfl rfl rfl rfl rfl ?_ ?_ ?_⟩
    · intro k hk; simp only; rw [if_neg (by omega)]
    · intro k h1 h2; simp only; rw [if_pos (by omega)]; congr 1; omega
    · intro k hk; simp only; rw [if_neg (by omega)]

/-- **C18 is false of the code** in one case: with a negligible value and the column *absent*,
`insert_or_update_coeff` deletes an unrelated coefficient.  Witness: row `[(0,10),(2,12)]`,
setting column 1 to a negligible value deletes column 2. -/
theorem C18_absent_negligible_deletes_other :
    ∃ (A : Mat ℕ) (small : ℕ → Bool), A.Layout ∧ A.rowOf 0 = [(0, 10), (2, 12)] ∧ small 0 = true ∧
      (A.insertOrUpdate small 0 0 1 0).map (fun r => r.2.1.rowOf 0) = some [(0, 10)] := by
  refine ⟨⟨1, 3, 2, 4, fun k => [(0, 10), (2, 12)].getD k (0, 0), fun i => [0, 4].getD i 0,
    fun i => [2, 4].getD i 0⟩, fun v => v == 0, ⟨?_, ?_, ?_⟩, by decide, rfl, by decide⟩
  · intro i hi; have : i < 1 := hi; interval_cases i; decide
  · intro i hi; have : i < 1 := hi; interval_cases i; decide
  · decide

/-- **C18, undefined behaviour.** With a negligible value and every stored column smaller than
`col`, `insert_or_update_coeff` performs a `memmove` of `(size_t) -1` elements. -/
theorem C18_absent_negligible_at_end_ub (A : Mat α) (small : α → Bool) (z : α) (row col : ℕ) (val : α)
    (hv : small val = true) (h : A.Layout) (hrow : row < A.m) (habs : ∀ e ∈ A.rowOf row, e.1 < col) :
    A.insertOrUpdate small z row col val = none := by
  have hle := h.le row hrow
  have : insPos (A.rowOf row) col = (A.rowOf row).length := by
    unfold insPos
    generalize A.rowOf row = l at habs
    induction l with
    | nil => rfl
    | cons a l ih =>
      rw [List.takeWhile_cons, if_pos (by simpa using habs a (by simp)), List.length_cons,
        List.length_cons, ih (fun e he => habs e (by simp [he]))]
  unfold insertOrUpdate
  simp only [findInsertion_row, this, hv, length_rowOf]
  simp only [Bool.true_eq_false, if_false]
  rw [if_pos (by omega)]

/-! ## `remove_coeff` -/

theorem removeLoop_shifted (A : Mat α) (col i cnt : ℕ) (hal : i + cnt < A.nAlloc) :
    removeLoop A col i true cnt = some ({ A with
      cell := fun k =>
       if i ≤ k ∧ k < i + cnt then A.cell (k + 1) else A.cell k }, true) := by
  induction cnt generalizing A i with
  | zero =>
    simp only [removeLoop]
    congr 2
    cases A; simp only [Mat.mk.injEq, true_and, and_true]
    funext k; rw [if_neg (by omega)]
  | succ cnt ih =>
    simp only [removeLoop, ite_self, if_true, getCell, show i + 1 < A.nAlloc by omega, setCell,
      show i < A.nAlloc by omega, Option.bind_eq_bind, Option.bind_some]
    refine (ih _ (i + 1) (by simp only; omega)).trans ?_
    congr 2
    simp only [Mat.mk.injEq, true_and, and_true]
    funext k
    by_cases hk : k = i
    · subst hk; rw [if_neg (by omega), if_pos (by omega)]; simp
    · by_cases h2 : i ≤ k ∧ k < i + (cnt + 1)
      · rw [if_pos (by omega), if_pos h2, Function.update_of_ne (by omega)]
      · rw [if_neg (by omega), if_neg h2, Function.update_of_ne hk]

theorem removeLoop_find (A : Mat α) (col i p cnt : ℕ) (hal : i + (p + 1 + cnt) < A.nAlloc)
    (hne : ∀ k, i ≤ k → k < i + p → (A.cell k).1 ≠ col) (heq : (A.cell (i + p)).1 = col) :
    removeLoop A col i false (p + 1 + cnt) = some ({ A with
      cell := fun k =>
       if i + p ≤ k ∧ k < i + p + 1 + cnt then A.cell (k + 1) else A.cell k }, true) := by
  induction p generalizing A i with
  | zero =>
    rw [show 0 + 1 + cnt = cnt + 1 by omega]
    rw [Nat.add_zero] at heq
    simp only [removeLoop, heq, if_true, getCell, show i + 1 < A.nAlloc by omega, setCell,
      show i < A.nAlloc by omega, Option.bind_eq_bind, Option.bind_some]
    rw [removeLoop_shifted _ _ _ _ (by simp only; omega)]
    congr 2
    simp only [Mat.mk.injEq, true_and, and_true]
    funext k
    by_cases hk : k = i
    · subst hk; rw [if_neg (by omega), if_pos (by omega)]; simp
    · by_cases h2 : i ≤ k ∧ k < i + (cnt + 1)
      · rw [if_pos (by omega), if_pos (by omega), Function.update_of_ne (by omega)]
      · rw [if_neg (by omega), if_neg (by omega), Function.update_of_ne hk]
  | succ p ih =>
    have h0 := hne i le_rfl (by omega)
    rw [show p + 1 + 1 + cnt = (p + 1 + cnt) + 1 by omega]
    simp only [removeLoop, h0, if_false, Bool.false_eq_true, Nat.add_zero, getCell,
      show i < A.nAlloc by omega, if_true, setCell, Option.bind_eq_bind, Option.bind_some,
      Function.update_eq_self]
    rw [ih A (i + 1) (by omega) (fun k h1 h2 => hne k (by omega) (by omega))
      (by rw [show i + 1 + p = i + (p + 1) by omega]; exact heq)]
    congr 2
    simp only [Mat.mk.injEq, true_and, and_true]
    funext k
    rw [show i + 1 + p = i + (p + 1) by omega]

/-- **C18, removal (partial).** If the column is in the row and the cell just after the row
exists (in the gap or in the next row), `remove_coeff` deletes exactly that coefficient and writes
only to cells of the row.  Missing: the cell after the row is read unconditionally, and it need not
exist (`C18_remove_coeff_overread`, which is the only other case). -/
theorem C18_remove_coeff_partial (A : Mat α) (h : A.Layout) (row col : ℕ) (v : α) (hrow : row < A.m)
    (hs : RowSorted (A.rowOf row)) (hmem : (col, v) ∈ A.rowOf row)
    (hgap : A.pe row < A.nAlloc) :
    ∃ B, A.removeCoeff row col = some B ∧ B.Layout ∧ B.rowOf row = delSpec (A.rowOf row) col ∧
      (∀ i < A.m, i ≠ row → B.rowOf i = A.rowOf i) ∧ B.nnz = A.nnz ∧
      B.m = A.m ∧ B.n = A.n ∧ B.nAlloc = A.nAlloc ∧ B.ps = A.ps ∧
      B.pe row + 1 = A.pe row ∧ (∀ i, i ≠ row → B.pe i = A.pe i) ∧
      (∀ c, c < A.ps row ∨ A.pe row ≤ c → B.cell c = A.cell c) := by
  set l := A.rowOf row with hl
  have hle := h.le row hrow
  have hnx := h.next row hrow
  have hal : A.ps (row + 1) ≤ A.nAlloc := le_trans (h.ps_mono hrow le_rfl) h.alloc
  have hlen : l.length = A.pe row - A.ps row := length_rowOf A row
  rcases drop_insPos_split hs col with ⟨w, hvm, hd⟩ | ⟨hnm, hd⟩
  swap
  · exact absurd hmem (hnm v)
  obtain ⟨hlt, hg, hd1⟩ := getElem_insPos hd
  have hloop := removeLoop_find A col (A.ps row) (insPos l col) (l.length - insPos l col - 1)
    (by omega)
    (by
      intro k h1 h2 hc
      have : k - A.ps row < insPos l col := by omega
      have hmem' : l[k - A.ps row]'(by omega) ∈ l.take (insPos l col) := by
        rw [List.mem_take_iff_getElem]; exact ⟨k - A.ps row, by omega, rfl⟩
      rw [take_insPos hs, List.mem_filter] at hmem'
      have h3 := hmem'.2
      rw [getElem_rowOf, show A.ps row + (k - A.ps row) = k by omega] at h3
      simp at h3; omega)
    (by rw [← getElem_rowOf A row _ hlt]; show (l[insPos l col]).1 = col; rw [hg])
  rw [show insPos l col + 1 + (l.length - insPos l col - 1) = A.pe row - A.ps row by omega] at hloop
  rw [removeCoeff, hloop]
  simp only [Option.bind_eq_bind, Option.bind_some]
  refine ⟨_, rfl, ?_⟩
  set B : Mat α := { A with
    cell := fun k =>
     if A.ps row + insPos l col ≤ k ∧
      k < A.ps row + insPos l col + 1 + (l.length - insPos l col - 1) then A.cell (k + 1) else A.cell k
    pe := Function.update A.pe row (A.pe row - 1) }
  have hps : B.ps = A.ps := rfl
  have hpe : B.pe = Function.update A.pe row (A.pe row - 1) := rfl
  have hcell : B.cell = fun k => if A.ps row + insPos l col ≤ k ∧
      k < A.ps row + insPos l col + 1 + (l.length - insPos l col - 1) then A.cell (k + 1) else A.cell k := rfl
  have hB : B.rowOf row = delSpec l col := by
    rw [rowOf_erase (A := A) (B := B) (p := insPos l col) hle hlt rfl (by rw [hpe]; simp)
      (fun k _ hk => by rw [hcell]; simp only; rw [if_neg (by omega)])
      (fun k h1 h2 => by rw [hcell]; simp only; rw [if_pos (by omega)]), ← hl,
      take_insPos hs, hd1, delSpec_split hs]
  obtain ⟨hLay, hoth⟩ := rows_of_local_edit (A := A) (B := B) h hrow rfl rfl rfl
    (fun i hi => by rw [hpe, Function.update_of_ne hi]) (by rw [hpe]; simp; omega)
    (by rw [hpe]; simp; omega)
    (by intro k hk; rw [hcell]; simp only; rw [if_neg (by omega)])
  refine ⟨hLay, hB, hoth, rfl, rfl, rfl, rfl, rfl, ?_,
    fun i hi => by rw [hpe, Function.update_of_ne hi],
    fun k hk => by rw [hcell]; simp only; rw [if_neg (by omega)]⟩
  rw [hpe]; simp; omega

/-- **C18 is false of the code** for a row ending at the end of the allocation:
`remove_coeff` reads the cell after the row, which does not exist (Matrix.c:522-523). -/
theorem C18_remove_coeff_overread (A : Mat α) (h : A.Layout) (row col : ℕ) (v : α) (hrow : row < A.m)
    (hs : RowSorted (A.rowOf row)) (hmem : (col, v) ∈ A.rowOf row) (hlast : A.pe row = A.nAlloc) :
    A.removeCoeff row col = none := by
  have hle := h.le row hrow
  have key : ∀ (cnt i : ℕ) (B : Mat α) (sh : Bool), B.nAlloc = A.nAlloc → i + cnt = A.nAlloc →
      0 < cnt → (∀ k, i ≤ k → B.cell k = A.cell k) →
      (sh = true ∨ ∃ k, i ≤ k ∧ k < A.nAlloc ∧ (A.cell k).1 = col) →
      removeLoop B col i sh cnt = none := by
    intro cnt
    induction cnt with
    | zero => intro i B sh _ _ h; omega
    | succ cnt ih =>
      intro i B sh hB hic _ hcell hor
      simp only [removeLoop]
      set sh' := (if (B.cell i).1 = col then true else sh) with hsh
      by_cases hc : cnt = 0
      · subst hc
        have hst : sh' = true := by
          rcases hor with h1 | ⟨k, h1, h2, h3⟩
          · rw [hsh, h1]; simp
          · have : k = i := by omega
            subst this
            rw [hsh, hcell k le_rfl, if_pos h3]
        rw [hst]
        simp only [if_true, getCell, hB, show ¬ (i + 1 < A.nAlloc) by omega, if_false,
          Option.bind_eq_bind, Option.bind_none]
      · cases hg : B.getCell (i + if sh' = true then 1 else 0) with
        | none => rfl
        | some e =>
          simp only [Option.bind_eq_bind, Option.bind_some, setCell, hB, show i < A.nAlloc by omega,
            if_true]
          apply ih
          · rfl
          · omega
          · omega
          · intro k hk; simp only; rw [Function.update_of_ne (by omega)]; exact hcell k (by omega)
          · rcases hor with h1 | ⟨k, h1, h2, h3⟩
            · left; rw [hsh, h1]; simp
            · by_cases hk : k = i
              · left; subst hk; rw [hsh, hcell k le_rfl, if_pos h3]
              · right; exact ⟨k, by omega, h2, h3⟩
  rw [removeCoeff]
  have hin : ∃ k, A.ps row ≤ k ∧ k < A.nAlloc ∧ (A.cell k).1 = col := by
    simp only [rowOf, List.mem_map, List.mem_range] at hmem
    obtain ⟨t, ht, he⟩ := hmem
    exact ⟨A.ps row + t, by omega, by omega, by rw [he]⟩
  obtain ⟨k, k1, k2, k3⟩ := hin
  rw [key (A.pe row - A.ps row) (A.ps row) A false rfl (by omega) (by omega) (fun _ _ => rfl)
    (Or.inr ⟨k, k1, k2, k3⟩)]
  rfl

/-! ## `update_row_A_dton` -/

theorem findEq_spec (A : Mat α) (col s p : ℕ) (rest : ℕ)
    (hne : ∀ k, s ≤ k → k < s + p → (A.cell k).1 ≠ col) (heq : (A.cell (s + p)).1 = col) :
    findEq A col s (p + 1 + rest) = some (s + p) := by
  induction p generalizing s with
  | zero =>
    rw [show 0 + 1 + rest = rest + 1 by omega, findEq]
    rw [Nat.add_zero] at heq
    rw [if_pos heq, Nat.add_zero]
  | succ p ih =>
    rw [show p + 1 + 1 + rest = (p + 1 + rest) + 1 by omega, findEq, if_neg (hne s le_rfl (by omega)),
      ih (s + 1) (fun k h1 h2 => hne k (by omega) (by omega))
        (by rw [show s + 1 + p = s + (p + 1) by omega]; exact heq)]
    congr 1; omega

theorem sorted_delSpec {l : List (ℕ × α)} (hs : RowSorted l) (c : ℕ) : RowSorted (delSpec l c) :=
  List.Pairwise.filter _ hs

theorem insPos_filter {l : List (ℕ × α)} (hs : RowSorted l) (c : ℕ) :
    insPos l c = (l.filter fun e => e.1 < c).length := by
  rw [← take_insPos hs, List.length_take]
  have := insPos_le l c
  omega

/-- Removing column `k` moves the insertion position of `j` down by one iff `k < j`. -/
theorem insPos_delSpec {l : List (ℕ × α)} (hs : RowSorted l) {j k : ℕ} {v : α} (hk : (k, v) ∈ l) :
    insPos (delSpec l k) j = if k < j then insPos l j - 1 else insPos l j := by
  rw [insPos_filter hs, insPos_filter (sorted_delSpec hs k)]
  induction l with
  | nil => simp at hk
  | cons a l ih =>
    obtain ⟨h1, h2⟩ := List.pairwise_cons.mp hs
    rcases List.mem_cons.mp hk with rfl | hm
    · have hd : delSpec l k = l := by
        unfold delSpec; rw [List.filter_eq_self]
        intro b hb; have := h1 b hb; simp at this ⊢; omega
      have : delSpec ((k, v) :: l) k = l := by
        unfold delSpec at hd ⊢
        rw [List.filter_cons]; simp only [ne_eq, not_true_eq_false, decide_false]
        exact hd
      rw [this]
      by_cases hkj : k < j
      · simp [hkj]
      · simp [hkj]
    · have hak : a.1 ≠ k := by have := h1 _ hm; simp at this; omega
      have : delSpec (a :: l) k = a :: delSpec l k := by
        unfold delSpec; rw [List.filter_cons, if_pos (by simpa using hak)]
      rw [this, List.filter_cons, List.filter_cons]
      have hak' : a.1 < k := by have := h1 _ hm; simpa using this
      by_cases haj : a.1 < j
      · simp only [haj, decide_true, if_true, List.length_cons, ih h2 hm]
        by_cases hkj : k < j
        · rw [if_pos hkj, if_pos hkj]
          have : 0 < (l.filter fun e => e.1 < j).length := by
            apply List.length_pos_of_mem (a := (k, v))
            simp [hm, hkj]
          omega
        · rw [if_neg hkj, if_neg hkj]
      · have hkj : ¬ k < j := by omega
        simp only [haj, decide_false, Bool.false_eq_true, if_false, ih h2 hm, if_neg hkj]

theorem coefOf_delSpec {l : List (ℕ × α)} (hs : RowSorted l) (z : α) {j k : ℕ} (hjk : j ≠ k) :
    coefOf z (delSpec l k) j = coefOf z l j := by
  by_cases h : ∃ v, (j, v) ∈ l
  · obtain ⟨v, hv⟩ := h
    rw [coefOf_mem hs hv, coefOf_mem (sorted_delSpec hs k) (v := v)]
    simp [delSpec, hv, hjk]
  · have h : ∀ v, (j, v) ∉ l := fun v hv => h ⟨v, hv⟩
    rw [coefOf_not_mem h, coefOf_not_mem]
    intro v hv; simp [delSpec] at hv; exact h v hv.1

/-- The specified row after eliminating `k` in favour of `j`. -/
def dtonSpec (small : α → Bool) (l : List (ℕ × α)) (j k : ℕ) (new : α) : List (ℕ × α) :=
  if small new then delSpec (delSpec l k) j else setSpec (delSpec l k) j new

/-- **C18, elimination of one column in one row (partial).** If column `k` is in the sorted row,
and the new coefficient of `j` is not negligible or `j` is in the row, then
`update_row_A_dton` computes `new = f (old coefficient of j) (old coefficient of k)` and makes
the row exactly "`k` removed, `j` set to `new`" (or removed, if `new` is negligible).
Missing: `j` absent and `new` negligible, where the code deletes an unrelated coefficient or
has undefined behaviour (`C18_dton_absent_negligible`). -/
theorem C18_update_row_dton_partial (A : Mat α) (h : A.Layout) (small : α → Bool) (z : α)
    (f : α → α → α) (q j k : ℕ) (ak : α) (hq : q < A.m) (hs : RowSorted (A.rowOf q)) (hjk : j ≠ k)
    (hk : (k, ak) ∈ A.rowOf q)
    (hok : small (f (coefOf z (A.rowOf q) j) ak) = false ∨ ∃ v, (j, v) ∈ A.rowOf q) :
    ∃ B d, A.updateRowADton small z f q j k =
        some ((coefOf z (A.rowOf q) j, ak, f (coefOf z (A.rowOf q) j) ak), B, d) ∧
      B.Layout ∧ B.m = A.m ∧ B.n = A.n ∧
      B.rowOf q = dtonSpec small (A.rowOf q) j k (f (coefOf z (A.rowOf q) j) ak) ∧
      (∀ i < A.m, i ≠ q → B.rowOf i = A.rowOf i) ∧
      d = ((B.rowOf q).length : ℤ) - (A.rowOf q).length ∧
      ((A.rowOf q).length ≤ A.nnz → (B.nnz : ℤ) = A.nnz + d) := by
  set l := A.rowOf q with hl
  set new := f (coefOf z l j) ak with hnew
  have hle := h.le q hq
  have hnx := h.next q hq
  have hal : A.ps (q + 1) ≤ A.nAlloc := le_trans (h.ps_mono hq le_rfl) h.alloc
  have hlen : l.length = A.pe q - A.ps q := length_rowOf A q
  -- position of k
  rcases drop_insPos_split hs k with ⟨w, hvm, hd⟩ | ⟨hnm, hd⟩
  swap
  · exact absurd hk (hnm ak)
  obtain ⟨hlt, hg, hd1⟩ := getElem_insPos hd
  have hw : w = ak := by
    have e1 := coefOf_mem (z := z) hs hvm
    have e2 := coefOf_mem (z := z) hs hk
    exact e1.symm.trans e2
  subst hw
  set p := insPos l k with hp
  have hcellp : A.cell (A.ps q + p) = (k, w) := by
    rw [← getElem_rowOf A q p hlt]; exact hg
  have hfind : findEq A k (A.ps q) (A.pe q - A.ps q) = some (A.ps q + p) := by
    have := findEq_spec A k (A.ps q) p (l.length - p - 1)
      (by
        intro x h1 h2 hc
        have hmem' : l[x - A.ps q]'(by omega) ∈ l.take p := by
          rw [List.mem_take_iff_getElem]; exact ⟨x - A.ps q, by omega, rfl⟩
        rw [hp, take_insPos hs, List.mem_filter] at hmem'
        have h3 := hmem'.2
        rw [getElem_rowOf, show A.ps q + (x - A.ps q) = x by omega] at h3
        simp at h3; omega)
      (by rw [hcellp])
    rw [show p + 1 + (l.length - p - 1) = A.pe q - A.ps q by omega] at this
    exact this
  -- old coefficient of j
  have hold : (if A.ps q + insPos l j ≠ A.pe q ∧ (A.cell (A.ps q + insPos l j)).1 = j
      then (A.cell (A.ps q + insPos l j)).2 else z) = coefOf z l j := by
    rcases drop_insPos_split hs j with ⟨v, hvj, hdj⟩ | ⟨hnj, hdj⟩
    · obtain ⟨hltj, hgj, -⟩ := getElem_insPos hdj
      have : A.cell (A.ps q + insPos l j) = (j, v) := by
        rw [← getElem_rowOf A q _ hltj]; exact hgj
      rw [this, if_pos ⟨by omega, rfl⟩, coefOf_mem hs hvj]
    · rw [coefOf_not_mem hnj, if_neg]
      rintro ⟨h1, h2⟩
      have hltj : insPos l j < l.length := by have := insPos_le l j; omega
      rw [← getElem_rowOf A q _ hltj] at h2
      exact hnj _ (by rw [← h2]; exact List.getElem_mem hltj)
  -- matrix after removing column k
  set B1 : Mat α := { A with
    cell := fun x =>
     if A.ps q + p ≤ x ∧
      x < A.ps q + p + (A.pe q - (A.ps q + p) - 1) then A.cell (A.ps q + p + 1 + (x - (A.ps q + p)))
      else A.cell x } with hB1
  have hmove : A.memmove (A.ps q + p) (A.ps q + p + 1) (A.pe q - (A.ps q + p) - 1) = some B1 := by
    rw [memmove, if_pos (by omega)]
  set B' : Mat α := { B1 with pe := Function.update A.pe q (A.pe q - 1) } with hB'
  have hrow' : B'.rowOf q = delSpec l k := by
    rw [rowOf_erase (A := A) (B := B') (p := p) hle hlt rfl (by simp [hB'])
      (fun x _ hx => by simp only [hB', hB1]; rw [if_neg (by omega)])
      (fun x h1 h2 => by simp only [hB', hB1]; rw [if_pos (by omega)]; congr 1; omega), ← hl, hp,
      take_insPos hs, hd1, delSpec_split hs]
  obtain ⟨hLay', hoth'⟩ := rows_of_local_edit (A := A) (B := B') h hq rfl rfl rfl
    (fun i hi => by simp only [hB']; rw [Function.update_of_ne hi]) (by simp [hB']; omega)
    (by simp [hB']; omega)
    (by intro x hx; simp only [hB', hB1]; rw [if_neg (by omega)])
  have hs' : RowSorted (B'.rowOf q) := by rw [hrow']; exact sorted_delSpec hs k
  have hlt_iff : (A.ps q + p < A.ps q + insPos l j) ↔ k < j := by
    have e1 := insPos_filter hs k
    have e2 := insPos_filter hs j
    constructor
    · intro hpj
      by_contra hc
      have hsub : (l.filter fun e => e.1 < j).length ≤ (l.filter fun e => e.1 < k).length := by
        apply List.Sublist.length_le
        apply List.monotone_filter_right
        intro a ha; simp at ha ⊢; omega
      omega
    · intro hkj
      have : (l.filter fun e => e.1 < k).length < (l.filter fun e => e.1 < j).length := by
        have hsplit : (l.filter fun e => e.1 < j).length =
            ((l.filter fun e => e.1 < j).filter fun e => e.1 < k).length +
            ((l.filter fun e => e.1 < j).filter fun e => !(decide (e.1 < k))).length := by
          rw [← List.length_eq_length_filter_add]
        have hsame : ((l.filter fun e => e.1 < j).filter fun e => e.1 < k) = l.filter fun e => e.1 < k := by
          rw [List.filter_filter]
          apply List.filter_congr
          intro a _; simp; omega
        rw [hsame] at hsplit
        have hpos : 0 < ((l.filter fun e => e.1 < j).filter fun e => !(decide (e.1 < k))).length := by
          apply List.length_pos_of_mem (a := (k, w))
          simp [hvm, hkj]
        omega
      omega
  have hins1 : (if A.ps q + p < A.ps q + insPos l j then A.ps q + insPos l j - 1
      else A.ps q + insPos l j) = A.ps q + insPos (B'.rowOf q) j := by
    rw [hrow', insPos_delSpec hs hvm]
    by_cases hkj : k < j
    · have := hlt_iff.mpr hkj
      rw [if_pos this, if_pos hkj]; omega
    · rw [if_neg (fun hc => hkj (hlt_iff.mp hc)), if_neg hkj]
  have hpe' : B'.pe q = A.pe q - 1 := by simp [hB']
  have hlen' : (B'.rowOf q).length + 1 = l.length := by rw [length_rowOf, hpe']; show A.pe q - 1 - A.ps q + 1 = _; omega
  have hcoef' : coefOf z (B'.rowOf q) j = coefOf z l j := by rw [hrow', coefOf_delSpec hs z hjk]
  have htle := insPos_le (B'.rowOf q) j
  obtain ⟨t, ht⟩ : ∃ t, t = insPos (B'.rowOf q) j := ⟨_, rfl⟩
  rw [← ht] at hins1 htle
  unfold updateRowADton
  simp only [hfind, Option.bind_eq_bind, Option.bind_some, findInsertion_row, ← hl, hold, hcellp,
    hmove, hins1, ← hnew]
  cases hsm : small new with
  | true =>
    obtain ⟨v, hvj⟩ : ∃ v, (j, v) ∈ l := by
      rcases hok with h1 | h1
      · rw [hsm] at h1; simp at h1
      · exact h1
    have hvj' : (j, v) ∈ B'.rowOf q := by rw [hrow']; simp [delSpec, hvj, hjk]
    have h2 : 2 ≤ l.length := by
      have := List.length_pos_of_mem hvj'; omega
    obtain ⟨C, hC, c1, c2, c3, -, c5, -⟩ :=
      C18_insert_or_update_cancel B' hLay' small z q j new v hq hs' hsm hvj'
    unfold insertOrUpdate at hC
    simp only [findInsertion_row, hsm, Bool.true_eq_false, if_false, ← ht] at hC
    have hpsB : B'.ps q = A.ps q := rfl
    rw [hpsB, hpe'] at hC
    by_cases hge : A.ps q + t = A.pe q - 1
    · rw [if_pos hge] at hC; simp at hC
    · rw [if_neg hge] at hC
      skip
      have hltj : ¬ (A.ps q + t ≥ A.pe q - 1) := by omega
      simp only [if_true, hltj, if_false]
      have hm2 : B1.memmove (A.ps q + t) (A.ps q + t + 1)
          (A.pe q - 1 - (A.ps q + t) - 1) =
          some { B1 with
           cell := fun x =>
            if A.ps q + t ≤ x ∧
            x < A.ps q + t + (A.pe q - 1 - (A.ps q + t) - 1)
            then B1.cell (A.ps q + t + 1 + (x - (A.ps q + t)))
            else B1.cell x } := by
        rw [memmove, if_pos]
        show _ ∧ _
        constructor <;> (show _ ≤ A.nAlloc; omega)
      rw [hm2]
      simp only [Option.bind_some]
      refine ⟨_, _, rfl, ?_⟩
      -- the resulting matrix is `C` with one less in `nnz`
      have hCeq : C = { B1 with
          cell := fun x =>
           if A.ps q + t ≤ x ∧
            x < A.ps q + t + (A.pe q - 1 - (A.ps q + t) - 1)
            then B1.cell (A.ps q + t + 1 + (x - (A.ps q + t)))
            else B1.cell x
          pe := Function.update B'.pe q (A.pe q - 1 - 1)
          nnz := A.nnz - 1 } := by
        by_cases hlast : A.ps q + t + 1 = A.pe q - 1
        · rw [if_pos hlast] at hC
          simp only [Option.some.injEq, Prod.mk.injEq, true_and, and_true] at hC
          rw [← hC]
          simp only [hB', Mat.mk.injEq, true_and, and_true]
          refine ⟨rfl, ?_⟩
          funext x; rw [if_neg (by omega)]
        · rw [if_neg hlast] at hC
          have : B'.memmove (A.ps q + t) (A.ps q + t + 1)
            (A.pe q - 1 - (A.ps q + t) - 1) =
            some { B' with
           cell := fun x =>
            if A.ps q + t ≤ x ∧
            x < A.ps q + t + (A.pe q - 1 - (A.ps q + t) - 1)
            then B'.cell (A.ps q + t + 1 + (x - (A.ps q + t)))
            else B'.cell x } := by
            rw [memmove, if_pos]
            constructor <;> (show _ ≤ A.nAlloc; omega)
          rw [this] at hC
          simp only [Option.bind_eq_bind, Option.bind_some, Option.some.injEq, Prod.mk.injEq, true_and,
            and_true] at hC
          rw [← hC]
      have hrowEq : ∀ i, Mat.rowOf { B1 with
          cell := fun x =>
           if A.ps q + t ≤ x ∧
            x < A.ps q + t + (A.pe q - 1 - (A.ps q + t) - 1)
            then B1.cell (A.ps q + t + 1 + (x - (A.ps q + t)))
            else B1.cell x
          pe := Function.update B1.pe q (A.pe q - 1 - 1)
          nnz := B1.nnz - 2 } i = C.rowOf i := by
        intro i
        rw [hCeq]
        apply rowOf_congr
        · rfl
        · show Function.update A.pe q _ i = Function.update (Function.update A.pe q _) q _ i
          rw [Function.update_idem]
        · intro _ _ _; rfl
      refine ⟨?_, rfl, rfl, ?_, ?_, ?_, ?_⟩
      · have hpeq : Function.update A.pe q (A.pe q - 1 - 1) =
            Function.update (Function.update A.pe q (A.pe q - 1)) q (A.pe q - 1 - 1) := by
          rw [Function.update_idem]
        rw [hCeq] at c1
        refine ⟨?_, ?_, c1.alloc⟩
        · intro i hi; have := c1.le i hi
          show A.ps i ≤ Function.update A.pe q (A.pe q - 1 - 1) i
          rw [hpeq]; exact this
        · intro i hi; have := c1.next i hi
          show Function.update A.pe q (A.pe q - 1 - 1) i ≤ A.ps (i + 1)
          rw [hpeq]; exact this
      · rw [hrowEq, c2, hrow', dtonSpec, if_pos hsm]
      · intro i hi hiq; rw [hrowEq, c3 i hi hiq, hoth' i hi hiq]
      · rw [hrowEq]; omega
      · intro hnnz; show ((A.nnz - 2 : ℕ) : ℤ) = _; omega
  | false =>
    obtain ⟨C, d, hC, c1, cm, cn, ca, c2, c3, c4, c5, -⟩ :=
      C18_insert_or_update B' hLay' small z q j new hq hs' hsm
        (by right; show Function.update A.pe q (A.pe q - 1) q < A.ps (q + 1); simp; omega)
    unfold insertOrUpdate at hC
    simp only [findInsertion_row, hsm, if_true, ← ht] at hC
    have hpsB : B'.ps q = A.ps q := rfl
    rw [hpsB, hpe'] at hC
    have hcellB : B'.cell = B1.cell := rfl
    have hfin : ∀ (E : Mat α), E.m = C.m → E.n = C.n → E.nAlloc = C.nAlloc → E.cell = C.cell →
        E.ps = C.ps → E.pe = C.pe → (l.length ≤ A.nnz → (E.nnz : ℤ) = C.nnz - 1) →
        E.Layout ∧ E.m = A.m ∧ E.n = A.n ∧ E.rowOf q = dtonSpec small l j k new ∧
        (∀ i < A.m, i ≠ q → E.rowOf i = A.rowOf i) ∧
        d - 1 = ((E.rowOf q).length : ℤ) - l.length ∧ (l.length ≤ A.nnz → (E.nnz : ℤ) = A.nnz + (d - 1)) := by
      intro E e1 e2 e3 e4 e5 e6 e7
      have hr : ∀ i, E.rowOf i = C.rowOf i := fun i => rowOf_congr (by rw [e5]) (by rw [e6])
        (fun _ _ _ => by rw [e4])
      refine ⟨⟨?_, ?_, ?_⟩, e1.trans cm, e2.trans cn, ?_, ?_, ?_, ?_⟩
      · intro i hi; rw [e5, e6]; exact c1.le i (by omega)
      · intro i hi; rw [e5, e6]; exact c1.next i (by omega)
      · rw [e5, e1, e3]; exact c1.alloc
      · rw [hr, c2, hrow', dtonSpec, hsm]; rfl
      · intro i hi hiq; rw [hr, c3 i hi hiq, hoth' i hi hiq]
      · rw [hr]; omega
      · intro hnnz
        have : (B'.nnz : ℤ) = A.nnz := rfl
        rw [e7 hnnz, c5, this]; ring
    simp only [Bool.false_eq_true, if_false]
    by_cases hend : A.ps q + t = A.pe q - 1
    · rw [if_pos hend] at hC ⊢
      have hk' : A.ps q + t < A.nAlloc := by omega
      have e1 : B1.setCell (A.ps q + t) (j, new) =
          some { B1 with cell := Function.update B1.cell (A.ps q + t) (j, new) } := by
        rw [setCell, if_pos hk']
      have e2 : B'.setCell (A.ps q + t) (j, new) =
          some { B' with cell := Function.update B'.cell (A.ps q + t) (j, new) } := by
        rw [setCell, if_pos hk']
      rw [e2] at hC
      rw [e1]
      simp only [Option.bind_eq_bind, Option.bind_some, Option.some.injEq, Prod.mk.injEq, true_and] at hC ⊢
      obtain ⟨-, hC2, hd⟩ := hC
      refine ⟨_, d - 1, ⟨rfl, by omega⟩, hfin _ ?_ ?_ ?_ ?_ ?_ ?_ ?_⟩
      all_goals rw [← hC2]
      · show Function.update A.pe q _ = Function.update (Function.update A.pe q _) q _
        rw [Function.update_idem]
      · intro _; show ((A.nnz : ℕ) : ℤ) = ((A.nnz + 1 : ℕ) : ℤ) - 1; push_cast; ring
    · rw [if_neg hend] at hC ⊢
      have hk' : A.ps q + t < A.nAlloc := by
        omega
      rw [hcellB] at hC
      by_cases hj : (B1.cell (A.ps q + t)).1 = j
      · rw [if_pos hj] at hC ⊢
        have e1 : B1.setCell (A.ps q + t) (j, new) =
          some { B1 with cell := Function.update B1.cell (A.ps q + t) (j, new) } := by
          rw [setCell, if_pos hk']
        have e2 : B'.setCell (A.ps q + t) (j, new) =
          some { B' with cell := Function.update B'.cell (A.ps q + t) (j, new) } := by
          rw [setCell, if_pos hk']
        rw [e2] at hC
        rw [e1]
        simp only [Option.bind_eq_bind, Option.bind_some, Option.some.injEq, Prod.mk.injEq] at hC ⊢
        obtain ⟨-, hC2, hd⟩ := hC
        refine ⟨_, d - 1, ⟨trivial, rfl, by omega⟩, hfin _ ?_ ?_ ?_ ?_ ?_ ?_ ?_⟩
        all_goals rw [← hC2]
        · intro hnnz; show ((A.nnz - 1 : ℕ) : ℤ) = (A.nnz : ℤ) - 1; omega
      · rw [if_neg hj] at hC ⊢
        skip
        have hmm : ∀ X : Mat α, X.nAlloc = A.nAlloc → X.memmove (A.ps q + t + 1)
            (A.ps q + t) (A.pe q - 1 - (A.ps q + t)) =
            some { X with
              cell := fun x =>
               if A.ps q + t + 1 ≤ x ∧
                x < A.ps q + t + 1 + (A.pe q - 1 - (A.ps q + t))
                then X.cell (A.ps q + t + (x - (A.ps q + t + 1)))
                else X.cell x } := by
          intro X hX
          rw [memmove, if_pos (by rw [hX]; omega)]
        rw [hmm B' rfl] at hC
        rw [hmm B1 rfl]
        simp only [Option.bind_eq_bind, Option.bind_some, setCell] at hC ⊢
        rw [if_pos (show A.ps q + t < B'.nAlloc from hk')] at hC
        rw [if_pos (show A.ps q + t < B1.nAlloc from hk')]
        simp only [Option.bind_some, Option.some.injEq, Prod.mk.injEq] at hC ⊢
        obtain ⟨-, hC2, hd⟩ := hC
        refine ⟨_, d - 1, ⟨trivial, rfl, by omega⟩, hfin _ ?_ ?_ ?_ ?_ ?_ ?_ ?_⟩
        all_goals rw [← hC2]
        · show Function.update A.pe q _ = Function.update (Function.update A.pe q _) q _
          rw [Function.update_idem]
        · intro _; show ((A.nnz : ℕ) : ℤ) = ((A.nnz + 1 : ℕ) : ℤ) - 1; push_cast; ring

/-- **C18 is false of the code** for `update_row_A_dton` with `j` absent and a negligible new
coefficient: an unrelated coefficient is deleted.  Witness row `[(0,7),(2,5),(3,9)]`,
`k = 0`, `j = 1`, new coefficient negligible: column 2 disappears as well. -/
theorem C18_dton_absent_negligible :
    ∃ (A : Mat ℕ), A.Layout ∧ A.rowOf 0 = [(0, 7), (2, 5), (3, 9)] ∧
      (A.updateRowADton (fun v => v == 0) 0 (fun _ _ => 0) 0 1 0).map (fun r => r.2.1.rowOf 0) =
        some [(3, 9)] := by
  refine ⟨⟨1, 4, 3, 6, fun k => [(0, 7), (2, 5), (3, 9)].getD k (0, 0), fun i => [0, 6].getD i 0,
    fun i => [3, 6].getD i 0⟩, ⟨?_, ?_, ?_⟩, by decide, by decide⟩
  · intro i hi; have : i < 1 := hi; interval_cases i; decide
  · intro i hi; have : i < 1 := hi; interval_cases i; decide
  · decide

/-! ## Non-vacuity -/

/-- Row 0 is `[(0,7),(2,5),(3,9)]`, row 1 is `[(1,4)]`, with gaps. -/
def exCoef : Mat ℕ :=
  ⟨2, 4, 4, 10, fun k => [(0, 7), (2, 5), (3, 9), (8, 8), (8, 8), (1, 4)].getD k (0, 0),
    fun i => [0, 5, 10].getD i 0, fun i => [3, 6, 10].getD i 0⟩

example : exCoef.Layout ∧ RowSorted (exCoef.rowOf 0) ∧ exCoef.pe 0 < exCoef.ps 1 ∧
    (exCoef.insertOrUpdate (· == 0) 0 0 1 6).map (fun r => (r.1, r.2.1.rowOf 0, r.2.2)) =
      some (0, [(0, 7), (1, 6), (2, 5), (3, 9)], 1) ∧
    (exCoef.insertOrUpdate (· == 0) 0 0 2 6).map (fun r => (r.1, r.2.1.rowOf 0, r.2.2)) =
      some (5, [(0, 7), (2, 6), (3, 9)], 0) ∧
    (exCoef.insertOrUpdate (· == 0) 0 0 2 0).map (fun r => (r.1, r.2.1.rowOf 0, r.2.2)) =
      some (0, [(0, 7), (3, 9)], -1) ∧
    (exCoef.removeCoeff 0 2).map (fun B => B.rowOf 0) = some [(0, 7), (3, 9)] ∧
    (exCoef.updateRowADton (· == 0) 0 (fun a b => a + 2 * b) 0 3 0).map (fun r => (r.1, r.2.1.rowOf 0)) =
      some ((9, 7, 23), [(2, 5), (3, 23)]) := by
  refine ⟨⟨?_, ?_, ?_⟩, ?_, by decide, by decide, by decide, by decide, by decide, by decide⟩
  · intro i hi; have : i < 2 := hi; interval_cases i <;> decide
  · intro i hi; have : i < 2 := hi; interval_cases i <;> decide
  · decide
  · unfold RowSorted; decide

end Verif
