import Verif.Lemmas.Mat
import Mathlib.Tactic.Ring
import Mathlib.Tactic.IntervalCases

/-!
# C16: the transposed copy describes the same matrix; C11: reading the user's CSR arrays
-/

namespace Verif
open Mat
variable {α : Type}

/-! ## C16 -/

/-- Specification of the transposed row `j`: walk the rows of `A` in order and keep the
entries of column `j`. -/
def colSpec (A : Mat α) (j : ℕ) : List (ℕ × α) :=
  (List.range A.m).flatMap fun i =>
    (A.rowOf i).filterMap fun e => if e.1 = j then some (i, e.2) else none

/-- Number of entries of column `j` in a list of triples. -/
def colCnt (j : ℕ) (ts : List (ℕ × ℕ × α)) : ℕ := (ts.filter fun t => t.2.1 = j).length

theorem countCols_eq (n : ℕ) (ts : List (ℕ × ℕ × α)) (h : ∀ t ∈ ts, t.2.1 < n) :
    countCols n ts = some (fun j => colCnt j ts) := by
  induction ts with
  | nil => rfl
  | cons t ts ih =>
    obtain ⟨i, j, v⟩ := t
    have hj : j < n := h (i, j, v) (by simp)
    simp only [countCols, hj, guard_true, ih (fun t ht => h t (by simp [ht]))]
    simp only [Option.pure_def, Option.bind_eq_bind, Option.bind_some]
    congr 1
    funext k
    by_cases hk : k = j
    · subst hk; simp [colCnt]
    · rw [Function.update_of_ne hk]
      simp [colCnt, List.filter_cons, Ne.symm hk]

theorem fillLoop_spec (ts : List (ℕ × ℕ × α)) (AT : Mat α) (h : AT.Layout) (pos : ℕ → ℕ)
    (hcol : ∀ t ∈ ts, t.2.1 < AT.m) (hlo : ∀ j < AT.m, AT.ps j ≤ pos j)
    (hpos : ∀ j < AT.m, pos j + colCnt j ts = AT.pe j) :
    ∃ B, fillLoop AT pos ts = some B ∧ B.m = AT.m ∧ B.n = AT.n ∧ B.nnz = AT.nnz ∧
      B.nAlloc = AT.nAlloc ∧ B.ps = AT.ps ∧ B.pe = AT.pe ∧
      ∀ j < AT.m, B.rowOf j = ((List.range (pos j - AT.ps j)).map fun k => AT.cell (AT.ps j + k)) ++
        ts.filterMap fun t => if t.2.1 = j then some (t.1, t.2.2) else none := by
  induction ts generalizing AT pos with
  | nil =>
    refine ⟨AT, rfl, rfl, rfl, rfl, rfl, rfl, rfl, ?_⟩
    intro j hj
    have := hpos j hj
    simp only [colCnt, List.filter_nil, List.length_nil, Nat.add_zero] at this
    simp [rowOf, this]
  | cons t ts ih =>
    obtain ⟨i, j, v⟩ := t
    have hj : j < AT.m := hcol (i, j, v) (by simp)
    have hpj := hpos j hj
    have hc : colCnt j ((i, j, v) :: ts) = colCnt j ts + 1 := by simp [colCnt]
    rw [hc] at hpj
    have hal := h.pe_le_alloc hj
    have hlt : pos j < AT.nAlloc := by omega
    simp only [fillLoop, setCell, hlt, if_true, Option.bind_eq_bind, Option.bind_some]
    obtain ⟨B, hB, h1, h2, h3, h4, h5, h6, h7⟩ :=
      ih { AT with cell := Function.update AT.cell (pos j) (i, v) }
        ⟨h.le, h.next, h.alloc⟩ (Function.update pos j (pos j + 1))
        (fun t ht => hcol t (by simp [ht]))
        (by
          intro k hk
          by_cases hkj : k = j
          · subst hkj; have := hlo k hk; simp only [Function.update_self]; omega
          · rw [Function.update_of_ne hkj]; exact hlo k hk)
        (by
          intro k hk
          by_cases hkj : k = j
          · subst hkj; simp only [Function.update_self]; omega
          · rw [Function.update_of_ne hkj]
            have := hpos k hk
            simp only [colCnt, List.filter_cons, Ne.symm hkj, decide_false] at this ⊢
            simpa using this)
    refine ⟨B, hB, h1, h2, h3, h4, h5, h6, ?_⟩
    intro k hk
    rw [h7 k hk]
    have hlk := hlo k hk
    by_cases hkj : k = j
    · subst hkj
      simp only [Function.update_self]
      rw [show pos k + 1 - AT.ps k = (pos k - AT.ps k) + 1 by omega, List.range_succ, List.map_append]
      simp only [List.map_cons, List.map_nil, List.append_assoc, List.filterMap_cons, if_true]
      congr 1
      · apply List.map_congr_left
        intro x hx
        have := List.mem_range.mp hx
        rw [Function.update_of_ne (by omega)]
      · rw [show AT.ps k + (pos k - AT.ps k) = pos k by omega, Function.update_self]; rfl
    · rw [Function.update_of_ne hkj, List.filterMap_cons, if_neg (Ne.symm hkj)]
      congr 1
      apply List.map_congr_left
      intro x hx
      have hx' : x < pos k - AT.ps k := List.mem_range.mp hx
      have hpk := hpos k hk
      show Function.update AT.cell (pos j) (i, v) (AT.ps k + x) = AT.cell (AT.ps k + x)
      rw [Function.update_of_ne]
      intro hcon
      have hlj := hlo j hj
      -- the two transposed rows are disjoint
      rcases Nat.lt_or_gt_of_ne hkj with hlt' | hgt
      · have := h.pe_le_ps hlt' (by omega : j ≤ AT.m)
        omega
      · have := h.pe_le_ps hgt (by omega : k ≤ AT.m)
        omega

theorem mem_triples {A : Mat α} {t : ℕ × ℕ × α} :
    t ∈ A.triples ↔ t.1 < A.m ∧ (t.2.1, t.2.2) ∈ A.rowOf t.1 := by
  obtain ⟨i, j, v⟩ := t
  simp only [triples, List.mem_flatMap, List.mem_range, List.mem_map, Prod.mk.injEq]
  constructor
  · rintro ⟨a, ha, ⟨c, w⟩, he, rfl, rfl, rfl⟩; exact ⟨ha, he⟩
  · rintro ⟨h1, h2⟩; exact ⟨i, h1, (j, v), h2, rfl, rfl, rfl⟩

theorem colSpec_eq (A : Mat α) (j : ℕ) :
    colSpec A j = A.triples.filterMap fun t => if t.2.1 = j then some (t.1, t.2.2) else none := by
  simp only [colSpec, triples, List.filterMap_flatMap, List.filterMap_map]
  rfl

theorem transStart_mono (ratio extra : ℕ) (cnt : ℕ → ℕ) (k : ℕ) :
    transStart ratio extra cnt (k + 1) = transStart ratio extra cnt k + cnt k * ratio + extra := by
  simp [transStart, calcMemoryRow]; ring

theorem sum_colCnt (ts : List (ℕ × ℕ × α)) (n : ℕ) (h : ∀ t ∈ ts, t.2.1 < n) (ratio extra : ℕ) :
    transStart ratio extra (fun j => colCnt j ts) n = ts.length * ratio + n * extra := by
  have base : ∀ k, transStart ratio extra (fun j => colCnt j ts) k =
      (ts.filter fun t => t.2.1 < k).length * ratio + k * extra := by
    intro k
    induction k with
    | zero => simp [transStart]
    | succ k ih =>
      rw [transStart_mono, ih]
      have : (ts.filter fun t => t.2.1 < k + 1).length =
          (ts.filter fun t => t.2.1 < k).length + colCnt k ts := by
        unfold colCnt
        clear ih h
        induction ts with
        | nil => rfl
        | cons t ts ih =>
          simp only [List.filter_cons]
          rcases lt_trichotomy t.2.1 k with h1 | h1 | h1
          · simp only [show t.2.1 < k + 1 by omega, h1, show ¬ t.2.1 = k by omega, decide_true,
              decide_false, if_true, List.length_cons]
            simp; omega
          · simp only [show t.2.1 < k + 1 by omega, show ¬ t.2.1 < k by omega, h1, decide_true,
              decide_false, if_true, List.length_cons]
            simp at ih ⊢; omega
          · simp only [show ¬ t.2.1 < k + 1 by omega, show ¬ t.2.1 < k by omega,
              show ¬ t.2.1 = k by omega, decide_false]
            simpa using ih
      rw [this]; ring
  rw [base, List.filter_eq_self.mpr (by simpa using h)]

/-- **C16.** If the entries of `A` have columns in range and `nnz` is their number, then
`transpose` succeeds without leaving the allocation it computed; the result has a valid
layout, and its row `j` is exactly column `j` of `A`, in increasing row order, with at least
`extra` free cells after it. -/
theorem C16_transpose (A : Mat α) (ratio extra : ℕ) (hr : 1 ≤ ratio) (fresh : ℕ → ℕ × α)
    (hcol : ∀ i < A.m, ∀ e ∈ A.rowOf i, e.1 < A.n) (hnnz : A.nnz = A.triples.length) :
    ∃ AT, A.transpose ratio extra fresh = some AT ∧ AT.m = A.n ∧ AT.n = A.m ∧ AT.nnz = A.nnz ∧
      AT.Layout ∧ (∀ j < A.n, AT.rowOf j = colSpec A j) ∧
      (∀ j < A.n, AT.pe j + extra ≤ AT.ps (j + 1)) := by
  have hc : ∀ t ∈ A.triples, t.2.1 < A.n := by
    intro t ht
    obtain ⟨h1, h2⟩ := mem_triples.mp ht
    exact hcol _ h1 _ h2
  have hsum := sum_colCnt A.triples A.n hc ratio extra
  unfold transpose
  rw [countCols_eq A.n A.triples hc]
  simp only [Option.bind_eq_bind, Option.bind_some]
  set cnt := fun j => colCnt j A.triples with hcnt
  set start := transStart ratio extra cnt with hstart
  have hmul : ∀ j, cnt j ≤ cnt j * ratio := fun j => Nat.le_mul_of_pos_right _ hr
  have hal : calcMemory ratio extra A.nnz A.n = start A.n := by
    rw [hsum, calcMemory, hnnz]
  have hps : (fun i => if i = A.n then calcMemory ratio extra A.nnz A.n else start i) = start := by
    funext i; split
    · next h => rw [hal, h]
    · rfl
  rw [hps]
  have hnext : ∀ j, start j + cnt j + extra ≤ start (j + 1) := by
    intro j
    have h1 := transStart_mono ratio extra cnt j
    rw [← hstart] at h1
    have := hmul j
    omega
  obtain ⟨B, hB, b1, b2, b3, b4, b5, b6, b7⟩ := fillLoop_spec A.triples
    { m := A.n, n := A.m, nnz := A.nnz, nAlloc := calcMemory ratio extra A.nnz A.n, cell := fresh
      ps := start
      pe := fun i => if i = A.n then calcMemory ratio extra A.nnz A.n else start i + cnt i }
    (by
      refine ⟨?_, ?_, ?_⟩
      · intro i hi; simp only at hi ⊢; rw [if_neg (by omega)]; omega
      · intro i hi; simp only at hi ⊢; rw [if_neg (by omega)]; have := hnext i; omega
      · simp only [hal]; exact le_rfl)
    start hc (fun j _ => le_rfl)
    (by intro j hj; simp only at hj ⊢; rw [if_neg (by omega)])
  refine ⟨B, hB, b1, b2, b3, ?_, ?_, ?_⟩
  · refine ⟨?_, ?_, ?_⟩
    · intro i hi; rw [b5, b6]; rw [b1] at hi; simp only at hi ⊢; rw [if_neg (by omega)]; omega
    · intro i hi; rw [b5, b6]; rw [b1] at hi; simp only at hi ⊢; rw [if_neg (by omega)]
      have := hnext i; omega
    · rw [b5, b4, b1]; simp only [hal]; exact le_rfl
  · intro j hj
    rw [b7 j hj, colSpec_eq]; simp
  · intro j hj
    rw [b5, b6]; simp only; rw [if_neg (by omega)]; exact hnext j

/-- **C16, entrywise.** Entry `(i, v)` is in transposed row `j` exactly when `(j, v)` is in
row `i`, and transposed rows are sorted by row index. -/
theorem C16_transpose_entries (A : Mat α) (ratio extra : ℕ) (hr : 1 ≤ ratio) (fresh : ℕ → ℕ × α)
    (hcol : ∀ i < A.m, ∀ e ∈ A.rowOf i, e.1 < A.n) (hnnz : A.nnz = A.triples.length) (AT : Mat α)
    (hAT : A.transpose ratio extra fresh = some AT) :
    (∀ i j v, i < A.m → j < A.n → ((i, v) ∈ AT.rowOf j ↔ (j, v) ∈ A.rowOf i)) ∧
    (∀ j < A.n, (AT.rowOf j).Pairwise fun a b => a.1 ≤ b.1) := by
  obtain ⟨AT', h1, -, -, -, -, h2, -⟩ := C16_transpose A ratio extra hr fresh hcol hnnz
  rw [h1] at hAT
  obtain rfl := Option.some.inj hAT
  constructor
  · intro i j v hi hj
    rw [h2 j hj, colSpec]
    simp only [List.mem_flatMap, List.mem_range, List.mem_filterMap]
    constructor
    · rintro ⟨a, ha, e, he, hif⟩
      split at hif
      · next hej =>
        simp only [Option.some.injEq, Prod.mk.injEq] at hif
        obtain ⟨rfl, rfl⟩ := hif
        rw [← hej]; exact he
      · simp at hif
    · intro h
      exact ⟨i, hi, (j, v), h, by simp⟩
  · intro j hj
    rw [h2 j hj, colSpec]
    generalize A.m = m
    induction m with
    | zero => simp
    | succ m ih =>
      rw [List.range_succ, List.flatMap_append]
      simp only [List.flatMap_cons, List.flatMap_nil, List.append_nil]
      rw [List.pairwise_append]
      refine ⟨ih, ?_, ?_⟩
      · rw [List.pairwise_filterMap]
        apply List.Pairwise.imp (R := fun _ _ => True)
        · intro a b _ x hx y hy
          split at hx <;> split at hy <;> simp_all
          rw [← hx, ← hy]
        · exact List.pairwise_of_forall (fun _ _ => trivial)
      · intro x hx y hy
        simp only [List.mem_flatMap, List.mem_range, List.mem_filterMap] at hx hy
        obtain ⟨a, ha, e, -, hif⟩ := hx
        obtain ⟨e', -, hif'⟩ := hy
        split at hif
        · split at hif'
          · simp only [Option.some.injEq] at hif hif'
            subst hif hif'; simp only; omega
          · simp at hif'
        · simp at hif

/-- `[[1,2,0],[0,3,0]]` stored with a gap. -/
def exTr : Mat ℕ :=
  { m := 2, n := 3, nnz := 3, nAlloc := 8, cell := fun k => [(0, 1), (1, 2), (7, 7), (1, 3)].getD k (9, 9)
    ps := fun i => [0, 3, 8].getD i 0, pe := fun i => [2, 4, 8].getD i 0 }

example : (∀ i < exTr.m, ∀ e ∈ exTr.rowOf i, e.1 < exTr.n) ∧ exTr.nnz = exTr.triples.length ∧
    ((exTr.transpose 2 4 (fun _ => (0, 0))).map fun B => (List.range 3).map B.rowOf) =
      some [[(0, 1)], [(0, 2), (1, 3)], []] := by decide +kernel

/-! ## C11 -/

/-- **C11 is false of the code.** With the array lengths the API documents (`Ap` has
`m + 1` entries) reading the matrix always touches `Ap[m+1]`, one past the end, whatever the
rest of the input is (Matrix.c:110 runs `i = 0..n_rows` inclusive and reads `Ap[i+1]`). -/
theorem C11_reads_past_Ap (Axi : UArr (ℕ × α)) (Ap : UArr ℕ) (m n nnz : ℕ) (h : Ap.len = m + 1) :
    newNoExtra Axi Ap m n nnz = none := by
  have : copyPtrs Ap (m + 1) = none := by
    rw [copyPtrs]
    cases copyPtrs Ap m with
    | none => rfl
    | some p => obtain ⟨s, e⟩ := p; simp [UArr.read, h]
  unfold newNoExtra newNoExtraWith
  rw [this]
  cases h' : (guard (nnz ≤ Axi.len) : Option Unit) <;> rfl

theorem copyPtrs_spec (Ap : UArr ℕ) (k : ℕ) (h : k + 1 ≤ Ap.len ∨ k = 0) :
    ∃ s e, copyPtrs Ap k = some (s, e) ∧ ∀ i < k, s i = Ap.val i ∧ e i = Ap.val (i + 1) := by
  induction k with
  | zero => exact ⟨_, _, rfl, by omega⟩
  | succ k ih =>
    obtain ⟨s, e, h1, h2⟩ := ih (by omega)
    refine ⟨Function.update s k (Ap.val k), Function.update e k (Ap.val (k + 1)), ?_, ?_⟩
    · rw [copyPtrs, h1]
      have a : k < Ap.len := by omega
      have b : k + 1 < Ap.len := by omega
      simp [UArr.read, a, b]
    · intro i hi
      by_cases hik : i = k
      · subst hik; simp
      · rw [Function.update_of_ne hik, Function.update_of_ne hik]; exact h2 i (by omega)

/-- **C11, partial.** When `Ap` is readable one entry further than documented, the internal
matrix holds exactly the user's rows.  Missing: with the documented length the read itself is
undefined behaviour (`C11_reads_past_Ap`). -/
theorem C11_rows_partial (Axi : UArr (ℕ × α)) (Ap : UArr ℕ) (m n nnz : ℕ) (h : m + 2 ≤ Ap.len)
    (hx : nnz ≤ Axi.len) :
    ∃ A, newNoExtra Axi Ap m n nnz = some A ∧ A.m = m ∧ A.n = n ∧ A.nnz = nnz ∧
      ∀ i < m, A.rowOf i = (List.range (Ap.val (i + 1) - Ap.val i)).map fun k => Axi.val (Ap.val i + k) := by
  obtain ⟨s, e, h1, h2⟩ := copyPtrs_spec Ap (m + 1) (by omega)
  refine ⟨{ m := m, n := n, nnz := nnz, nAlloc := nnz, cell := Axi.val, ps := s, pe := e }, ?_, rfl, rfl, rfl, ?_⟩
  · simp [newNoExtra, newNoExtraWith, h1, hx]
  · intro i hi
    obtain ⟨a, b⟩ := h2 i (by omega)
    simp [rowOf, a, b]

/-- The same loop run over exactly the `m` rows needs only the documented `m + 1` entries:
the over-read is not needed for the result. -/
theorem C11_rows_with_documented_length (Axi : UArr (ℕ × α)) (Ap : UArr ℕ) (m n nnz : ℕ)
    (h : m + 1 ≤ Ap.len) (hx : nnz ≤ Axi.len) :
    ∃ A, newNoExtraWith m Axi Ap m n nnz = some A ∧
      ∀ i < m, A.rowOf i = (List.range (Ap.val (i + 1) - Ap.val i)).map fun k => Axi.val (Ap.val i + k) := by
  obtain ⟨s, e, h1, h2⟩ := copyPtrs_spec Ap m (by omega)
  refine ⟨{ m := m, n := n, nnz := nnz, nAlloc := nnz, cell := Axi.val, ps := s, pe := e }, ?_, ?_⟩
  · simp [newNoExtraWith, h1, hx]
  · intro i hi
    obtain ⟨a, b⟩ := h2 i (by omega)
    simp [rowOf, a, b]

/-- User arrays of the 2×3 matrix above. -/
def exAxi : UArr (ℕ × ℕ) := ⟨fun k => [(0, 1), (1, 2), (1, 3)].getD k (0, 0), 3⟩
def exAp : UArr ℕ := ⟨fun k => [0, 2, 3].getD k 0, 3⟩

example : (newNoExtra exAxi exAp 2 3 3).isNone = true ∧
    ((newNoExtra exAxi { exAp with len := 4 } 2 3 3).map fun A => (List.range 2).map A.rowOf) =
      some [[(0, 1), (1, 2)], [(1, 3)]] := by decide +kernel

end Verif
