import Verif.Lemmas.DtonMat

/-!
# C55: eliminating a doubleton equality in the arrays

`Arrays` are the arrays of `A` and `AT` beside the rest of the state, `Arrays.view` the state with the
lists of cells that the arrays hold.  An access outside an array is `none`.
-/

namespace Verif

/-- The rows in which column `j` gets a new cell when column `k` is replaced: the entries of `k`
whose row is not among the entries of `j`. -/
def FillIn (colj colk : List Cell) : ℕ := (colk.filter (fun p => decide (p.1 ∉ colj.map Prod.fst))).length

theorem fillIn_eq (a b : List Cell) : FillIn a b = missing a b := by
  unfold FillIn missing
  congr 1
  refine List.filter_congr (fun p _ => ?_)
  rw [Bool.eq_iff_iff]
  simp only [decide_eq_true_eq, Bool.not_eq_true', List.any_eq_false, List.mem_map, not_exists, not_and]

/-- **C55, space check.**  For every layout and any two sorted columns, whatever the direction heuristics of
`shift_row` answer and whatever the shift limit: `sufficient_space_AT` reads and writes inside the arrays only.  If it
answers `false`, `AT` is unchanged.  If it answers `true`, the columns are ordered, disjoint and inside the
allocation, each has the same contents, and behind column `j` there is room for the whole fill-in less the cell
of the eliminated row.  When there is that room already it answers `true` without moving anything. -/
theorem C55_space_check (T : Mat ℚ) (lay : T.Layout) (pref : ℕ → ℕ → Bool) (maxShift : ℤ) {j k : ℕ}
    (hj : j < T.m) (hk : k < T.m) (sj : SortedC (T.rowOf j)) (sk : SortedC (T.rowOf k)) :
    ∃ b T', T.sufficientSpace pref j k maxShift = some (b, T') ∧
      (b = false → T' = T) ∧
      (b = true → T'.Layout ∧ (∀ r < T.m, T'.rowOf r = T.rowOf r) ∧
        (FillIn (T.rowOf j) (T.rowOf k) : ℤ) - 1 ≤ (T'.ps (j + 1) : ℤ) - T'.pe j) ∧
      ((FillIn (T.rowOf j) (T.rowOf k) : ℤ) - 1 ≤ (T.ps (j + 1) : ℤ) - T.pe j → b = true ∧ T' = T) ∧
      T'.m = T.m ∧ T'.nAlloc = T.nAlloc := by
  have hf := Mat.fillCount_spec T (lay.pe_le_alloc hj) (lay.pe_le_alloc hk)
    ((T.pe j - T.ps j) + (T.pe k - T.ps k) + 1) (T.ps j) (T.ps k) (-1) (lay.le j hj) (lay.le k hk) (by omega) sj sk
  rw [← Mat.rowOf_seg, ← Mat.rowOf_seg, ← fillIn_eq] at hf
  have e : (-1 : ℤ) + (FillIn (T.rowOf j) (T.rowOf k) : ℤ) = (FillIn (T.rowOf j) (T.rowOf k) : ℤ) - 1 := by omega
  rw [e] at hf
  unfold Mat.sufficientSpace
  rw [hf]
  simp only [Option.bind_eq_bind, Option.bind_some]
  by_cases hc : (FillIn (T.rowOf j) (T.rowOf k) : ℤ) - 1 ≤ (T.ps (j + 1) : ℤ) - T.pe j
  · rw [if_pos hc]
    exact ⟨true, T, rfl, by simp, fun _ => ⟨lay, fun _ _ => rfl, hc⟩, fun _ => ⟨rfl, rfl⟩, rfl, rfl⟩
  · rw [if_neg hc]
    obtain ⟨b, B, h1, h2, h3, h4, -, -, h5, -⟩ := C17_shift_row T lay pref j hj _ maxShift
    exact ⟨b, B, h1, h2, h3, fun h => absurd h hc, h4, h5⟩

/-- The substitution, with the whole of `Arrays.OK` in the conclusion. -/
theorem Arrays.dtonExecute_refines {M : Arrays} (ok : M.OK) (pref : ℕ → ℕ → Bool) (maxShift : ℤ) {i j k : ℕ} {aij aik : ℚ}
    (hi : i < M.A.m) (hjk : j ≠ k) (hj : j < M.AT.m) (hk : k < M.AT.m)
    (hAs : ∀ q < M.A.m, SortedC (M.A.rowOf q)) (hTs : ∀ c < M.AT.m, SortedC (M.AT.rowOf c))
    (hij : ∃ w, (i, w) ∈ M.AT.rowOf j)
    {T : Mat ℚ} (hsp : M.AT.sufficientSpace pref j k maxShift = some (true, T))
    {s : St} (hsm : s.m = M.s.m) (hsn : s.n = M.s.n) (hri : (s.rtag i).inactive = true)
    (hAT : ∀ q < M.A.m, (s.rtag q).inactive = false → ∀ c < M.AT.m, ∀ v, (c, v) ∈ M.A.rowOf q ↔ (q, v) ∈ M.AT.rowOf c)
    (hfit : ∀ q < M.A.m, (s.rtag q).inactive = false → ∀ a, (k, a) ∈ M.A.rowOf q → (∀ w, (j, w) ∉ M.A.rowOf q) →
      ZERO_TOL < |aij / aik * a|)
    (hnext : T.pe j < T.nAlloc) (rowCells : List Cell) (buf : List ℕ) (ck : ℚ) :
    ∃ M' buf', Arrays.dtonExecute ⟨s, M.A.setRange i (M.A.ps i) (M.A.ps i), T⟩ i rowCells j k aij aik buf ck = some (M', buf') ∧
      M'.OK ∧ M'.A.m = M.A.m ∧ M'.AT.m = M.AT.m ∧
      Verif.dtonExecute { s with A := upd M.A.lists i [], AT := M.AT.lists } i rowCells j k aij aik buf ck = (M'.view, buf') := by
  obtain ⟨b, T', e1, -, e2, -, e3, e4⟩ := C55_space_check M.AT ok.layT pref maxShift hj hk (hTs j hj) (hTs k hk)
  rw [hsp] at e1
  obtain ⟨rfl, rfl⟩ : true = b ∧ T = T' := by simpa using e1
  obtain ⟨lay, rows, room⟩ := e2 rfl
  -- the rows with row `i` empty
  obtain ⟨l1, l2, l3⟩ := Mat.clear_spec ok.layA hi
  have okA : Arrays.OK ⟨s, M.A.setRange i (M.A.ps i) (M.A.ps i), M.AT⟩ := ok.setA hsm hsn rfl l1 (fun q hq p hp => by
    by_cases h : q = i
    · subst h; rw [l2] at hp; cases hp
    · rw [l3 q h] at hp; exact ok.inA q hq p hp)
  have ok1 : Arrays.OK ⟨s, M.A.setRange i (M.A.ps i) (M.A.ps i), T⟩ := okA.setT rfl rfl e3 lay
    (fun c hc p hp => by rw [rows c hc] at hp; exact ok.inT c hc p hp)
  obtain ⟨M', buf', x1, x2, x3, x4, x5⟩ := Arrays.dtonExecute_step ok1 (aij := aij) (aik := aik) rowCells buf ck hjk
    (by show j < T.m; rw [e3]; exact hj) (by show k < T.m; rw [e3]; exact hk) hri
    (by show SortedC (T.rowOf j); rw [rows j hj]; exact hTs j hj)
    (by show ∃ w, _ ∈ T.rowOf j; rw [rows j hj]; exact hij) hnext
    (by show ((T.rowOf k).map Prod.fst).Nodup; rw [rows k hk]; exact (hTs k hk).nodup)
    (fun q hq => by
      have hqa : (s.rtag q).inactive = false := hq.2
      have hqi : q ≠ i := by rintro rfl; rw [hri] at hqa; cases hqa
      have hq1 : q ∈ (T.rowOf k).map Prod.fst := hq.1
      rw [rows k hk] at hq1
      obtain ⟨⟨q', a⟩, ha, rfl⟩ := List.mem_map.mp hq1
      have hqm : q' < M.A.m := ok.inT k hk _ ha
      have hka := (hAT q' hqm hqa k hk a).mpr ha
      have hA : (M.A.setRange i (M.A.ps i) (M.A.ps i)).rowOf q' = M.A.rowOf q' := l3 q' hqi
      have hT : T.rowOf j = M.AT.rowOf j := rows j hj
      have key : |newCoef j k (aij / aik) (M.A.rowOf q')| ≤ ZERO_TOL → ∃ w, (j, w) ∈ M.A.rowOf q' := by
        intro h
        by_contra hn
        have hn : ∀ w, (j, w) ∉ M.A.rowOf q' := fun w hw => hn ⟨w, hw⟩
        have := hfit q' hqm hqa a hka hn
        unfold newCoef at h
        rw [coefAt_cell (hAs q' hqm) hka, coefAt_noCol (fun p hp e => hn p.2 (by rw [← e]; exact hp)), zero_sub, abs_neg] at h
        exact absurd h (not_le.mpr this)
      show SortedC ((M.A.setRange i (M.A.ps i) (M.A.ps i)).rowOf q') ∧
        (∃ a, (k, a) ∈ (M.A.setRange i (M.A.ps i) (M.A.ps i)).rowOf q') ∧
        RowFits j k (aij / aik) ((M.A.setRange i (M.A.ps i) (M.A.ps i)).rowOf q') ∧
        (|newCoef j k (aij / aik) ((M.A.setRange i (M.A.ps i) (M.A.ps i)).rowOf q')| ≤ ZERO_TOL → ∃ w, (q', w) ∈ T.rowOf j)
      rw [hA, hT]
      refine ⟨hAs q' hqm, ⟨a, hka⟩, key, fun h => ?_⟩
      obtain ⟨w, hw⟩ := key h
      exact ⟨w, (hAT q' hqm hqa j hj w).mp hw⟩)
    (by
      show T.pe j + missing (T.rowOf j) (T.rowOf k) ≤ T.ps (j + 1) + 1
      rw [fillIn_eq] at room
      rw [rows j hj, rows k hk]
      omega)
  refine ⟨M', buf', x1, x2, x4, x5.trans e3, ?_⟩
  · rw [← x3]
    have v1 : (M.A.setRange i (M.A.ps i) (M.A.ps i)).lists = upd M.A.lists i [] :=
      Mat.lists_eq rfl hi l2 (fun q _ hq => l3 q hq)
    have v2 : T.lists = M.AT.lists := by
      funext c
      unfold Mat.lists
      rw [e3]
      split
      · exact rows c ‹_›
      · rfl
    unfold Arrays.view
    rw [v1, v2]

/-- **C55, substitution.**  Take arrays in which rows and columns are sorted, hold in-range indices and agree with each
other on the rows that are active, and let the space check for the columns `j`, which stays, and `k`, which goes,
answer `true`.  Then, in whatever state the equality `i` is retired and the substitution starts, it runs to its end without
leaving the arrays.  Column `j` never grows into the next column and the layouts stay valid.  The rows, columns, sizes,
work lists, activities and postsolve records are those of the list version.

`hfit`: in a row that gets a new cell, the value of that cell is not negligible.  `hnext` excludes the over-read of
`remove_coeff` (`C18_remove_coeff_overread`), the part that is missing. -/
theorem C55_substitution_partial {M : Arrays} (ok : M.OK) (pref : ℕ → ℕ → Bool) (maxShift : ℤ) {i j k : ℕ} {aij aik : ℚ}
    (hi : i < M.A.m) (hjk : j ≠ k) (hj : j < M.AT.m) (hk : k < M.AT.m)
    (hAs : ∀ q < M.A.m, SortedC (M.A.rowOf q)) (hTs : ∀ c < M.AT.m, SortedC (M.AT.rowOf c))
    (hij : ∃ w, (i, w) ∈ M.AT.rowOf j)
    {T : Mat ℚ} (hsp : M.AT.sufficientSpace pref j k maxShift = some (true, T))
    {s : St} (hsm : s.m = M.s.m) (hsn : s.n = M.s.n) (hri : (s.rtag i).inactive = true)
    (hAT : ∀ q < M.A.m, (s.rtag q).inactive = false → ∀ c < M.AT.m, ∀ v, (c, v) ∈ M.A.rowOf q ↔ (q, v) ∈ M.AT.rowOf c)
    (hfit : ∀ q < M.A.m, (s.rtag q).inactive = false → ∀ a, (k, a) ∈ M.A.rowOf q → (∀ w, (j, w) ∉ M.A.rowOf q) →
      ZERO_TOL < |aij / aik * a|)
    (hnext : T.pe j < T.nAlloc) (rowCells : List Cell) (buf : List ℕ) (ck : ℚ) :
    ∃ M' buf', Arrays.dtonExecute ⟨s, M.A.setRange i (M.A.ps i) (M.A.ps i), T⟩ i rowCells j k aij aik buf ck = some (M', buf') ∧
      M'.A.Layout ∧ M'.AT.Layout ∧
      (∀ q < M.A.m, ∀ p ∈ M'.A.rowOf q, p.1 < M.AT.m) ∧ (∀ c < M.AT.m, ∀ p ∈ M'.AT.rowOf c, p.1 < M.A.m) ∧
      Verif.dtonExecute { s with A := upd M.A.lists i [], AT := M.AT.lists } i rowCells j k aij aik buf ck = (M'.view, buf') := by
  obtain ⟨M', buf', x1, x2, eA, eT, x3⟩ := Arrays.dtonExecute_refines ok pref maxShift hi hjk hj hk hAs hTs hij hsp hsm hsn hri hAT
    hfit hnext rowCells buf ck
  refine ⟨M', buf', x1, x2.layA, x2.layT, fun q hq p hp => ?_, fun c hc p hp => ?_, x3⟩
  · rw [← eT]; exact x2.inA q (by rw [eA]; exact hq) p hp
  · rw [← eA]; exact x2.inT c (by rw [eT]; exact hc) p hp

/-- `2 x0 - x1 = 3`, `4 x1 + x2`, `x0 + x1 + x2`, `x1 + x2`: replacing `x1` puts two cells into column 0, one of them in
the place of the cell of row 0. -/
def lpFill : LP :=
  { m := 4, n := 3
    A := ofList [[(0, 2), (1, -1)], [(1, 4), (2, 1)], [(0, 1), (1, 1), (2, 1)], [(1, 1), (2, 1)]] []
    lhs := ofList [.fin 3, .ninf, .ninf, .fin 0] .ninf
    rhs := ofList [.fin 3, .fin 9, .fin 8, .fin 7] .pinf
    lb := fun _ => .fin 0, ub := fun _ => .pinf, c := fun _ => 1 }

/-- `lpFill` in memory: there is no room behind column 0, and two free cells behind column 1. -/
def arraysFill : Arrays :=
  { s := initSt lpFill
    A := { m := 4, n := 3, nnz := 9, nAlloc := 10
           cell := fun c => [(0, 2), (1, -1), (1, 4), (2, 1), (0, 1), (1, 1), (2, 1), (9, 9), (1, 1), (2, 1)].getD c (0, 0)
           ps := fun i => [0, 2, 4, 8, 10].getD i 10, pe := fun i => [2, 4, 7, 10, 10].getD i 10 }
    AT := { m := 3, n := 4, nnz := 9, nAlloc := 12
            cell := fun c => [(0, 2), (2, 1), (0, -1), (1, 4), (2, 1), (3, 1), (9, 9), (9, 9), (1, 1), (2, 1), (3, 1), (9, 9)].getD c (0, 0)
            ps := fun k => [0, 2, 8, 12].getD k 12, pe := fun k => [2, 6, 11, 12].getD k 12 } }

/-- The state in which the substitution starts: row 0 is inactive. -/
def stFill : St := { initSt lpFill with rtag := upd (initSt lpFill).rtag 0 { inactive := true } }

/-- Behind column 0 there is no room; the check moves column 1 by one cell. -/
theorem arraysFill_check : (arraysFill.AT.sufficientSpace (fun _ _ => false) 0 1 20).map
    (fun r => (r.1, [r.2.ps 0, r.2.pe 0, r.2.ps 1, r.2.pe 1, r.2.ps 2, r.2.nAlloc])) = some (true, [0, 2, 3, 7, 8, 12]) := by
  decide +kernel

theorem arraysFill_ok : arraysFill.OK := by
  have hA : ∀ i, i < arraysFill.A.m → i = 0 ∨ i = 1 ∨ i = 2 ∨ i = 3 := fun i (hi : i < 4) => by omega
  have hT : ∀ i, i < arraysFill.AT.m → i = 0 ∨ i = 1 ∨ i = 2 := fun i (hi : i < 3) => by omega
  refine ⟨rfl, rfl, ⟨fun i hi => ?_, fun i hi => ?_, by decide⟩, ⟨fun i hi => ?_, fun i hi => ?_, by decide⟩, fun i hi => ?_,
    fun i hi => ?_⟩
  · obtain rfl | rfl | rfl | rfl := hA i hi <;> decide
  · obtain rfl | rfl | rfl | rfl := hA i hi <;> decide
  · obtain rfl | rfl | rfl := hT i hi <;> decide
  · obtain rfl | rfl | rfl := hT i hi <;> decide
  · obtain rfl | rfl | rfl | rfl := hA i hi <;> decide +kernel
  · obtain rfl | rfl | rfl := hT i hi <;> decide +kernel

/-- The hypotheses hold in `arraysFill`; the new cells of column 0 fill its three places, and column 1 is empty. -/
example : ∃ T M' buf', arraysFill.AT.sufficientSpace (fun _ _ => false) 0 1 20 = some (true, T) ∧
    Arrays.dtonExecute ⟨stFill, arraysFill.A.setRange 0 (arraysFill.A.ps 0) (arraysFill.A.ps 0), T⟩ 0 [(0, 2), (1, -1)] 0 1 2 (-1)
      [] 1 = some (M', buf') ∧ M'.AT.Layout := by
  have h0 := arraysFill_check
  cases hsp : arraysFill.AT.sufficientSpace (fun _ _ => false) 0 1 20 with
  | none => rw [hsp] at h0; cases h0
  | some r =>
    obtain ⟨b, T⟩ := r
    rw [hsp] at h0
    simp only [Option.map_some, Option.some.injEq, Prod.mk.injEq, List.cons.injEq] at h0
    obtain ⟨rfl, h1, h2, h3, h4, h5, h6, -⟩ := h0
    have hA : ∀ i, i < arraysFill.A.m → i = 0 ∨ i = 1 ∨ i = 2 ∨ i = 3 := fun i (hi : i < 4) => by omega
    have hT : ∀ i, i < arraysFill.AT.m → i = 0 ∨ i = 1 ∨ i = 2 := fun i (hi : i < 3) => by omega
    have r1 : arraysFill.A.rowOf 1 = [(1, 4), (2, 1)] := by decide +kernel
    have r2 : arraysFill.A.rowOf 2 = [(0, 1), (1, 1), (2, 1)] := by decide +kernel
    have r3 : arraysFill.A.rowOf 3 = [(1, 1), (2, 1)] := by decide +kernel
    have c0 : arraysFill.AT.rowOf 0 = [(0, 2), (2, 1)] := by decide +kernel
    have c1 : arraysFill.AT.rowOf 1 = [(0, -1), (1, 4), (2, 1), (3, 1)] := by decide +kernel
    have c2 : arraysFill.AT.rowOf 2 = [(1, 1), (2, 1), (3, 1)] := by decide +kernel
    have a0 : (stFill.rtag 0).inactive = true := by decide +kernel
    obtain ⟨M', buf', e, -, e2, -⟩ := C55_substitution_partial arraysFill_ok (fun _ _ => false) 20 (i := 0) (j := 0) (k := 1)
      (aij := 2) (aik := -1) (by decide) (by decide) (by decide) (by decide)
      (fun q hq => by obtain rfl | rfl | rfl | rfl := hA q hq <;> (unfold SortedC; decide +kernel))
      (fun q hq => by obtain rfl | rfl | rfl := hT q hq <;> (unfold SortedC; decide +kernel))
      ⟨2, by rw [c0]; simp⟩ hsp (s := stFill) rfl rfl a0
      (fun q hq hr c hc v => by
        obtain rfl | rfl | rfl | rfl := hA q hq
        · rw [a0] at hr; cases hr
        all_goals obtain rfl | rfl | rfl := hT c hc <;> simp [r1, r2, r3, c0, c1, c2])
      (fun q hq hr a ha hn => by
        have zt : ZERO_TOL < 1 := by unfold ZERO_TOL; norm_num
        obtain rfl | rfl | rfl | rfl := hA q hq
        · rw [a0] at hr; cases hr
        · rw [r1] at ha; simp at ha; subst ha; norm_num; linarith
        · exact absurd (by rw [r2]; simp) (hn 1)
        · rw [r3] at ha; simp at ha; subst ha; norm_num; linarith)
      (by rw [h2, h6]; decide) [(0, 2), (1, -1)] [] 1
    exact ⟨T, M', buf', rfl, e, e2⟩

/-- `x0 - x1 = 3` without spare cells. -/
def arraysTight : Arrays :=
  { s := stFill
    A := { m := 1, n := 2, nnz := 2, nAlloc := 2, cell := fun c => [(0, 1), (1, -1)].getD c (0, 0)
           ps := fun i => [0, 2].getD i 2, pe := fun _ => 2 }
    AT := { m := 2, n := 1, nnz := 2, nAlloc := 2, cell := fun c => [(0, 1), (0, -1)].getD c (0, 0)
            ps := fun k => [0, 1, 2].getD k 2, pe := fun k => [1, 2].getD k 2 } }

/-- What `hnext` excludes: column 1 ends where the allocation ends, the check answers `true`, and removing the cell of row 0
from column 1 reads one cell too many. -/
theorem C55_overread :
    (arraysTight.AT.sufficientSpace (fun _ _ => false) 1 0 20).map (fun r => (r.1, r.2.pe 1, r.2.nAlloc)) = some (true, 2, 2) ∧
    (((arraysTight.AT.sufficientSpace (fun _ _ => false) 1 0 20).bind (fun r =>
      Arrays.dtonExecute ⟨stFill, arraysTight.A.setRange 0 0 0, r.2⟩ 0 [(0, 1), (1, -1)] 1 0 (-1) 1 [] 1)).isNone) = true := by
  decide +kernel

end Verif
