import Verif.Lemmas.Mat
import Verif.Props.C19_Shrink
import Mathlib.Tactic.Ring
import Mathlib.Tactic.IntervalCases

/-!
# C09: the reduced matrix is a valid, gap-free CSR matrix holding exactly the surviving data
-/

namespace Verif
open Mat
variable {α : Type}

/-- State of the compaction loop after `k` rows (with `remove_all`). -/
structure CompactInv (A : Mat α) (r : ℕ → Bool) (k : ℕ) (B : Mat α) (del curr : ℕ) : Prop where
  cnt : del + (survivors r k).length = k
  hm : B.m = A.m
  hn : B.n = A.n
  hz : B.nnz = A.nnz
  ha : B.nAlloc = A.nAlloc
  curr_le : curr ≤ A.ps k
  zero : Function.update B.ps (survivors r k).length curr 0 = 0
  chain : ∀ t < (survivors r k).length,
    B.ps t ≤ B.pe t ∧ B.pe t = Function.update B.ps (survivors r k).length curr (t + 1) ∧ B.pe t ≤ curr
  rows : ∀ (t : ℕ) (h : t < (survivors r k).length), B.rowOf t = A.rowOf (survivors r k)[t]
  rest : ∀ i, k ≤ i → B.ps i = A.ps i ∧ B.pe i = A.pe i
  cells : ∀ x, A.ps k ≤ x → B.cell x = A.cell x

theorem compactLoop_inv (A : Mat α) (h : A.Layout) (r : ℕ → Bool) (k : ℕ) (hk : k ≤ A.m) :
    ∃ B del curr, compactLoop A 1 0 r k = some (B, del, curr) ∧ CompactInv A r k B del curr := by
  induction k with
  | zero =>
    refine ⟨A, 0, 0, rfl, ⟨rfl, rfl, rfl, rfl, rfl, by omega, by simp [survivors], ?_, ?_,
      fun _ _ => ⟨rfl, rfl⟩, fun _ _ => rfl⟩⟩
    · intro t ht; simp [survivors] at ht
    · intro t ht; simp [survivors] at ht
  | succ k ih =>
    obtain ⟨B, del, curr, hB, I⟩ := ih (by omega)
    have hle := h.le k (by omega)
    have hnx := h.next k (by omega)
    rw [compactLoop, hB]
    simp only [Option.bind_eq_bind, Option.bind_some]
    cases hr : r k with
    | true =>
      have hs : survivors r (k + 1) = survivors r k := by rw [survivors_succ, hr]; simp
      refine ⟨B, del + 1, curr, by simp, ?_⟩
      have c1 := I.cnt
      have c2 := I.curr_le
      refine ⟨?_, I.hm, I.hn, I.hz, I.ha, by omega, ?_, ?_, ?_, ?_, ?_⟩
      · rw [hs]; omega
      · rw [hs]; exact I.zero
      · rw [hs]; exact I.chain
      · intro t ht
        have ht' : t < (survivors r k).length := by rw [hs] at ht; exact ht
        rw [I.rows t ht']
        simp only [hs]
      · intro i hi; exact I.rest i (by omega)
      · intro x hx; exact I.cells x (by omega)
    | false =>
      have hs : survivors r (k + 1) = survivors r k ++ [k] := by rw [survivors_succ, hr]; simp
      have c1 := I.cnt
      have c2 := I.curr_le
      obtain ⟨e1, e2⟩ := I.rest k le_rfl
      have hdel : k - del = (survivors r k).length := by omega
      have hal := h.pe_le_alloc (i := k) (by omega)
      have hmm : curr + (A.pe k - A.ps k) ≤ B.nAlloc ∧ A.ps k + (A.pe k - A.ps k) ≤ B.nAlloc := by
        rw [I.ha]; omega
      simp only [e1, e2, memmove, hmm, and_self, if_true, Option.bind_some, hdel]
      simp only [Bool.false_eq_true, if_false]
      set s := (survivors r k).length with hs0
      refine ⟨_, _, _, rfl, ?_⟩
      have hslt : s ≤ k := by omega
      have hcells : ∀ x, x < curr → (if curr ≤ x ∧ x < curr + (A.pe k - A.ps k) then
          B.cell (A.ps k + (x - curr)) else B.cell x) = B.cell x := by
        intro x hx; rw [if_neg (by omega)]
      have hlen : (survivors r (k + 1)).length = s + 1 := by rw [hs]; simp [hs0]
      refine ⟨?_, I.hm, I.hn, I.hz, I.ha, ?_, ?_, ?_, ?_, ?_, ?_⟩
      · rw [hlen]; omega
      · simp only [calcMemoryRow]; omega
      · rw [hlen]
        have := I.zero
        simp only [setRange]
        rw [Function.update_of_ne (by omega)]
        exact this
      · rw [hlen]
        intro t ht
        simp only [setRange, calcMemoryRow]
        by_cases hts : t = s
        · subst hts; simp only [Function.update_self]; omega
        · have hts' : t < s := by omega
          obtain ⟨d1, d2, d3⟩ := I.chain t hts'
          rw [Function.update_of_ne hts, Function.update_of_ne hts]
          refine ⟨d1, ?_, by omega⟩
          rw [Function.update_of_ne (a := t + 1) (a' := s + 1) (by omega)]
          exact d2
      · intro t ht0
        have ht : t < s + 1 := by rw [hlen] at ht0; exact ht0
        by_cases hts : t = s
        · subst hts
          have : (survivors r (k + 1))[s] = k := by simp [hs, hs0]
          rw [this]
          simp only [rowOf, setRange, Function.update_self]
          rw [show curr + (A.pe k - A.ps k) - curr = A.pe k - A.ps k by omega]
          apply List.map_congr_left
          intro x hx
          have := List.mem_range.mp hx
          rw [if_pos (by omega), show A.ps k + (curr + x - curr) = A.ps k + x by omega]
          exact I.cells _ (by omega)
        · have hts' : t < s := by omega
          obtain ⟨d1, d2, d3⟩ := I.chain t hts'
          have : (survivors r (k + 1))[t] = (survivors r k)[t] := by
            simp only [hs]; rw [List.getElem_append_left]
          rw [this, ← I.rows t hts']
          apply rowOf_congr
          · simp [setRange, hts]
          · simp [setRange, hts]
          · intro x _ hx2
            simp only [setRange]
            exact hcells x (by omega)
      · intro i hi
        simp only [setRange]
        rw [Function.update_of_ne (by omega), Function.update_of_ne (by omega)]
        exact I.rest i (by omega)
      · intro x hx
        simp only [setRange]
        rw [if_neg (by omega)]
        exact I.cells x (by omega)

theorem remapCells_spec (map : ℕ → ℤ) (ks : List ℕ) (A : Mat α) (hnd : ks.Nodup)
    (hal : ∀ k ∈ ks, k < A.nAlloc) (hmap : ∀ k ∈ ks, 0 ≤ map (A.cell k).1) :
    remapCells A map ks = some { A with cell := fun k =>
      if k ∈ ks then ((map (A.cell k).1).toNat, (A.cell k).2) else A.cell k } := by
  induction ks generalizing A with
  | nil => simp [remapCells]
  | cons k ks ih =>
    have hk : k < A.nAlloc := hal k (by simp)
    have h0 : 0 ≤ map (A.cell k).1 := hmap k (by simp)
    rw [List.nodup_cons] at hnd
    simp only [remapCells, getCell, setCell, hk, if_true, h0, guard_true, Option.bind_eq_bind,
      Option.bind_some, Option.pure_def]
    refine Eq.trans (ih _ hnd.2 (fun x hx => hal x (by simp [hx])) ?_) ?_
    rotate_left
    · congr 1
      simp only [Mat.mk.injEq, true_and, and_true]
      funext x
      by_cases hx : x = k
      · subst hx; simp [hnd.1]
      · simp only [Function.update_of_ne hx, List.mem_cons, hx, false_or]
    · intro x hx
      have : x ≠ k := by rintro rfl; exact hnd.1 hx
      simp only [Function.update_of_ne this]
      exact hmap x (by simp [hx])

/-- In a gap-free matrix the cells of all rows are exactly `0 .. ps m - 1`, in order. -/
theorem rowCells_range (A : Mat α) (h0 : A.ps 0 = 0)
    (hc : ∀ t < A.m, A.ps t ≤ A.pe t ∧ A.pe t = A.ps (t + 1)) : A.rowCells = List.range (A.ps A.m) := by
  unfold rowCells
  have : ∀ k ≤ A.m, ((List.range k).flatMap fun i =>
      (List.range (A.pe i - A.ps i)).map fun x => A.ps i + x) = List.range (A.ps k) := by
    intro k
    induction k with
    | zero => intro _; simp [h0]
    | succ k ih =>
      intro hk
      obtain ⟨h1, h2⟩ := hc k (by omega)
      rw [List.range_succ, List.flatMap_append, ih (by omega)]
      simp only [List.flatMap_cons, List.flatMap_nil, List.append_nil]
      rw [← h2, show A.pe k = A.ps k + (A.pe k - A.ps k) by omega, List.range_add]
      simp
  exact this A.m le_rfl

/-- **C09.** Let the matrix have a valid layout and let every entry of every surviving row lie
in a surviving column.  Then the final clean-up (`remove_extra_space` with `remove_all`)
succeeds inside its memory, and the result is a gap-free CSR matrix: `Ap[0] = 0`, `Ap` is
nondecreasing, row `t` occupies exactly `Ap[t] .. Ap[t+1]-1`, all column indices are below the
reduced column count, and row `t` is the `t`-th surviving row with each column renumbered to
its position among the survivors.  If stored rows were sorted they still are. -/
theorem C09_reduced_csr (A : Mat α) (h : A.Layout) (remRow remCol : ℕ → Bool)
    (hcols : ∀ i < A.m, remRow i = false → ∀ e ∈ A.rowOf i, e.1 < A.n ∧ remCol e.1 = false) :
    ∃ B map, A.removeExtraSpace 1 0 remRow remCol = some (B, map) ∧
      B.m = (survivors remRow A.m).length ∧ B.n = (survivors remCol A.n).length ∧
      B.nnz = A.nnz ∧
      map = idxMap remCol A.n ∧
      B.ps 0 = 0 ∧ (∀ t < B.m, B.ps t ≤ B.ps (t + 1) ∧ B.pe t = B.ps (t + 1)) ∧
      (∀ (t : ℕ) (ht : t < (survivors remRow A.m).length), B.rowOf t =
        (A.rowOf (survivors remRow A.m)[t]).map fun e => ((idxMap remCol A.n e.1).toNat, e.2)) ∧
      (∀ t < B.m, ∀ e ∈ B.rowOf t, e.1 < B.n) ∧
      ((∀ i < A.m, (A.rowOf i).Pairwise fun a b => a.1 < b.1) →
        ∀ t < B.m, (B.rowOf t).Pairwise fun a b => a.1 < b.1) ∧
      B.ps B.m = ((survivors remRow A.m).map fun i => (A.rowOf i).length).sum := by
  obtain ⟨B, del, curr, hB, I⟩ := compactLoop_inv A h remRow A.m le_rfl
  have c1 := I.cnt
  set s := (survivors remRow A.m).length with hs
  have hm' : A.m - del = s := by omega
  unfold removeExtraSpace
  rw [hB]
  simp only [Option.bind_eq_bind, Option.bind_some, hm']
  set C : Mat α := { B with m := s, ps := Function.update B.ps s curr, pe := Function.update B.pe s curr,
                            nAlloc := max curr 1, n := idxCount remCol A.n } with hC
  have hchain : ∀ t < C.m, C.ps t ≤ C.pe t ∧ C.pe t = C.ps (t + 1) := by
    intro t ht
    have ht' : t < s := ht
    obtain ⟨d1, d2, d3⟩ := I.chain t ht'
    simp only [hC]
    rw [Function.update_of_ne (by omega), Function.update_of_ne (by omega)]
    exact ⟨d1, d2⟩
  have hC0 : C.ps 0 = 0 := I.zero
  have hCm : C.ps C.m = curr := by simp [hC]
  have hrc := rowCells_range C hC0 hchain
  rw [hCm] at hrc
  have hmono : ∀ a b, a ≤ b → b ≤ C.m → C.ps a ≤ C.ps b := by
    intro a b hab
    induction hab with
    | refl => intro _; exact le_rfl
    | @step b hab ih =>
      intro hb
      obtain ⟨d1, d2⟩ := hchain b (by omega)
      have := ih (by omega)
      show C.ps a ≤ C.ps (b + 1)
      omega
  have hCrow : ∀ (t : ℕ) (ht : t < s), C.rowOf t = A.rowOf (survivors remRow A.m)[t] := by
    intro t ht
    rw [← I.rows t ht]
    apply rowOf_congr
    · simp only [hC]; rw [Function.update_of_ne (by omega)]
    · simp only [hC]; rw [Function.update_of_ne (by omega)]
    · intro x _ _; rfl
  -- every used cell belongs to some row, hence to an active column
  have hcell : ∀ k < curr, ∃ t, t < s ∧ C.ps t ≤ k ∧ k < C.pe t := by
    intro k hk
    have : ∀ q ≤ C.m, k < C.ps q → ∃ t, t < q ∧ C.ps t ≤ k ∧ k < C.pe t := by
      intro q
      induction q with
      | zero => intro _ h; rw [hC0] at h; omega
      | succ q ih =>
        intro hq hkq
        obtain ⟨d1, d2⟩ := hchain q (by omega)
        by_cases hlt : k < C.ps q
        · obtain ⟨t, h1, h2, h3⟩ := ih (by omega) hlt; exact ⟨t, by omega, h2, h3⟩
        · exact ⟨q, by omega, by omega, by omega⟩
    exact this C.m le_rfl (by rw [hCm]; exact hk)
  have hmem : ∀ (t k : ℕ), C.ps t ≤ k → k < C.pe t → C.cell k ∈ C.rowOf t := by
    intro t k h1 h2
    simp only [rowOf, List.mem_map, List.mem_range]
    exact ⟨k - C.ps t, by omega, by rw [show C.ps t + (k - C.ps t) = k by omega]⟩
  have hact : ∀ (t : ℕ) (ht : t < s), ∀ e ∈ C.rowOf t, e.1 < A.n ∧ remCol e.1 = false := by
    intro t ht e he
    rw [hCrow t ht] at he
    have hsv := (mem_survivors (r := remRow) (n := A.m) (i := (survivors remRow A.m)[t])).mp
      (List.getElem_mem _)
    exact hcols _ hsv.1 hsv.2 e he
  have hbij := C10_map_bijective remCol A.n
  have hmapnn : ∀ k ∈ C.rowCells, 0 ≤ idxMap remCol A.n (C.cell k).1 := by
    intro k hk
    rw [hrc, List.mem_range] at hk
    obtain ⟨t, h1, h2, h3⟩ := hcell k hk
    obtain ⟨h4, h5⟩ := hact t h1 _ (hmem t k h2 h3)
    exact (hbij.2.1 _ h4 h5).1
  have hre := remapCells_spec (idxMap remCol A.n) C.rowCells C
    (by rw [hrc]; exact List.nodup_range)
    (by intro k hk; rw [hrc, List.mem_range] at hk; simp only [hC]; omega) hmapnn
  rw [hre]
  simp only [Option.bind_some]
  refine ⟨_, _, rfl, rfl, idxCount_eq _ _, I.hz, rfl, hC0, ?_, ?_, ?_, ?_, ?_⟩
  · intro t ht
    obtain ⟨d1, d2⟩ := hchain t ht
    exact ⟨le_trans d1 (le_of_eq d2), d2⟩
  all_goals
    have hrow : ∀ (t : ℕ) (ht : t < s), Mat.rowOf { C with cell := fun k =>
        if k ∈ C.rowCells then ((idxMap remCol A.n (C.cell k).1).toNat, (C.cell k).2) else C.cell k } t =
        (A.rowOf (survivors remRow A.m)[t]).map fun e => ((idxMap remCol A.n e.1).toNat, e.2) := by
      intro t ht
      rw [← hCrow t ht]
      simp only [rowOf, List.map_map]
      apply List.map_congr_left
      intro x hx
      have hx := List.mem_range.mp hx
      obtain ⟨d1, d2⟩ := hchain t ht
      have : C.ps (t + 1) ≤ C.ps C.m := hmono _ _ ht le_rfl
      rw [hCm] at this
      rw [if_pos (by rw [hrc, List.mem_range]; omega)]
      rfl
  · exact hrow
  · intro t ht e he
    have ht' : t < s := ht
    rw [hrow t ht'] at he
    simp only [List.mem_map] at he
    obtain ⟨e', he', rfl⟩ := he
    rw [← hCrow t ht'] at he'
    obtain ⟨h4, h5⟩ := hact t ht' _ he'
    have := hbij.2.1 _ h4 h5
    show (idxMap remCol A.n e'.1).toNat < idxCount remCol A.n
    omega
  · intro hsort t ht
    have ht' : t < s := ht
    rw [hrow t ht', List.pairwise_map]
    have hsv := (mem_survivors (r := remRow) (n := A.m) (i := (survivors remRow A.m)[t])).mp
      (List.getElem_mem _)
    have hp := hsort _ hsv.1
    refine List.Pairwise.imp_of_mem ?_ hp
    intro a b ha hb hab
    rw [← hCrow t ht'] at ha hb
    obtain ⟨a1, a2⟩ := hact t ht' _ ha
    obtain ⟨b1, b2⟩ := hact t ht' _ hb
    have h1 := hbij.1 a.1 b.1 hab b1 a2 b2
    have h2 := hbij.2.1 _ a1 a2
    simp only
    omega
  · show C.ps C.m = _
    have : ∀ q ≤ s, C.ps q = (((survivors remRow A.m).take q).map fun i => (A.rowOf i).length).sum := by
      intro q
      induction q with
      | zero => intro _; simp [hC0]
      | succ q ih =>
        intro hq
        obtain ⟨d1, d2⟩ := hchain q (by show q < s; omega)
        have hl : (C.rowOf q).length = C.pe q - C.ps q := by simp [rowOf]
        rw [hCrow q (by omega)] at hl
        rw [List.take_add_one, List.getElem?_eq_getElem (by omega)]
        simp only [Option.toList_some, List.map_append, List.sum_append, List.map_cons, List.map_nil,
          List.sum_cons, List.sum_nil, ← ih (by omega), hl]
        omega
    have := this s le_rfl
    rw [List.take_of_length_le (by omega)] at this
    exact this

/-- A 3×4 matrix with gaps; row 1 and column 2 are removed. -/
def exComp : Mat ℕ :=
  { m := 3, n := 4, nnz := 3, nAlloc := 12
    cell := fun k => [(0, 10), (3, 11), (9, 9), (2, 12), (9, 9), (9, 9), (1, 13)].getD k (8, 8)
    ps := fun i => [0, 3, 6, 12].getD i 0, pe := fun i => [2, 3, 7, 12].getD i 0 }

example : exComp.Layout ∧
    (∀ i < exComp.m, (i == 1) = false → ∀ e ∈ exComp.rowOf i, e.1 < exComp.n ∧ (e.1 == 2) = false) ∧
    ((exComp.removeExtraSpace 1 0 (· == 1) (· == 2)).map fun r =>
      ((List.range 2).map r.1.rowOf, [r.1.m, r.1.n], (List.range 3).map r.1.ps)) =
      some ([[(0, 10), (2, 11)], [(1, 13)]], [2, 3], [0, 2, 3]) := by
  refine ⟨⟨?_, ?_, ?_⟩, by decide +kernel, by decide +kernel⟩
  · intro i hi; have : i < 3 := hi; interval_cases i <;> decide
  · intro i hi; have : i < 3 := hi; interval_cases i <;> decide
  · decide

end Verif
