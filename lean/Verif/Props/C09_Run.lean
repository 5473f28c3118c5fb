import Verif.Props.C09_Compact
import Verif.Props.EndToEnd
import Verif.Lemmas.Reduced
import Verif.Props.C01_Objective

/-!
# C09 and C10 for whole runs: the reduced matrix handed to the user
-/

namespace Verif

theorem liveIdx_survivors (size : ℕ → ℤ) (n : ℕ) :
    survivors (fun i => decide (size i = -1)) n = liveIdx size n := by
  unfold survivors liveIdx
  congr 1
  funext i
  simp

theorem idxMap_live {size : ℕ → ℤ} {n i : ℕ} (hi : i < n) (h : size i ≠ -1) :
    idxMap (fun i => decide (size i = -1)) n i = ((liveIdx size i).length : ℤ) := by
  rw [idxMap_eq _ _ _ hi, liveIdx_survivors]
  simp [h]

/-- **C09, whole runs.**  Let the run complete with all assertions holding, and let `M` be any array
storage of its final rows (with arbitrary gaps and arbitrary contents in the gaps).  The final
clean-up succeeds inside its memory, and what it hands out is a CSR matrix: `Ap[0] = 0`, `Ap` is
nondecreasing, `Ap[m] = nnz`, rows are sorted strictly by column, all columns are below `n`, no entry
is zero, and row `t` is the `t`-th surviving row with every column renumbered.  The number of rows
and columns are those of the reduced problem.

Missing from C09: runs in which an assertion fails. -/
theorem C09_run_partial {P : LP} (hP : P.Valid) {env : Env} (hs : env.SortOK) {stgs : Settings} {fuel : ℕ}
    (hf : (runPresolver env stgs fuel P).2.1 = UNCHANGED)
    (ho : (runPresolver env stgs fuel P).1.asrt = true) (M : Mat ℚ) (hM : M.Layout)
    (hm : M.m = P.m) (hn : M.n = P.n)
    (hrow : ∀ i < P.m, M.rowOf i = (runPresolver env stgs fuel P).1.A i) :
    ∃ B map, M.removeExtraSpace 1 0 (fun i => decide ((runPresolver env stgs fuel P).1.rowSize i = -1))
        (fun k => decide ((runPresolver env stgs fuel P).1.colSize k = -1)) = some (B, map) ∧
      B.m = (liveIdx (runPresolver env stgs fuel P).1.rowSize P.m).length ∧
      B.n = (liveIdx (runPresolver env stgs fuel P).1.colSize P.n).length ∧
      B.ps 0 = 0 ∧ (∀ t < B.m, B.ps t ≤ B.ps (t + 1) ∧ B.pe t = B.ps (t + 1)) ∧
      ((B.ps B.m : ℕ) : ℤ) = (runPresolver env stgs fuel P).1.nnz ∧
      (∀ (t : ℕ) (ht : t < (liveIdx (runPresolver env stgs fuel P).1.rowSize P.m).length), B.rowOf t =
        ((runPresolver env stgs fuel P).1.A (liveIdx (runPresolver env stgs fuel P).1.rowSize P.m)[t]).map
          (fun e => ((liveIdx (runPresolver env stgs fuel P).1.colSize e.1).length, e.2))) ∧
      (∀ t < B.m, B.rowOf t = (reducedLP (runPresolver env stgs fuel P).1).A t) ∧
      (∀ t < B.m, ∀ e ∈ B.rowOf t, e.1 < B.n ∧ e.2 ≠ 0) ∧
      (∀ t < B.m, (B.rowOf t).Pairwise fun a b => a.1 < b.1) := by
  obtain ⟨r, c⟩ := run_all hP hs hf ho
  generalize (runPresolver env stgs fuel P).1 = s at *
  have g := (r.inv (initSt_inv hP)).gi
  have K := g.consistent c.1
  have mono := r.mono (initSt_inv hP)
  have em : s.m = P.m := mono.m
  have en : s.n = P.n := mono.n
  have hcol : ∀ i e, e ∈ s.A i → e.1 < P.n ∧ s.colSize e.1 ≠ -1 := by
    intro i e he
    refine ⟨en ▸ (K.nonzero i e.1 e.2 he).2.1, fun hc => ?_⟩
    have := (K.agree i e.1 e.2).mp he
    rw [(g.colGone _ hc).1] at this; cases this
  obtain ⟨B, map, h1, h2, h3, _, _, h5, h6, h7, h8, h9, h10⟩ := C09_reduced_csr M hM
    (fun i => decide (s.rowSize i = -1)) (fun k => decide (s.colSize k = -1)) (by
      intro i hi _ e he
      rw [hrow i (hm ▸ hi)] at he
      have := hcol i e he
      exact ⟨hn ▸ this.1, by simpa using this.2⟩)
  rw [hm, liveIdx_survivors] at h2 h10
  rw [hn, liveIdx_survivors] at h3
  have hrow' : ∀ (t : ℕ) (ht : t < (liveIdx s.rowSize P.m).length), B.rowOf t =
      (s.A (liveIdx s.rowSize P.m)[t]).map (fun e => ((liveIdx s.colSize e.1).length, e.2)) := by
    intro t ht
    have hmem := mem_liveIdx.mp (List.getElem_mem ht)
    have := h7 t (by rw [hm, liveIdx_survivors]; exact ht)
    simp only [hm, hn, liveIdx_survivors] at this
    rw [this, hrow _ hmem.1]
    refine List.map_congr_left (fun e he => ?_)
    have := hcol _ e he
    rw [idxMap_live this.1 this.2]; rfl
  refine ⟨B, map, h1, h2, h3, h5, h6, ?_, hrow', ?_, ?_, ?_⟩
  · rw [h10, K.nnzRows, em]
    have e1 : ∀ n, ((((liveIdx s.rowSize n).map fun i => (s.A i).length).sum : ℕ) : ℤ) =
        ∑ i ∈ Finset.range n, ((s.A i).length : ℤ) := by
      intro n
      induction n with
      | zero => simp [liveIdx]
      | succ n ih =>
        rw [Finset.sum_range_succ, liveIdx_succ, ← ih]
        by_cases h : s.rowSize n = -1
        · rw [if_pos h, (g.rowGone n h).1]; simp
        · rw [if_neg h]; simp
    rw [← e1]
    congr 2
    refine List.map_congr_left (fun i hi => ?_)
    rw [hrow i (mem_liveIdx.mp hi).1]
  · intro t ht
    rw [h2] at ht
    rw [hrow' t ht]
    show _ = shrunk (liveIdx s.rowSize s.m) _ _ t
    unfold shrunk
    rw [em, List.getElem?_eq_getElem ht]
    refine List.map_congr_left (fun e he => ?_)
    rw [idxMapOf_live (hcol _ e he).2]; rfl
  · intro t ht e he
    refine ⟨h8 t ht e he, ?_⟩
    rw [h2] at ht
    rw [hrow' t ht, List.mem_map] at he
    obtain ⟨e', he', rfl⟩ := he
    exact (K.nonzero _ e'.1 e'.2 he').2.2
  · refine h9 (fun i hi => ?_)
    rw [hrow i (hm ▸ hi)]
    exact g.rowSorted i

/-- The reduced problem is again a valid problem, and it has `nnz` entries. -/
theorem C09_reduced_valid_partial {P : LP} (hP : P.Valid) {env : Env} (hs : env.SortOK) {stgs : Settings} {fuel : ℕ}
    (hf : (runPresolver env stgs fuel P).2.1 = UNCHANGED)
    (ho : (runPresolver env stgs fuel P).1.asrt = true) :
    (reducedLP (runPresolver env stgs fuel P).1).Valid := by
  obtain ⟨r, c⟩ := run_all hP hs hf ho
  generalize (runPresolver env stgs fuel P).1 = s at *
  have g := (r.inv (initSt_inv hP)).gi
  have K := g.consistent c.1
  have hcol : ∀ i e, e ∈ s.A i → e.1 < s.n ∧ s.colSize e.1 ≠ -1 := by
    intro i e he
    refine ⟨(K.nonzero i e.1 e.2 he).2.1, fun hc => ?_⟩
    have := (K.agree i e.1 e.2).mp he
    rw [(g.colGone _ hc).1] at this; cases this
  refine ⟨fun t => ?_, fun t p hp => ?_⟩
  · show SortedC (shrunk _ _ _ t)
    unfold shrunk
    split
    · rename_i i hi
      unfold SortedC
      rw [List.pairwise_map]
      refine (g.rowSorted i).imp_of_mem (fun {a b} ha hb hab => ?_)
      have h1 := hcol i a ha
      have h2 := hcol i b hb
      rw [idxMapOf_live h1.2, idxMapOf_live h2.2]
      obtain ⟨l, hl⟩ := liveIdx_take (size := s.colSize) (show a.1 + 1 ≤ b.1 from hab)
      show (liveIdx s.colSize a.1).length < (liveIdx s.colSize b.1).length
      rw [hl, liveIdx_succ, if_neg h1.2]
      simp
    · exact List.Pairwise.nil
  · change p ∈ shrunk _ _ _ t at hp
    unfold shrunk at hp
    split at hp
    · rename_i i hi
      obtain ⟨e, he, rfl⟩ := List.mem_map.mp hp
      have h1 := hcol i e he
      refine ⟨(List.getElem?_eq_some_iff.mp hi).1, ?_, (K.nonzero i e.1 e.2 he).2.2⟩
      rw [idxMapOf_live h1.2]
      exact (List.getElem?_eq_some_iff.mp (liveIdx_rank h1.1 h1.2)).1
    · cases hp

/-- The rows of `exMix` after the run, stored with gaps. -/
def exMixMat : Mat ℚ where
  m := 5
  n := 8
  nnz := 5
  nAlloc := 12
  cell := fun k => [(9, 9), (4, 2), (5, 1), (7, 1), (9, 9), (4, 2), (5, 3)].getD k (8, 8)
  ps := fun i => [0, 0, 1, 5, 9, 12].getD i 0
  pe := fun i => [0, 0, 4, 7, 9, 12].getD i 0

example : exMix.Valid ∧ envEx.SortOK ∧ (runPresolver envEx stgsAll 10 exMix).2.1 = UNCHANGED ∧
    (runPresolver envEx stgsAll 10 exMix).1.asrt = true ∧ exMixMat.Layout ∧
    (∀ i < exMix.m, exMixMat.rowOf i = (runPresolver envEx stgsAll 10 exMix).1.A i) := by
  refine ⟨exMix_valid, envEx_sortOK, by decide +kernel, by decide +kernel, ⟨?_, ?_, ?_⟩, by decide +kernel⟩
  · intro i hi; have : i < 5 := hi; interval_cases i <;> decide
  · intro i hi; have : i < 5 := hi; interval_cases i <;> decide
  · decide

end Verif
