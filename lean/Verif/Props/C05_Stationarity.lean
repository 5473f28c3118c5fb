import Verif.Inv.StatStep
import Verif.Props.C01_Objective

/-!
# C05: stationarity is carried back through postsolve, whole runs
-/

namespace Verif

theorem LP.colDot_eq (P : LP) (y : ℕ → ℚ) (k : ℕ) :
    P.colDot y k = ∑ i ∈ Finset.range P.m, coefAt k (P.A i) * y i := by
  unfold LP.colDot
  have : ∀ m, ((List.range m).map (fun i =>
      (((P.A i).filter (fun p => decide (p.1 = k))).map Prod.snd).sum * y i)).sum =
      ∑ i ∈ Finset.range m, coefAt k (P.A i) * y i := by
    intro m
    induction m with
    | zero => rfl
    | succ m ih =>
      rw [List.range_succ, List.map_append, List.sum_append, ih, Finset.sum_range_succ]
      simp [coefAt, mids]
  exact this P.m

theorem GI.rowGone_iff {s : St} (g : GI s) (c : Clean s) (i : ℕ) :
    s.rowSize i = -1 ↔ (s.rtag i).inactive = true := by
  constructor
  · intro h
    by_contra hn
    exact g.rowActive (by simpa using hn) h
  · intro h
    by_contra hne
    have := g.rowPend i h hne
    rw [c.1] at this; cases this

theorem initSt_statAt (P : LP) (σ : Sol) (h : StatAt (initSt P) σ) : P.Stationary σ.y σ.z := by
  refine ⟨fun i hi => h.y i (by simp [initSt, hi, rowTagOf]), fun k hk => ?_⟩
  rw [h.z k (by simp [initSt, hk, CTag.inactive, colTagOf]), LP.colDot_eq]
  congr 2
  refine Finset.sum_congr rfl (fun i hi => ?_)
  have hi : i < P.m := Finset.mem_range.mp hi
  exact rowTerm_act (by simp [initSt, hi, rowTagOf])

/-- Renumbering the columns of a row. -/
theorem coefAt_renumber {size : ℕ → ℤ} {n k : ℕ} (hk : k < n) (h : size k ≠ -1) (l : List Cell)
    (hl : ∀ p ∈ l, p.1 < n ∧ size p.1 ≠ -1) :
    coefAt (liveIdx size k).length (l.map (fun p => ((idxMapOf size p.1).getD 0, p.2))) = coefAt k l := by
  induction l with
  | nil => rfl
  | cons p l ih =>
    have hp := hl p List.mem_cons_self
    have ih := ih (fun p hp => hl p (List.mem_cons_of_mem _ hp))
    rw [List.map_cons, idxMapOf_live hp.2]
    by_cases e : p.1 = k
    · subst e
      have h1 : ∀ (j : ℕ) (v : ℚ) (l : List Cell), coefAt j ((j, v) :: l) = v + coefAt j l := by
        intro j v l; simp [coefAt, mids]
      rw [show p = (p.1, p.2) from rfl, h1, show (Option.some (liveIdx size p.1).length).getD 0 =
        (liveIdx size p.1).length from rfl, h1, ih]
    · have hne : (liveIdx size p.1).length ≠ (liveIdx size k).length := by
        intro he
        have h1 := liveIdx_rank hp.1 hp.2
        rw [he, liveIdx_rank hk h] at h1
        exact e (Option.some.inj h1).symm
      have h1 : ∀ (j : ℕ) (p : Cell) (l : List Cell), p.1 ≠ j → coefAt j (p :: l) = coefAt j l := by
        intro j p l h; simp [coefAt, mids, h]
      rw [h1 _ _ _ e, h1 _ _ _ (show ((Option.some (liveIdx size p.1).length).getD 0, p.2).1 ≠ _ from hne), ih]

theorem reducedLP_colDot {s : St} {k : ℕ} (hk : k < s.n) (h : s.colSize k ≠ -1)
    (hA : ∀ i, ∀ p ∈ s.A i, p.1 < s.n ∧ s.colSize p.1 ≠ -1) (y : ℕ → ℚ) :
    (reducedLP s).colDot y (liveIdx s.colSize k).length =
      ∑ i ∈ Finset.range s.m, if s.rowSize i = -1 then 0 else coefAt k (s.A i) * y (liveIdx s.rowSize i).length := by
  rw [LP.colDot_eq, ← sum_live s.rowSize s.m (fun i t => coefAt k (s.A i) * y t)]
  refine Finset.sum_congr rfl (fun t ht => ?_)
  show coefAt _ (shrunk _ [] _ t) * y t = _
  unfold shrunk
  split
  · rename_i i hi
    rw [coefAt_renumber hk h _ (hA i)]
  · simp [coefAt, mids]

/-- Stationarity of the reduced problem read in the state the run ends in. -/
theorem statAt_reduced {t : St} (g : GI t) (hr : InRng t) (c : Clean t) {x y z : ℕ → D}
    (h : (reducedLP t).Stationary y z) :
    StatAt t (copyReduced (idxMapOf t.colSize) (idxMapOf t.rowSize) x y z) := by
  have hy : ∀ i, (t.rtag i).inactive = false →
      (copyReduced (idxMapOf t.colSize) (idxMapOf t.rowSize) x y z).y i = y (liveIdx t.rowSize i).length := by
    intro i hi
    show (match idxMapOf t.rowSize i with | none => D.pinf | some k => y k) = _
    rw [idxMapOf_live (g.rowActive hi)]
  refine ⟨fun i hi => ?_, fun k hk => ?_⟩
  · rw [hy i hi]
    refine h.dual _ ?_
    exact (List.getElem?_eq_some_iff.mp (liveIdx_rank (g.rowLt hr hi) (g.rowActive hi))).1
  · have hlive := g.colActive hk
    have hlt := g.colLt hr hk
    have hrank := liveIdx_rank hlt hlive
    have hz := h.cost (liveIdx t.colSize k).length (List.getElem?_eq_some_iff.mp hrank).1
    have e1 : (copyReduced (idxMapOf t.colSize) (idxMapOf t.rowSize) x y z).z k = z (liveIdx t.colSize k).length := by
      show (match idxMapOf t.colSize k with | none => D.pinf | some k => z k) = _
      rw [idxMapOf_live hlive]
    have e2 : (reducedLP t).c (liveIdx t.colSize k).length = t.c k := by
      show shrunk _ 0 t.c _ = _
      unfold shrunk
      rw [hrank]
    have hA : ∀ i, ∀ p ∈ t.A i, p.1 < t.n ∧ t.colSize p.1 ≠ -1 := by
      intro i p hp
      refine ⟨(g.rowRange i p hp).2.1, ?_⟩
      by_cases hi : t.rowSize i = -1
      · rw [(g.rowGone i hi).1] at hp; cases hp
      · exact g.rowIn i (by rw [← Bool.not_eq_true, ← g.rowGone_iff c]; exact hi) p hp
    rw [e1, hz, e2, reducedLP_colDot hlt hlive hA]
    congr 2
    refine Finset.sum_congr rfl (fun i _ => ?_)
    by_cases hi : t.rowSize i = -1
    · rw [if_pos hi, rowTerm_gone ((g.rowGone_iff c i).mp hi)]
    · have hi' : (t.rtag i).inactive = false := by rw [← Bool.not_eq_true, ← g.rowGone_iff c]; exact hi
      rw [if_neg hi, rowTerm_act hi', hy i hi']

/-- **C05, whole runs.**  For every valid problem, every environment and all settings that switch the
parallel rows and parallel columns reductions off: if the run completes, its assertions held and no
coefficient below `ZERO_TOL` was dropped, then for all reduced `x`, `y`, `z` with `z = c' - A'ᵀ y` in
the reduced problem, postsolve returns row duals that are all numbers and reduced costs with
`z = c - Aᵀ y` in every original column.  `x` and the signs of `y`, `z` are arbitrary.

Missing from C05: parallel rows, parallel columns, runs that drop a coefficient.  C05 is false there (`C05_fails`,
`C05_parcols_fails`, `C05_dropped_fails`). -/
theorem C05_run_partial {P : LP} (hP : P.Valid) {env : Env} (hs : env.SortOK) {stgs : Settings} {fuel : ℕ}
    (hpr : stgs.parallelRows = false) (hpc : stgs.parallelCols = false)
    (hf : (runPresolver env stgs fuel P).2.1 = UNCHANGED)
    (ho : (runPresolver env stgs fuel P).1.asrt = true)
    (ht : (runPresolver env stgs fuel P).1.tiny = false) (x y z : ℕ → D) {σ : Sol}
    (hpost : postsolve (runPresolver env stgs fuel P).1 x y z = some σ)
    (hstat : (reducedLP (runPresolver env stgs fuel P).1).Stationary y z) :
    P.Stationary σ.y σ.z := by
  obtain ⟨r, c, _⟩ := runPresolver_run ⟨false, false, false, true, true⟩ hs (fun h => by rw [hpr] at h; cases h)
    (fun h => by rw [hpc] at h; cases h) (fun _ => rfl) hP (by rw [hf]; rfl) ⟨ho, fun _ => ht, fun h => nomatch h⟩
  generalize (runPresolver env stgs fuel P).1 = t at *
  have i := initSt_inv hP
  exact r.steps.rel (statBackward (fun σ => P.Stationary σ.y σ.z) _ rfl rfl rfl) i.gi (initSt_inRng hP)
    (fun σ σ' ho h => by cases ho; exact initSt_statAt P σ h)
    (copyReduced (idxMapOf t.colSize) (idxMapOf t.rowSize) x y z) σ
    ((solInterp_replay _ _ _).trans hpost)
    (statAt_reduced (r.inv i).gi (r.steps.inRng i.gi (initSt_inRng hP)) c hstat)

/-- All reductions but the two on parallel rows and columns. -/
def stgsNoPar : Settings := { stgsAll with parallelRows := false, parallelCols := false }

/-- The hypotheses of `C05_run_partial` hold on `exMix` at a point where a bound change is undone:
`x' = (1, 9, 6, 4)`, `y' = (2, 3)`, `z' = (-6, -12, -13, -6)`. -/
example : exMix.Valid ∧ envEx.SortOK ∧ stgsNoPar.parallelRows = false ∧ stgsNoPar.parallelCols = false ∧
    (runPresolver envEx stgsNoPar 10 exMix).2.1 = UNCHANGED ∧
    (runPresolver envEx stgsNoPar 10 exMix).1.asrt = true ∧ (runPresolver envEx stgsNoPar 10 exMix).1.tiny = false ∧
    (reducedLP (runPresolver envEx stgsNoPar 10 exMix).1).Stationary (ofList [.fin 2, .fin 3] .nan)
      (ofList [.fin (-6), .fin (-12), .fin (-13), .fin (-6)] .nan) ∧
    (postsolve (runPresolver envEx stgsNoPar 10 exMix).1 (ofList [.fin 1, .fin 9, .fin 6, .fin 4] .nan)
      (ofList [.fin 2, .fin 3] .nan) (ofList [.fin (-6), .fin (-12), .fin (-13), .fin (-6)] .nan)).map
        (fun σ => ((List.range 5).map σ.y, (List.range 8).map σ.z)) =
      some ([.fin 4, .fin (-4), .fin 2, .fin (-3), .fin 1],
        [.fin 0, .fin 1, .fin 0, .fin 0, .fin 0, .fin 5, .fin 0, .fin (-6)]) := by
  have hm : (reducedLP (runPresolver envEx stgsNoPar 10 exMix).1).m = 2 := by decide +kernel
  have hn : (reducedLP (runPresolver envEx stgsNoPar 10 exMix).1).n = 4 := by decide +kernel
  refine ⟨exMix_valid, envEx_sortOK, rfl, rfl, by decide +kernel, by decide +kernel, by decide +kernel, ⟨?_, ?_⟩,
    by decide +kernel⟩
  · rw [hm]
    intro i hi
    have : i = 0 ∨ i = 1 := by omega
    rcases this with rfl | rfl <;> exact ⟨_, rfl⟩
  · rw [hn]
    decide +kernel

end Verif
