import Verif.Inv.PtMain
import Verif.Props.C05_Limits
import Verif.Props.C06_Complementarity
import Verif.Props.C53_DtonDual

/-!
# C06: complementarity and signs of the duals are carried back through postsolve, runs with doubleton equalities
-/

namespace Verif

theorem LP.Regular.rowSides {P : LP} (h : P.Regular) : P.Sides := by
  intro i hi
  refine ⟨fun e => ?_, fun e => ?_⟩
  · rcases h.lhs i hi with h | ⟨q, h⟩ <;> rw [e] at h <;> cases h
  · rcases h.rhs i hi with h | ⟨q, h⟩ <;> rw [e] at h <;> cases h

/-- At the beginning all sides and bounds that are not open are numbers. -/
theorem initSt_num {P : LP} (hR : P.Regular) : Num (initSt P) := by
  have hr : ∀ i, ((initSt P).rtag i).inactive = false → i < P.m := by
    intro i hi
    by_contra h
    have e : (initSt P).rtag i = { inactive := true } := if_neg h
    rw [e] at hi; cases hi
  have hc : ∀ k, ((initSt P).ctag k).inactive = false → k < P.n := by
    intro k hk
    by_contra h
    have e : (initSt P).ctag k = { fixed := true } := if_neg h
    rw [e] at hk; cases hk
  refine ⟨fun i hi => ?_, fun i hi => ?_, fun i hi => ?_, fun k hk => ?_, fun k hk => ?_, fun k hk => (by cases hk), rfl⟩
  · have hm := hr i hi
    rw [initSt_rtag hm]
    show FinIf (D.eqb (P.lhs i) .ninf) (P.lhs i)
    rcases hR.lhs i hm with e | ⟨q, e⟩
    · rw [e]; exact fun h => nomatch h
    · rw [e]; exact fun _ => ⟨q, rfl⟩
  · have hm := hr i hi
    rw [initSt_rtag hm]
    show FinIf (D.eqb (P.rhs i) .pinf) (P.rhs i)
    rcases hR.rhs i hm with e | ⟨q, e⟩
    · rw [e]; exact fun h => nomatch h
    · rw [e]; exact fun _ => ⟨q, rfl⟩
  · have hm := hr i hi
    rw [initSt_rtag hm]
    show (!D.eqb (P.lhs i) .ninf && D.eqb (P.lhs i) (P.rhs i)) = true → D.eqb (P.lhs i) .ninf = false ∧ D.eqb (P.rhs i) .pinf = false
    rcases hR.lhs i hm with e | ⟨q, e⟩ <;> rcases hR.rhs i hm with e' | ⟨q', e'⟩ <;> rw [e, e'] <;> simp [D.eqb]
  · have hn := hc k hk
    rw [initSt_ctag hn]
    show LoForm (D.eqb (P.lb k) .ninf) (P.lb k)
    rcases hR.lb k hn with e | ⟨q, e⟩
    · rw [e]; exact .inl ⟨rfl, rfl⟩
    · rw [e]; exact .inr ⟨rfl, q, rfl⟩
  · have hn := hc k hk
    rw [initSt_ctag hn]
    show HiForm (D.eqb (P.ub k) .pinf) (P.ub k)
    rcases hR.ub k hn with e | ⟨q, e⟩
    · rw [e]; exact .inl ⟨rfl, rfl⟩
    · rw [e]; exact .inr ⟨rfl, q, rfl⟩

theorem relaxCol_tiny (s : St) (k : ℕ) : (relaxCol s k).tiny = s.tiny := by
  unfold relaxCol
  simp only
  repeat' split
  all_goals rfl

theorem removeRedundantBounds_tiny (s : St) : (removeRedundantBounds s).tiny = s.tiny := by
  unfold removeRedundantBounds
  generalize relaxOrder s = L
  induction L generalizing s with
  | nil => rfl
  | cons k L ih => exact (ih _).trans (relaxCol_tiny s k)

/-- **C06, whole runs with doubleton equalities.**  For every valid and regular problem, every environment and all
settings that switch off singleton columns, parallel rows, parallel columns and primal propagation (so empty rows and
columns, columns with equal bounds, singleton rows, dual fixing and doubleton equalities are left; bound relaxation is
free): if the run completes, its assertions held, no value was rounded or fixed to infinity and no coefficient that is
not zero was dropped, then for all values and duals that meet the optimality conditions of the reduced problem the
postsolved `x`, `y`, `z` are numbers and meet the optimality conditions of the original problem, exactly and without
any tolerance.

Missing from C06: the other reductions (it is false with singleton columns, see `C06_sign_fails`, with parallel rows,
see `C05_fails`, with parallel columns, see `C05_parcols_fails`, and with dropped coefficients, see `C05_dropped_fails`;
primal propagation without doubleton equalities is the subject of `C06_propagation_partial`). -/
theorem C06_doubletons_partial {P : LP} (hP : P.Valid) (hR : P.Regular) {env : Env} {stgs : Settings}
    (h1 : stgs.stonCols = false) (h3 : stgs.parallelRows = false)
    (h4 : stgs.parallelCols = false) (h5 : stgs.primalPropagation = false) {fuel : ℕ}
    (hf : (runPresolver env stgs fuel P).2.1 = UNCHANGED)
    (ho : (runPresolver env stgs fuel P).1.asrt = true)
    (ht : (runPresolver env stgs fuel P).1.tiny = false)
    (hn : (runPresolver env stgs fuel P).1.near = false) {x y z : ℕ → ℚ}
    (hk : (reducedLP (runPresolver env stgs fuel P).1).Kkt x y z) {σ : Sol}
    (hpost : postsolve (runPresolver env stgs fuel P).1 (fun j => .fin (x j)) (fun j => .fin (y j))
      (fun j => .fin (z j)) = some σ) :
    (∀ k < P.n, (∃ q, σ.x k = .fin q) ∧ ∃ q, σ.z k = .fin q) ∧ (∀ i < P.m, ∃ q, σ.y i = .fin q) ∧
      P.Kkt (fun k => (σ.x k).toQ) (fun i => (σ.y i).toQ) (fun k => (σ.z k).toQ) := by
  have hm : (runPresolver env stgs fuel P).2.1 = (mainLoop env stgs fuel (initSt P) .fast (initSt P).nnz (initSt P).nnz).2.1 ∧
      SameResult (mainLoop env stgs fuel (initSt P) .fast (initSt P).nnz (initSt P).nnz).1
        (runPresolver env stgs fuel P).1 ∧
      (runPresolver env stgs fuel P).1.near = (mainLoop env stgs fuel (initSt P) .fast (initSt P).nnz (initSt P).nnz).1.near ∧
      (runPresolver env stgs fuel P).1.tiny = (mainLoop env stgs fuel (initSt P) .fast (initSt P).nnz (initSt P).nnz).1.tiny := by
    unfold runPresolver
    simp only
    split
    · exact ⟨rfl, .refl _, rfl, rfl⟩
    · refine ⟨rfl, ?_⟩
      simp only
      split
      · exact ⟨removeRedundantBounds_out _, removeRedundantBounds_near _, removeRedundantBounds_tiny _⟩
      · exact ⟨.refl _, rfl, rfl⟩
  obtain ⟨e, so, en, et⟩ := hm
  rw [so.asrt] at ho
  rw [en] at hn
  rw [et] at ht
  rw [so.reduced] at hk
  rw [so.postsolve] at hpost
  have hu := e.symm.trans hf
  have K := mainLoop_P (μ := ⟨true, true, false, false, true⟩) rfl rfl env stgs h1 (fun s => runMedium_off_P env stgs h5 h3 h4 s)
    fuel (initSt P) .fast (initSt P).nnz (initSt P).nnz
  have B0 : Bs (initSt P) := ⟨initSt_inv hP, initSt_inRng hP, initSt_num hR⟩
  have C0 : CleanTags (initSt P) := ⟨(initSt_ce P).1, (initSt_updOK P).weak, initSt_tagOK hR.rowSides⟩
  have hfin : fine (mainLoop env stgs fuel (initSt P) .fast (initSt P).nnz (initSt P).nnz).2.1 := by
    rw [hu]; exact fine_unchanged
  have ok : Ok ⟨true, true, false, false, true⟩ (mainLoop env stgs fuel (initSt P) .fast (initSt P).nnz (initSt P).nnz).1 :=
    ⟨ho, fun _ => ht, fun _ => hn⟩
  obtain ⟨B, c⟩ := K.base hfin ok B0 C0
  obtain ⟨-, hb⟩ := K.back hfin ok B0 C0
  obtain ⟨σ1, e1, k1⟩ := hb _ (kktP_reduced B.inv.gi B.rng c.1 B.num c.2.2 hk)
  have e2 : some σ = some σ1 := hpost.symm.trans e1
  cases e2
  have hs := initSt_statAt P σ k1.stat
  have kk : KktAt (initSt P) σ := k1.at (initSt_gi hP) (initSt_ce P).1
  refine ⟨fun k hk => ⟨k1.num k ?_, _, hs.cost k hk⟩, hs.dual, kk.start⟩
  rw [initSt_ctag hk]; rfl

/-- **C06, corollary.**  Under the hypotheses of `C06_doubletons_partial` no feasible point of the original problem is
better than the postsolved point. -/
theorem C06_doubletons_optimal_partial {P : LP} (hP : P.Valid) (hR : P.Regular) {env : Env} {stgs : Settings}
    (h1 : stgs.stonCols = false) (h3 : stgs.parallelRows = false)
    (h4 : stgs.parallelCols = false) (h5 : stgs.primalPropagation = false) {fuel : ℕ}
    (hf : (runPresolver env stgs fuel P).2.1 = UNCHANGED)
    (ho : (runPresolver env stgs fuel P).1.asrt = true)
    (ht : (runPresolver env stgs fuel P).1.tiny = false)
    (hn : (runPresolver env stgs fuel P).1.near = false) {x y z : ℕ → ℚ}
    (hk : (reducedLP (runPresolver env stgs fuel P).1).Kkt x y z) {σ : Sol}
    (hpost : postsolve (runPresolver env stgs fuel P).1 (fun j => .fin (x j)) (fun j => .fin (y j))
      (fun j => .fin (z j)) = some σ) {w : ℕ → ℚ} (hw : P.Feasible w) :
    P.obj (fun k => (σ.x k).toQ) ≤ P.obj w :=
  (C06_doubletons_partial hP hR h1 h3 h4 h5 hf ho ht hn hk hpost).2.2.le (fun i _ p hp => (hP.range i p hp).2.1) hw

/-- `2 x0 - x1 = 3`, `x0 + 4 x1 + x2 + x4 ≥ -12`, `1 ≤ x2 - x3 + 2 x4 ≤ 30`, `2 x3 ≥ 2`, `5 ≤ x0 + 3 x2 + x3 ≤ 40`,
`0 ≤ x0 ≤ 5`, `-2 ≤ x1 ≤ 4`, `0 ≤ x2`, `0 ≤ x3 ≤ 8`, `0 ≤ x4 ≤ 7`, cost `x0 + 2 x1 + x2 + x3 + 3 x4`. -/
def lpDtonRun : LP where
  m := 5
  n := 5
  A := ofList [[(0, 2), (1, -1)], [(0, 1), (1, 4), (2, 1), (4, 1)], [(2, 1), (3, -1), (4, 2)], [(3, 2)],
    [(0, 1), (2, 3), (3, 1)]] []
  lhs := ofList [.fin 3, .fin (-12), .fin 1, .fin 2, .fin 5] .ninf
  rhs := ofList [.fin 3, .pinf, .fin 30, .pinf, .fin 40] .pinf
  lb := ofList [.fin 0, .fin (-2), .fin 0, .fin 0, .fin 0] .ninf
  ub := ofList [.fin 5, .fin 4, .pinf, .fin 8, .fin 7] .pinf
  c := ofList [1, 2, 1, 1, 3] 0

theorem lpDtonRun_valid : lpDtonRun.Valid := by
  have hA : ∀ i, 5 ≤ i → lpDtonRun.A i = [] := by
    intro i h
    show (_ : List (List Cell)).getD i [] = []
    rw [List.getD_eq_getElem?_getD, List.getElem?_eq_none (by simpa using h)]; rfl
  refine ⟨fun i => ?_, fun i p hp => ?_⟩
  · rcases lt_or_ge i 5 with h | h
    · have : i = 0 ∨ i = 1 ∨ i = 2 ∨ i = 3 ∨ i = 4 := by omega
      rcases this with rfl | rfl | rfl | rfl | rfl <;> (show List.Pairwise _ _; simp [lpDtonRun, ofList])
    · rw [hA i h]; exact List.Pairwise.nil
  · rcases lt_or_ge i 5 with h | h
    · have : i = 0 ∨ i = 1 ∨ i = 2 ∨ i = 3 ∨ i = 4 := by omega
      rcases this with rfl | rfl | rfl | rfl | rfl <;> simp [lpDtonRun, ofList] at hp ⊢
      · rcases hp with rfl | rfl <;> simp
      · rcases hp with rfl | rfl | rfl | rfl <;> simp
      · rcases hp with rfl | rfl | rfl <;> simp
      · rcases hp with rfl; simp
      · rcases hp with rfl | rfl | rfl <;> simp
    · rw [hA i h] at hp; cases hp

theorem regular_of {d : D} (b : D) (h : d = b ∨ d = .fin d.toQ) : d = b ∨ ∃ q, d = .fin q := h.imp id (fun e => ⟨_, e⟩)

theorem lpDtonRun_regular : lpDtonRun.Regular :=
  ⟨fun i hi => regular_of _ ((by decide +kernel : ∀ i < 5, lpDtonRun.lhs i = .ninf ∨ lpDtonRun.lhs i = .fin (lpDtonRun.lhs i).toQ) i hi),
    fun i hi => regular_of _ ((by decide +kernel : ∀ i < 5, lpDtonRun.rhs i = .pinf ∨ lpDtonRun.rhs i = .fin (lpDtonRun.rhs i).toQ) i hi),
    fun i hi => regular_of _ ((by decide +kernel : ∀ i < 5, lpDtonRun.lb i = .ninf ∨ lpDtonRun.lb i = .fin (lpDtonRun.lb i).toQ) i hi),
    fun i hi => regular_of _ ((by decide +kernel : ∀ i < 5, lpDtonRun.ub i = .pinf ∨ lpDtonRun.ub i = .fin (lpDtonRun.ub i).toQ) i hi)⟩

/-- The hypotheses of `C06_doubletons_partial` hold on `lpDtonRun`: row 3 becomes a bound of `x3`, row 0 replaces `x1`
by `x0`, ten records are written.  A primal-dual optimal point of the reduced problem with `x0` and `x3` at bounds that
come from these rows is postsolved to one of the original problem in which both rows carry duals and the reduced cost of
`x0` has moved to `x1`. -/
example : lpDtonRun.Valid ∧ lpDtonRun.Regular ∧ (runPresolver envEx stgsDton 10 lpDtonRun).2.1 = UNCHANGED ∧
    (runPresolver envEx stgsDton 10 lpDtonRun).1.asrt = true ∧
    (runPresolver envEx stgsDton 10 lpDtonRun).1.tiny = false ∧
    (runPresolver envEx stgsDton 10 lpDtonRun).1.near = false ∧
    (runPresolver envEx stgsDton 10 lpDtonRun).1.log.length = 10 ∧
    (reducedLP (runPresolver envEx stgsDton 10 lpDtonRun).1).Kkt (ofList [1 / 2, 2, 1, 0] 0) (ofList [0, 1, 0] 0)
      (ofList [5, 0, 2, 1] 0) ∧
    (postsolve (runPresolver envEx stgsDton 10 lpDtonRun).1 (fun t => .fin (ofList [1 / 2, 2, 1, 0] 0 t))
      (fun t => .fin (ofList [0, 1, 0] 0 t)) (fun t => .fin (ofList [5, 0, 2, 1] 0 t))).map
        (fun σ => ((List.range 5).map σ.x, (List.range 5).map σ.y, (List.range 5).map σ.z)) = some
      ([.fin (1 / 2), .fin (-2), .fin 2, .fin 1, .fin 0], [.fin (1 / 2), .fin 0, .fin 1, .fin 1, .fin 0],
        [.fin 0, .fin (5 / 2), .fin 0, .fin 0, .fin 1]) := by
  refine ⟨lpDtonRun_valid, lpDtonRun_regular, by decide +kernel, by decide +kernel, by decide +kernel,
    by decide +kernel, by decide +kernel, by decide +kernel, by decide +kernel⟩

end Verif
