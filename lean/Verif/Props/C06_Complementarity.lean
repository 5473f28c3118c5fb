import Verif.Inv.CompSton
import Verif.Inv.LiveEnd
import Verif.Props.C02_Feasibility

/-!
# C06: complementarity and signs of the duals are carried back through postsolve, whole runs
-/

namespace Verif

/-- The optimality conditions of the reduced problem read in the state the run ends in. -/
theorem comp_reduced {P : LP} {t : St} (F : Feas P t) (g : GI t) (hr : InRng t) (c : Clean t) (hp : PlainLog t)
    {x y z : ℕ → ℚ} (h : (reducedLP t).Kkt x y z) {σ : Sol}
    (hpost : postsolve t (fun j => .fin (x j)) (fun j => .fin (y j)) (fun j => .fin (z j)) = some σ) :
    Comp P σ.x t (copyReduced (idxMapOf t.colSize) (idxMapOf t.rowSize) (fun j => .fin (x j)) (fun j => .fin (y j))
      (fun j => .fin (z j))) := by
  have hv : ∀ k, σ.x k = (logVal t.log k).getD (match idxMapOf t.colSize k with
      | none => .pinf | some j => .fin (x j)) := replay_x _ _ _ _ hp hpost
  have hx : ∀ k, (t.ctag k).inactive = false → σ.x k = .fin (x (liveIdx t.colSize k).length) := by
    intro k hk
    rw [hv k, (F.col k (F.rng g hk)).new (CTag.inactive_false.mp hk).1, idxMapOf_live (g.colActive hk)]
    rfl
  have hyi : ∀ i, (t.rtag i).inactive = false → (copyReduced (idxMapOf t.colSize) (idxMapOf t.rowSize)
      (fun j => .fin (x j)) (fun j => .fin (y j)) (fun j => .fin (z j))).y i =
      .fin (y (liveIdx t.rowSize i).length) := by
    intro i hi
    show (match idxMapOf t.rowSize i with | none => D.pinf | some k => .fin (y k)) = _
    rw [idxMapOf_live (g.rowActive hi)]
  have hzk : ∀ k, (t.ctag k).inactive = false → (copyReduced (idxMapOf t.colSize) (idxMapOf t.rowSize)
      (fun j => .fin (x j)) (fun j => .fin (y j)) (fun j => .fin (z j))).z k =
      .fin (z (liveIdx t.colSize k).length) := by
    intro k hk
    show (match idxMapOf t.colSize k with | none => D.pinf | some k => .fin (z k)) = _
    rw [idxMapOf_live (g.colActive hk)]
  have hold : ∀ k v, logVal t.log k = some v → σ.x k = v := fun k v e => by rw [hv k, e]; rfl
  -- rows of the reduced problem
  have hrow : ∀ i, (t.rtag i).inactive = false →
      (liveIdx t.rowSize i).length < (reducedLP t).m ∧
      (reducedLP t).lhs (liveIdx t.rowSize i).length = t.lhs i ∧
      (reducedLP t).rhs (liveIdx t.rowSize i).length = t.rhs i ∧
      dot ((reducedLP t).A (liveIdx t.rowSize i).length) x + gone P t i = dot (P.A i) (fun k => (σ.x k).toQ) := by
    intro i hi
    have him := g.rowLt hr hi
    have hrk := liveIdx_rank him (g.rowActive hi)
    refine ⟨(List.getElem?_eq_some_iff.mp hrk).1, ?_, ?_, ?_⟩
    · show shrunk _ _ _ _ = _
      unfold shrunk; rw [hrk]
    · show shrunk _ _ _ _ = _
      unfold shrunk; rw [hrk]
    · rw [F.dotX g hold hi, reduced_dot him (g.rowActive hi)]
      congr 1
      unfold dot
      congr 1
      refine List.map_congr_left (fun p hp => ?_)
      have hc := g.rowIn i hi p hp
      have ha : (t.ctag p.1).inactive = false := by
        by_contra hn
        exact hc ((g.colGone_iff c p.1).mpr (by simpa using hn))
      show p.2 * x ((idxMapOf t.colSize p.1).getD 0) = p.2 * (σ.x p.1).toQ
      rw [idxMapOf_live hc, Option.getD_some, hx p.1 ha]; rfl
  have hcol : ∀ k, (t.ctag k).inactive = false →
      (liveIdx t.colSize k).length < (reducedLP t).n ∧
      (reducedLP t).lb (liveIdx t.colSize k).length = t.lb k ∧
      (reducedLP t).ub (liveIdx t.colSize k).length = t.ub k := by
    intro k hk
    have hrk := liveIdx_rank (g.colLt hr hk) (g.colActive hk)
    refine ⟨(List.getElem?_eq_some_iff.mp hrk).1, ?_, ?_⟩
    · show shrunk _ _ _ _ = _
      unfold shrunk; rw [hrk]
    · show shrunk _ _ _ _ = _
      unfold shrunk; rw [hrk]
  refine ⟨statAt_reduced g hr c ⟨fun i _ => ⟨_, rfl⟩, fun k hk => ?_⟩, fun k hk => ?_, fun k hk => ?_, hold,
    fun i hi hp => ?_, fun i hi hp => ?_, fun k hk hp => ?_, fun k hk hp => ?_⟩
  · rw [h.cost k hk]; rfl
  · show (match idxMapOf t.colSize k with | none => D.pinf | some k => .fin (x k)) = _
    rw [idxMapOf_live (g.colActive hk), hx k hk]
  · cases hk' : (t.ctag k).inactive with
    | false => exact ⟨_, hx k hk'⟩
    | true =>
      have hC := F.col k hk
      have hf : (t.ctag k).fixed = true := by
        cases hx' : (t.ctag k).fixed with
        | true => rfl
        | false =>
          have := CTag.inactive_false.mpr ⟨hx', hC.sub⟩
          rw [hk'] at this; cases this
      obtain ⟨v, e, -⟩ := hC.old hf
      exact ⟨v, hold k _ e⟩
  · rw [hyi i hi, D.toQ_fin] at hp
    obtain ⟨h1, h2, -, h4⟩ := hrow i hi
    have := h.lhs _ h1 hp
    rw [h2] at this
    have hl : (t.rtag i).lhsInf = false := by
      cases e : (t.rtag i).lhsInf with
      | false => rfl
      | true => rw [(F.row i (F.rrng i hi)).lhsT hi e] at this; cases this
    obtain ⟨B, e1, e2⟩ := (F.row i (F.rrng i hi)).lhs hi hl
    rw [e2, D.fin.injEq] at this
    refine ⟨hl, ?_⟩
    rw [e1, ← h4, ← this]; congr 1; ring
  · rw [hyi i hi, D.toQ_fin] at hp
    obtain ⟨h1, -, h3, h4⟩ := hrow i hi
    have := h.rhs _ h1 hp
    rw [h3] at this
    have hl : (t.rtag i).rhsInf = false := by
      cases e : (t.rtag i).rhsInf with
      | false => rfl
      | true => rw [(F.row i (F.rrng i hi)).rhsT hi e] at this; cases this
    obtain ⟨B, e1, e2⟩ := (F.row i (F.rrng i hi)).rhs hi hl
    rw [e2, D.fin.injEq] at this
    refine ⟨hl, ?_⟩
    rw [e1, ← h4, ← this]; congr 1; ring
  · rw [hzk k hk, D.toQ_fin] at hp
    obtain ⟨h1, h2, -⟩ := hcol k hk
    have := h.lb _ h1 hp
    rw [h2] at this
    rw [this, hx k hk]
  · rw [hzk k hk, D.toQ_fin] at hp
    obtain ⟨h1, -, h3⟩ := hcol k hk
    have := h.ub _ h1 hp
    rw [h3] at this
    rw [this, hx k hk]

/-- A run that completes with a feasible reduced problem has no crossed bounds in the original one. -/
theorem run_gap {P : LP} {env : Env} {stgs : Settings} {fuel : ℕ}
    (hu : (mainLoop env stgs fuel (initSt P) .fast (initSt P).nnz (initSt P).nnz).2.1 = UNCHANGED) {x : ℕ → ℚ}
    (hx : (reducedLP (mainLoop env stgs fuel (initSt P) .fast (initSt P).nnz (initSt P).nnz).1).Feasible x) :
    ∀ k < P.n, ∀ l u, P.lb k = .fin l → P.ub k = .fin u → l ≤ u + FEAS_TOL := by
  intro k hk l u hl hu'
  by_contra hlt
  have hlt := not_le.mp hlt
  cases fuel with
  | zero =>
    have hc := hx.col _ (liveIdx_rank_lt (size := (initSt P).colSize) (n := P.n) hk (initSt_here hk))
    have e1 : (reducedLP (initSt P)).lb (liveIdx (initSt P).colSize k).length = P.lb k := by
      show shrunk (liveIdx _ P.n) _ _ _ = _
      unfold shrunk; rw [liveIdx_rank hk (initSt_here hk)]; rfl
    have e2 : (reducedLP (initSt P)).ub (liveIdx (initSt P).colSize k).length = P.ub k := by
      show shrunk (liveIdx _ P.n) _ _ _ = _
      unfold shrunk; rw [liveIdx_rank hk (initSt_here hk)]; rfl
    have ha := hc.1
    have hb := hc.2
    simp only [mainLoop] at ha hb
    rw [e1, hl, LoD_fin] at ha
    rw [e2, hu', HiD_fin] at hb
    have := FEAS_TOL_pos
    linarith
  | succ fuel =>
    rw [mainLoop_crossed hlt hk hl hu' env stgs fuel] at hu
    cases hu

/-- The optimality conditions at the initial state are those of the problem. -/
theorem initSt_comp {P : LP} {σ : Sol} (h : Comp P σ.x (initSt P) σ) :
    (∀ k < P.n, (∃ q, σ.x k = .fin q) ∧ ∃ q, σ.z k = .fin q) ∧ (∀ i < P.m, ∃ q, σ.y i = .fin q) ∧
      P.Kkt (fun k => (σ.x k).toQ) (fun i => (σ.y i).toQ) (fun k => (σ.z k).toQ) := by
  have hs := initSt_statAt P σ h.stat
  have hc : ∀ k < P.n, ((initSt P).ctag k).inactive = false := fun k hk => by
    rw [initSt_ctag hk]; rfl
  have hr : ∀ i < P.m, ((initSt P).rtag i).inactive = false := fun i hi => by
    rw [initSt_rtag hi]; rfl
  have ex : ∀ k < P.n, σ.x k = .fin (σ.x k).toQ := fun k hk => by
    obtain ⟨q, e⟩ := h.num k hk
    rw [e]; rfl
  refine ⟨fun k hk => ⟨h.num k hk, _, hs.cost k hk⟩, hs.dual, ⟨fun k hk => ?_, fun i hi hp => (h.lhs i (hr i hi) hp).2,
    fun i hi hp => (h.rhs i (hr i hi) hp).2, fun k hk hp => ?_, fun k hk hp => ?_⟩⟩
  · show (σ.z k).toQ = _
    rw [hs.cost k hk]; rfl
  · exact (h.lb k (hc k hk) hp).trans (ex k hk)
  · exact (h.ub k (hc k hk) hp).trans (ex k hk)

/-- **C06, whole runs of the row and column reductions that are exact.**  For every valid and regular problem, every
environment and all settings that switch off singleton columns, doubleton rows, parallel rows, parallel columns and
primal propagation (so empty rows and columns, columns with equal bounds, singleton rows and dual fixing are left;
bound relaxation is free): if the run completes, its assertions held and no value was rounded or fixed to infinity, then
for every feasible point of the reduced problem and duals that meet its optimality conditions, the postsolved `x`, `y`,
`z` are numbers and meet the optimality conditions of the original problem, exactly and without any tolerance.

Missing from C06: the other reductions (it is false with singleton columns, see `C06_sign_fails`, and with parallel
rows, see `C05_fails`; primal propagation is the subject of `C06_propagation_partial`). -/
theorem C06_run_partial {P : LP} (hP : P.Valid) (hR : P.Regular) {env : Env} {stgs : Settings}
    (h1 : stgs.stonCols = false) (h2 : stgs.dtonEq = false) (h3 : stgs.parallelRows = false)
    (h4 : stgs.parallelCols = false) (h5 : stgs.primalPropagation = false) {fuel : ℕ}
    (hf : (runPresolver env stgs fuel P).2.1 = UNCHANGED)
    (ho : (runPresolver env stgs fuel P).1.asrt = true)
    (hn : (runPresolver env stgs fuel P).1.near = false) {x y z : ℕ → ℚ}
    (hx : (reducedLP (runPresolver env stgs fuel P).1).Feasible x)
    (hk : (reducedLP (runPresolver env stgs fuel P).1).Kkt x y z) {σ : Sol}
    (hpost : postsolve (runPresolver env stgs fuel P).1 (fun j => .fin (x j)) (fun j => .fin (y j))
      (fun j => .fin (z j)) = some σ) :
    (∀ k < P.n, (∃ q, σ.x k = .fin q) ∧ ∃ q, σ.z k = .fin q) ∧ (∀ i < P.m, ∃ q, σ.y i = .fin q) ∧
      P.Kkt (fun k => (σ.x k).toQ) (fun i => (σ.y i).toQ) (fun k => (σ.z k).toQ) := by
  have hm : (runPresolver env stgs fuel P).2.1 = (mainLoop env stgs fuel (initSt P) .fast (initSt P).nnz (initSt P).nnz).2.1 ∧
      SameResult (mainLoop env stgs fuel (initSt P) .fast (initSt P).nnz (initSt P).nnz).1
        (runPresolver env stgs fuel P).1 ∧
      (runPresolver env stgs fuel P).1.near = (mainLoop env stgs fuel (initSt P) .fast (initSt P).nnz (initSt P).nnz).1.near := by
    unfold runPresolver
    simp only
    split
    · exact ⟨rfl, .refl _, rfl⟩
    · refine ⟨rfl, ?_⟩
      simp only
      split
      · exact ⟨removeRedundantBounds_out _, removeRedundantBounds_near _⟩
      · exact ⟨.refl _, rfl⟩
  obtain ⟨e, so, en⟩ := hm
  rw [so.asrt] at ho
  rw [en] at hn
  rw [so.reduced] at hx hk
  rw [so.postsolve] at hpost
  have hu := e.symm.trans hf
  have gap := run_gap hu hx
  have K := mainLoop_kkt (μ := ⟨true, true, true, false, true⟩) (β := false) rfl P env stgs h1 h2
    (fun s => runMedium_off_kkt env stgs h5 h3 h4 s) fuel (initSt P) .fast (initSt P).nnz (initSt P).nnz
  have B0 : Base P (initSt P) := ⟨fun r hr => (by cases hr), initSt_inv hP, initSt_feas hP hR gap, initSt_inRng hP⟩
  have hfin : fine (mainLoop env stgs fuel (initSt P) .fast (initSt P).nnz (initSt P).nnz).2.1 := by
    rw [hu]; exact fine_unchanged
  have ok : Ok ⟨true, true, true, false, true⟩ (mainLoop env stgs fuel (initSt P) .fast (initSt P).nnz (initSt P).nnz).1 :=
    ⟨ho, (fun h => nomatch h), fun _ => hn⟩
  obtain ⟨B, c⟩ := K.base hfin ok B0 (initSt_ce P).1
  obtain ⟨-, hb⟩ := K.back hfin ok B0 (initSt_ce P).1
  have C := comp_reduced B.feas B.inv.gi B.rng c B.plain hk hpost
  obtain ⟨σ1, e1, C1⟩ := hb.back _ _ (fun h => nomatch h) C
  have e2 : some σ = some σ1 := hpost.symm.trans e1
  cases e2
  exact initSt_comp C1

/-- **C06, corollary.**  Under the hypotheses of `C06_run_partial` no feasible point of the original problem is better
than the postsolved point. -/
theorem C06_optimal_partial {P : LP} (hP : P.Valid) (hR : P.Regular) {env : Env} {stgs : Settings}
    (h1 : stgs.stonCols = false) (h2 : stgs.dtonEq = false) (h3 : stgs.parallelRows = false)
    (h4 : stgs.parallelCols = false) (h5 : stgs.primalPropagation = false) {fuel : ℕ}
    (hf : (runPresolver env stgs fuel P).2.1 = UNCHANGED)
    (ho : (runPresolver env stgs fuel P).1.asrt = true)
    (hn : (runPresolver env stgs fuel P).1.near = false) {x y z : ℕ → ℚ}
    (hx : (reducedLP (runPresolver env stgs fuel P).1).Feasible x)
    (hk : (reducedLP (runPresolver env stgs fuel P).1).Kkt x y z) {σ : Sol}
    (hpost : postsolve (runPresolver env stgs fuel P).1 (fun j => .fin (x j)) (fun j => .fin (y j))
      (fun j => .fin (z j)) = some σ) {w : ℕ → ℚ} (hw : P.Feasible w) :
    P.obj (fun k => (σ.x k).toQ) ≤ P.obj w :=
  (C06_run_partial hP hR h1 h2 h3 h4 h5 hf ho hn hx hk hpost).2.2.le (fun i _ p hp => (hP.range i p hp).2.1) hw

/-- Reductions covered by `C06_run_partial`. -/
def stgsExact : Settings := { stgsSimple with primalPropagation := false }

instance (P : LP) (x y z : ℕ → ℚ) : Decidable (P.Kkt x y z) :=
  decidable_of_iff ((∀ k < P.n, z k = P.c k - P.colDot y k) ∧ (∀ i < P.m, 0 < y i → P.lhs i = .fin (dot (P.A i) x)) ∧
    (∀ i < P.m, y i < 0 → P.rhs i = .fin (dot (P.A i) x)) ∧ (∀ k < P.n, 0 < z k → P.lb k = .fin (x k)) ∧
    (∀ k < P.n, z k < 0 → P.ub k = .fin (x k)))
    ⟨fun ⟨a, b, c, d, e⟩ => ⟨a, b, c, d, e⟩, fun ⟨a, b, c, d, e⟩ => ⟨a, b, c, d, e⟩⟩

/-- The hypotheses of `C06_run_partial` hold on `exSimple`: a column with equal bounds and two singleton rows are
removed, seven records are written, and a primal-dual optimal point of the reduced problem is postsolved to one of the
original problem in which the removed rows carry the duals `5/2` and `-1`. -/
example : exSimple.Valid ∧ exSimple.Regular ∧ (runPresolver envEx stgsExact 10 exSimple).2.1 = UNCHANGED ∧
    (runPresolver envEx stgsExact 10 exSimple).1.asrt = true ∧
    (runPresolver envEx stgsExact 10 exSimple).1.near = false ∧
    (runPresolver envEx stgsExact 10 exSimple).1.log.length = 7 ∧
    (reducedLP (runPresolver envEx stgsExact 10 exSimple).1).Feasible (ofList [3, 2, 2, 0] 0) ∧
    (reducedLP (runPresolver envEx stgsExact 10 exSimple).1).Kkt (ofList [3, 2, 2, 0] 0) (ofList [0, 2, 0, -3] 0)
      (ofList [-1, 0, 0, 4] 0) ∧
    (postsolve (runPresolver envEx stgsExact 10 exSimple).1 (fun t => .fin (ofList [3, 2, 2, 0] 0 t))
      (fun t => .fin (ofList [0, 2, 0, -3] 0 t)) (fun t => .fin (ofList [-1, 0, 0, 4] 0 t))).map
        (fun σ => ((List.range 6).map σ.x, (List.range 6).map σ.y, (List.range 6).map σ.z)) = some
      ([.fin 2, .fin 3, .fin 1, .fin 2, .fin 2, .fin 0], [.fin (5 / 2), .fin (-1), .fin 0, .fin 2, .fin 0, .fin (-3)],
        [.fin 0, .fin 0, .fin (-5), .fin 0, .fin 0, .fin 4]) := by
  have hm : (reducedLP (runPresolver envEx stgsExact 10 exSimple).1).m = 4 := by decide +kernel
  have hn : (reducedLP (runPresolver envEx stgsExact 10 exSimple).1).n = 4 := by decide +kernel
  refine ⟨exSimple_valid, exSimple_regular, by decide +kernel, by decide +kernel, by decide +kernel,
    by decide +kernel, ⟨?_, ?_⟩, by decide +kernel, by decide +kernel⟩
  · rw [hm]; decide +kernel
  · rw [hn]; decide +kernel

end Verif
