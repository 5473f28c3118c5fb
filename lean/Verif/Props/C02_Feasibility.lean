import Verif.Inv.FeasEnd
import Verif.Lemmas.EnvEx

/-!
# C02: feasible points of the reduced problem are postsolved to feasible points, whole runs
-/

namespace Verif

/-- **C02, whole runs.**  For every valid problem and every environment, with any choice of primal
propagation, dual fixing, bound tightening and relaxed bounds, but without reductions of singleton
columns, doubleton equations, parallel rows and parallel columns: if the run completes, its assertions
held and no column was fixed to an infinite value, then every feasible point of the reduced problem
is postsolved to numbers that satisfy every bound of the original problem up to the feasibility
tolerance and every row `aᵢ` up to the tolerance times `1 + 2 ‖aᵢ‖₁`.

Missing from C02: the four other reductions (`C02_stale_activity_fails` shows that the statement is
false with doubleton equations), columns fixed to an infinite value, runs in which an assertion
fails. -/
theorem C02_run_partial {P : LP} (hP : P.Valid) (hR : P.Regular) {env : Env} {stgs : Settings}
    (h1 : stgs.stonCols = false) (h2 : stgs.dtonEq = false)
    (h3 : stgs.parallelRows = false) (h4 : stgs.parallelCols = false) {fuel : ℕ}
    (hf : (runPresolver env stgs fuel P).2.1 = UNCHANGED)
    (ho : (runPresolver env stgs fuel P).1.asrt = true)
    (hlog : ∀ r ∈ (runPresolver env stgs fuel P).1.log, r.plain = true) {x : ℕ → ℚ}
    (hx : (reducedLP (runPresolver env stgs fuel P).1).Feasible x) (y z : ℕ → D) {σ : Sol}
    (hpost : postsolve (runPresolver env stgs fuel P).1 (fun t => .fin (x t)) y z = some σ) :
    (∀ k < P.n, ∃ q, σ.x k = .fin q) ∧ P.NearFeasible (fun k => (σ.x k).toQ) := by
  -- the state before the bounds are relaxed
  have hm : (mainLoop env stgs fuel (initSt P) .fast (initSt P).nnz (initSt P).nnz).2.1 = UNCHANGED ∧
      SameResult (mainLoop env stgs fuel (initSt P) .fast (initSt P).nnz (initSt P).nnz).1
        (runPresolver env stgs fuel P).1 := by
    unfold runPresolver at hf ⊢
    simp only at hf ⊢
    split at hf
    · rename_i hne; exact absurd hf hne
    · rename_i hne
      refine ⟨hf, ?_⟩
      rw [if_neg hne]
      simp only
      split
      · exact removeRedundantBounds_out _
      · exact .refl _
  obtain ⟨hu, so⟩ := hm
  rw [so.asrt] at ho
  rw [so.log] at hlog
  rw [so.reduced] at hx
  rw [so.postsolve] at hpost
  have gap : ∀ k < P.n, ∀ l u, P.lb k = .fin l → P.ub k = .fin u → l ≤ u + FEAS_TOL := by
    intro k hk l u hl hu'
    by_contra hlt
    have hlt := not_le.mp hlt
    cases fuel with
    | zero =>
      have hc := hx.col _ (liveIdx_rank_lt (size := (initSt P).colSize) (n := P.n) hk (initSt_here hk))
      have e1 : (reducedLP (initSt P)).lb (liveIdx (initSt P).colSize k).length = P.lb k := by
        show shrunk (liveIdx _ P.n) _ _ _ = _
        unfold shrunk; rw [liveIdx_rank hk (initSt_here hk)]; rfl
      have e2 : (reducedLP (initSt P)).ub (liveIdx (initSt P).colSize k).length = P.ub k := by
        show shrunk (liveIdx _ P.n) _ _ _ = _
        unfold shrunk; rw [liveIdx_rank hk (initSt_here hk)]; rfl
      have ha := hc.1
      have hb := hc.2
      simp only [mainLoop] at ha hb
      rw [e1, hl, LoD_fin] at ha
      rw [e2, hu', HiD_fin] at hb
      have := FEAS_TOL_pos
      linarith
    | succ fuel =>
      rw [mainLoop_crossed hlt hk hl hu' env stgs fuel] at hu
      cases hu
  have hg := mainLoop_goodF ⟨true, true, true, true, true⟩ P env stgs h1 h2 h3 h4 fuel (initSt P) .fast
    (initSt P).nnz (initSt P).nnz
  generalize (mainLoop env stgs fuel (initSt P) .fast (initSt P).nnz (initSt P).nnz).1 = t at *
  rw [hu] at hg
  obtain ⟨r, c, hF⟩ := ((hg.2 (by show fine UNCHANGED; rfl)) ⟨ho, (fun h => nomatch h), fun h => nomatch h⟩).2 (initSt_inv hP)
    ⟨(initSt_ce P).1, fun _ => initSt_feas hP hR gap⟩
  have F := hF hlog
  have g := (r.inv (initSt_inv hP)).gi
  have hv : ∀ k, σ.x k = (logVal t.log k).getD (match idxMapOf t.colSize k with
      | none => .pinf | some j => .fin (x j)) := replay_x _ _ _ _ hlog hpost
  have hv' : ∀ k < P.n, σ.x k = (logVal t.log k).getD (.fin (x ((idxMapOf t.colSize k).getD 0))) ∧
      ∃ q, σ.x k = .fin q := by
    intro k hk
    by_cases hc : t.colSize k = -1
    · have ha := (g.colGone_iff c k).mp hc
      have hfx : (t.ctag k).fixed = true := by
        have := (F.col k hk).sub
        unfold CTag.inactive at ha
        rw [this, Bool.or_false] at ha
        exact ha
      obtain ⟨v, hlv, _⟩ := (F.col k hk).old hfx
      rw [hv k, hlv]
      exact ⟨rfl, v, rfl⟩
    · have ha : (t.ctag k).inactive = false := by
        by_contra hn
        exact hc ((g.colGone_iff c k).mpr (by simpa using hn))
      rw [hv k, (F.col k hk).new (CTag.inactive_false.mp ha).1, idxMapOf_live hc]
      exact ⟨rfl, _, rfl⟩
  exact ⟨fun k hk => (hv' k hk).2, F.near hR g c hx (fun k hk => by rw [(hv' k hk).1])⟩

/-- Reductions covered by `C02_run_partial`. -/
def stgsSimple : Settings :=
  { stgsAll with stonCols := false, dtonEq := false, parallelRows := false, parallelCols := false }

/-- A problem with a fixed column, singleton rows, a redundant row and rows that tighten bounds. -/
def exSimple : LP where
  m := 6
  n := 6
  A := ofList [[(0, 2)], [(1, 1)], [(0, 1), (1, 1), (3, 1), (4, 1)], [(2, 1), (3, 1), (4, -1)],
    [(3, 1), (4, 2)], [(3, 1), (5, 1)]] []
  lhs := ofList [.fin 4, .ninf, .fin 3, .fin 1, .ninf, .fin 2] .ninf
  rhs := ofList [.fin 4, .fin 3, .fin 12, .pinf, .fin 100, .fin 2] .pinf
  lb := ofList [.fin 0, .fin 0, .fin 1, .fin 0, .fin 0, .fin 0] .ninf
  ub := ofList [.fin 10, .fin 10, .fin 1, .fin 10, .fin 30, .pinf] .pinf
  c := ofList [5, -1, -3, -1, -2, 1] 0

theorem exSimple_valid : exSimple.Valid := by
  refine ⟨fun i => ?_, fun i p hp => ?_⟩
  · rcases lt_or_ge i 6 with h | h
    · have : i = 0 ∨ i = 1 ∨ i = 2 ∨ i = 3 ∨ i = 4 ∨ i = 5 := by omega
      rcases this with rfl | rfl | rfl | rfl | rfl | rfl <;>
        (show List.Pairwise _ _; simp [exSimple, ofList])
    · have e : exSimple.A i = [] := by
        show (_ : List (List Cell)).getD i [] = []
        rw [List.getD_eq_getElem?_getD, List.getElem?_eq_none (by simpa using h)]; rfl
      rw [e]; exact List.Pairwise.nil
  · rcases lt_or_ge i 6 with h | h
    · have : i = 0 ∨ i = 1 ∨ i = 2 ∨ i = 3 ∨ i = 4 ∨ i = 5 := by omega
      rcases this with rfl | rfl | rfl | rfl | rfl | rfl <;> revert p <;> decide +kernel
    · have e : exSimple.A i = [] := by
        show (_ : List (List Cell)).getD i [] = []
        rw [List.getD_eq_getElem?_getD, List.getElem?_eq_none (by simpa using h)]; rfl
      rw [e] at hp; cases hp

theorem lowCases (d : D) (h : (match d with | .ninf => true | .fin _ => true | _ => false) = true) :
    d = .ninf ∨ ∃ q, d = .fin q := by
  cases d <;> simp_all

theorem highCases (d : D) (h : (match d with | .pinf => true | .fin _ => true | _ => false) = true) :
    d = .pinf ∨ ∃ q, d = .fin q := by
  cases d <;> simp_all

theorem exSimple_regular : exSimple.Regular := by
  refine ⟨fun i hi => lowCases _ ?_, fun i hi => highCases _ ?_, fun i hi => lowCases _ ?_,
    fun i hi => highCases _ ?_⟩ <;> revert i <;> decide +kernel

instance (d : D) (v : ℚ) : Decidable (LoD d v) :=
  match d with
  | .ninf => isTrue (LoD_ninf v)
  | .fin a => decidable_of_iff (a ≤ v) (LoD_fin a v).symm
  | .pinf => isFalse (by rintro (h | ⟨_, h, _⟩) <;> cases h)
  | .nan => isFalse (by rintro (h | ⟨_, h, _⟩) <;> cases h)

instance (d : D) (v : ℚ) : Decidable (HiD d v) :=
  match d with
  | .pinf => isTrue (HiD_pinf v)
  | .fin a => decidable_of_iff (v ≤ a) (HiD_fin a v).symm
  | .ninf => isFalse (by rintro (h | ⟨_, h, _⟩) <;> cases h)
  | .nan => isFalse (by rintro (h | ⟨_, h, _⟩) <;> cases h)

/-- The hypotheses of `C02_run_partial` hold on `exSimple`: three rows and two columns are removed,
`x = (3, 1, 1, 1)` is feasible for what is left and is postsolved to `(2, 3, 1, 1, 1, 1)`. -/
example : exSimple.Valid ∧ exSimple.Regular ∧ (runPresolver envEx stgsSimple 10 exSimple).2.1 = UNCHANGED ∧
    (runPresolver envEx stgsSimple 10 exSimple).1.asrt = true ∧
    (∀ r ∈ (runPresolver envEx stgsSimple 10 exSimple).1.log, r.plain = true) ∧
    (runPresolver envEx stgsSimple 10 exSimple).1.log.length = 15 ∧
    (reducedLP (runPresolver envEx stgsSimple 10 exSimple).1).m = 3 ∧
    (reducedLP (runPresolver envEx stgsSimple 10 exSimple).1).n = 4 ∧
    (reducedLP (runPresolver envEx stgsSimple 10 exSimple).1).Feasible (ofList [3, 1, 1, 1] 0) ∧
    (postsolve (runPresolver envEx stgsSimple 10 exSimple).1 (fun t => .fin (ofList [3, 1, 1, 1] 0 t))
      (fun _ => .fin 1) (fun _ => .fin 2)).map (fun σ => (List.range 6).map σ.x) =
      some [.fin 2, .fin 3, .fin 1, .fin 1, .fin 1, .fin 1] := by
  have hm : (reducedLP (runPresolver envEx stgsSimple 10 exSimple).1).m = 3 := by decide +kernel
  have hn : (reducedLP (runPresolver envEx stgsSimple 10 exSimple).1).n = 4 := by decide +kernel
  refine ⟨exSimple_valid, exSimple_regular, by decide +kernel, by decide +kernel, by decide +kernel,
    by decide +kernel, hm, hn, ⟨?_, ?_⟩, by decide +kernel⟩
  · rw [hm]; decide +kernel
  · rw [hn]; decide +kernel

end Verif
