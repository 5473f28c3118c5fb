import Verif.Inv.Obj
import Verif.Inv.Reach
import Verif.Lemmas.Reduced
import Verif.Lemmas.EnvEx

/-!
# C01: the objective value is preserved through presolve and postsolve, whole runs
-/

namespace Verif

theorem initSt_objRel (P : LP) (σ : Sol) : ObjRel P (initSt P) σ (some σ) := by
  intro σ' ho hf
  cases ho
  have hct : ∀ k, ((initSt P).ctag k).inactive = false → k < P.n := by
    intro k hk
    by_contra hn
    have : (initSt P).ctag k = { fixed := true } ∨ ((initSt P).ctag k).inactive = true := by
      right; simp [initSt, hn, CTag.inactive]
    rcases this with e | e
    · rw [e] at hk; cases hk
    · rw [e] at hk; cases hk
  refine ⟨rfl, fun k hk => hf k (hct k hk), fun k hk => absurd hk (List.not_mem_nil), 0, rfl, ?_⟩
  rw [zero_add, LP.obj_eq]
  refine Finset.sum_congr rfl (fun k hk => ?_)
  have hk : k < P.n := Finset.mem_range.mp hk
  have : ((initSt P).ctag k).inactive = false := by
    simp [initSt, hk, CTag.inactive, colTagOf]
  unfold xi
  rw [this]
  rfl

theorem GI.colGone_iff {s : St} (g : GI s) (c : Clean s) (k : ℕ) :
    s.colSize k = -1 ↔ (s.ctag k).inactive = true := by
  constructor
  · intro h
    by_contra hn
    exact g.colActive (by simpa using hn) h
  · intro h
    by_contra hne
    have := g.colPendIn k h hne
    rw [c.2.1, c.2.2] at this; cases this

/-- **C01, whole runs.**  For every valid problem, all settings and every environment: if the run
completes, its assertions held and nothing was rounded (no coefficient dropped below `ZERO_TOL`, no
columns merged that are only nearly parallel), then for every point `x` of the reduced problem whose
postsolved point consists of numbers, the original objective at the postsolved point is the reduced
objective at `x` plus the offset.  `x`, `y`, `z` need not be feasible or optimal for anything.

Missing from C01: runs in which an assertion fails (`C01_fails`) and the rounded runs. -/
theorem C01_run_partial {P : LP} (hP : P.Valid) {env : Env} (hs : env.SortOK) {stgs : Settings} {fuel : ℕ}
    (hf : (runPresolver env stgs fuel P).2.1 = UNCHANGED)
    (ho : (runPresolver env stgs fuel P).1.asrt = true)
    (ht : (runPresolver env stgs fuel P).1.tiny = false) (x y z : ℕ → D) {σ : Sol}
    (hpost : postsolve (runPresolver env stgs fuel P).1 x y z = some σ)
    (hfin : ∀ k < P.n, ∃ q, σ.x k = .fin q) :
    ∃ o, (runPresolver env stgs fuel P).1.off = .fin o ∧
      P.obj (fun k => (σ.x k).toQ) =
        (reducedLP (runPresolver env stgs fuel P).1).obj (fun k => (x k).toQ) + o := by
  obtain ⟨r, c, _⟩ := runPresolver_run ⟨true, true, false, true, true⟩ hs (fun _ => rfl) (fun _ => rfl)
    (fun _ => rfl) hP (by rw [hf]; rfl) ⟨ho, fun _ => ht, fun h => nomatch h⟩
  generalize (runPresolver env stgs fuel P).1 = t at *
  have i := initSt_inv hP
  have h := r.steps.rel (objBackward P _ rfl) i.gi (initSt_inRng hP) (initSt_objRel P)
    (copyReduced (idxMapOf t.colSize) (idxMapOf t.rowSize) x y z) σ
    ((solInterp_replay _ _ _).trans hpost) hfin
  obtain ⟨o, h1, h2⟩ := h.obj
  refine ⟨o, h1, ?_⟩
  rw [h2, reducedLP_obj, add_comm]
  congr 1
  refine Finset.sum_congr rfl (fun k _ => ?_)
  have hg := (r.inv i).gi.colGone_iff c k
  unfold xi
  rw [c.2.1, if_neg List.not_mem_nil]
  by_cases hk : t.colSize k = -1
  · rw [if_pos hk, if_pos (hg.mp hk), mul_zero]
  · rw [if_neg hk, if_neg (fun h => hk (hg.mpr h))]
    show t.c k * D.toQ (match idxMapOf t.colSize k with | none => .pinf | some k => x k) = _
    rw [idxMapOf_live hk]

/-- A problem on which a singleton row, a doubleton row, a singleton column, a merge of parallel
columns and bound changes are applied. -/
def exMix : LP where
  m := 5
  n := 8
  A := ofList [[(0, 2)], [(1, 1), (2, 1)], [(1, 1), (3, 1), (4, 2), (5, 1), (7, 1)],
    [(0, 1), (3, 1), (4, 2), (5, 3)], [(2, 1), (5, 1), (6, 1), (7, 2)]] []
  lhs := ofList [.fin 4, .fin 4, .ninf, .ninf, .fin 1] .ninf
  rhs := ofList [.fin 4, .fin 4, .fin 50, .fin 20, .fin 9] .pinf
  lb := ofList [.fin 0, .fin 0, .ninf, .fin 0, .fin 0, .fin 0, .ninf, .fin 0] .ninf
  ub := ofList [.fin 10, .fin 10, .pinf, .fin 10, .fin 10, .fin 10, .pinf, .fin 10] .pinf
  c := ofList [5, -1, -3, -1, -2, -1, 1, -2] 0

theorem exMix_valid : exMix.Valid := by
  refine ⟨fun i => ?_, fun i p hp => ?_⟩
  · rcases lt_or_ge i 5 with h | h
    · have : i = 0 ∨ i = 1 ∨ i = 2 ∨ i = 3 ∨ i = 4 := by omega
      rcases this with rfl | rfl | rfl | rfl | rfl <;>
        (show List.Pairwise _ _; simp [exMix, ofList])
    · have e : exMix.A i = [] := by
        show (_ : List (List Cell)).getD i [] = []
        rw [List.getD_eq_getElem?_getD, List.getElem?_eq_none (by simpa using h)]; rfl
      rw [e]; exact List.Pairwise.nil
  · rcases lt_or_ge i 5 with h | h
    · have : i = 0 ∨ i = 1 ∨ i = 2 ∨ i = 3 ∨ i = 4 := by omega
      rcases this with rfl | rfl | rfl | rfl | rfl <;> revert p <;> decide +kernel
    · have e : exMix.A i = [] := by
        show (_ : List (List Cell)).getD i [] = []
        rw [List.getD_eq_getElem?_getD, List.getElem?_eq_none (by simpa using h)]; rfl
      rw [e] at hp; cases hp

/-- The hypotheses of `C01_run_partial` hold on `exMix` at an infeasible point of the reduced problem:
`-23 = -18 - 5`. -/
example : exMix.Valid ∧ envEx.SortOK ∧ (runPresolver envEx stgsAll 10 exMix).2.1 = UNCHANGED ∧
    (runPresolver envEx stgsAll 10 exMix).1.asrt = true ∧ (runPresolver envEx stgsAll 10 exMix).1.tiny = false ∧
    (postsolve (runPresolver envEx stgsAll 10 exMix).1 (fun k => .fin (k + 1)) (fun _ => .fin 1)
      (fun _ => .fin 2)).map (fun σ => (List.range 8).map σ.x) =
      some [.fin 2, .fin 0, .fin 4, .fin 2, .fin 0, .fin 2, .fin (-11), .fin 3] ∧
    exMix.obj (ofList [2, 0, 4, 2, 0, 2, -11, 3] 0) = -23 ∧
    (reducedLP (runPresolver envEx stgsAll 10 exMix).1).obj (fun k => k + 1) = -18 ∧
    (runPresolver envEx stgsAll 10 exMix).1.off = .fin (-5) :=
  ⟨exMix_valid, envEx_sortOK, by decide +kernel, by decide +kernel, by decide +kernel, by decide +kernel,
    by decide +kernel, by decide +kernel, by decide +kernel⟩

end Verif
