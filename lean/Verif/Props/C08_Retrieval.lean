import Verif.Inv.Pair
import Verif.Props.EndToEnd
import Verif.Props.C05_Stationarity
import Verif.Props.C29_FixInf

/-!
# C08: postsolve defines every entry of the solution
-/

namespace Verif

theorem initSt_col_active (P : LP) {k : ℕ} (hk : k < P.n) : ((initSt P).ctag k).inactive = false := by
  simp [initSt, hk, CTag.inactive, colTagOf]

theorem initSt_row_active (P : LP) {i : ℕ} (hi : i < P.m) : ((initSt P).rtag i).inactive = false := by
  simp [initSt, hi, rowTagOf]

/-- The marks are carried back as far as the run goes. -/
theorem marks_run {P : LP} {t : St} (hP : P.Valid) (r : Run Mode.all (initSt P) t) (c : Clean t) :
    ∃ a, marksRun t = some a ∧ Exact (initSt P) a := by
  have i := initSt_inv hP
  refine r.steps.rel (markBackward (Exact (initSt P)) _) i.gi (initSt_inRng hP)
    (fun a h => ⟨a, rfl, h⟩) (marksCopy (idxMapOf t.colSize) (idxMapOf t.rowSize)) ?_
  have g := (r.inv i).gi
  have hx : ∀ k, (idxMapOf t.colSize k).isSome = !(t.ctag k).inactive := by
    intro k
    by_cases hk : t.colSize k = -1
    · rw [idxMapOf_gone hk, (g.colGone_iff c k).mp hk]; rfl
    · have : (t.ctag k).inactive = false := by rw [← Bool.not_eq_true, ← g.colGone_iff c]; exact hk
      rw [idxMapOf_live hk, this]; rfl
  have hy : ∀ k, (idxMapOf t.rowSize k).isSome = !(t.rtag k).inactive := by
    intro k
    by_cases hk : t.rowSize k = -1
    · rw [idxMapOf_gone hk, (g.rowGone_iff c k).mp hk]; rfl
    · have : (t.rtag k).inactive = false := by rw [← Bool.not_eq_true, ← g.rowGone_iff c]; exact hk
      rw [idxMapOf_live hk, this]; rfl
  exact ⟨hx, hy, hx⟩

/-- **C08, every entry is retrieved exactly once.**  For every valid problem, all settings and every
environment: after a completed run whose assertions held, none of the assertions on markers in
`Postsolver.c` fails during postsolve — no step reads a row dual, a reduced cost or (but for columns
fixed at infinity) a primal value that is still at the marker, no step overwrites a column or a deleted
row that has been retrieved before — and at the end no entry of `x`, `y` or `z` is at the marker.

Missing from C08: the steps for columns fixed at infinity do read entries at the marker (`C08_fails`). -/
theorem C08_retrieved_partial {P : LP} (hP : P.Valid) {env : Env} (hs : env.SortOK) {stgs : Settings} {fuel : ℕ}
    (hf : (runPresolver env stgs fuel P).2.1 = UNCHANGED)
    (ho : (runPresolver env stgs fuel P).1.asrt = true) :
    ∃ a, marksRun (runPresolver env stgs fuel P).1 = some a ∧
      (∀ k < P.n, a.x k = true ∧ a.z k = true) ∧ ∀ i < P.m, a.y i = true := by
  obtain ⟨r, c, _⟩ := run_all hP hs hf ho
  obtain ⟨a, h1, h2⟩ := marks_run hP r c
  refine ⟨a, h1, fun k hk => ?_, fun i hi => ?_⟩
  · rw [h2.x, h2.z, initSt_col_active P hk]; exact ⟨rfl, rfl⟩
  · rw [h2.y, initSt_row_active P hi]; rfl

/-- Postsolve on any starting solution: what `postsolver_run` does after the copy. -/
theorem postsolve_eq (s : St) (x y z : ℕ → D) :
    postsolve s x y z = replay none s.log (copyReduced (idxMapOf s.colSize) (idxMapOf s.rowSize) x y z) := rfl

/-- **C08, the result does not depend on the markers.**  If no column was fixed at infinity, then
starting postsolve from any two vectors that agree on the rows and columns of the reduced problem —
whatever they hold in the other entries — gives the same `x`, `y` and `z` in every entry of the original
problem. -/
theorem C08_values_partial {P : LP} (hP : P.Valid) {env : Env} (hs : env.SortOK) {stgs : Settings} {fuel : ℕ}
    (hf : (runPresolver env stgs fuel P).2.1 = UNCHANGED)
    (ho : (runPresolver env stgs fuel P).1.asrt = true)
    (hinf : ∀ r ∈ (runPresolver env stgs fuel P).1.log, r.isInf = false) {a b σ τ : Sol}
    (hcol : ∀ k, (runPresolver env stgs fuel P).1.colSize k ≠ -1 → a.x k = b.x k ∧ a.z k = b.z k)
    (hrow : ∀ i, (runPresolver env stgs fuel P).1.rowSize i ≠ -1 → a.y i = b.y i)
    (ha : replay none (runPresolver env stgs fuel P).1.log a = some σ)
    (hb : replay none (runPresolver env stgs fuel P).1.log b = some τ) :
    (∀ k < P.n, σ.x k = τ.x k ∧ σ.z k = τ.z k) ∧ ∀ i < P.m, σ.y i = τ.y i := by
  obtain ⟨r, c, _⟩ := run_all hP hs hf ho
  generalize (runPresolver env stgs fuel P).1 = t at *
  have i := initSt_inv hP
  have g := (r.inv i).gi
  have h := r.steps.rel (pairBackward (fun p => AgreeOn (initSt P) p.1 p.2) _) i.gi (initSt_inRng hP)
    (fun a a' ho h => by cases ho; exact h) (a, b) (σ, τ) (pairInterp_replay none _ hinf ha hb)
    ⟨fun k hk => (hcol k (g.colActive hk)).1, fun i hi => hrow i (g.rowActive hi),
      fun k hk => (hcol k (g.colActive hk)).2⟩
  exact ⟨fun k hk => ⟨h.x k (initSt_col_active P hk), h.z k (initSt_col_active P hk)⟩,
    fun i hi => h.y i (initSt_row_active P hi)⟩

/-- **Negation of C08.** On `lpOrder` the column `x1` fixed at infinity is retrieved before `x0`, which is
still at the marker: with another number in its place postsolve returns another `x1`. -/
theorem C08_fails :
    (runPresolver envEx stgsAll 10 lpOrder).2 = (UNCHANGED, true) ∧
    (runPresolver envEx stgsAll 10 lpOrder).1.asrt = true ∧
    (List.range 2).map (runPresolver envEx stgsAll 10 lpOrder).1.colSize = [-1, -1] ∧
    (runPresolver envEx stgsAll 10 lpOrder).1.rowSize 0 = -1 ∧
    (replay none (runPresolver envEx stgsAll 10 lpOrder).1.log ⟨fun _ => .pinf, fun _ => .pinf, fun _ => .pinf⟩).map
      (fun σ => σ.x 1) = some (.fin 0) ∧
    (replay none (runPresolver envEx stgsAll 10 lpOrder).1.log ⟨fun _ => .fin 7, fun _ => .pinf, fun _ => .pinf⟩).map
      (fun σ => σ.x 1) = some (.fin 6) := by
  decide +kernel

/-- The hypotheses of the theorems above hold on `exMix`; five columns and three rows are missing from
the reduced problem. -/
example : exMix.Valid ∧ envEx.SortOK ∧ (runPresolver envEx stgsAll 10 exMix).2.1 = UNCHANGED ∧
    (runPresolver envEx stgsAll 10 exMix).1.asrt = true ∧
    (runPresolver envEx stgsAll 10 exMix).1.log.all (fun r => !r.isInf) = true ∧
    (runPresolver envEx stgsAll 10 exMix).1.log.length = 14 ∧
    (List.range 8).map (fun k => decide ((runPresolver envEx stgsAll 10 exMix).1.colSize k = -1)) =
      [true, true, true, true, false, false, true, false] ∧
    ((replay none (runPresolver envEx stgsAll 10 exMix).1.log
      ⟨fun k => if k = 4 ∨ k = 5 ∨ k = 7 then .fin 1 else .fin (-7), fun _ => .fin 1, fun _ => .fin 2⟩).map
        (fun σ => (List.range 8).map σ.x)) =
    ((replay none (runPresolver envEx stgsAll 10 exMix).1.log
      ⟨fun k => if k = 4 ∨ k = 5 ∨ k = 7 then .fin 1 else .pinf, fun _ => .fin 1, fun _ => .fin 2⟩).map
        (fun σ => (List.range 8).map σ.x)) := by
  refine ⟨exMix_valid, envEx_sortOK, by decide +kernel, by decide +kernel, by decide +kernel, by decide +kernel,
    by decide +kernel, by decide +kernel⟩

end Verif
