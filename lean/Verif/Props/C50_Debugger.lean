import Verif.Inv.DebugChecks
import Verif.Spec.Near
import Verif.Props.C01_Objective
import Verif.Props.Counterexamples

/-!
# C50: the consistency checks of debug builds never fail

Debug builds call `run_debugger` on the state before the first reduction, after the trivial explorers of
every phase, and on the result.  It recomputes from scratch what the reductions maintain step by step:
sizes, both copies of the matrix, locks, row tags, and the lists of empty, singleton and doubleton rows, of
empty and singleton columns and of rows waiting for propagation.  The theorems say that these checks hold, in every run, at every such
point that the run reaches with all earlier assertions of the code satisfied (a failing assertion ends
a debug build).

Missing from the full claim: the checks of the activities, which can fail (`C50_activities_fails`), and the
layout of the arrays.
-/

namespace Verif

/-- **C50.**  Every call of the debugger in a run succeeds. -/
theorem C50_debugger_partial {P : LP} (hP : P.Valid) (hS : P.Sides) {env : Env} (hs : env.SortOK) {stgs : Settings} {fuel : ℕ}
    {t : St} {finished : Bool} (h : (t, finished) ∈ debugPoints env stgs fuel P)
    (o : t.asrt = true) :
    runDebugger t finished = true := by
  have hup := debugPoints_lup h
  have hu := hup.upd (initSt_updOK P)
  have ht := hup.tag o (initSt_updOK P).weak (initSt_tagOK hS)
  unfold debugPoints at h
  simp only at h
  have hpts := mainLoopD_points env hs stgs fuel (initSt P) .fast (initSt P).nnz (initSt P).nnz
  generalize mainLoopD env stgs fuel (initSt P) .fast (initSt P).nnz (initSt P).nnz = w at h hpts
  rcases List.mem_append.mp h with h | h
  · rcases List.mem_cons.mp h with e | h
    · obtain ⟨rfl, rfl⟩ := Prod.mk.inj e
      exact debug_init hP hS
    rcases List.mem_cons.mp h with e | h
    · obtain ⟨rfl, rfl⟩ := Prod.mk.inj e
      exact debug_init hP hS
    obtain ⟨u, hmem, e⟩ := List.mem_map.mp h
    obtain ⟨rfl, rfl⟩ := Prod.mk.inj e
    obtain ⟨i, c, e⟩ := (hpts.1 u hmem o).2 (initSt_inv hP) (initSt_cq hP)
    exact debug_te i c hu ht e false
  · split at h
    · rename_i hw
      obtain ⟨he, rfl⟩ := Prod.mk.inj (List.mem_singleton.mp h)
      cases hr : stgs.relaxBounds with
      | false =>
        rw [hr, if_neg Bool.false_ne_true] at he
        subst he
        obtain ⟨i, c, e⟩ := (hpts.2 hw.1 hw.2 o).2 (initSt_inv hP) (initSt_cq hP)
        exact debug_te i c hu ht e true
      | true =>
        rw [hr, if_pos rfl] at he
        subst he
        obtain ⟨o', k⟩ := (removeRedundantBounds_good Mode.all w.1.1).em (ok_all.mpr o)
        obtain ⟨i, c, e⟩ := (hpts.2 hw.1 hw.2 (ok_all.mp o')).2 (initSt_inv hP) (initSt_cq hP)
        obtain ⟨R, c'⟩ := k i c.1
        exact debug_te (R.inv i) ⟨c', (removeRedundantBounds_keep _ o).2 c.2⟩ hu ht e.relax true
    · cases h

/-- **C50, any order of calls.**  After explorer calls in any order, the sizes, both copies of the matrix
and the locks are right, the doubleton equalities and the singleton columns are listed, and no
singleton row or empty row or column is missing from its list. -/
theorem C50_calls {P : LP} (hP : P.Valid) {env : Env} (hs : env.SortOK) {stgs : Settings} {s : St}
    (h : Calls env stgs (initSt P) s) (o : s.asrt = true) :
    verifySizes s = true ∧ verifyMatrices s = true ∧ verifyLocks s = true ∧ verifyDtonRows s = true ∧
    verifyStonCols s = true ∧ s.dtonRows.Nodup ∧ s.stonCols.Nodup ∧
    (∀ i, s.rowSize i = 1 → i ∈ s.stonRows) ∧ (∀ i < s.m, s.rowSize i = 0 → i ∈ s.emptyRows) ∧
    (∀ k < s.n, s.colSize k = 0 → k ∈ s.emptyCols) := by
  obtain ⟨i, c⟩ := h.queued hs o (initSt_inv hP) (initSt_cq hP)
  have hc := i.gi.consistent c.1.1
  exact ⟨debug_sizes hc, debug_matrices hc i.gi, debug_locks i.gi, debug_dton hc i c.2, debug_stonCols hc c.2,
    c.2.dtonNodup, c.2.colNodup, fun r e => ston_listed hc c.2 e, fun r hr e => emptyRow_listed hc c.1.2 hr e,
    fun k hk e => emptyCol_listed hc c.1.2 hk e⟩

/-- The states of the debugger are those of the run: the last one is the result of `runPresolver`. -/
theorem C50_last {P : LP} {env : Env} {stgs : Settings} {fuel : ℕ}
    (hf : (runPresolver env stgs fuel P).2 = (UNCHANGED, true)) :
    ((runPresolver env stgs fuel P).1, true) ∈ debugPoints env stgs fuel P := by
  unfold debugPoints
  unfold runPresolver at hf ⊢
  simp only at hf ⊢
  rw [mainLoopD_erase]
  generalize mainLoop env stgs fuel (initSt P) .fast (initSt P).nnz (initSt P).nnz = r at hf
  have h1 : r.2 = (UNCHANGED, true) := by
    split at hf
    · exact hf
    · exact hf
  have h2 : r.2.1 = UNCHANGED := by rw [h1]
  have h3 : r.2.2 = true := by rw [h1]
  rw [if_neg (not_not.mpr h2), if_pos ⟨h2, h3⟩]
  exact List.mem_append_right _ (List.mem_singleton_self _)

theorem LP.Regular.sides {P : LP} (h : P.Regular) : P.Sides := by
  intro i hi
  constructor
  · rcases h.lhs i hi with e | ⟨q, e⟩ <;> rw [e] <;> simp
  · rcases h.rhs i hi with e | ⟨q, e⟩ <;> rw [e] <;> simp

/-- The run on `exMix` calls the debugger eight times; before the first reduction each of the lists of
short rows and columns has one element, and a column singleton is left at the end. -/
example : exMix.Valid ∧ exMix.Sides ∧ envEx.SortOK ∧
    (debugPoints envEx stgsAll 20 exMix).map (fun p => (p.2, p.1.asrt, p.1.nnz)) =
      [(false, true, 16), (false, true, 16), (false, true, 14), (false, true, 7), (false, true, 7), (false, true, 5),
        (false, true, 5), (true, true, 5)] ∧
    (debugPoints envEx stgsAll 20 exMix).map (fun p => (p.1.stonRows, p.1.dtonRows, p.1.stonCols)) =
      [([0], [1], [6]), ([0], [1], [6]), ([], [1], [6]), ([], [], [7]), ([], [], [7]), ([], [], [7]), ([], [], [7]),
        ([], [], [7])] :=
  ⟨exMix_valid, (by unfold LP.Sides; decide +kernel), envEx_sortOK, by decide +kernel, by decide +kernel⟩

/-- The checks are not empty: they fail if one of the lists forgets its only element, if a size, a lock or
a tag is wrong, or if a row is listed twice for propagation. -/
example : runDebugger (initSt exMix) false = true ∧
    runDebugger { initSt exMix with stonRows := [] } false = false ∧
    runDebugger { initSt exMix with dtonRows := [] } false = false ∧
    runDebugger { initSt exMix with stonCols := [] } false = false ∧
    runDebugger { initSt exMix with colSize := upd (initSt exMix).colSize 1 1 } false = false ∧
    runDebugger { initSt exMix with up := upd (initSt exMix).up 1 1 } false = false ∧
    runDebugger { initSt exMix with rtag := upd (initSt exMix).rtag 1 {} } false = false ∧
    runDebugger { initSt exMix with updActs := 0 :: 0 :: (initSt exMix).updActs } false = false := by
  decide +kernel

end Verif
