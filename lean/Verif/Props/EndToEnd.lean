import Verif.Props.C25_Locks
import Verif.Props.C37_Nnz
import Verif.Props.C07_Termination

/-!
# Whole runs: C20, C25, C44, C45 and C07

The theorems of this file are about `runPresolver` itself, for every valid problem, all settings and
every environment (memory layout, hash values, sorting, clock).  They share the hypothesis that the
assertions of the code held: assertions are disabled in release builds, and the runs in
`Verif.Props.Counterexamples` show that some of them do fail.
-/

namespace Verif

/-- Rows, columns, sizes and the number of nonzeros describe one and the same matrix. -/
structure Consistent (s : St) : Prop where
  agree : ∀ i k v, (k, v) ∈ s.A i ↔ (i, v) ∈ s.AT k
  rowGone : ∀ i, (s.rtag i).inactive = true → s.A i = [] ∧ s.rowSize i = -1
  colGone : ∀ k, (s.ctag k).inactive = true → s.AT k = [] ∧ s.colSize k = -1
  rowSize : ∀ i, (s.rtag i).inactive = false → s.rowSize i = (s.A i).length
  colSize : ∀ k, (s.ctag k).inactive = false → s.colSize k = (s.AT k).length
  rowNodup : ∀ i, ((s.A i).map Prod.fst).Nodup
  colNodup : ∀ k, ((s.AT k).map Prod.fst).Nodup
  nonzero : ∀ i k v, (k, v) ∈ s.A i → i < s.m ∧ k < s.n ∧ v ≠ 0
  nnzRows : s.nnz = ∑ i ∈ Finset.range s.m, ((s.A i).length : ℤ)

theorem GI.consistent {s : St} (g : GI s) (c : Clean s) : Consistent s := by
  have hrows : ∀ i, (s.rtag i).inactive = true → s.A i = [] ∧ s.rowSize i = -1 := by
    intro i hi
    by_contra hcon
    have hne : s.rowSize i ≠ -1 := fun e => hcon ⟨(g.rowGone i e).1, e⟩
    have := g.rowPend i hi hne
    rw [c.1] at this; cases this
  have hcols : ∀ k, (s.ctag k).inactive = true → s.AT k = [] ∧ s.colSize k = -1 := by
    intro k hk
    by_contra hcon
    have hne : s.colSize k ≠ -1 := fun e => hcon ⟨(g.colGone k e).1, e⟩
    have := g.colPendIn k hk hne
    rw [c.2.1, c.2.2] at this; cases this
  refine ⟨?_, hrows, hcols, fun i hi => g.rowSz i (g.rowActive hi), fun k hk => g.colSz k hk,
    fun i => (g.rowSorted i).nodup, fun k => (g.colSorted k).nodup,
    fun i k v h => g.rowRange i _ h, g.nnz⟩
  intro i k v
  by_cases hi : s.rowSize i = -1
  · rw [(g.rowGone i hi).1]
    refine ⟨fun h => by simp at h, fun h => ?_⟩
    cases hk : (s.ctag k).inactive with
    | true => rw [(hcols k hk).1] at h; cases h
    | false => exact absurd hi (g.colIn k hk _ h)
  · by_cases hk : s.colSize k = -1
    · rw [(g.colGone k hk).1]
      refine ⟨fun h => ?_, fun h => by simp at h⟩
      cases hii : (s.rtag i).inactive with
      | true => rw [(hrows i hii).1] at h; cases h
      | false => exact absurd hk (g.rowIn i hii _ h)
    · exact g.agree i k v hi hk

section
variable {P : LP} (hP : P.Valid) {env : Env} (hs : env.SortOK) {stgs : Settings} {fuel : ℕ}
include hP hs

theorem run_all (hf : (runPresolver env stgs fuel P).2.1 = UNCHANGED)
    (ho : (runPresolver env stgs fuel P).1.asrt = true) :
    Run Mode.all (initSt P) (runPresolver env stgs fuel P).1 ∧ CE (runPresolver env stgs fuel P).1 :=
  runPresolver_run Mode.all hs (fun _ => rfl) (fun _ => rfl) (fun _ => rfl) hP (by rw [hf]; rfl) (ok_all.mpr ho)

/-- **C20, whole runs.**  After every completed run, and after any sequence of explorer calls, the
two copies of the matrix agree, nothing of a deleted row or column is left in either, and sizes and
`nnz` are the true numbers of entries. -/
theorem C20_reachable :
    (∀ s, Calls env stgs (initSt P) s → s.asrt = true → Consistent s) ∧
    ((runPresolver env stgs fuel P).2.1 = UNCHANGED → (runPresolver env stgs fuel P).1.asrt = true →
      Consistent (runPresolver env stgs fuel P).1) := by
  constructor
  · intro s h o
    obtain ⟨_, r, c⟩ := h.run hs o (initSt_inv hP) (initSt_ce P)
    exact (r.inv (initSt_inv hP)).gi.consistent c.1
  · intro hf ho
    obtain ⟨r, c⟩ := run_all hP hs hf ho
    exact (r.inv (initSt_inv hP)).gi.consistent c.1

/-- **C25, whole runs.**  After every completed run, and after any sequence of explorer calls, the
locks of every remaining column are exactly the numbers of rows that block it. -/
theorem C25_reachable :
    (∀ s, Calls env stgs (initSt P) s → s.asrt = true → ∀ k, (s.ctag k).inactive = false →
      Counts (s.up k) (BlocksUp s k) ∧ Counts (s.down k) (BlocksDown s k)) ∧
    ((runPresolver env stgs fuel P).2.1 = UNCHANGED → (runPresolver env stgs fuel P).1.asrt = true →
      ∀ k, ((runPresolver env stgs fuel P).1.ctag k).inactive = false →
        Counts ((runPresolver env stgs fuel P).1.up k) (BlocksUp (runPresolver env stgs fuel P).1 k) ∧
        Counts ((runPresolver env stgs fuel P).1.down k) (BlocksDown (runPresolver env stgs fuel P).1 k)) := by
  constructor
  · intro s h o k hk
    obtain ⟨_, r, _⟩ := h.run hs o (initSt_inv hP) (initSt_ce P)
    exact locks_count (r.inv (initSt_inv hP)).gi hk
  · intro hf ho k hk
    obtain ⟨r, _⟩ := run_all hP hs hf ho
    exact locks_count (r.inv (initSt_inv hP)).gi hk

/-- **C44.**  After any sequence of explorer calls every remaining row without entries is on the
list of empty rows and every remaining column without entries on the list of empty columns. -/
theorem C44_empty_listed {s : St} (h : Calls env stgs (initSt P) s) (o : s.asrt = true) :
    (∀ i, i < s.m → (s.rtag i).inactive = false → s.A i = [] → i ∈ s.emptyRows) ∧
    (∀ k, k < s.n → (s.ctag k).inactive = false → s.AT k = [] → k ∈ s.emptyCols) :=
  (h.run hs o (initSt_inv hP) (initSt_ce P)).2.2.2

/-- **C44, short rows.**  After any sequence of explorer calls the list of singleton rows contains
only rows with at most one entry and the list of doubleton rows only rows with at most two. -/
theorem C44_short_rows {s : St} (h : Calls env stgs (initSt P) s) (o : s.asrt = true) :
    (∀ i ∈ s.stonRows, (s.A i).length ≤ 1) ∧ (∀ i ∈ s.dtonRows, (s.A i).length ≤ 2) :=
  have i := (h.run hs o (initSt_inv hP) (initSt_ce P)).2.1.inv (initSt_inv hP)
  ⟨i.ston, i.dton⟩

/-- **C45.**  In a completed run nothing undefined happens: no coefficient is looked up that is not
there, no first coefficient of an empty row or column is read, no stale cell is copied into the log,
and no inner loop runs out of the number of rounds that the model allows it. -/
theorem C45_defined (hf : (runPresolver env stgs fuel P).2.1 = UNCHANGED)
    (ho : (runPresolver env stgs fuel P).1.asrt = true) : (runPresolver env stgs fuel P).1.undef = false :=
  (run_all hP hs hf ho).1.undef.trans rfl

end

/-! ### Termination -/

theorem mainLoop_ends {env : Env} (hs : env.SortOK) (stgs : Settings) :
    ∀ (fuel : ℕ) (s : St) (c : Complexity) (b a : ℤ), Inv s → CE s →
    (mainLoop env stgs fuel s c b a).1.asrt = true → s.nnz ≤ b → s.nnz + 2 * b + cBit c + 1 ≤ fuel →
    (mainLoop env stgs fuel s c b a).2.2 = true ∧
      ∀ k, mainLoop env stgs (fuel + k) s c b a = mainLoop env stgs fuel s c b a
  | 0, s, c, b, a, i, _, _, hb, hf => by
    have := i.nnz_nonneg
    cases c <;> simp only [cBit] at hf <;> push_cast at hf <;> omega
  | fuel + 1, s, c, b, a, i, ce, o, hb, hf => by
    have e2 : ∀ k, fuel + 1 + k = fuel + k + 1 := fun k => by omega
    simp only [e2, mainLoop_succ] at o ⊢
    have g0 : GoodR Mode.all CE CE s (runTrivial stgs s) := (runTrivial_good Mode.all stgs s).toR.em
    generalize runTrivial stgs s = r at g0 o ⊢
    by_cases h1 : r.2 ≠ UNCHANGED
    · simp only [if_pos h1]; simp
    simp only [if_neg h1] at o ⊢
    have fr : fine r.2 := by rw [not_not.mp h1]; rfl
    have gq := runPhase_good hs (stgs := stgs) c r.1
    generalize runPhase env stgs c r.1 = q at gq o ⊢
    generalize ha : (if c = .medium then q.1.nnz else a) = a' at o ⊢
    by_cases h2 : updateTermination a' b c q.2 (env.timeUp q.1.tick) = true
    · simp only [if_pos h2]; simp
    simp only [if_neg h2] at o ⊢
    have fq : fine q.2 := by
      unfold updateTermination at h2
      simp only [Bool.or_eq_true, not_or, Bool.not_eq_true] at h2
      exact h2.1.1
    have oq : q.1.asrt = true := by
      have g := mainLoop_good Mode.all env hs stgs (fun _ => rfl) (fun _ => rfl) (fun _ => rfl) fuel
        { q.1 with tick := q.1.tick + 1 } (updateComplexity c r.1.nnz q.1.nnz)
        (if c = .medium then a' else b) a'
      exact ok_all.mp (g.1 (ok_all.mpr o))
    have or := ok_all.mp (gq.1 (ok_all.mpr oq))
    obtain ⟨i1, ce1, n1⟩ := g0.nnz fr or i ce
    obtain ⟨i2, ce2, n2⟩ := gq.nnz fq oq i1 ce1
    have p0 := i.nnz_nonneg
    have p1 := i1.nnz_nonneg
    have p2 := i2.nnz_nonneg
    have sc : SameCore q.1 { q.1 with tick := q.1.tick + 1 } := by constructor <;> rfl
    have i3 : Inv { q.1 with tick := q.1.tick + 1 } := ⟨sc.gi i2.gi, i2.ston, i2.dton⟩
    push_cast at hf
    refine mainLoop_ends hs stgs fuel _ _ _ _ i3 ce2 o ?_ ?_
    · show q.1.nnz ≤ _
      split
      · rename_i hc
        rw [← ha, if_pos hc]
      · omega
    · show q.1.nnz + 2 * (if c = .medium then a' else b) + cBit (updateComplexity c r.1.nnz q.1.nnz) + 1 ≤ _
      cases c with
      | fast =>
        simp only [reduceCtorEq, if_false] at ha ⊢
        simp only [cBit] at hf
        unfold updateComplexity
        simp only
        split
        · rename_i h3
          have h4 : q.1.nnz < r.1.nnz := by
            by_contra hn
            have h5 : (r.1.nnz : ℚ) ≤ (q.1.nnz : ℚ) := by exact_mod_cast not_lt.mp hn
            have h6 : (0 : ℚ) ≤ (r.1.nnz : ℚ) := by exact_mod_cast p1
            linarith
          simp only [cBit]; omega
        · simp only [cBit]; omega
      | medium =>
        simp only [if_true] at ha ⊢
        subst ha
        simp only [cBit] at hf
        have h3 : ¬ (95 / 100 * (b : ℚ) ≤ (q.1.nnz : ℚ)) := by
          intro hh
          apply h2
          simp [updateTermination, hh]
        have h4 : q.1.nnz < b := by
          by_contra hn
          have h5 : (b : ℚ) ≤ (q.1.nnz : ℚ) := by exact_mod_cast not_lt.mp hn
          have h6 : (0 : ℚ) ≤ (b : ℚ) := by exact_mod_cast (by omega : 0 ≤ b)
          apply h3
          linarith
        simp only [updateComplexity, cBit]; omega

/-- **C07, whole runs.**  `run_presolver` ends by itself: its main loop makes at most `3 nnz + 2`
rounds, whatever the clock says, and when no explorer found the problem infeasible or unbounded all
inner loops end within the rounds the model allows (`C45_defined`).  Partial: the assertions of the
code must hold, and for inner loops that run after a bad status nothing is claimed. -/
theorem C07_run_partial {P : LP} (hP : P.Valid) {env : Env} (hs : env.SortOK) (stgs : Settings) (fuel : ℕ)
    (hfuel : 3 * (∑ i ∈ Finset.range P.m, (P.A i).length) + 2 ≤ fuel)
    (ho : (runPresolver env stgs fuel P).1.asrt = true) :
    (runPresolver env stgs fuel P).2.2 = true ∧
    (∀ k, runPresolver env stgs (fuel + k) P = runPresolver env stgs fuel P) ∧
    ((runPresolver env stgs fuel P).2.1 = UNCHANGED → (runPresolver env stgs fuel P).1.undef = false) := by
  have h0 : (initSt P).nnz = ((∑ i ∈ Finset.range P.m, (P.A i).length : ℕ) : ℤ) := by
    show ((List.range P.m).map (fun i => ((P.A i).length : ℤ))).sum = _
    rw [sum_range_eq, Nat.cast_sum]
  have key : (mainLoop env stgs fuel (initSt P) .fast (initSt P).nnz (initSt P).nnz).1.asrt = true →
      (mainLoop env stgs fuel (initSt P) .fast (initSt P).nnz (initSt P).nnz).2.2 = true ∧
      ∀ k, mainLoop env stgs (fuel + k) (initSt P) .fast (initSt P).nnz (initSt P).nnz =
        mainLoop env stgs fuel (initSt P) .fast (initSt P).nnz (initSt P).nnz := fun o =>
    mainLoop_ends hs stgs fuel (initSt P) .fast _ _ (initSt_inv hP) (initSt_ce P) o le_rfl (by
      rw [h0]; simp only [cBit]; omega)
  have hm : (mainLoop env stgs fuel (initSt P) .fast (initSt P).nnz (initSt P).nnz).1.asrt = true := by
    unfold runPresolver at ho
    simp only at ho
    split at ho
    · exact ho
    · simp only at ho
      split at ho
      · exact ok_all.mp ((removeRedundantBounds_good Mode.all _).ok (ok_all.mpr ho))
      · exact ho
  obtain ⟨k1, k2⟩ := key hm
  refine ⟨?_, fun k => ?_, fun hf => C45_defined hP hs hf ho⟩
  · unfold runPresolver
    simp only
    split <;> exact k1
  · unfold runPresolver
    simp only [k2]

example : exNnz.Valid ∧ envEx.SortOK ∧ 3 * (∑ i ∈ Finset.range exNnz.m, (exNnz.A i).length) + 2 ≤ 23 ∧
    (runPresolver envEx stgsAll 23 exNnz).2.1 = UNCHANGED ∧
    (runPresolver envEx stgsAll 23 exNnz).1.asrt = true :=
  ⟨exNnz_valid, envEx_sortOK, by decide +kernel, by decide +kernel, by decide +kernel⟩

/-- The only variable of row 0 has equal bounds: once it is fixed and deleted the row is empty, still
active, and listed. -/
example : ∃ s, Calls envEx stgsAll (initSt { exNnz with
      A := fun i => if i = 0 then [(0, 1)] else exNnz.A i, lb := fun k => if k = 0 then .fin 4 else .fin 0 }) s ∧
    s.asrt = true ∧ (s.rtag 0).inactive = false ∧ s.A 0 = [] ∧ s.emptyRows = [0] :=
  ⟨_, .call .closeBounds .nil (by decide +kernel), by decide +kernel, by decide +kernel, by decide +kernel,
    by decide +kernel⟩

end Verif
