import Verif.Lemmas.DtonBounds
import Verif.Lemmas.EnvEx
import Verif.Spec.Problem
import Mathlib.Tactic.IntervalCases
import Mathlib.Tactic.FinCases

/-!
# C32: elimination of a variable through a doubleton equality
-/

namespace Verif

/-- Row `i` is an active equality with two cells, the matrix and its transpose agree on the two
columns, sides and bounds that are present are finite. -/
structure DtonReady (s : St) (i : ℕ) (b : ℚ) : Prop where
  iLt : i < s.m
  row : (s.rtag i).inactive = false
  rhs : s.rhs i = .fin b
  lhs : s.lhs i = .fin b
  noInf : (s.rtag i).lhsInf = false ∧ (s.rtag i).rhsInf = false
  two : (s.A i).length = 2
  sorted : ∀ q < s.m, (s.rtag q).inactive = false → SortedC (s.A q)
  nz : ∀ p ∈ s.A i, p.2 ≠ 0
  cols : ∀ p ∈ s.A i, p.1 < s.n ∧ s.colSize p.1 = ((s.AT p.1).length : ℤ) ∧ ColFin s p.1 ∧
    SortedC (s.AT p.1)
  agree : ∀ p ∈ s.A i, ∀ q v, (s.rtag q).inactive = false →
    ((q, v) ∈ s.AT p.1 ↔ q < s.m ∧ (p.1, v) ∈ s.A q)
  sides : ∀ q < s.m, (s.rtag q).inactive = false →
    FinIf (s.rtag q).lhsInf (s.lhs q) ∧ FinIf (s.rtag q).rhsInf (s.rhs q)

/-- No coefficient that arises by the substitution is rounded away: it vanishes or is larger than
the drop tolerance; the coefficients of the column that goes are not zero. -/
def NoRounding (s : St) (i j k : ℕ) (ratio : ℚ) : Prop :=
  ∀ q < s.m, q ≠ i → (s.rtag q).inactive = false → ∀ a, (k, a) ∈ s.A q →
    a ≠ 0 ∧ (|newCoef j k ratio (s.A q)| ≤ ZERO_TOL → newCoef j k ratio (s.A q) = 0)

/-- What an elimination has to satisfy. `v` is the value of the eliminated variable. -/
structure Eliminated (s s' : St) (i j k : ℕ) (ε : ℚ) (v : (ℕ → ℚ) → ℚ) : Prop where
  /-- feasible points stay feasible, and `v` is the value they have in column `k` -/
  proj : ∀ x, FeasPt s x → FeasPt s' x ∧ x k = v x
  /-- unless there is no feasible point at all, a feasible point of the new problem satisfies all
  rows and bounds of the old one when `v` is put in, the bounds of `k` up to `ε` -/
  lift : (∀ x, ¬ FeasPt s x) ∨ ∀ x, FeasPt s' x →
    (∀ q < s.m, (s.rtag q).inactive = false → RowOK s q (setAt x k (v x))) ∧
    (∀ t < s.n, t ≠ k → s.colSize t ≠ -1 → (s.ctag t).subst = false → ColIn s t (x t)) ∧
    ColInTol ε s k (v x)
  /-- with the same objective value -/
  obj : ∃ o o', s.off = .fin o ∧ s'.off = .fin o' ∧
    ∀ x, objP s' x + o' = objP s (setAt x k (v x)) + o
  /-- row and column have left the problem -/
  gone : s'.colSize k = -1 ∧ (s'.ctag k).subst = true ∧ (s'.rtag i).inactive = true ∧
    s'.A i = [] ∧ s'.AT k = [] ∧
    ∀ q < s.m, (s'.rtag q).inactive = false → NoCol k (s'.A q) ∧ (s.rtag q).inactive = false
  /-- no undefined behaviour -/
  undef : s'.undef = s.undef

/-- The rows that are rewritten. -/
theorem dton_rows {s u : St} {i j k : ℕ} {aij aik b : ℚ}
    (h : DtonReady s i b) (hjm : (j, aij) ∈ s.A i) (hkm : (k, aik) ∈ s.A i) (hjk : j ≠ k)
    (hnr : NoRounding s i j k (aij / aik))
    (uA : ∀ q, q ≠ i → u.A q = s.A q) (uR : u.rtag = upd s.rtag i { inactive := true })
    (uAT : u.AT j = without i (s.AT j)) :
    ∀ q, Hit u (s.AT k) q → SortedC (u.A q) ∧ (∃ a, (k, a) ∈ u.A q) ∧
      RowFits j k (aij / aik) (u.A q) ∧
      (|newCoef j k (aij / aik) (u.A q)| ≤ ZERO_TOL → ∃ w, (q, w) ∈ u.AT j) := by
  rintro q ⟨h1, h2⟩
  have hqi : q ≠ i := by
    intro e; rw [uR, e, upd_same] at h2; cases h2
  rw [uR, upd_ne _ _ hqi] at h2
  obtain ⟨⟨q', a⟩, hp, e⟩ := List.mem_map.mp h1
  simp only at e
  subst e
  have hqa := (h.agree _ hkm q' a h2).mp hp
  obtain ⟨ha0, hz⟩ := hnr q' hqa.1 hqi h2 a hqa.2
  have hs := h.sorted q' hqa.1 h2
  rw [uA q' hqi]
  have key : |newCoef j k (aij / aik) (s.A q')| ≤ ZERO_TOL → ∃ w, (j, w) ∈ s.A q' := by
    intro hle
    have hz := hz hle
    unfold newCoef at hz
    rw [coefAt_cell hs hqa.2] at hz
    have : coefAt j (s.A q') ≠ 0 := by
      intro e0
      rw [e0] at hz
      have : aij / aik * a ≠ 0 := mul_ne_zero (div_ne_zero (h.nz _ hjm) (h.nz _ hkm)) ha0
      exact this (by linarith)
    exact coefAt_ne_zero this
  refine ⟨hs, ⟨a, hqa.2⟩, key, fun hle => ?_⟩
  obtain ⟨w, hw⟩ := key hle
  refine ⟨w, ?_⟩
  rw [uAT]
  exact mem_without.mpr ⟨(h.agree _ hjm q' w h2).mpr ⟨hqa.1, hw⟩, hqi⟩

/-- Meaning of one rewritten row. -/
theorem dton_row_iff {s s' : St} {q j k : ℕ} {aij aik b : ℚ} (hjk : j ≠ k) (hk0 : aik ≠ 0)
    (hA : s'.A q = newRow j k (aij / aik) (s.A q))
    (hl : s'.lhs q = newSide (s.rtag q).lhsInf aik b (coefAt k (s.A q)) (s.lhs q))
    (hr : s'.rhs q = newSide (s.rtag q).rhsInf aik b (coefAt k (s.A q)) (s.rhs q))
    (ht : s'.rtag q = s.rtag q)
    (hfin : FinIf (s.rtag q).lhsInf (s.lhs q) ∧ FinIf (s.rtag q).rhsInf (s.rhs q))
    (hz : |newCoef j k (aij / aik) (s.A q)| ≤ ZERO_TOL → newCoef j k (aij / aik) (s.A q) = 0)
    (x : ℕ → ℚ) : RowOK s' q x ↔ RowOK s q (setAt x k (partner aij aik b (x j))) := by
  unfold RowOK Sides
  rw [hA, hl, hr, ht, newSide_Lo hfin.1, newSide_Hi hfin.2, dot_newRow hjk hz]
  have e : dot (s.A q) x - coefAt k (s.A q) * x k - aij / aik * coefAt k (s.A q) * x j +
      coefAt k (s.A q) / aik * b = dot (s.A q) (setAt x k (partner aij aik b (x j))) := by
    have h1 := dot_without k (s.A q) x
    have h2 := dot_without k (s.A q) (setAt x k (partner aij aik b (x j)))
    have h3 : dot (without k (s.A q)) (setAt x k (partner aij aik b (x j))) =
        dot (without k (s.A q)) x :=
      dot_congr (fun p hp => setAt_ne _ _ (mem_without.mp hp).2)
    rw [h2, h3, setAt_same, h1]
    unfold partner
    field_simp
    ring
  rw [e]

theorem findSubst_subst {env : Env} {s s1 : St} {i j k : ℕ} {aij aik : ℚ}
    (h : findSubst env s i = (s1, .subst j k aij aik)) (two : (s.A i).length = 2) :
    (∃ t a, s1 = { s with tick := t, asrt := a }) ∧
    (s.A i = [(j, aij), (k, aik)] ∨ s.A i = [(k, aik), (j, aij)]) ∧
    (s.ctag j).inactive = false ∧ (s.ctag k).inactive = false ∧ dtonPivotBad aij aik = false := by
  unfold findSubst at h
  split at h
  · simp at h
  simp only at h
  generalize hs0 : (s.check ((s.rtag i).eq && !(s.rtag i).inactive)).check
    ((s.lhs i).eqb (s.rhs i) && !(s.rhs i).isInf) = s0 at h
  have eA : s0.A = s.A := by rw [← hs0]; rfl
  have eC : s0.ctag = s.ctag := by rw [← hs0]; rfl
  have eS : ∀ t, ∃ t' a, { s0 with tick := t } = { s with tick := t', asrt := a } := by
    intro t; rw [← hs0]; exact ⟨_, _, rfl⟩
  rw [← eA] at two
  suffices H : (∃ t a, s1 = { s with tick := t, asrt := a }) ∧
      (s0.A i = [(j, aij), (k, aik)] ∨ s0.A i = [(k, aik), (j, aij)]) ∧
      (s0.ctag j).inactive = false ∧ (s0.ctag k).inactive = false ∧ dtonPivotBad aij aik = false by
    rwa [eA, eC] at H
  match hA : s0.A i, two with
  | [(c0, a0), (c1, a1)], _ =>
    rw [hA] at h
    simp only at h
    by_cases hact : ((s0.ctag c0).inactive || (s0.ctag c1).inactive) = true
    · rw [if_pos hact] at h; simp at h
    rw [if_neg hact] at h
    simp only [Bool.or_eq_true, not_or, Bool.not_eq_true] at hact
    rcases Bool.eq_false_or_eq_true (dtonSubstFirst a0 a1 (s0.colSize c0) (s0.colSize c1)) with hd | hd
    rotate_left
    · simp only [hd, Bool.false_eq_true, if_false] at h
      by_cases hp : dtonPivotBad a0 a1 = true
      · rw [if_pos hp] at h; simp at h
      rw [if_neg hp] at h
      by_cases hs : env.space s0.tick = true
      · rw [if_pos hs] at h
        simp only [Prod.mk.injEq, DtonPlan.subst.injEq] at h
        obtain ⟨e, rfl, rfl, rfl, rfl⟩ := h
        exact ⟨by rw [← e]; exact eS _, Or.inl rfl, hact.1, hact.2, by simpa using hp⟩
      · rw [if_neg hs] at h; simp at h
    · simp only [hd, if_true] at h
      by_cases hp : dtonPivotBad a1 a0 = true
      · rw [if_pos hp] at h; simp at h
      rw [if_neg hp] at h
      by_cases hs : env.space s0.tick = true
      · rw [if_pos hs] at h
        simp only [Prod.mk.injEq, DtonPlan.subst.injEq] at h
        obtain ⟨e, rfl, rfl, rfl, rfl⟩ := h
        exact ⟨by rw [← e]; exact eS _, Or.inr rfl, hact.2, hact.1, by simpa using hp⟩
      · rw [if_neg hs] at h; simp at h

/-- The part of `execute_substitution` before the loop. -/
def dtonPre (s : St) (i j k : ℕ) : St :=
  let s := s.flag (!(s.AT j).any (fun p => decide (p.1 = i)))
  { s with AT := upd (upd s.AT j (dropCell i (s.AT j))) k []
           colSize := upd s.colSize j (s.colSize j - 1) }

/-- Bookkeeping of the column that stays behind the loop of `execute_substitution`. -/
def dtonNoteCol (s : St) (j : ℕ) : St :=
  if s.colSize j = 0 then
    let s := s.check (!(s.ctag j).inactive && !s.emptyCols.contains j)
    { s with emptyCols := s.emptyCols ++ [j] }
  else if s.colSize j = 1 then
    let s := s.check (!(s.ctag j).inactive && !s.stonCols.contains j)
    { s with stonCols := s.stonCols ++ [j] }
  else s

theorem dtonNoteCol_core (s : St) (j : ℕ) :
    core (dtonNoteCol s j) = core s ∧ skel (dtonNoteCol s j) = skel s := by
  unfold dtonNoteCol
  split
  · exact ⟨rfl, rfl⟩
  · split <;> exact ⟨rfl, rfl⟩

/-- The part of `execute_substitution` behind the loop. -/
def dtonPost (x : St × List ℕ) (i j k : ℕ) (cells : List Cell) (aik ck : ℚ) : St × List ℕ :=
  let (s, buf) := x
  let s := dtonNoteCol s j
  let s := { s with ctag := upd s.ctag k { fixed := true, subst := true }
                    colSize := upd s.colSize k (-1) }
  let s := s.check (decide (s.colSize j = ((s.AT j).length : ℤ)))
  let l := countLocks s.rtag (s.AT j)
  let s := { s with up := upd s.up j l.1, down := upd s.down j l.2 }
  let s := s.save (.subCol k cells (s.rhs i) i ck)
  (s.save (.deletedRow i (ck / aik)), buf)

theorem dtonExecute_pre_post (s : St) (i : ℕ) (cells : List Cell) (j k : ℕ) (aij aik : ℚ)
    (buf : List ℕ) (ck : ℚ) :
    dtonExecute s i cells j k aij aik buf ck =
      dtonPost ((s.AT k).foldl (dtonSubstRow i j k aij aik) (dtonPre s i j k, buf)) i j k cells aik ck := by
  unfold dtonExecute dtonPost dtonPre dtonNoteCol
  rfl

/-- The parts of `execute_substitution` around the loop. -/
theorem dtonExecute_parts (s : St) (i : ℕ) (cells : List Cell) (j k : ℕ) (aij aik : ℚ)
    (buf : List ℕ) (ck : ℚ) :
    ∃ v : St, core v = (s.m, s.n, s.A, s.lhs, s.rhs, s.lb, s.ub, s.rtag, s.ctag, s.c, s.off,
        upd s.colSize j (s.colSize j - 1), s.log) ∧
      skel v = (upd (upd s.AT j (dropCell i (s.AT j))) k [], s.rowSize, s.up, s.down, s.rowsToDelete,
        s.fixedCols, s.subCols, s.nnz,
        s.undef || !(s.AT j).any (fun p => decide (p.1 = i))) ∧
      (let w := ((s.AT k).foldl (dtonSubstRow i j k aij aik) (v, buf)).1
       let r := (dtonExecute s i cells j k aij aik buf ck).1
       core r = (w.m, w.n, w.A, w.lhs, w.rhs, w.lb, w.ub, w.rtag,
          upd w.ctag k { fixed := true, subst := true }, w.c, w.off, upd w.colSize k (-1),
          .deletedRow i (ck / aik) :: .subCol k cells (w.rhs i) i ck :: w.log) ∧
       skel r = (w.AT, w.rowSize, upd w.up j (countLocks w.rtag (w.AT j)).1,
          upd w.down j (countLocks w.rtag (w.AT j)).2, w.rowsToDelete, w.fixedCols, w.subCols, w.nnz,
          w.undef)) := by
  refine ⟨dtonPre s i j k, rfl, rfl, ?_⟩
  intro w r
  have e : r = (dtonExecute s i cells j k aij aik buf ck).1 := rfl
  have ew : w = ((s.AT k).foldl (dtonSubstRow i j k aij aik) (dtonPre s i j k, buf)).1 := rfl
  clear_value r w
  rw [dtonExecute_pre_post] at e
  generalize (s.AT k).foldl (dtonSubstRow i j k aij aik) (dtonPre s i j k, buf) = f at e ew
  obtain ⟨f1, f2⟩ := f
  simp only at ew
  subst ew
  have hN := dtonNoteCol_core w j
  unfold dtonPost at e
  simp only at e
  generalize dtonNoteCol w j = t at hN e
  subst e
  have C := core_iff hN.1
  have S := hN.2
  simp only [skel, Prod.mk.injEq] at S
  obtain ⟨s1, s2, s3, s4, s5, s6, s7, s8, s9⟩ := S
  simp only [core, skel, St.save, St.check]
  rw [C.m, C.n, C.A, C.lhs, C.rhs, C.lb, C.ub, C.rtag, C.ctag, C.c, C.off, C.colSize, C.log, s1, s2,
    s3, s4, s5, s6, s7, s8, s9]
  exact ⟨rfl, rfl⟩

/-- The state in which the loop over the rows of column `k` starts, and the state it ends in. -/
structure DtonParts (s s' s2 v w : St) (i j k : ℕ) (aij aik b : ℚ) : Prop where
  cut : Cut2 s s2 j (fun t => Lo (s.ctag k).lbInf (s.lb k) (partner aij aik b t))
    (fun t => Hi (s.ctag k).ubInf (s.ub k) (partner aij aik b t))
  start : core v = (s2.m, s2.n, upd s2.A i [], s2.lhs, s2.rhs, s2.lb, s2.ub,
    upd s2.rtag i { inactive := true }, s2.ctag, upd s2.c j (s2.c j - aij / aik * s2.c k),
    D.add s2.off (D.smul (s2.c k) (D.divq (.fin b) aik)), upd s2.colSize j (s2.colSize j - 1), s2.log)
  start' : skel v = (upd (upd s2.AT j (without i (s2.AT j))) k [], upd s2.rowSize i (-1), s2.up, s2.down,
    s2.rowsToDelete, s2.fixedCols, s2.subCols, s2.nnz - 2, s2.undef)
  loop : DtonDone v w (s2.AT k) i j k aij aik b
  stop : core s' = (w.m, w.n, w.A, w.lhs, w.rhs, w.lb, w.ub, w.rtag,
    upd w.ctag k { fixed := true, subst := true }, w.c, w.off, upd w.colSize k (-1),
    .deletedRow i (w.c k / aik) :: .subCol k (s.A i) (.fin b) i (w.c k) :: w.log)
  stop' : skel s' = (w.AT, w.rowSize, upd w.up j (countLocks w.rtag (w.AT j)).1,
    upd w.down j (countLocks w.rtag (w.AT j)).2, w.rowsToDelete, w.fixedCols, w.subCols, w.nnz, w.undef)

theorem dtonStep_parts {env : Env} {s s1 : St} {i j k : ℕ} {aij aik b : ℚ} (buf : List ℕ) (red : Bool)
    (hf : findSubst env s i = (s1, .subst j k aij aik)) (h : DtonReady s i b)
    (hnr : NoRounding s i j k (aij / aik)) :
    ∃ s2 v w, DtonParts s (dtonStep env (s, buf, red) i).1 s2 v w i j k aij aik b := by
  obtain ⟨⟨t, a, e1⟩, hcells, hja, hka, hpiv⟩ := findSubst_subst hf h.two
  have hjm : (j, aij) ∈ s.A i := by rcases hcells with e | e <;> rw [e] <;> simp
  have hkm : (k, aik) ∈ s.A i := by rcases hcells with e | e <;> rw [e] <;> simp
  have hjk : j ≠ k := by
    have := h.sorted i h.iLt h.row
    rcases hcells with e | e <;> rw [e] at this <;>
      simp [SortedC] at this <;> omega
  have ha0 := h.nz _ hjm
  have hk0 := h.nz _ hkm
  have hcut := modifyBounds_cut s1 i j k (b := b) ha0 hk0 (by rw [e1]; exact hja)
    (by rw [e1]; exact (h.cols _ hjm).2.2.1) (by rw [e1]; exact (h.cols _ hkm).2.2.1)
  have es1 : s1.rhs i = .fin b := by rw [e1]; exact h.rhs
  obtain ⟨hd⟩ : Nonempty ((dtonStep env (s, buf, red) i).1 = (dtonStep env (s, buf, red) i).1) := ⟨rfl⟩
  generalize hres : dtonStep env (s, buf, red) i = res at *
  unfold dtonStep at hres
  simp only [hf, es1] at hres
  generalize modifyBounds s1 i aij aik (.fin b) (s1.lb k) (s1.ub k) j (s1.ctag k) = s2 at hcut hres
  have hcut' : Cut2 s s2 j (fun t => Lo (s.ctag k).lbInf (s.lb k) (partner aij aik b t))
    (fun t => Hi (s.ctag k).ubInf (s.ub k) (partner aij aik b t)) := by
    subst e1; exact ⟨⟨⟨hcut.frame.rows.m, hcut.frame.rows.n, hcut.frame.rows.A, hcut.frame.rows.AT,
      hcut.frame.rows.lhs, hcut.frame.rows.rhs, hcut.frame.rows.rtag, hcut.frame.rows.c,
      hcut.frame.rows.off, hcut.frame.rows.rowSize, hcut.frame.rows.colSize, hcut.frame.rows.up,
      hcut.frame.rows.down, hcut.frame.rows.rowsToDelete, hcut.frame.rows.subCols, hcut.frame.rows.nnz,
      hcut.frame.rows.undef⟩, hcut.frame.others, hcut.frame.fixed, hcut.frame.fin,
      hcut.frame.fixedCols, hcut.frame.old, hcut.frame.log⟩, hcut.keep, hcut.alt⟩
  clear hcut
  have R := hcut'.frame.rows
  have hin : ¬ (s2.ctag j).inactive = true := by
    rw [colFrame_inactive hcut'.frame, hja]; decide
  rw [if_neg hin] at hres
  have h2rhs : s2.rhs i = .fin b := by rw [R.rhs]; exact h.rhs
  have h2A : (s2.A i).take 2 = s.A i := by
    rw [R.A]; exact List.take_of_length_le (by rw [h.two])
  rw [h2A, h2rhs] at hres
  have hsortj : SortedC (s.AT j) := (h.cols _ hjm).2.2.2
  obtain ⟨v, c1, c2, c3⟩ := dtonExecute_parts
    { s2 with
      c := upd s2.c j (s2.c j - aij / aik * s2.c k)
      off := D.add s2.off (D.smul (s2.c k) (D.divq (.fin b) aik))
      rtag := upd s2.rtag i { inactive := true }
      rowSize := upd s2.rowSize i (-1)
      A := upd s2.A i []
      nnz := s2.nnz - 2 } i (s.A i) j k aij aik buf (upd s2.c j (s2.c j - aij / aik * s2.c k) k)
  simp only at c1 c2 c3
  have hdrop : dropCell i (s2.AT j) = without i (s2.AT j) := by
    rw [R.AT]; exact dropCell_eq hsortj.nodup
  have hany : (s2.undef || !(s2.AT j).any (fun p => decide (p.1 = i))) = s2.undef := by
    have : (s2.AT j).any (fun p => decide (p.1 = i)) = true := by
      rw [List.any_eq_true]
      refine ⟨(i, aij), ?_, by simp⟩
      rw [R.AT]
      exact (h.agree _ hjm i aij h.row).mpr ⟨h.iLt, hjm⟩
    rw [this]; simp
  rw [hdrop, hany] at c2
  have V := core_iff c1
  have V' := c2
  simp only [skel, Prod.mk.injEq] at V'
  have hloop := dtonFold (i := i) (j := j) (k := k) (aij := aij) (aik := aik) (b := b) hjk (s2.AT k) v buf
    (by rw [R.AT]; exact (h.cols _ hkm).2.2.2.nodup) (by rw [V.rtag, upd_same])
    (by
      have := dton_rows (u := v) h hjm hkm hjk hnr
        (fun q hq => by rw [V.A, upd_ne _ _ hq, R.A]) (by rw [V.rtag, R.rtag])
        (by rw [V'.1, upd_ne _ _ hjk, upd_same, R.AT])
      rw [R.AT]; exact this)
    (by rw [V'.1, upd_ne _ _ hjk, upd_same, R.AT]; exact hsortj.filter _)
    (by rw [V.rhs]; exact h2rhs)
  generalize ((s2.AT k).foldl (dtonSubstRow i j k aij aik) (v, buf)).1 = w at hloop c3
  have hwc : w.c k = upd s2.c j (s2.c j - aij / aik * s2.c k) k := by rw [hloop.frame.c, V.c]
  have hwr : w.rhs i = .fin b := by
    rw [(hloop.miss i (by
      rintro ⟨_, h2⟩; rw [V.rtag, upd_same] at h2; cases h2)).2.2.1, V.rhs]; exact h2rhs
  refine ⟨s2, v, w, hcut', c1, c2, hloop, ?_, ?_⟩
  · rw [← hres]
    simp only
    rw [c3.1, hwc, hwr]
  · rw [← hres]
    exact c3.2

theorem without_length {l : List Cell} (h : SortedC l) {k : ℕ} {a : ℚ} (hk : (k, a) ∈ l) :
    ((without k l).length : ℤ) = (l.length : ℤ) - 1 := by
  obtain ⟨l1, l2, rfl, h1, h2⟩ := split_col h.nodup hk
  rw [without_split h1 h2]
  simp; ring

/-- **C32.**  Elimination of column `k` through the doubleton equality `i`, one pass of the loop of
`remove_dton_eq_rows__` that substitutes. Missing for the full property: an empty intersection of
the transferred bounds is not reported (see `C32_dton_fails`), and coefficients below the drop
tolerance are rounded away. -/
theorem C32_dton_partial {env : Env} {s s1 : St} {i j k : ℕ} {aij aik b o : ℚ} (buf : List ℕ)
    (red : Bool) (hf : findSubst env s i = (s1, .subst j k aij aik)) (h : DtonReady s i b)
    (hnr : NoRounding s i j k (aij / aik)) (ho : s.off = .fin o) :
    let s' := (dtonStep env (s, buf, red) i).1
    Eliminated s s' i j k (|aij / aik| * FEAS_TOL) (fun x => partner aij aik b (x j)) ∧
    |aij / aik| ≤ MAX_RATIO_PIVOT ∧
    (∀ x w, dot (s.A i) (setAt x k w) = b ↔ w = partner aij aik b (x j)) ∧
    ∃ recs ck, s'.log = .deletedRow i (ck / aik) :: .subCol k (s.A i) (.fin b) i ck :: (recs ++ s.log) ∧
      (∀ r ∈ recs, XNeutral r) ∧
      ∀ (σ : Sol) (x : ℕ → ℚ), σ.x j = .fin (x j) →
        (retSubCol σ k (s.A i) (.fin b) i ck).x = upd σ.x k (.fin (partner aij aik b (x j))) := by
  intro s'
  obtain ⟨_, hcells, hja, hka, hpiv⟩ := findSubst_subst hf h.two
  have hjm : (j, aij) ∈ s.A i := by rcases hcells with e | e <;> rw [e] <;> simp
  have hkm : (k, aik) ∈ s.A i := by rcases hcells with e | e <;> rw [e] <;> simp
  have hjk : j ≠ k := by
    have := h.sorted i h.iLt h.row
    rcases hcells with e | e <;> rw [e] at this <;>
      simp [SortedC] at this <;> omega
  have ha0 := h.nz _ hjm
  have hk0 : aik ≠ 0 := h.nz _ hkm
  have hdot : ∀ x, dot (s.A i) x = aij * x j + aik * x k := by
    intro x; rcases hcells with e | e <;> rw [e] <;> simp; ring
  have hpart : ∀ x w, dot (s.A i) (setAt x k w) = b ↔ w = partner aij aik b (x j) := by
    intro x w
    rw [hdot, setAt_same, setAt_ne _ _ hjk]
    unfold partner
    rw [eq_div_iff hk0]
    constructor <;> intro h <;> linarith
  obtain ⟨s2, v, w, P⟩ := dtonStep_parts buf red hf h hnr
  change DtonParts s s' s2 v w i j k aij aik b at P
  clear_value s'
  obtain ⟨hcut, hst, hst', hloop, hsp, hsp'⟩ := P
  have R := hcut.frame.rows
  have V := core_iff hst
  have E := core_iff hsp
  simp only [skel, Prod.mk.injEq] at hst' hsp'
  obtain ⟨v1, v2, v3, v4, v5, v6, v7, v8, v9⟩ := hst'
  obtain ⟨e1, e2, e3, e4, e5, e6, e7, e8, e9⟩ := hsp'
  have F := hloop.frame
  have fm : s'.m = s.m := by rw [E.m, F.m, V.m, R.m]
  have fn : s'.n = s.n := by rw [E.n, F.n, V.n, R.n]
  have frt : s'.rtag = upd s.rtag i { inactive := true } := by rw [E.rtag, F.rtag, V.rtag, R.rtag]
  have flb : s'.lb = s2.lb := by rw [E.lb, F.lb, V.lb]
  have fub : s'.ub = s2.ub := by rw [E.ub, F.ub, V.ub]
  have fct : s'.ctag = upd s2.ctag k { fixed := true, subst := true } := by
    rw [E.ctag, F.ctag, V.ctag]
  have fc : s'.c = upd s.c j (s.c j - aij / aik * s.c k) := by rw [E.c, F.c, V.c, R.c]
  have foff : s'.off = .fin (o + s.c k * (b / aik)) := by
    rw [E.off, F.off, V.off, R.c, R.off, ho]; simp [D.divq_fin hk0]
  have hAi : s'.A i = [] := by
    rw [E.A, (hloop.miss i (by
      rintro ⟨_, h2⟩; rw [V.rtag, upd_same] at h2; cases h2)).1, V.A, upd_same]
  have hki : (i, aik) ∈ s.AT k := (h.agree _ hkm i aik h.row).mpr ⟨h.iLt, hkm⟩
  have hji : (i, aij) ∈ s.AT j := (h.agree _ hjm i aij h.row).mpr ⟨h.iLt, hjm⟩
  -- sizes
  have fcsk : s'.colSize k = -1 := by rw [E.colSize, upd_same]
  have fcsj : s'.colSize j ≠ -1 := by
    rw [E.colSize, upd_ne _ _ hjk, hloop.colSize, V.colSize, upd_same, v1, upd_ne _ _ hjk, upd_same,
      R.colSize, R.AT, (h.cols _ hjm).2.1, without_length (h.cols _ hjm).2.2.2 hji]
    omega
  have fcs : ∀ t, t ≠ j → t ≠ k → s'.colSize t = s.colSize t := by
    intro t htj htk
    rw [E.colSize, upd_ne _ _ htk, (F.col t htj).2, V.colSize, upd_ne _ _ htj, R.colSize]
  have hcsj : s.colSize j ≠ -1 := by rw [(h.cols _ hjm).2.1]; omega
  have hcsk : s.colSize k ≠ -1 := by rw [(h.cols _ hkm).2.1]; omega
  have hsubj : (s.ctag j).subst = false := by
    have := hja; simp only [CTag.inactive, Bool.or_eq_false_iff] at this; exact this.2
  have hsubk : (s.ctag k).subst = false := by
    have := hka; simp only [CTag.inactive, Bool.or_eq_false_iff] at this; exact this.2
  -- rows
  have hrow : ∀ q < s.m, q ≠ i → (s.rtag q).inactive = false → ∀ x,
      (RowOK s' q x ↔ RowOK s q (setAt x k (partner aij aik b (x j)))) := by
    intro q hq hqi hact x
    by_cases hH : Hit v (s2.AT k) q
    · obtain ⟨m1, m2, m3, m4⟩ := hloop.hit q hH
      have hvA : v.A q = s.A q := by rw [V.A, upd_ne _ _ hqi, R.A]
      rw [hvA, V.rtag, upd_ne _ _ hqi, V.lhs, R.lhs, R.rtag] at m2
      rw [hvA, V.rtag, upd_ne _ _ hqi, V.rhs, R.rhs, R.rtag] at m3
      rw [hvA] at m1
      have hmem : ∃ a, (k, a) ∈ s.A q := by
        obtain ⟨⟨q', a⟩, hp, e⟩ := List.mem_map.mp hH.1
        simp only at e; subst e
        rw [R.AT] at hp
        exact ⟨a, ((h.agree _ hkm q' a hact).mp hp).2⟩
      obtain ⟨a, ha⟩ := hmem
      refine dton_row_iff hjk hk0 (by rw [E.A, m1]) (by rw [E.lhs, m2]) (by rw [E.rhs, m3])
        (by rw [frt, upd_ne _ _ hqi]) (h.sides q hq hact) (hnr q hq hqi hact a ha).2 x
    · obtain ⟨m1, m2, m3, m4⟩ := hloop.miss q hH
      have hno : NoCol k (s.A q) := by
        intro p hp e
        apply hH
        refine ⟨List.mem_map.mpr ⟨(q, p.2), ?_, rfl⟩, by rw [V.rtag, upd_ne _ _ hqi, R.rtag]; exact hact⟩
        rw [R.AT]
        exact (h.agree _ hkm q p.2 hact).mpr ⟨hq, by rw [← e]; exact hp⟩
      unfold RowOK
      rw [E.A, m1, E.lhs, m2, E.rhs, m3, V.A, upd_ne _ _ hqi, V.lhs, V.rhs, frt, upd_ne _ _ hqi, R.A,
        R.lhs, R.rhs]
      rw [show dot (s.A q) (setAt x k (partner aij aik b (x j))) = dot (s.A q) x from
        dot_update_notMem hno x _]
  have hrowi : ∀ x, RowOK s i x ↔ dot (s.A i) x = b := by
    intro x; unfold RowOK Sides
    rw [h.lhs, h.rhs, h.noInf.1, h.noInf.2, Lo_fin, Hi_fin]
    constructor
    · rintro ⟨h1, h2⟩; linarith
    · intro h; rw [h]; exact ⟨le_refl _, le_refl _⟩
  -- columns
  have hcolj : ∀ u, ColIn s' j u ↔ ColIn s2 j u := by
    intro u; unfold ColIn; rw [flb, fub, fct, upd_ne _ _ hjk]
  have hcolt : ∀ t, t ≠ j → t ≠ k → ∀ u, (ColIn s' t u ↔ ColIn s t u) := by
    intro t htj htk u
    obtain ⟨a1, a2, a3⟩ := hcut.frame.others t htj
    unfold ColIn; rw [flb, fub, fct, upd_ne _ _ htk, a1, a2, a3]
  have hsub : ∀ t, t ≠ k → (s'.ctag t).subst = (s.ctag t).subst := by
    intro t htk
    rw [fct, upd_ne _ _ htk]
    by_cases e : t = j
    · rw [e]; exact hcut.frame.fixed.2
    · rw [(hcut.frame.others t e).2.2]
  have hcolk : ∀ u, ColIn s k u ↔ Lo (s.ctag k).lbInf (s.lb k) u ∧ Hi (s.ctag k).ubInf (s.ub k) u := by
    intro u; unfold ColIn; rw [effTag_active hka]
  have hxk : ∀ x, FeasPt s x → x k = partner aij aik b (x j) := by
    intro x hx
    have := (hrowi x).mp (hx.1 i h.iLt h.row)
    exact (hpart x (x k)).mp (by rw [setAt_self]; exact this)
  refine ⟨⟨?_, ?_, ?_, ?_, ?_⟩, ?_, hpart, ?_⟩
  · -- projection
    intro x hx
    have hxk' := hxk x hx
    refine ⟨⟨fun q hq hact => ?_, fun t ht hs hu => ?_⟩, hxk'⟩
    · have hqi : q ≠ i := by
        intro e; rw [frt, e, upd_same] at hact; cases hact
      rw [frt, upd_ne _ _ hqi] at hact
      rw [hrow q (fm ▸ hq) hqi hact x, ← hxk', setAt_self]
      exact hx.1 q (fm ▸ hq) hact
    · have htk : t ≠ k := by intro e; rw [e] at hs; exact hs fcsk
      rw [hsub t htk] at hu
      by_cases e : t = j
      · subst e
        rw [hcolj]
        have hk' := (hcolk (x k)).mp (hx.2 k (h.cols _ hkm).1 hcsk hsubk)
        rw [hxk'] at hk'
        exact hcut.keep _ (hx.2 t (fn ▸ ht) hcsj hu) hk'.1 hk'.2
      · rw [hcolt t e htk]
        rw [fcs t e htk] at hs
        exact hx.2 t (fn ▸ ht) hs hu
  · -- lifting
    rcases hcut.alt with hno | hnew
    · left
      intro x hx
      have hk' := (hcolk (x k)).mp (hx.2 k (h.cols _ hkm).1 hcsk hsubk)
      rw [hxk x hx] at hk'
      exact hno _ (hx.2 j (h.cols _ hjm).1 hcsj hsubj) hk'.1 hk'.2
    · right
      intro x hx
      have hj' : ColIn s2 j (x j) := by
        have := hx.2 j (by rw [fn]; exact (h.cols _ hjm).1) fcsj (by rw [hsub j hjk]; exact hsubj)
        rwa [hcolj] at this
      refine ⟨fun q hq hact => ?_, fun t ht htk hs hu => ?_, ?_⟩
      · by_cases e : q = i
        · rw [e, hrowi]; exact (hpart x _).mpr rfl
        · rw [← hrow q hq e hact x]
          exact hx.1 q (fm ▸ hq) (by rw [frt, upd_ne _ _ e]; exact hact)
      · by_cases e : t = j
        · rw [e]; exact hcut.frame.old _ hj'
        · rw [← hcolt t e htk]
          exact hx.2 t (fn ▸ ht) (by rw [fcs t e htk]; exact hs) (by rw [hsub t htk]; exact hu)
      · obtain ⟨⟨w1, p1, d1⟩, ⟨w2, p2, d2⟩⟩ := hnew _ hj'
        unfold ColInTol
        rw [effTag_active hka]
        have b1 := abs_le.mp (partner_dist (aij := aij) (b := b) hk0 d1)
        have b2 := abs_le.mp (partner_dist (aij := aij) (b := b) hk0 d2)
        exact ⟨p1.mono (by linarith), p2.mono (by linarith)⟩
  · -- objective
    refine ⟨o, _, ho, foff, fun x => ?_⟩
    rw [objP_setAt s x (h.cols _ hkm).1 hcsk]
    have key : objP s' x = objP s x - s.c k * x k - aij / aik * s.c k * x j := by
      unfold objP
      rw [fn]
      have hterm : ∀ t ∈ Finset.range s.n,
          (if s'.colSize t = -1 then 0 else s'.c t * x t) =
          (if s.colSize t = -1 then 0 else s.c t * x t) + ((if t = k then -(s.c k * x k) else 0) +
            (if t = j then -(aij / aik * s.c k * x j) else 0)) := by
        intro t _
        by_cases etk : t = k
        · rw [etk, if_pos fcsk, if_neg hcsk, if_pos rfl, if_neg (Ne.symm hjk)]; ring
        · by_cases etj : t = j
          · rw [etj, if_neg fcsj, if_neg hcsj, if_neg hjk, if_pos rfl, fc, upd_same]; ring
          · rw [if_neg etk, if_neg etj, fcs t etj etk, fc, upd_ne _ _ etj]; simp
      rw [Finset.sum_congr rfl hterm, Finset.sum_add_distrib, Finset.sum_add_distrib,
        Finset.sum_ite_eq' _ k, Finset.sum_ite_eq' _ j,
        if_pos (Finset.mem_range.mpr (h.cols _ hkm).1), if_pos (Finset.mem_range.mpr (h.cols _ hjm).1)]
      ring
    rw [key]
    unfold partner
    field_simp
    ring
  · -- gone
    refine ⟨fcsk, by rw [fct, upd_same], by rw [frt, upd_same], hAi, ?_, ?_⟩
    · rw [e1, (F.col k (Ne.symm hjk)).1, v1, upd_same]
    · intro q hq hact
      have hqi : q ≠ i := by
        intro e; rw [frt, e, upd_same] at hact; cases hact
      rw [frt, upd_ne _ _ hqi] at hact
      refine ⟨?_, hact⟩
      by_cases hH : Hit v (s2.AT k) q
      · rw [E.A, (hloop.hit q hH).1]
        intro p hp e
        have := (mem_newRow (r := p.1) (v := p.2)).mp hp
        rw [e, if_neg (Ne.symm hjk)] at this
        exact this.2 rfl
      · rw [E.A, (hloop.miss q hH).1, V.A, upd_ne _ _ hqi, R.A]
        intro p hp e
        apply hH
        refine ⟨List.mem_map.mpr ⟨(q, p.2), ?_, rfl⟩, by rw [V.rtag, upd_ne _ _ hqi, R.rtag]; exact hact⟩
        rw [R.AT]
        exact (h.agree _ hkm q p.2 hact).mpr ⟨hq, by rw [← e]; exact hp⟩
  · rw [e9, hloop.undef, v9, R.undef]
  · -- pivot
    unfold dtonPivotBad at hpiv
    simp only [Bool.or_eq_false_iff, decide_eq_false_iff_not, not_lt] at hpiv
    exact hpiv.1
  · -- log
    obtain ⟨r1, l1, n1⟩ := hcut.frame.log
    obtain ⟨r2, l2, n2⟩ := hloop.log
    refine ⟨r2 ++ r1, w.c k, ?_, fun r hr => ?_, fun σ x hx => ?_⟩
    · rw [E.log, l2, V.log, l1, List.append_assoc]
    · rcases List.mem_append.mp hr with h | h
      · obtain ⟨q, a, e⟩ := n2 r h; rw [e]; trivial
      · exact n1 r h
    · have hs := h.sorted i h.iLt h.row
      rw [retSubCol_value hs.nodup hkm hk0 σ x (fun p hp hne => by
        rcases hcells with e | e <;> rw [e] at hp <;> simp at hp <;> rcases hp with rfl | rfl <;>
          first | exact hx | exact absurd rfl hne) i _]
      congr 2
      exact ((hpart x _).mp ((solveFor_iff hs.nodup hkm hk0 x _).mpr rfl))

/-! ### A concrete elimination -/

/-- `2 x0 - x1 = 3`, `-1 ≤ x0 + 4 x1 + x2 ≤ 12`, `0 ≤ x0 ≤ 5`, `-2 ≤ x1 ≤ 4`, `0 ≤ x2`,
cost `x0 + 2 x1 + x2`. -/
def lpDton : LP :=
  { m := 2, n := 3
    A := ofList [[(0, 2), (1, -1)], [(0, 1), (1, 4), (2, 1)]] []
    lhs := ofList [.fin 3, .fin (-1)] .ninf
    rhs := ofList [.fin 3, .fin 12] .pinf
    lb := ofList [.fin 0, .fin (-2), .fin 0] .ninf
    ub := ofList [.fin 5, .fin 4, .pinf] .pinf
    c := ofList [1, 2, 1] 0 }

/-- Its initial state. -/
def exDton : St := initSt lpDton

private theorem exDton_A0 : exDton.A 0 = [(0, 2), (1, -1)] := rfl
private theorem exDton_A1 : exDton.A 1 = [(0, 1), (1, 4), (2, 1)] := rfl

theorem exDton_ready : DtonReady exDton 0 3 := by
  have c0 : exDton.AT 0 = [(0, 2), (1, 1)] := by decide +kernel
  have c1 : exDton.AT 1 = [(0, -1), (1, 4)] := by decide +kernel
  have hs : ∀ p ∈ exDton.A 0, p = (0, 2) ∨ p = (1, -1) := by
    intro p hp; rw [exDton_A0] at hp; simpa using hp
  have hm : exDton.m = 2 := rfl
  refine ⟨by decide +kernel, by decide +kernel, rfl, rfl, by decide +kernel, rfl, ?_, ?_, ?_, ?_, ?_⟩
  · intro q hq _
    rw [hm] at hq
    interval_cases q
    · rw [exDton_A0]; simp [SortedC]
    · rw [exDton_A1]; simp [SortedC]
  · intro p hp; rcases hs p hp with rfl | rfl <;> norm_num
  · intro p hp
    rcases hs p hp with rfl | rfl
    · refine ⟨by decide +kernel, by decide +kernel, ⟨fun _ => ⟨0, rfl⟩, fun _ => ⟨5, rfl⟩⟩, ?_⟩
      rw [c0]; simp [SortedC]
    · refine ⟨by decide +kernel, by decide +kernel, ⟨fun _ => ⟨-2, rfl⟩, fun _ => ⟨4, rfl⟩⟩, ?_⟩
      rw [c1]; simp [SortedC]
  · intro p hp q v _
    rw [hm]
    have key : ∀ k, k = 0 ∨ k = 1 →
        ((q, v) ∈ exDton.AT k ↔ q < 2 ∧ (k, v) ∈ exDton.A q) := by
      intro k hk
      by_cases hq : q < 2
      · interval_cases q <;> rcases hk with rfl | rfl <;>
          simp [c0, c1, exDton_A0, exDton_A1]
      · rcases hk with rfl | rfl
        · rw [c0]; simp; omega
        · rw [c1]; simp; omega
    rcases hs p hp with rfl | rfl
    · exact key 0 (Or.inl rfl)
    · exact key 1 (Or.inr rfl)
  · intro q hq _
    rw [hm] at hq
    interval_cases q
    · exact ⟨fun _ => ⟨3, rfl⟩, fun _ => ⟨3, rfl⟩⟩
    · exact ⟨fun _ => ⟨-1, rfl⟩, fun _ => ⟨12, rfl⟩⟩

/-- The hypotheses of `C32_dton_partial` hold here. -/
example : ∃ s1 j k aij aik, findSubst envEx exDton 0 = (s1, .subst j k aij aik) ∧
    DtonReady exDton 0 3 ∧ NoRounding exDton 0 j k (aij / aik) ∧ exDton.off = .fin 0 := by
  have e : (findSubst envEx exDton 0).2 = .subst 0 1 2 (-1) := by decide +kernel
  refine ⟨(findSubst envEx exDton 0).1, 0, 1, 2, -1, ?_, exDton_ready, ?_, rfl⟩
  · rw [← e]
  · intro q hq hq0 _ a ha
    have hm : exDton.m = 2 := rfl
    rw [hm] at hq
    interval_cases q
    · exact absurd rfl hq0
    · rw [exDton_A1] at ha
      have : a = 4 := by simpa using ha
      subst this
      refine ⟨by norm_num, fun h => absurd h ?_⟩
      have : newCoef 0 1 (2 / -1) (exDton.A 1) = 9 := by rw [exDton_A1]; decide +kernel
      rw [this]; unfold ZERO_TOL; norm_num

/-! ### The property fails for the program as a whole -/

/-- `x0 + x1 = 10`, `0 ≤ x0 - x1 + x2 ≤ 5`, `0 ≤ x0, x1 ≤ 1`, `0 ≤ x2 ≤ 20`,
cost `x0 + x1 + x2`. -/
def lpDtonInf : LP :=
  { m := 2, n := 3
    A := ofList [[(0, 1), (1, 1)], [(0, 1), (1, -1), (2, 1)]] []
    lhs := ofList [.fin 10, .fin 0] .ninf
    rhs := ofList [.fin 10, .fin 5] .pinf
    lb := ofList [.fin 0, .fin 0, .fin 0] .ninf
    ub := ofList [.fin 1, .fin 1, .fin 20] .pinf
    c := ofList [1, 1, 1] 0 }

/-- **Negation of C32 (and of C02).** Here the bounds transferred from the eliminated variable to the
remaining one contradict its own bounds, so the problem is infeasible.  `modify_bounds` drops the
INFEASIBLE that `update_lb`/`update_ub` return, presolve finishes as if all were well, and the
postsolved point has `x1 = 9` although `x1 ≤ 1`. -/
theorem C32_dton_fails :
    (∀ x, ¬ lpDtonInf.Feasible x) ∧
    (runPresolver envEx stgsAll 10 lpDtonInf).2 = (UNCHANGED, true) ∧
    (runPresolver envEx stgsAll 10 lpDtonInf).1.undef = false ∧
    (runPresolver envEx stgsAll 10 lpDtonInf).1.asrt = true ∧
    (∀ k < 3, (runPresolver envEx stgsAll 10 lpDtonInf).1.colSize k = -1) ∧
    (∀ i < 2, (runPresolver envEx stgsAll 10 lpDtonInf).1.rowSize i = -1) ∧
    (postsolve (runPresolver envEx stgsAll 10 lpDtonInf).1 (fun _ => .fin 0) (fun _ => .fin 0)
      (fun _ => .fin 0)).map (fun σ => (σ.x 0, σ.x 1, σ.x 2)) = some (.fin 1, .fin 9, .fin 8) := by
  refine ⟨fun x hx => ?_, by decide +kernel, by decide +kernel, by decide +kernel, by decide +kernel,
    by decide +kernel, by decide +kernel⟩
  have h0 := (hx.row 0 (by decide)).1
  have h1 := (hx.col 0 (by decide)).2
  have h2 := (hx.col 1 (by decide)).2
  simp [lpDtonInf, ofList] at h0 h1 h2
  linarith

end Verif
