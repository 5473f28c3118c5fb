import Verif.Lemmas.DtonRow
import Verif.Lemmas.Subst

/-! # The loop of the doubleton elimination over the rows of the substituted column -/

namespace Verif

/-- The structural part of the state: pattern, tags, sizes, locks, pending lists. -/
def skel (s : St) : (ℕ → List Cell) × (ℕ → ℤ) × (ℕ → ℤ) × (ℕ → ℤ) × List ℕ × List ℕ × List ℕ × ℤ × Bool :=
  (s.AT, s.rowSize, s.up, s.down, s.rowsToDelete, s.fixedCols, s.subCols, s.nnz, s.undef)

/-- New coefficient of the column that stays. -/
def newCoef (j k : ℕ) (ratio : ℚ) (l : List Cell) : ℚ := coefAt j l - ratio * coefAt k l

/-- A list of cells after entry `q` has got the coefficient `v`. -/
def newCol (q : ℕ) (v : ℚ) (l : List Cell) : List Cell :=
  if |v| ≤ ZERO_TOL then lows q l ++ highs q l else lows q l ++ (q, v) :: highs q l

/-- New row. -/
def newRow (j k : ℕ) (ratio : ℚ) (l : List Cell) : List Cell :=
  newCol j (newCoef j k ratio l) (without k l)

/-- New side of a row. -/
def newSide (inf : Bool) (aik b a : ℚ) (d : D) : D :=
  if b = 0 ∨ inf = true then d else D.sub d (.fin (a / aik * b))

/-- The rewritten row is representable: the new coefficient is not negligible unless the row
already contains the column that stays. -/
def RowFits (j k : ℕ) (ratio : ℚ) (l : List Cell) : Prop :=
  |newCoef j k ratio l| ≤ ZERO_TOL → ∃ w, (j, w) ∈ l

theorem dtonRow_eq {l : List Cell} (h : SortedC l) {j k : ℕ} (hjk : j ≠ k) {a : ℚ} (hk : (k, a) ∈ l)
    {ratio : ℚ} (hf : RowFits j k ratio l) :
    dtonRow l j k ratio = some ⟨newRow j k ratio l, coefAt j l, coefAt k l, newCoef j k ratio l⟩ := by
  obtain ⟨h1, h2⟩ := dtonRow_split h hjk hk ratio
  have e : coefAt k l = a := coefAt_cell h hk
  unfold newRow newCol
  unfold RowFits newCoef at hf
  unfold newCoef
  rw [e] at hf ⊢
  split
  · rename_i hle; exact h2 hle (hf hle)
  · rename_i hle; exact h1 (not_le.mp hle)

theorem insertOrUpd_eq {l : List Cell} (h : SortedC l) {q : ℕ} {v : ℚ}
    (hf : |v| ≤ ZERO_TOL → ∃ w, (q, w) ∈ l) : insertOrUpdCells l q v = some (newCol q v l) := by
  obtain ⟨h1, h2⟩ := insertOrUpd_split h q v
  unfold newCol
  split
  · rename_i hle
    obtain ⟨w, hw⟩ := hf hle
    exact h2 hle w hw
  · rename_i hle; exact h1 (not_le.mp hle)

theorem upd_self {α : Type} (f : ℕ → α) (i : ℕ) : upd f i (f i) = f := by
  funext k; unfold upd; split
  · rename_i h; rw [h]
  · rfl

theorem dtonSides_core (s : St) (q : ℕ) (aik b a : ℚ) :
    dtonSides s q aik (.fin b) a =
      { s with lhs := upd s.lhs q (newSide (s.rtag q).lhsInf aik b a (s.lhs q))
               rhs := upd s.rhs q (newSide (s.rtag q).rhsInf aik b a (s.rhs q)) } := by
  unfold dtonSides newSide
  by_cases hb : b = 0
  · subst hb
    simp [upd_self]
  · have e : D.eqb (.fin b) (.fin 0) = false := by simp [hb]
    rw [e]
    simp only [Bool.false_eq_true, if_false, hb, false_or, D.smul_fin]
    cases (s.rtag q).lhsInf <;> cases (s.rtag q).rhsInf <;> simp [upd_self]

theorem dtonNoteSize_core (s : St) (q : ℕ) (o : ℤ) (buf : List ℕ) :
    core (dtonNoteSize s q o buf).1 = core s ∧ skel (dtonNoteSize s q o buf).1 = skel s := by
  unfold dtonNoteSize
  simp only
  split
  · exact ⟨rfl, rfl⟩
  · split
    · split <;> exact ⟨rfl, rfl⟩
    · split <;> exact ⟨rfl, rfl⟩

theorem dtonNoteSize_core' {s : St} {q : ℕ} {o : ℤ} {buf : List ℕ} {v : St × List ℕ}
    (h : dtonNoteSize s q o buf = v) : core v.1 = core s ∧ skel v.1 = skel s := by
  subst h; exact dtonNoteSize_core s q o buf

theorem dtonNoteAct_core (s : St) (q : ℕ) :
    core (dtonNoteAct s q) = core s ∧ skel (dtonNoteAct s q) = skel s := by
  unfold dtonNoteAct
  split <;> exact ⟨rfl, rfl⟩

theorem dtonAct_core (s : St) (q j k : ℕ) (r : DtonRow) :
    core (dtonAct s q j k r) = core s ∧ skel (dtonAct s q j k r) = skel s := by
  unfold dtonAct
  simp only
  split
  · rw [(dtonNoteAct_core _ _).1, (dtonNoteAct_core _ _).2]
    split
    · constructor
      · exact (dtonNoteAct_core _ _).1
      · exact (dtonNoteAct_core _ _).2
    · exact ⟨rfl, rfl⟩
  · split
    · rw [(dtonNoteAct_core _ _).1, (dtonNoteAct_core _ _).2]; exact ⟨rfl, rfl⟩
    · exact ⟨rfl, rfl⟩

/-- Frame of one pass of the loop body. -/
structure DtonFrame (s s' : St) (j : ℕ) : Prop where
  m : s'.m = s.m
  n : s'.n = s.n
  lb : s'.lb = s.lb
  ub : s'.ub = s.ub
  rtag : s'.rtag = s.rtag
  ctag : s'.ctag = s.ctag
  c : s'.c = s.c
  off : s'.off = s.off
  col : ∀ t, t ≠ j → s'.AT t = s.AT t ∧ s'.colSize t = s.colSize t
  up : s'.up = s.up
  down : s'.down = s.down
  rowsToDelete : s'.rowsToDelete = s.rowsToDelete
  fixedCols : s'.fixedCols = s.fixedCols
  subCols : s'.subCols = s.subCols

theorem DtonFrame.refl (s : St) (j : ℕ) : DtonFrame s s j :=
  ⟨rfl, rfl, rfl, rfl, rfl, rfl, rfl, rfl, fun _ _ => ⟨rfl, rfl⟩, rfl, rfl, rfl, rfl, rfl⟩

theorem DtonFrame.trans {a b c : St} {j : ℕ} (h : DtonFrame a b j) (h' : DtonFrame b c j) :
    DtonFrame a c j :=
  ⟨h'.m.trans h.m, h'.n.trans h.n, h'.lb.trans h.lb, h'.ub.trans h.ub, h'.rtag.trans h.rtag,
    h'.ctag.trans h.ctag, h'.c.trans h.c, h'.off.trans h.off,
    fun t ht => ⟨(h'.col t ht).1.trans (h.col t ht).1, (h'.col t ht).2.trans (h.col t ht).2⟩,
    h'.up.trans h.up, h'.down.trans h.down, h'.rowsToDelete.trans h.rowsToDelete,
    h'.fixedCols.trans h.fixedCols, h'.subCols.trans h.subCols⟩

/-- The state after one active row has been rewritten. -/
theorem dtonSubstRow_step {i j k : ℕ} {aij aik b : ℚ} (s : St) (buf : List ℕ) (p : Cell)
    (hact : (s.rtag p.1).inactive = false) (hrow : SortedC (s.A p.1)) (hjk : j ≠ k)
    (hk : ∃ a, (k, a) ∈ s.A p.1) (hf : RowFits j k (aij / aik) (s.A p.1))
    (hcol : SortedC (s.AT j))
    (hcf : |newCoef j k (aij / aik) (s.A p.1)| ≤ ZERO_TOL → ∃ w, (p.1, w) ∈ s.AT j)
    (hb : s.rhs i = .fin b) :
    let s' := (dtonSubstRow i j k aij aik (s, buf) p).1
    let row := newRow j k (aij / aik) (s.A p.1)
    let col := newCol p.1 (newCoef j k (aij / aik) (s.A p.1)) (s.AT j)
    let diff : ℤ := ((s.A p.1).length : ℤ) - (row.length : ℤ)
    core s' = (s.m, s.n, upd s.A p.1 row,
      upd s.lhs p.1 (newSide (s.rtag p.1).lhsInf aik b (coefAt k (s.A p.1)) (s.lhs p.1)),
      upd s.rhs p.1 (newSide (s.rtag p.1).rhsInf aik b (coefAt k (s.A p.1)) (s.rhs p.1)),
      s.lb, s.ub, s.rtag, s.ctag, s.c, s.off,
      upd s.colSize j (s.colSize j + ((col.length : ℤ) - ((s.AT j).length : ℤ))),
      .addedRow i p.1 (-coefAt k (s.A p.1) / aik) :: s.log) ∧
    skel s' = (upd s.AT j col, upd s.rowSize p.1 (s.rowSize p.1 - diff), s.up, s.down,
      s.rowsToDelete, s.fixedCols, s.subCols, s.nnz - diff, s.undef) := by
  intro s' row col diff
  obtain ⟨a, ha⟩ := hk
  have e : s' = (dtonSubstRow i j k aij aik (s, buf) p).1 := rfl
  clear_value s'
  unfold dtonSubstRow at e
  simp only at e
  rw [if_neg (by rw [hact]; decide)] at e
  rw [show (s.check (decide (p.1 ≠ i))).A = s.A from rfl, dtonRow_eq hrow hjk ha hf] at e
  simp only at e
  -- the state after the size bookkeeping
  generalize hu : dtonNoteSize _ _ _ _ = u at e
  have hN := dtonNoteSize_core' hu
  clear hu
  obtain ⟨u1, u2⟩ := u
  simp only at e hN
  obtain ⟨hN1, hN2⟩ := hN
  have hAT : u1.AT = s.AT := congrArg (fun t => t.1) hN2
  rw [hAT, insertOrUpd_eq hcol hcf] at e
  simp only at e
  rw [show u1.rhs i = .fin b from by
    have : u1.rhs = s.rhs := congrArg (fun t => t.2.2.2.2.1) hN1
    rw [this, hb]] at e
  rw [dtonSides_core] at e
  simp only at e
  subst e
  rw [(dtonAct_core _ _ _ _ _).1, (dtonAct_core _ _ _ _ _).2]
  have C := core_iff hN1
  simp only [St.check, St.save] at C
  have S := hN2
  simp only [skel, Prod.mk.injEq, St.check, St.save] at S
  obtain ⟨s1, s2, s3, s4, s5, s6, s7, s8, s9⟩ := S
  refine ⟨?_, ?_⟩
  · simp only [core]
    rw [C.m, C.n, C.A, C.lhs, C.rhs, C.lb, C.ub, C.rtag, C.ctag, C.c, C.off, C.colSize, C.log]
  · simp only [skel]
    rw [s2, s3, s4, s5, s6, s7, s8, s9]

theorem mem_newCol {q r : ℕ} {v w : ℚ} {l : List Cell} :
    (r, v) ∈ newCol q w l ↔ if r = q then v = w ∧ ¬ |w| ≤ ZERO_TOL else (r, v) ∈ l := by
  unfold newCol
  by_cases h : |w| ≤ ZERO_TOL
  · rw [if_pos h]
    simp only [List.mem_append, mem_lows, mem_highs]
    by_cases e : r = q
    · simp [e, h]
    · rw [if_neg e]
      have : r < q ∨ q < r := Nat.lt_or_gt_of_ne e
      tauto
  · rw [if_neg h]
    simp only [List.mem_append, List.mem_cons, mem_lows, mem_highs, Prod.mk.injEq]
    by_cases e : r = q
    · simp [e, h]
    · rw [if_neg e]
      have : r < q ∨ q < r := Nat.lt_or_gt_of_ne e
      tauto

theorem newCol_sorted {q : ℕ} {w : ℚ} {l : List Cell} (h : SortedC l) : SortedC (newCol q w l) := by
  unfold newCol
  have h1 : SortedC (lows q l) := h.filter _
  have h2 : SortedC (highs q l) := h.filter _
  have hlt : ∀ a ∈ lows q l, a.1 < q := fun a ha => (mem_lows.mp ha).2
  have hgt : ∀ a ∈ highs q l, q < a.1 := fun a ha => (mem_highs.mp ha).2
  split
  · refine List.pairwise_append.mpr ⟨h1, h2, fun a ha b hb => ?_⟩
    have := hlt a ha; have := hgt b hb; omega
  · refine List.pairwise_append.mpr ⟨h1, List.pairwise_cons.mpr ⟨fun b hb => hgt b hb, h2⟩, fun a ha b hb => ?_⟩
    rcases List.mem_cons.mp hb with rfl | hb
    · exact hlt a ha
    · have := hlt a ha; have := hgt b hb; omega

theorem newRow_sorted {j k : ℕ} {ratio : ℚ} {l : List Cell} (h : SortedC l) :
    SortedC (newRow j k ratio l) := newCol_sorted (h.filter _)

theorem mem_without {k : ℕ} {l : List Cell} {p : Cell} : p ∈ without k l ↔ p ∈ l ∧ p.1 ≠ k := by
  simp [without]

/-- Membership in the rewritten row. -/
theorem mem_newRow {j k r : ℕ} {v ratio : ℚ} {l : List Cell} :
    (r, v) ∈ newRow j k ratio l ↔
      if r = j then v = newCoef j k ratio l ∧ ¬ |newCoef j k ratio l| ≤ ZERO_TOL
      else (r, v) ∈ l ∧ r ≠ k := by
  unfold newRow
  rw [mem_newCol]
  split
  · rfl
  · exact mem_without

/-- A row was to be rewritten. -/
def Hit (s : St) (L : List Cell) (q : ℕ) : Prop := q ∈ L.map Prod.fst ∧ (s.rtag q).inactive = false

/-- What the loop over the rows of the substituted column does. -/
structure DtonDone (s s' : St) (L : List Cell) (i j k : ℕ) (aij aik b : ℚ) : Prop where
  frame : DtonFrame s s' j
  undef : s'.undef = s.undef
  hit : ∀ q, Hit s L q → s'.A q = newRow j k (aij / aik) (s.A q) ∧
    s'.lhs q = newSide (s.rtag q).lhsInf aik b (coefAt k (s.A q)) (s.lhs q) ∧
    s'.rhs q = newSide (s.rtag q).rhsInf aik b (coefAt k (s.A q)) (s.rhs q) ∧
    s'.rowSize q = s.rowSize q - (((s.A q).length : ℤ) - ((s'.A q).length : ℤ))
  miss : ∀ q, ¬ Hit s L q → s'.A q = s.A q ∧ s'.lhs q = s.lhs q ∧ s'.rhs q = s.rhs q ∧
    s'.rowSize q = s.rowSize q
  colSorted : SortedC (s'.AT j)
  colMem : ∀ q v, (q, v) ∈ s'.AT j ↔
    (Hit s L q ∧ v = newCoef j k (aij / aik) (s.A q) ∧ ¬ |newCoef j k (aij / aik) (s.A q)| ≤ ZERO_TOL) ∨
    (¬ Hit s L q ∧ (q, v) ∈ s.AT j)
  colSize : s'.colSize j = s.colSize j + (((s'.AT j).length : ℤ) - ((s.AT j).length : ℤ))
  nnz : ∀ M, (∀ p ∈ L, p.1 < M) →
    s'.nnz - ∑ r ∈ Finset.range M, ((s'.A r).length : ℤ) =
      s.nnz - ∑ r ∈ Finset.range M, ((s.A r).length : ℤ)
  log : ∃ recs, s'.log = recs ++ s.log ∧ ∀ r ∈ recs, ∃ q a, r = Rec.addedRow i q a

theorem sum_upd_len (A : ℕ → List Cell) (q M : ℕ) (hq : q < M) (l : List Cell) :
    ∑ r ∈ Finset.range M, ((upd A q l r).length : ℤ) =
      ∑ r ∈ Finset.range M, ((A r).length : ℤ) + ((l.length : ℤ) - ((A q).length : ℤ)) := by
  have h : q ∈ Finset.range M := Finset.mem_range.mpr hq
  rw [← Finset.add_sum_erase _ _ h, ← Finset.add_sum_erase (a := q) _ (fun r => ((A r).length : ℤ)) h]
  have : ∑ r ∈ (Finset.range M).erase q, ((upd A q l r).length : ℤ) =
      ∑ r ∈ (Finset.range M).erase q, ((A r).length : ℤ) :=
    Finset.sum_congr rfl (fun i hi => by rw [upd_ne _ _ (Finset.ne_of_mem_erase hi)])
  rw [this, upd_same]
  ring

theorem dtonFold {i j k : ℕ} {aij aik b : ℚ} (hjk : j ≠ k) (L : List Cell) (s : St) (buf : List ℕ)
    (hnd : (L.map Prod.fst).Nodup) (hi : (s.rtag i).inactive = true)
    (hrows : ∀ q, Hit s L q → SortedC (s.A q) ∧ (∃ a, (k, a) ∈ s.A q) ∧
      RowFits j k (aij / aik) (s.A q) ∧
      (|newCoef j k (aij / aik) (s.A q)| ≤ ZERO_TOL → ∃ w, (q, w) ∈ s.AT j))
    (hcol : SortedC (s.AT j)) (hb : s.rhs i = .fin b) :
    DtonDone s (L.foldl (dtonSubstRow i j k aij aik) (s, buf)).1 L i j k aij aik b := by
  induction L generalizing s buf with
  | nil =>
    refine ⟨.refl s j, rfl, fun q hq => by simp [Hit] at hq, fun q _ => ⟨rfl, rfl, rfl, rfl⟩, hcol,
      fun q v => by simp [Hit], by simp, fun _ _ => rfl, [], rfl, by simp⟩
  | cons p L ih =>
    rw [List.map_cons, List.nodup_cons] at hnd
    rw [List.foldl_cons]
    by_cases hact : (s.rtag p.1).inactive = true
    · have e : dtonSubstRow i j k aij aik (s, buf) p = (s, buf) := by
        unfold dtonSubstRow; simp only; rw [if_pos hact]
      rw [e]
      have hiff : ∀ q, Hit s (p :: L) q ↔ Hit s L q := by
        intro q; unfold Hit
        simp only [List.map_cons, List.mem_cons]
        constructor
        · rintro ⟨h1, h2⟩
          rcases h1 with h1 | h1
          · subst h1; rw [hact] at h2; cases h2
          · exact ⟨h1, h2⟩
        · rintro ⟨h1, h2⟩; exact ⟨Or.inr h1, h2⟩
      have := ih s buf hnd.2 hi (fun q hq => hrows q ((hiff q).mpr hq)) hcol hb
      refine ⟨this.frame, this.undef, fun q hq => this.hit q ((hiff q).mp hq),
        fun q hq => this.miss q (fun h => hq ((hiff q).mpr h)), this.colSorted, fun q v => ?_,
        this.colSize, fun M hM => this.nnz M (fun p hp => hM p (List.mem_cons_of_mem _ hp)), this.log⟩
      rw [this.colMem q v, hiff q]
    · have hact : (s.rtag p.1).inactive = false := by simpa using hact
      have hp : Hit s (p :: L) p.1 := ⟨by simp, hact⟩
      obtain ⟨g1, g2, g3, g4⟩ := hrows p.1 hp
      obtain ⟨hC, hS⟩ := dtonSubstRow_step s buf p hact g1 hjk g2 g3 hcol g4 hb
      generalize dtonSubstRow i j k aij aik (s, buf) p = u at hC hS
      obtain ⟨u, buf'⟩ := u
      simp only at hC hS
      have C := core_iff hC
      simp only [skel, Prod.mk.injEq] at hS
      obtain ⟨s1, s2, s3, s4, s5, s6, s7, s8, s9⟩ := hS
      have hpi : i ≠ p.1 := by intro e; rw [e, hact] at hi; cases hi
      have hiff : ∀ q, Hit s (p :: L) q ↔ q = p.1 ∨ Hit u L q := by
        intro q; unfold Hit
        simp only [List.map_cons, List.mem_cons, C.rtag]
        constructor
        · rintro ⟨h1 | h1, h2⟩
          · exact Or.inl h1
          · exact Or.inr ⟨h1, h2⟩
        · rintro (h | ⟨h1, h2⟩)
          · rw [h]; exact ⟨Or.inl rfl, hact⟩
          · exact ⟨Or.inr h1, h2⟩
      have hne : ∀ q, Hit u L q → q ≠ p.1 := by
        rintro q ⟨h1, _⟩ e; rw [e] at h1; exact hnd.1 h1
      have hAq : ∀ q, q ≠ p.1 → u.A q = s.A q := fun q hq => by rw [C.A, upd_ne _ _ hq]
      have hcolu : SortedC (u.AT j) := by rw [s1, upd_same]; exact newCol_sorted hcol
      have hmemu : ∀ q v, (q, v) ∈ u.AT j ↔
          if q = p.1 then v = newCoef j k (aij / aik) (s.A p.1) ∧ ¬ |newCoef j k (aij / aik) (s.A p.1)| ≤ ZERO_TOL
          else (q, v) ∈ s.AT j := by
        intro q v; rw [s1, upd_same]; exact mem_newCol
      have := ih u buf' hnd.2 (by rw [C.rtag]; exact hi)
        (fun q hq => by
          have := hrows q ((hiff q).mpr (Or.inr hq))
          rw [hAq q (hne q hq)]
          refine ⟨this.1, this.2.1, this.2.2.1, fun h => ?_⟩
          obtain ⟨w, hw⟩ := this.2.2.2 h
          exact ⟨w, (hmemu q w).mpr (by rw [if_neg (hne q hq)]; exact hw)⟩)
        hcolu (by rw [C.rhs, upd_ne _ _ hpi]; exact hb)
      have hfr : DtonFrame s u j :=
        ⟨C.m, C.n, C.lb, C.ub, C.rtag, C.ctag, C.c, C.off,
          fun t ht => ⟨by rw [s1, upd_ne _ _ ht], by rw [C.colSize, upd_ne _ _ ht]⟩, s3, s4, s5, s6, s7⟩
      have hnot : ¬ Hit u L p.1 := fun h => hne _ h rfl
      refine ⟨hfr.trans this.frame, this.undef.trans s9, ?_, ?_, this.colSorted, ?_, ?_, ?_, ?_⟩
      · intro q hq
        rcases (hiff q).mp hq with rfl | hq
        · obtain ⟨m1, m2, m3, m4⟩ := this.miss p.1 hnot
          rw [m1, m2, m3, m4]
          rw [C.A, C.lhs, C.rhs, s2]
          simp only [upd_same]
          exact ⟨trivial, trivial, trivial, trivial⟩
        · obtain ⟨m1, m2, m3, m4⟩ := this.hit q hq
          have hq' := hne q hq
          rw [m4, m1, m2, m3, hAq q hq', C.rtag, C.lhs, C.rhs, s2, upd_ne _ _ hq', upd_ne _ _ hq',
            upd_ne _ _ hq']
          exact ⟨rfl, rfl, rfl, rfl⟩
      · intro q hq
        have hq1 : q ≠ p.1 := fun e => hq ((hiff q).mpr (Or.inl e))
        obtain ⟨m1, m2, m3, m4⟩ := this.miss q (fun h => hq ((hiff q).mpr (Or.inr h)))
        rw [m1, m2, m3, m4, hAq q hq1, C.lhs, C.rhs, s2, upd_ne _ _ hq1, upd_ne _ _ hq1, upd_ne _ _ hq1]
        exact ⟨rfl, rfl, rfl, rfl⟩
      · intro q v
        rw [this.colMem q v, hiff q, hmemu q v]
        by_cases e : q = p.1
        · subst e
          simp [hnot]
        · simp only [e, false_or, if_false]
          by_cases hq : Hit u L q
          · simp only [hq, true_and, not_true_eq_false, false_and, or_false]
            rw [hAq q e]
          · simp [hq]
      · rw [this.colSize, C.colSize, upd_same, s1, upd_same]
        ring
      · intro M hM
        rw [this.nnz M (fun p hp => hM p (List.mem_cons_of_mem _ hp)), s8, C.A,
          sum_upd_len s.A p.1 M (hM p List.mem_cons_self)]
        ring
      · obtain ⟨recs, h1, h2⟩ := this.log
        refine ⟨recs ++ [.addedRow i p.1 (-coefAt k (s.A p.1) / aik)], by rw [h1, C.log]; simp, ?_⟩
        intro r hr
        rcases List.mem_append.mp hr with h | h
        · exact h2 r h
        · rw [List.mem_singleton] at h; exact ⟨_, _, h⟩

end Verif
