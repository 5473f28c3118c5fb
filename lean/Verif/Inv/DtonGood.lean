import Verif.Inv.DtonFold
import Verif.Inv.SimpleGood

/-!
# Doubleton equality rows as elementary steps
-/

namespace Verif

/-- The situation before the columns are changed: row `i` consists of the columns `j`, which stays,
and `k`, which goes. -/
structure DtonMid (i j k : ℕ) (aij aik b : ℚ) (s : St) : Prop where
  clean : Clean s
  row : (s.rtag i).inactive = false
  cells : s.A i = [(j, aij), (k, aik)] ∨ s.A i = [(k, aik), (j, aij)]
  colj : (s.ctag j).inactive = false
  colk : (s.ctag k).inactive = false
  rhs : s.rhs i = .fin b

theorem DtonMid.memj {i j k : ℕ} {aij aik b : ℚ} {s : St} (h : DtonMid i j k aij aik b s) :
    (j, aij) ∈ s.A i := by rcases h.cells with e | e <;> rw [e] <;> simp

theorem DtonMid.memk {i j k : ℕ} {aij aik b : ℚ} {s : St} (h : DtonMid i j k aij aik b s) :
    (k, aik) ∈ s.A i := by rcases h.cells with e | e <;> rw [e] <;> simp

theorem DtonMid.stable (i j k : ℕ) (aij aik b : ℚ) : BoundStable (DtonMid i j k aij aik b) := by
  constructor
  · intro s t h g
    exact ⟨⟨by rw [h.rowsToDelete]; exact g.clean.1, by rw [h.fixedCols]; exact g.clean.2.1,
      by rw [h.subCols]; exact g.clean.2.2⟩, by rw [h.rtag]; exact g.row, by rw [h.A]; exact g.cells,
      by rw [h.ctag]; exact g.colj, by rw [h.ctag]; exact g.colk, by rw [h.rhs]; exact g.rhs⟩
  · intro s c lb ub t im ot low row cells num hc ht g
    have : ∀ x, (s.ctag x).inactive = false → (upd s.ctag c t x).inactive = false := by
      intro x hx
      by_cases e : x = c
      · rw [e, upd_same]; exact ht
      · rw [upd_ne _ _ e]; exact hx
    exact ⟨g.clean, g.row, g.cells, this j g.colj, this k g.colk, g.rhs⟩

theorem modifyBounds_good (μ : Mode) (s : St) (i j k : ℕ) (aij aik b : ℚ) (rhs lbk ubk : D) (t : CTag) :
    Good μ (DtonMid i j k aij aik b) (DtonMid i j k aij aik b) s
      (modifyBounds s i aij aik rhs lbk ubk j t) := by
  have hL := fun (s : St) (v : D) => updateLb_good μ _ (DtonMid.stable i j k aij aik b) s j v i
    (fun _ h => ⟨h.row, _, h.memj⟩)
  have hU := fun (s : St) (v : D) => updateUb_good μ _ (DtonMid.stable i j k aij aik b) s j v i
    (fun _ h => ⟨h.row, _, h.memj⟩)
  unfold modifyBounds
  simp only
  split
  · refine Good.trans (b := if t.lbInf then s else
      (updateUb s j (((rhs.sub (D.smul aik lbk)).divq aij)) i).1) (J := DtonMid i j k aij aik b) ?_ ?_
    · split
      · exact .refl _ _ _
      · exact hU _ _
    · generalize (if t.lbInf then s else (updateUb s j (((rhs.sub (D.smul aik lbk)).divq aij)) i).1) = u
      split
      · exact .refl _ _ _
      · split
        · exact .refl _ _ _
        · exact hL _ _
  · refine Good.trans (b := if t.lbInf then s else
      (updateLb s j (((rhs.sub (D.smul aik lbk)).divq aij)) i).1) (J := DtonMid i j k aij aik b) ?_ ?_
    · split
      · exact .refl _ _ _
      · exact hL _ _
    · generalize (if t.lbInf then s else (updateLb s j (((rhs.sub (D.smul aik lbk)).divq aij)) i).1) = u
      split
      · exact .refl _ _ _
      · split
        · exact .refl _ _ _
        · exact hU _ _

/-- Row `i` and the costs before `execute_substitution`. -/
def dtonPrep (s : St) (i j k : ℕ) (aij aik : ℚ) : St :=
  { s with
    c := upd s.c j (s.c j - aij / aik * s.c k)
    off := D.add s.off (D.smul (s.c k) (D.divq (s.rhs i) aik))
    rtag := upd s.rtag i { inactive := true }
    rowSize := upd s.rowSize i (-1)
    A := upd s.A i []
    nnz := s.nnz - 2 }

theorem dtonPost_out (x : St × List ℕ) (i j k : ℕ) (cells : List Cell) (aik ck : ℚ) :
    let w := x.1
    let r := (dtonPost x i j k cells aik ck).1
    core r = (w.m, w.n, w.A, w.lhs, w.rhs, w.lb, w.ub, w.rtag,
        upd w.ctag k { fixed := true, subst := true }, w.c, w.off, upd w.colSize k (-1),
        .deletedRow i (ck / aik) :: .subCol k cells (w.rhs i) i ck :: w.log) ∧
      skel r = (w.AT, w.rowSize, upd w.up j (countLocks w.rtag (w.AT j)).1,
        upd w.down j (countLocks w.rtag (w.AT j)).2, w.rowsToDelete, w.fixedCols, w.subCols, w.nnz,
        w.undef) ∧
      (dtonPost x i j k cells aik ck).2 = x.2 ∧
      r.stonRows = w.stonRows ∧ r.dtonRows = w.dtonRows ∧ r.emptyRows = w.emptyRows ∧ Le w r ∧
      (∀ y ∈ w.emptyCols, y ∈ r.emptyCols) ∧ (w.colSize j = 0 → j ∈ r.emptyCols) := by
  intro w r
  obtain ⟨w', buf⟩ := x
  have e : r = (dtonPost (w', buf) i j k cells aik ck).1 := rfl
  have ew : w = w' := rfl
  clear_value r w
  subst ew
  have hN := dtonNoteCol_core w j
  have hG : (dtonNoteCol w j).stonRows = w.stonRows ∧ (dtonNoteCol w j).dtonRows = w.dtonRows ∧
      (dtonNoteCol w j).emptyRows = w.emptyRows ∧ Le w (dtonNoteCol w j) ∧
      (∀ y ∈ w.emptyCols, y ∈ (dtonNoteCol w j).emptyCols) ∧
      (w.colSize j = 0 → j ∈ (dtonNoteCol w j).emptyCols) := by
    unfold dtonNoteCol
    split
    · exact ⟨rfl, rfl, rfl, ⟨check_asrt, id, id⟩, fun y hy => List.mem_append_left _ hy,
        fun _ => List.mem_append_right _ (by simp)⟩
    · rename_i h0
      split
      · exact ⟨rfl, rfl, rfl, ⟨check_asrt, id, id⟩, fun y hy => hy, fun h => absurd h h0⟩
      · exact ⟨rfl, rfl, rfl, .refl _, fun y hy => hy, fun h => absurd h h0⟩
  unfold dtonPost at e ⊢
  simp only at e ⊢
  generalize dtonNoteCol w j = t at hN hG e ⊢
  have C := core_iff hN.1
  have S := hN.2
  simp only [skel, Prod.mk.injEq] at S
  obtain ⟨s1, s2, s3, s4, s5, s6, s7, s8, s9⟩ := S
  obtain ⟨q1, q2, q3, q4, q5, q6⟩ := hG
  have hle : Le t r := by
    rw [e]
    constructor
    · intro h
      simp only [St.save, St.check, Bool.and_eq_true] at h
      exact h.1
    · exact id
    · exact id
  refine ⟨?_, ?_, trivial, ?_, ?_, ?_, q4.trans hle, ?_, ?_⟩
  · rw [e]; simp only [core, St.save, St.check]
    rw [C.m, C.n, C.A, C.lhs, C.rhs, C.lb, C.ub, C.rtag, C.ctag, C.c, C.off, C.colSize, C.log]
  · rw [e]; simp only [skel, St.save, St.check]
    rw [C.rtag, s1, s2, s3, s4, s5, s6, s7, s8, s9]
  · rw [e]; exact q1
  · rw [e]; exact q2
  · rw [e]; exact q3
  · rw [e]; exact q5
  · rw [e]; exact q6

/-- One substitution is an elementary step. -/
theorem dtonExec_run {μ : Mode} {s : St} {i j k : ℕ} {aij aik b : ℚ} (buf : List ℕ) (inv : Inv s)
    (hm : DtonMid i j k aij aik b s)
    (o : Ok μ (dtonExecute (dtonPrep s i j k aij aik) i ((s.A i).take 2) j k aij aik buf
      ((dtonPrep s i j k aij aik).c k)).1) :
    let r := dtonExecute (dtonPrep s i j k aij aik) i ((s.A i).take 2) j k aij aik buf
      ((dtonPrep s i j k aij aik).c k)
    Run μ s r.1 ∧ Clean r.1 ∧ r.1.rowSize i = -1 ∧ (∀ x ∈ r.2, x ∈ buf ∨ (r.1.A x).length ≤ 2) ∧
      DtonOut s r.1 i j k aij aik b ∧ (μ.round = true ∨ ∀ q a, q ≠ i → (q, a) ∈ s.AT k →
        |newCoef j k (aij / aik) (s.A q)| ≤ ZERO_TOL → newCoef j k (aij / aik) (s.A q) = 0) := by
  have g := inv.gi
  have hjm := hm.memj
  have hkm := hm.memk
  have hsi := g.rowSorted i
  have hjk : j ≠ k := by
    rcases hm.cells with e | e <;> rw [e] at hsi <;> simp [SortedC] at hsi <;> omega
  have htake : (s.A i).take 2 = s.A i := by
    rcases hm.cells with e | e <;> rw [e] <;> rfl
  have hlen : (s.A i).length = 2 := by rcases hm.cells with e | e <;> rw [e] <;> rfl
  have hck : (dtonPrep s i j k aij aik).c k = s.c k := by
    show upd s.c j _ k = _
    rw [upd_ne _ _ hjk.symm]
  have hri := g.rowActive hm.row
  have hcj := g.colActive hm.colj
  have hckk := g.colActive hm.colk
  have hji : (i, aij) ∈ s.AT j := (g.agree i j aij hri hcj).mp hjm
  have hki : (i, aik) ∈ s.AT k := (g.agree i k aik hri hckk).mp hkm
  have hiLt : i < s.m := (g.rowRange i _ hjm).1
  have hrowsK : ∀ p ∈ s.AT k, (s.rtag p.1).inactive = false := g.rowsActive hm.clean.1 hm.colk
  rw [hck, htake] at o ⊢
  intro r
  have er : r = dtonExecute (dtonPrep s i j k aij aik) i (s.A i) j k aij aik buf (s.c k) := rfl
  rw [← er] at o
  clear_value r
  rw [dtonExecute_pre_post] at er
  have hdrop : dropCell i (s.AT j) = without i (s.AT j) := dropCell_eq (g.colSorted j).nodup
  have hany : (s.undef || !(s.AT j).any (fun p => decide (p.1 = i))) = s.undef := by
    have : (s.AT j).any (fun p => decide (p.1 = i)) = true := by
      rw [List.any_eq_true]
      exact ⟨(i, aij), hji, by simp⟩
    rw [this]; simp
  -- the state before the loop
  generalize hv : dtonPre (dtonPrep s i j k aij aik) i j k = v at er
  have V1 : core v = (s.m, s.n, upd s.A i [], s.lhs, s.rhs, s.lb, s.ub,
      upd s.rtag i { inactive := true }, s.ctag, upd s.c j (s.c j - aij / aik * s.c k),
      D.add s.off (D.smul (s.c k) (D.divq (.fin b) aik)), upd s.colSize j (s.colSize j - 1), s.log) := by
    rw [← hv, ← hm.rhs]; rfl
  have V2 : skel v = (upd (upd s.AT j (without i (s.AT j))) k [], upd s.rowSize i (-1), s.up, s.down,
      s.rowsToDelete, s.fixedCols, s.subCols, s.nnz - 2, s.undef) := by
    rw [← hdrop, ← hany, ← hv]; rfl
  have V3 : gh v = gh s := by rw [← hv]; rfl
  clear hv
  have V := core_iff V1
  simp only [skel, Prod.mk.injEq] at V2
  obtain ⟨v1, v2, v3, v4, v5, v6, v7, v8, v9⟩ := V2
  simp only [gh, Prod.mk.injEq] at V3
  obtain ⟨x1, x2, -, x3, x4, x5, x6⟩ := V3
  rw [show (dtonPrep s i j k aij aik).AT k = s.AT k from rfl] at er
  -- the loop
  have hP := dtonPost_out ((s.AT k).foldl (dtonSubstRow i j k aij aik) (v, buf)) i j k (s.A i) aik (s.c k)
  rw [← er] at hP
  have hwa : ((s.AT k).foldl (dtonSubstRow i j k aij aik) (v, buf)).1.asrt = true :=
    hP.2.2.2.2.2.2.1.asrt o.1
  have hvj : v.AT j = without i (s.AT j) := by rw [v1, upd_ne _ _ hjk, upd_same]
  have hvact : ∀ p ∈ s.AT k, (v.rtag p.1).inactive = false → p.1 ≠ i := by
    intro p _ h e
    rw [V.rtag, e, upd_same] at h; cases h
  have hvact' : ∀ p ∈ s.AT k, p.1 ≠ i → (v.rtag p.1).inactive = false := by
    intro p hp h
    rw [V.rtag, upd_ne _ _ h]; exact hrowsK p hp
  have hcell : ∀ p ∈ s.AT k, (k, p.2) ∈ s.A p.1 := by
    intro p hp
    exact (g.agree p.1 k p.2 (g.colIn k hm.colk p hp) hckk).mpr hp
  obtain ⟨G, D⟩ := dtonFold_asrt (i := i) (j := j) (k := k) (aij := aij) (aik := aik) (b := b) hjk (s.AT k) v buf
    (g.colSorted k).nodup (by rw [V.rtag, upd_same])
    (by
      intro p hp hpa
      have hpi := hvact p hp hpa
      rw [V.A, upd_ne _ _ hpi, v2, upd_ne _ _ hpi, hvj]
      refine ⟨g.rowSorted _, hcell p hp, g.rowSz _ (g.colIn k hm.colk p hp), ?_⟩
      rintro ⟨w, hw⟩
      have hw := (mem_without.mp hw).1
      exact ⟨w, (g.agree p.1 j w (g.colIn k hm.colk p hp) hcj).mpr hw⟩)
    (by rw [hvj]; exact (g.colSorted j).filter _) (by rw [V.rhs]; exact hm.rhs) hwa
  generalize (s.AT k).foldl (dtonSubstRow i j k aij aik) (v, buf) = f at hP G D hwa er
  obtain ⟨w, buf'⟩ := f
  simp only at hP G D hwa
  obtain ⟨p1, p2, p3, p4, p5, p6, p7, p8, p9⟩ := hP
  have E := core_iff p1
  simp only [skel, Prod.mk.injEq] at p2
  obtain ⟨e1, e2, e3, e4, e5, e6, e7, e8, e9⟩ := p2
  have F := D.frame
  -- which rows are rewritten
  have hHit : ∀ q a, q ≠ i → (q, a) ∈ s.AT k → Hit v (s.AT k) q := fun q a hq ha =>
    ⟨List.mem_map.mpr ⟨_, ha, rfl⟩, hvact' _ ha hq⟩
  have hHit' : ∀ q, Hit v (s.AT k) q → q ≠ i ∧ ∃ a, (q, a) ∈ s.AT k := by
    rintro q ⟨h1, h2⟩
    obtain ⟨p, hp, rfl⟩ := List.mem_map.mp h1
    exact ⟨hvact p hp h2, p.2, hp⟩
  have hni : ¬ Hit v (s.AT k) i := fun h => (hHit' i h).1 rfl
  have hvA : ∀ q, q ≠ i → v.A q = s.A q := fun q hq => by rw [V.A, upd_ne _ _ hq]
  have hAi : r.1.A i = [] := by rw [E.A, (D.miss i hni).1, V.A, upd_same]
  have hcoef : ∀ q a, (q, a) ∈ s.AT k → coefAt k (s.A q) = a := fun q a ha =>
    coefAt_cell (g.rowSorted q) (hcell _ ha)
  have hrhs : r.1.rhs i = .fin b := by
    rw [E.rhs, (D.miss i hni).2.2.1, V.rhs]; exact hm.rhs
  have hrowsz : ∀ q, q ≠ i → r.1.rowSize q = s.rowSize q - (((s.A q).length : ℤ) - ((r.1.A q).length : ℤ)) := by
    intro q hq
    rw [e2, E.A]
    by_cases hh : Hit v (s.AT k) q
    · have := (D.hit q hh).2.2.2
      rw [this, v2, upd_ne _ _ hq, hvA q hq]
    · have := D.miss q hh
      rw [this.2.2.2, this.1, v2, upd_ne _ _ hq, hvA q hq]; ring
  have hcolsz : r.1.colSize j = ((r.1.AT j).length : ℤ) := by
    rw [E.colSize, upd_ne _ _ hjk, D.colSize, V.colSize, upd_same, hvj, e1,
      without_length (g.colSorted j) hji, g.colSz j hm.colj]
    ring
  have hout : DtonOut s r.1 i j k aij aik b := by
    refine ⟨hm.cells, hm.row, hm.colj, hm.colk, hrowsK, hm.rhs, ?_, ?_, ?_, ?_, ?_, ?_, ?_, ?_, ?_, hAi,
      ?_, ?_, ?_, hrowsz, ?_, ?_, ?_, ?_, hcolsz, ?_, ?_, ?_, ?_, ?_, ?_, ?_⟩
    · -- fits
      intro q a hq ha hle
      obtain ⟨w', hw'⟩ := G.fits (q, a) ha (hvact' _ ha hq) (by rw [hvA q hq]; exact hle)
      rw [hvj] at hw'
      exact ⟨w', (g.agree q j w' (g.colIn k hm.colk _ ha) hcj).mpr (mem_without.mp hw').1⟩
    · rw [E.m, F.m, V.m]
    · rw [E.n, F.n, V.n]
    · rw [E.lb, F.lb, V.lb]
    · rw [E.ub, F.ub, V.ub]
    · rw [E.rtag, F.rtag, V.rtag]
    · rw [E.ctag, F.ctag, V.ctag]
    · rw [E.c, F.c, V.c]
    · rw [E.off, F.off, V.off]
    · -- hit
      intro q a hq ha
      obtain ⟨h1, h2, h3, _⟩ := D.hit q (hHit q a hq ha)
      rw [hvA q hq, hcoef q a ha, V.rtag, upd_ne _ _ hq] at h2 h3
      rw [hvA q hq] at h1
      exact ⟨by rw [E.A]; exact h1, by rw [E.lhs, h2, V.lhs], by rw [E.rhs, h3, V.rhs]⟩
    · intro q hq ha
      obtain ⟨h1, h2, h3, _⟩ := D.miss q (fun h => by
        obtain ⟨_, a, h⟩ := hHit' q h; exact ha a h)
      exact ⟨by rw [E.A, h1, hvA q hq], by rw [E.lhs, h2, V.lhs], by rw [E.rhs, h3, V.rhs]⟩
    · rw [e2, (D.miss i hni).2.2.2, v2, upd_same]
    · intro t h1 h2
      rw [e1, (F.col t h1).1, v1, upd_ne _ _ h2, upd_ne _ _ h1, E.colSize, upd_ne _ _ h2,
        (F.col t h1).2, V.colSize, upd_ne _ _ h1]
      exact ⟨rfl, rfl⟩
    · rw [e1, (F.col k hjk.symm).1, v1, upd_same, E.colSize, upd_same]
      exact ⟨rfl, rfl⟩
    · rw [e1]; exact D.colSorted
    · intro q x
      rw [e1, D.colMem q x, hvj, mem_without]
      constructor
      · rintro (⟨hh, h1, h2⟩ | ⟨hh, h1, h2⟩)
        · obtain ⟨hq, a, ha⟩ := hHit' q hh
          rw [hvA q hq] at h1 h2
          exact ⟨hq, .inl ⟨⟨a, ha⟩, h1, h2⟩⟩
        · exact ⟨h2, .inr ⟨fun a ha => hh (hHit q a h2 ha), h1⟩⟩
      · rintro ⟨hq, ⟨⟨a, ha⟩, h1, h2⟩ | ⟨ha, h1⟩⟩
        · exact .inl ⟨hHit q a hq ha, by rw [hvA q hq]; exact h1, by rw [hvA q hq]; exact h2⟩
        · exact .inr ⟨fun hh => by obtain ⟨_, a, h⟩ := hHit' q hh; exact ha a h, h1, hq⟩
    · -- nonzeros
      have h1 := D.nnz s.m (fun p hp => (g.colRange k p hp).2.1)
      have h2 := sum_upd_len s.A i s.m hiLt []
      rw [hlen] at h2
      rw [V.A, h2, v8, g.nnz] at h1
      rw [e8, E.A]
      simp at h1
      linarith
    · intro t ht
      rw [e3, e4, upd_ne _ _ ht, upd_ne _ _ ht, F.up, F.down, v3, v4]
      exact ⟨rfl, rfl⟩
    · rw [e3, e4, upd_same, upd_same, e1, E.rtag]
    · rw [e5, F.rowsToDelete, v5]
    · rw [e6, F.fixedCols, v6]
    · rw [e7, F.subCols, v7]
    · rw [E.log, (D.miss i hni).2.2.1, V.rhs, hm.rhs, G.log, V.log]
      congr 4
      congr 1
      apply List.filter_congr
      intro p hp
      by_cases e : p.1 = i
      · rw [V.rtag, e, upd_same]; simp
      · rw [hvact' p hp e]; simp [e]
  have hround : μ.round = true ∨ ∀ q a, q ≠ i → (q, a) ∈ s.AT k →
      |newCoef j k (aij / aik) (s.A q)| ≤ ZERO_TOL → newCoef j k (aij / aik) (s.A q) = 0 := by
    cases hr : μ.round with
    | true => exact .inl rfl
    | false =>
      right
      intro q a hq ha hle
      have := G.tiny (p7.tiny (o.2.1 hr)) (q, a) ha (hvact' _ ha hq) (by rw [hvA q hq]; exact hle)
      rwa [hvA q hq] at this
  have hraw : Raw μ s r.1 := by
    refine .dton i j k aij aik b hout ?_ hround
    intro p hp
    rcases hm.cells with e | e <;> rw [e] at hp <;> simp at hp <;>
      rcases hp with rfl | rfl <;> first | exact hm.colj | exact hm.colk
  have mono := hraw.mono g
  refine ⟨⟨.single hraw, ?_, ?_, ?_, ?_⟩, ?_, hout.goneRow, ?_, hout, hround⟩
  · intro x hx
    rw [p4] at hx
    rcases G.ston x hx with h | h
    · rw [x4] at h; exact .inl h
    · rw [E.A]; exact .inr h
  · intro x hx
    rw [p5, G.dtonRows, x5] at hx
    exact .inl hx
  · rw [e9, D.undef, v9]
  · intro em
    constructor
    · intro q hq hqa hA
      have hqi : q ≠ i := by
        intro e; rw [hout.rtag, e, upd_same] at hqa; cases hqa
      have hqa' : (s.rtag q).inactive = false := by
        rwa [hout.rtag, upd_ne _ _ hqi] at hqa
      rw [p6]
      by_cases hh : ∃ a, (q, a) ∈ s.AT k
      · obtain ⟨a, ha⟩ := hh
        exact G.er' (q, a) ha (hvact' _ ha hqi) (by rw [← E.A]; exact hA)
      · push Not at hh
        rw [(hout.miss q hqi hh).1] at hA
        exact G.er q (by rw [x3]; exact em.1 q (by rw [← hout.m]; exact hq) hqa' hA)
    · intro t ht hta hA
      have htk : t ≠ k := by
        intro e; rw [hout.ctag, e, upd_same] at hta; cases hta
      have hta' : (s.ctag t).inactive = false := by
        rwa [hout.ctag, upd_ne _ _ htk] at hta
      by_cases e : t = j
      · subst e
        refine p9 ?_
        have := hcolsz
        rw [hA, E.colSize, upd_ne _ _ hjk] at this
        simpa using this
      · rw [(hout.col t e htk).1] at hA
        exact p8 t (by rw [G.emptyCols, x6]; exact em.2 t (by rw [← hout.n]; exact ht) hta' hA)
  · exact ⟨by rw [hout.rowsToDelete]; exact hm.clean.1, by rw [hout.fixedCols]; exact hm.clean.2.1,
      by rw [hout.subCols]; exact hm.clean.2.2⟩
  · intro x hx
    rw [p3] at hx
    rcases G.buf x hx with h | h
    · exact .inl h
    · rw [E.A]; exact .inr h

/-- The assertions at the beginning of `find_substitution`. -/
def dtonChecked (s : St) (i : ℕ) : St :=
  (s.check ((s.rtag i).eq && !(s.rtag i).inactive)).check (D.eqb (s.lhs i) (s.rhs i) && !D.isInf (s.rhs i))

theorem findSubst_out (env : Env) (s : St) (i : ℕ) :
    findSubst env s i = (s, .skip) ∨ (2 ≤ s.rowSize i ∧
      ((findSubst env s i = ((dtonChecked s i).flag true, .skip) ∧ (s.A i).length < 2) ∨
        ∃ t plan, findSubst env s i = ({ dtonChecked s i with tick := t }, plan))) := by
  unfold findSubst
  split
  · exact .inl rfl
  · rename_i h
    refine .inr ⟨by omega, ?_⟩
    simp only
    generalize hs0 : (s.check ((s.rtag i).eq && !(s.rtag i).inactive)).check
      ((s.lhs i).eqb (s.rhs i) && !(s.rhs i).isInf) = s0
    have hd : dtonChecked s i = s0 := hs0
    have hA0 : s.A i = s0.A i := by rw [← hs0]; rfl
    rw [hd, hA0]
    match hA : s0.A i with
    | [] => exact .inl ⟨rfl, by simp⟩
    | [p] => exact .inl ⟨rfl, by simp⟩
    | (c0, a0) :: (c1, a1) :: l =>
      right
      simp only
      generalize (if dtonSubstFirst a0 a1 (s0.colSize c0) (s0.colSize c1) = true then a1 else a0) = x1
      generalize (if dtonSubstFirst a0 a1 (s0.colSize c0) (s0.colSize c1) = true then a0 else a1) = x2
      generalize (if dtonSubstFirst a0 a1 (s0.colSize c0) (s0.colSize c1) = true then c1 else c0) = x3
      generalize (if dtonSubstFirst a0 a1 (s0.colSize c0) (s0.colSize c1) = true then c0 else c1) = x4
      split
      · exact ⟨_, _, rfl⟩
      · split
        · exact ⟨_, _, rfl⟩
        · split
          · exact ⟨_, _, rfl⟩
          · exact ⟨_, _, rfl⟩

theorem dtonChecked_ok {μ : Mode} {s : St} {i : ℕ} (o : Ok μ (dtonChecked s i)) :
    Ok μ s ∧ (s.rtag i).inactive = false ∧ ∃ b, s.rhs i = .fin b := by
  obtain ⟨o1, h1⟩ := o.check
  obtain ⟨o2, h2⟩ := o1.check
  refine ⟨o2, ?_, ?_⟩
  · simp only [Bool.and_eq_true, Bool.not_eq_true'] at h2; exact h2.2
  · simp only [St.check, Bool.and_eq_true, Bool.not_eq_true'] at h1
    revert h1
    cases s.rhs i <;> cases s.lhs i <;> simp [D.eqb, D.isInf]

theorem dtonChecked_same (s : St) (i t : ℕ) : SameCore s { dtonChecked s i with tick := t } := by
  constructor <;> rfl

theorem findSubst_ok {μ : Mode} {env : Env} {s : St} {i : ℕ} (o : Ok μ (findSubst env s i).1) : Ok μ s := by
  rcases findSubst_out env s i with h | ⟨_, ⟨h, _⟩ | ⟨t, plan, h⟩⟩
  · rw [h] at o; exact o
  · rw [h] at o
    exact (dtonChecked_ok (s := s) (i := i) ⟨o.1, o.2⟩).1
  · rw [h] at o
    exact (dtonChecked_ok (s := s) (i := i) ⟨o.1, o.2⟩).1

theorem dtonExecute_le (s : St) (i : ℕ) (cells : List Cell) (j k : ℕ) (aij aik : ℚ)
    (buf : List ℕ) (ck : ℚ) : Le s (dtonExecute s i cells j k aij aik buf ck).1 := by
  rw [dtonExecute_pre_post]
  have h1 : Le s (dtonPre s i j k) := .eq rfl rfl
  exact (h1.trans (dtonFold_le _ _ _)).trans (dtonPost_out _ i j k cells aik ck).2.2.2.2.2.2.1

theorem modifyBounds_ok {μ : Mode} {s : St} {i j : ℕ} {aij aik : ℚ} {rhs lbk ubk : D} {t : CTag}
    (o : Ok μ (modifyBounds s i aij aik rhs lbk ubk j t)) : Ok μ s :=
  (modifyBounds_good μ s i j 0 aij aik 0 rhs lbk ubk t).ok o

/-- Number of rows that are still there. -/
def live (s : St) : ℕ := ((Finset.range s.m).filter (fun i => s.rowSize i ≠ -1)).card

theorem live_subset {s t : St} (h : Mono s t) :
    (Finset.range t.m).filter (fun i => t.rowSize i ≠ -1) ⊆
      (Finset.range s.m).filter (fun i => s.rowSize i ≠ -1) := by
  intro i hi
  rw [Finset.mem_filter] at hi ⊢
  rw [h.m] at hi
  exact ⟨hi.1, fun e => hi.2 (h.rowGone i e)⟩

theorem live_le {s t : St} (h : Mono s t) : live t ≤ live s := Finset.card_le_card (live_subset h)

theorem live_lt {s t : St} (h : Mono s t) {i : ℕ} (hi : i < s.m) (h1 : s.rowSize i ≠ -1)
    (h2 : t.rowSize i = -1) : live t < live s := by
  refine Finset.card_lt_card ⟨live_subset h, fun hh => ?_⟩
  have := hh (Finset.mem_filter.mpr ⟨Finset.mem_range.mpr hi, h1⟩)
  exact (Finset.mem_filter.mp this).2 h2

/-- The invariant of one round: nothing is pending, the rows to come and those put aside are short,
and something has been removed if the flag says so. -/
structure DtonInv (L buf : List ℕ) (red : Bool) (N : ℕ) (s : St) : Prop where
  clean : Clean s
  short : ∀ x ∈ L, (s.A x).length ≤ 2
  buf : ∀ x ∈ buf, (s.A x).length ≤ 2
  live : live s ≤ N
  red : red = true → Verif.live s < N

theorem DtonInv.mono {L buf : List ℕ} {red : Bool} {N : ℕ} {s t : St} (h : DtonInv L buf red N s)
    (m : Mono s t) (c : Clean t) : DtonInv L buf red N t :=
  ⟨c, fun x hx => (m.len x).trans (h.short x hx), fun x hx => (m.len x).trans (h.buf x hx),
    (live_le m).trans h.live, fun e => lt_of_le_of_lt (live_le m) (h.red e)⟩

theorem SameCore.clean {s t : St} (h : SameCore s t) (c : Clean s) : Clean t :=
  ⟨by rw [h.rowsToDelete]; exact c.1, by rw [h.fixedCols]; exact c.2.1, by rw [h.subCols]; exact c.2.2⟩

theorem dtonStep_good (μ : Mode) (env : Env) (L buf : List ℕ) (red : Bool) (N i : ℕ) (hi : i ∈ L) (s : St) :
    Good μ (DtonInv L buf red N)
      (DtonInv L (dtonStep env (s, buf, red) i).2.1 (dtonStep env (s, buf, red) i).2.2 N) s
      (dtonStep env (s, buf, red) i).1 := by
  generalize hr : dtonStep env (s, buf, red) i = r
  have hr0 := hr
  unfold dtonStep at hr
  simp only at hr
  rcases hf : findSubst env s i with ⟨s1, plan⟩
  rw [hf] at hr
  have hok1 : Ok μ s1 → Ok μ s := fun o => findSubst_ok (env := env) (i := i) (by rw [hf]; exact o)
  -- what is known about the first part
  have first : ∀ (_ : Ok μ s1) (inv : Inv s) (_ : DtonInv L buf red N s), Run μ s s1 ∧ DtonInv L buf red N s1 ∧
      (plan ≠ .skip → SameCore s s1 ∧ (s.A i).length = 2 ∧ (s.rtag i).inactive = false ∧ ∃ b, s.rhs i = .fin b) := by
    intro o inv hI
    rcases findSubst_out env s i with h | ⟨hsz, ⟨h, hl⟩ | ⟨t, plan', h⟩⟩
    · rw [hf] at h
      obtain ⟨rfl, rfl⟩ := Prod.mk.inj h
      exact ⟨.refl _ _, hI, fun h => absurd rfl h⟩
    · exfalso
      have := inv.gi.rowSz i (by omega)
      omega
    · rw [hf] at h
      obtain ⟨rfl, rfl⟩ := Prod.mk.inj h
      have sc := dtonChecked_same s i t
      refine ⟨.of_same sc rfl rfl rfl, hI.mono sc.mono (sc.clean hI.clean), fun _ => ⟨sc, ?_, ?_⟩⟩
      · have h1 := inv.gi.rowSz i (by omega)
        have h2 := hI.short i hi
        omega
      · exact (dtonChecked_ok (s := s) (i := i) ⟨o.1, o.2⟩).2
  cases plan with
  | skip =>
    simp only at hr
    subst hr
    exact .of hok1 (fun o inv hI => ⟨(first o inv hI).1, (first o inv hI).2.1⟩)
  | retry =>
    simp only at hr
    subst hr
    refine .of hok1 (fun o inv hI => ⟨(first o inv hI).1, ?_⟩)
    have h := (first o inv hI).2.1
    refine ⟨h.clean, h.short, fun x hx => ?_, h.live, h.red⟩
    rcases List.mem_append.mp hx with hx | hx
    · exact h.buf x hx
    · rw [List.mem_singleton.mp hx]; exact h.short i hi
  | subst j k aij aik =>
    simp only at hr
    have hok2 : Ok μ (modifyBounds s1 i aij aik (s1.rhs i) (s1.lb k) (s1.ub k) j (s1.ctag k)) → Ok μ s :=
      fun o => hok1 (modifyBounds_ok o)
    -- up to the bounds
    have second : ∀ (_ : Ok μ (modifyBounds s1 i aij aik (s1.rhs i) (s1.lb k) (s1.ub k) j (s1.ctag k)))
        (inv : Inv s) (_ : DtonInv L buf red N s), ∃ b,
        Run μ s (modifyBounds s1 i aij aik (s1.rhs i) (s1.lb k) (s1.ub k) j (s1.ctag k)) ∧
        DtonMid i j k aij aik b (modifyBounds s1 i aij aik (s1.rhs i) (s1.lb k) (s1.ub k) j (s1.ctag k)) := by
      intro o inv hI
      obtain ⟨r1, hI1, hp⟩ := first (modifyBounds_ok o) inv hI
      obtain ⟨sc, two, hrow, b, hb⟩ := hp (by simp)
      obtain ⟨_, hcells, hj, hk, _⟩ := findSubst_subst hf two
      have mid : DtonMid i j k aij aik b s1 :=
        ⟨hI1.clean, by rw [sc.rtag]; exact hrow, by rw [sc.A]; exact hcells, by rw [sc.ctag]; exact hj,
          by rw [sc.ctag]; exact hk, by rw [sc.rhs]; exact hb⟩
      obtain ⟨r2, mid2⟩ := (modifyBounds_good μ s1 i j k aij aik b (s1.rhs i) (s1.lb k) (s1.ub k)
        (s1.ctag k) o).2 (r1.inv inv) mid
      exact ⟨b, r1.trans r2 inv, mid2⟩
    generalize modifyBounds s1 i aij aik (s1.rhs i) (s1.lb k) (s1.ub k) j (s1.ctag k) = s2 at hr hok2 second
    split at hr
    · rename_i hin
      subst hr
      refine .of hok2 (fun o inv hI => ?_)
      obtain ⟨b, _, mid⟩ := second o inv hI
      rw [mid.colj] at hin; cases hin
    · change ((dtonExecute (dtonPrep s2 i j k aij aik) i ((s2.A i).take 2) j k aij aik buf
        ((dtonPrep s2 i j k aij aik).c k)).1,
        (dtonExecute (dtonPrep s2 i j k aij aik) i ((s2.A i).take 2) j k aij aik buf
        ((dtonPrep s2 i j k aij aik).c k)).2, true) = r at hr
      have hle : Le s2 (dtonExecute (dtonPrep s2 i j k aij aik) i ((s2.A i).take 2) j k aij aik buf
          ((dtonPrep s2 i j k aij aik).c k)).1 :=
        Le.trans (t := dtonPrep s2 i j k aij aik) (.eq rfl rfl) (dtonExecute_le _ _ _ _ _ _ _ _ _)
      subst hr
      refine .of (fun o => hok2 (hle.ok o)) (fun o inv hI => ?_)
      obtain ⟨b, r2, mid⟩ := second (hle.ok o) inv hI
      obtain ⟨r3, cl, hgone, hbuf, -⟩ := dtonExec_run buf (r2.inv inv) mid o
      have m2 := r2.mono inv
      have m3 := r3.mono (r2.inv inv)
      refine ⟨r2.trans r3 inv, ?_⟩
      have h3 := (hI.mono m2 mid.clean).mono m3 cl
      have hlt := live_lt m3 ((r2.inv inv).gi.rowRange i _ mid.memj).1 ((r2.inv inv).gi.rowActive mid.row) hgone
      refine ⟨cl, h3.short, fun x hx => ?_, h3.live, fun _ => ?_⟩
      · rcases hbuf x hx with h | h
        · exact h3.buf x h
        · exact h
      · exact lt_of_lt_of_le hlt ((live_le m2).trans hI.live)

theorem dtonSteps_good (μ : Mode) (env : Env) (L : List ℕ) (N : ℕ) (M : List ℕ) (hM : ∀ i ∈ M, i ∈ L)
    (s : St) (buf : List ℕ) (red : Bool) :
    Good μ (DtonInv L buf red N)
      (DtonInv L (M.foldl (dtonStep env) (s, buf, red)).2.1 (M.foldl (dtonStep env) (s, buf, red)).2.2 N) s
      (M.foldl (dtonStep env) (s, buf, red)).1 := by
  induction M generalizing s buf red with
  | nil => exact .refl _ _ _
  | cons i M ih =>
    rw [List.foldl_cons]
    have h1 := dtonStep_good μ env L buf red N i (hM i List.mem_cons_self) s
    generalize dtonStep env (s, buf, red) i = r at h1
    obtain ⟨s1, buf1, red1⟩ := r
    exact h1.trans (ih (fun i hi => hM i (List.mem_cons_of_mem _ hi)) s1 buf1 red1)

theorem dtonRound_good (μ : Mode) (env : Env) (N : ℕ) (s : St) :
    Good μ (fun s => Clean s ∧ live s ≤ N)
      (fun t => Clean t ∧ live t ≤ N ∧ ((dtonRound env s).2 = true → live t < N)) s (dtonRound env s).1 := by
  unfold dtonRound
  simp only
  have h := dtonSteps_good μ env s.dtonRows N s.dtonRows (fun _ h => h) s [] false
  generalize s.dtonRows.foldl (dtonStep env) (s, [], false) = r at h
  obtain ⟨s1, buf, red⟩ := r
  simp only at h ⊢
  refine .of (fun o => h.ok ⟨o.1, o.2⟩) (fun o inv hI => ?_)
  have h0 : DtonInv s.dtonRows [] false N s := ⟨hI.1, inv.dton, by simp, hI.2, by simp⟩
  obtain ⟨r1, h1⟩ := (h ⟨o.1, o.2⟩).2 inv h0
  have sc : SameCore s1 { s1 with dtonRows := buf } := by constructor <;> rfl
  have r2 : Run μ s1 { s1 with dtonRows := buf } :=
    ⟨.single (.same sc), fun _ h => .inl h, fun x hx => .inr (h1.buf x hx), rfl, sc.em (fun _ h => h) (fun _ h => h)⟩
  exact ⟨r1.trans r2 inv, h1.clean, h1.live, h1.red⟩

theorem dtonLoop_good (μ : Mode) (env : Env) (fuel : ℕ) (s : St) :
    Good μ (fun s => Clean s ∧ live s < fuel) Clean s (dtonLoop env fuel s) := by
  induction fuel generalizing s with
  | zero =>
    unfold dtonLoop
    exact .of (fun o => ⟨o.1, o.2⟩) (fun _ _ h => absurd h.2 (by omega))
  | succ fuel ih =>
    unfold dtonLoop
    split
    · exact (Good.refl μ Clean s).weaken (fun _ h => h.1) (fun _ h => h)
    · have h := (dtonRound_good μ env fuel s)
      simp only
      generalize dtonRound env s = r at h
      obtain ⟨s1, red⟩ := r
      simp only at h ⊢
      split
      · rename_i hr
        refine Good.trans (h.weaken (I' := fun s => Clean s ∧ live s < fuel + 1)
          (J' := fun s => Clean s ∧ live s < fuel) (fun _ h => ⟨h.1, by omega⟩)
          (fun _ h => ⟨h.1, h.2.2 hr⟩)) (ih s1)
      · exact h.weaken (fun _ h => ⟨h.1, by omega⟩) (fun _ h => h.1)

/-- `remove_dton_eq_rows`. -/
theorem removeDtonRows_good (μ : Mode) (env : Env) (s : St) :
    Good μ Clean Clean s (removeDtonRows env s) := by
  unfold removeDtonRows
  simp only
  generalize hs1 : ((s.check (decide (s.stonRows = []))).check (decide (s.emptyRows = []))).check
    (decide (s.emptyCols = [])) = s1
  have h1 : Good μ Clean Clean s s1 := by
    rw [← hs1]
    refine Good.trans (J := Clean) (.check s (decide (s.stonRows = [])) (fun _ h => h)) ?_
    exact Good.trans (J := Clean) (.check _ (decide (s.emptyRows = [])) (fun _ h => h))
      (.check _ _ (fun _ h => h))
  refine h1.trans ?_
  have h2 : Good μ Clean Clean s1 (dtonLoop env (s1.m + 1) s1) :=
    (dtonLoop_good μ env (s1.m + 1) s1).weaken (fun _ h => ⟨h, by
      have : live s1 ≤ s1.m := (Finset.card_filter_le _ _).trans (by simp)
      omega⟩) (fun _ h => h)
  generalize dtonLoop env (s1.m + 1) s1 = s2 at h2
  refine h2.trans ?_
  split
  · exact .refl _ _ _
  · exact delCols_good μ Clean Clean s2 (fun h => h.1) (fun _ _ h => ⟨h.noRows, h.noFixed, h.noSub⟩)

end Verif
