import Verif.Inv.QueuedSton
import Verif.Inv.DtonGood

/-!
# Lists of short rows and columns: doubleton equality rows
-/

namespace Verif

/-- What the list bookkeeping looks at. -/
def lx (s : St) : (ℕ → List Cell) × (ℕ → ℤ) × (ℕ → RTag) × List ℕ × List ℕ × Bool :=
  (s.A, s.rowSize, s.rtag, s.stonCols, s.stonRows, s.asrt)

theorem dtonNoteAct_lx (s : St) (q : ℕ) : lx (dtonNoteAct s q) = lx s := by
  unfold dtonNoteAct
  split <;> rfl

theorem dtonAct_lx (s : St) (q j k : ℕ) (r : DtonRow) : lx (dtonAct s q j k r) = lx s := by
  unfold dtonAct
  simp only
  split
  · rw [dtonNoteAct_lx]
    split
    · exact dtonNoteAct_lx _ _
    · rfl
  · split
    · rw [dtonNoteAct_lx]; rfl
    · rfl

theorem dtonSides_lx (s : St) (q : ℕ) (aik : ℚ) (b : D) (a : ℚ) : lx (dtonSides s q aik b a) = lx s := by
  unfold dtonSides
  split <;> rfl

theorem dtonNoteSize_lists (s : St) (q : ℕ) (o : ℤ) (buf : List ℕ) :
    (∃ x, (x = true → s.asrt = true) ∧ lx (dtonNoteSize s q o buf).1 = (s.A, s.rowSize, s.rtag, s.stonCols,
      if s.rowSize q = 1 ∧ o ≠ 1 then s.stonRows ++ [q] else s.stonRows, x)) ∧
    (dtonNoteSize s q o buf).2 = (if s.rowSize q = 2 ∧ (s.rtag q).eq = true ∧ o ≠ 2 then buf ++ [q] else buf) := by
  unfold dtonNoteSize
  by_cases h0 : s.rowSize q = 0
  · rw [if_pos h0, if_neg (c := s.rowSize q = 1 ∧ o ≠ 1) (fun h => by have := h.1; omega),
      if_neg (c := s.rowSize q = 2 ∧ (s.rtag q).eq = true ∧ o ≠ 2) (fun h => by have := h.1; omega)]
    exact ⟨⟨_, check_asrt, rfl⟩, rfl⟩
  rw [if_neg h0]
  by_cases h1 : s.rowSize q = 1
  · rw [if_pos h1, if_neg (c := s.rowSize q = 2 ∧ (s.rtag q).eq = true ∧ o ≠ 2) (fun h => by have := h.1; omega)]
    by_cases ho : o ≠ 1
    · rw [if_pos ho, if_pos (c := s.rowSize q = 1 ∧ o ≠ 1) ⟨h1, ho⟩]
      exact ⟨⟨_, check_asrt, rfl⟩, rfl⟩
    · rw [if_neg ho, if_neg (c := s.rowSize q = 1 ∧ o ≠ 1) (fun h => ho h.2)]
      exact ⟨⟨_, id, rfl⟩, rfl⟩
  rw [if_neg h1, if_neg (c := s.rowSize q = 1 ∧ o ≠ 1) (fun h => h1 h.1)]
  by_cases h2 : s.rowSize q = 2 ∧ (s.rtag q).eq = true ∧ o ≠ 2
  · simp only [if_pos h2]; exact ⟨⟨_, id, rfl⟩, trivial⟩
  · simp only [if_neg h2]; exact ⟨⟨_, id, rfl⟩, trivial⟩

theorem dtonNoteSize_lists' {s : St} {q : ℕ} {o : ℤ} {buf : List ℕ} {u : St × List ℕ}
    (h : dtonNoteSize s q o buf = u) :
    (∃ x, (x = true → s.asrt = true) ∧ lx u.1 = (s.A, s.rowSize, s.rtag, s.stonCols,
      if s.rowSize q = 1 ∧ o ≠ 1 then s.stonRows ++ [q] else s.stonRows, x)) ∧
    u.2 = (if s.rowSize q = 2 ∧ (s.rtag q).eq = true ∧ o ≠ 2 then buf ++ [q] else buf) := by
  subst h; exact dtonNoteSize_lists s q o buf

/-- One rewritten row and the lists. -/
structure DtonRowLists (s u : St) (buf buf' : List ℕ) (q : ℕ) (cells : List Cell) : Prop where
  A : u.A = upd s.A q cells
  size : u.rowSize = upd s.rowSize q (cells.length : ℤ)
  rtag : u.rtag = s.rtag
  stonCols : u.stonCols = s.stonCols
  ston : u.stonRows = if cells.length = 1 ∧ s.rowSize q ≠ 1 then s.stonRows ++ [q] else s.stonRows
  buf : buf' = if cells.length = 2 ∧ (s.rtag q).eq = true ∧ s.rowSize q ≠ 2 then buf ++ [q] else buf

theorem dtonSubstRow_lists {i j k : ℕ} {aij aik : ℚ} (s : St) (buf : List ℕ) (p : Cell)
    (hact : (s.rtag p.1).inactive = false) (ha : (dtonSubstRow i j k aij aik (s, buf) p).1.asrt = true) :
    ∃ cells, DtonRowLists s (dtonSubstRow i j k aij aik (s, buf) p).1 buf (dtonSubstRow i j k aij aik (s, buf) p).2 p.1 cells := by
  generalize he : dtonSubstRow i j k aij aik (s, buf) p = e at ha ⊢
  have hF : ∀ t : St, (t.check false).asrt = false := fun t => by simp [St.check]
  unfold dtonSubstRow at he
  simp only at he
  rw [if_neg (by rw [hact]; decide)] at he
  rw [show (s.check (decide (p.1 ≠ i))).A = s.A from rfl] at he
  split at he
  · subst he
    rw [hF] at ha; cases ha
  · rename_i r hr
    generalize hu : dtonNoteSize _ _ _ _ = u at he
    obtain ⟨⟨x, hx, N⟩, N2⟩ := dtonNoteSize_lists' hu
    clear hu
    obtain ⟨u1, u2⟩ := u
    simp only at he N N2
    split at he
    · subst he
      have ha : ((u1.flag true).check false).asrt = true := ha
      rw [hF] at ha; cases ha
    · have G := congrArg (fun e => lx e.1) he
      have G2 := congrArg (fun e => e.2) he
      simp only at G G2
      rw [dtonAct_lx, dtonSides_lx] at G
      have G : lx u1 = lx e.1 := G
      rw [N] at G
      simp only [lx, Prod.mk.injEq] at G
      obtain ⟨g1, g2, g3, g4, g5, g6⟩ := G
      have hsz : s.rowSize p.1 - (((s.A p.1).length : ℤ) - (r.cells.length : ℤ)) = (r.cells.length : ℤ) := by
        have h := hx (by rw [g6]; exact ha)
        simp only [St.check, St.save, Bool.and_eq_true, decide_eq_true_eq] at h
        have h2 : upd s.rowSize p.1 (s.rowSize p.1 - (((s.A p.1).length : ℤ) - (r.cells.length : ℤ))) p.1 =
          (r.cells.length : ℤ) := of_decide_eq_true h.1.2.1
        rw [upd_same] at h2
        exact h2
      refine ⟨r.cells, g1.symm, ?_, g3.symm, g4.symm, ?_, ?_⟩
      · rw [← g2]
        exact congrArg (upd s.rowSize p.1) hsz
      · rw [← g5]
        show (if upd s.rowSize p.1 (s.rowSize p.1 - (((s.A p.1).length : ℤ) - (r.cells.length : ℤ))) p.1 = 1 ∧ s.rowSize p.1 ≠ 1
          then s.stonRows ++ [p.1] else s.stonRows) = _
        rw [upd_same, hsz]
        by_cases h : r.cells.length = 1 ∧ s.rowSize p.1 ≠ 1
        · rw [if_pos h, if_pos ⟨by have := h.1; omega, h.2⟩]
        · rw [if_neg h, if_neg (fun h' => h ⟨by have := h'.1; omega, h'.2⟩)]
      · rw [← G2, N2]
        show (if upd s.rowSize p.1 (s.rowSize p.1 - (((s.A p.1).length : ℤ) - (r.cells.length : ℤ))) p.1 = 2 ∧
          (s.rtag p.1).eq = true ∧ s.rowSize p.1 ≠ 2 then buf ++ [p.1] else buf) = _
        rw [upd_same, hsz]
        by_cases h : r.cells.length = 2 ∧ (s.rtag p.1).eq = true ∧ s.rowSize p.1 ≠ 2
        · rw [if_pos h, if_pos ⟨by have := h.1; omega, h.2⟩]
        · rw [if_neg h, if_neg (fun h' => h ⟨by have := h'.1; omega, h'.2⟩)]

/-- The loop of `execute_substitution` and the lists. -/
structure DtonLists (s f : St) (buf buf' : List ℕ) (L : List Cell) : Prop where
  miss : ∀ q, q ∉ L.map Prod.fst → f.A q = s.A q
  rtag : f.rtag = s.rtag
  stonCols : f.stonCols = s.stonCols
  stonUp : ∀ x ∈ s.stonRows, x ∈ f.stonRows
  ston : ∀ p ∈ L, (s.rtag p.1).inactive = false → (f.A p.1).length = 1 → s.rowSize p.1 ≠ 1 → p.1 ∈ f.stonRows
  new : ∃ new, buf' = buf ++ new ∧ new.Nodup ∧ ∀ x ∈ new, x ∈ L.map Prod.fst ∧ (s.rtag x).inactive = false ∧
    (s.rtag x).eq = true ∧ s.rowSize x ≠ 2 ∧ (f.A x).length = 2
  buf : ∀ p ∈ L, (s.rtag p.1).inactive = false → (s.rtag p.1).eq = true → (f.A p.1).length = 2 → s.rowSize p.1 ≠ 2 →
    p.1 ∈ buf'

theorem dtonFold_lists {i j k : ℕ} {aij aik : ℚ} (L : List Cell) (s : St) (buf : List ℕ) (hnd : (L.map Prod.fst).Nodup)
    (ha : (L.foldl (dtonSubstRow i j k aij aik) (s, buf)).1.asrt = true) :
    DtonLists s (L.foldl (dtonSubstRow i j k aij aik) (s, buf)).1 buf (L.foldl (dtonSubstRow i j k aij aik) (s, buf)).2 L := by
  induction L generalizing s buf with
  | nil => exact ⟨fun _ _ => rfl, rfl, rfl, fun _ h => h, by simp, ⟨[], by simp⟩, by simp⟩
  | cons p L ih =>
    rw [List.map_cons, List.nodup_cons] at hnd
    rw [List.foldl_cons] at ha ⊢
    by_cases hact : (s.rtag p.1).inactive = true
    · have e : dtonSubstRow i j k aij aik (s, buf) p = (s, buf) := by
        unfold dtonSubstRow; simp only; rw [if_pos hact]
      rw [e] at ha ⊢
      have H := ih s buf hnd.2 ha
      refine ⟨fun q hq => H.miss q (fun h => hq (List.mem_cons_of_mem _ h)), H.rtag, H.stonCols, H.stonUp, ?_, ?_, ?_⟩
      · intro q hq hqa
        rcases List.mem_cons.mp hq with rfl | hq
        · rw [hact] at hqa; cases hqa
        · exact H.ston q hq hqa
      · obtain ⟨new, h1, h2, h3⟩ := H.new
        exact ⟨new, h1, h2, fun x hx => ⟨List.mem_cons_of_mem _ (h3 x hx).1, (h3 x hx).2⟩⟩
      · intro q hq hqa
        rcases List.mem_cons.mp hq with rfl | hq
        · rw [hact] at hqa; cases hqa
        · exact H.buf q hq hqa
    · have hact : (s.rtag p.1).inactive = false := by simpa using hact
      have hau : (dtonSubstRow i j k aij aik (s, buf) p).1.asrt = true := (dtonFold_le L _ _).asrt ha
      obtain ⟨cells, R⟩ := dtonSubstRow_lists s buf p hact hau
      generalize dtonSubstRow i j k aij aik (s, buf) p = u at R ha
      obtain ⟨u, buf'⟩ := u
      have H := ih u buf' hnd.2 ha
      simp only at R
      generalize L.foldl (dtonSubstRow i j k aij aik) (u, buf') = f at H
      have hne : ∀ q ∈ L, q.1 ≠ p.1 := fun q hq e => hnd.1 (List.mem_map.mpr ⟨q, hq, e⟩)
      have hfA : f.1.A p.1 = cells := by rw [H.miss p.1 hnd.1, R.A, upd_same]
      refine ⟨fun q hq => ?_, H.rtag.trans R.rtag, H.stonCols.trans R.stonCols, fun x hx => H.stonUp x ?_, ?_, ?_, ?_⟩
      · rw [List.map_cons, List.mem_cons, not_or] at hq
        rw [H.miss q hq.2, R.A, upd_ne _ _ hq.1]
      · rw [R.ston]; split
        · exact List.mem_append_left _ hx
        · exact hx
      · intro q hq hqa hl hs
        rcases List.mem_cons.mp hq with rfl | hq
        · refine H.stonUp _ ?_
          rw [R.ston, if_pos ⟨by rw [← hfA]; exact hl, hs⟩]
          exact List.mem_append_right _ List.mem_cons_self
        · exact H.ston q hq (by rw [R.rtag]; exact hqa) hl (by rw [R.size, upd_ne _ _ (hne q hq)]; exact hs)
      · obtain ⟨new, h1, h2, h3⟩ := H.new
        have h3' : ∀ x ∈ new, x ∈ (p :: L).map Prod.fst ∧ (s.rtag x).inactive = false ∧
            (s.rtag x).eq = true ∧ s.rowSize x ≠ 2 ∧ (f.1.A x).length = 2 := by
          intro x hx
          obtain ⟨k1, k2, k3, k4, k5⟩ := h3 x hx
          rw [R.rtag] at k2 k3
          have hxp : x ≠ p.1 := fun e => hnd.1 (e ▸ k1)
          rw [R.size, upd_ne _ _ hxp] at k4
          exact ⟨List.mem_cons_of_mem _ k1, k2, k3, k4, k5⟩
        by_cases hb : cells.length = 2 ∧ (s.rtag p.1).eq = true ∧ s.rowSize p.1 ≠ 2
        · have hb' := R.buf
          rw [if_pos hb] at hb'
          refine ⟨p.1 :: new, by rw [h1, hb']; simp, List.nodup_cons.mpr ⟨fun h => hnd.1 (h3 _ h).1, h2⟩, fun x hx => ?_⟩
          rcases List.mem_cons.mp hx with rfl | hx
          · exact ⟨List.mem_cons_self, hact, hb.2.1, hb.2.2, by rw [hfA]; exact hb.1⟩
          · exact h3' x hx
        · have hb' := R.buf
          rw [if_neg hb] at hb'
          exact ⟨new, by rw [h1, hb'], h2, h3'⟩
      · intro q hq hqa hqe hl hs
        rcases List.mem_cons.mp hq with rfl | hq
        · obtain ⟨new, h1, -, -⟩ := H.new
          have hb' := R.buf
          rw [if_pos ⟨by rw [← hfA]; exact hl, hqe, hs⟩] at hb'
          rw [h1, hb']
          simp
        · exact H.buf q hq (by rw [R.rtag]; exact hqa) (by rw [R.rtag]; exact hqe) hl
            (by rw [R.size, upd_ne _ _ (hne q hq)]; exact hs)

/-- The invariant of one round: `M` are the rows to come, `buf` those put aside. -/
structure QD (M buf : List ℕ) (s : St) : Prop where
  ston : ∀ i p, (s.rtag i).inactive = false → s.A i = [p] → (s.ctag p.1).inactive = false → i ∈ s.stonRows
  dton : ∀ i, (s.rtag i).inactive = false → (s.A i).length = 2 → (s.rtag i).eq = true → i ∈ M ∨ i ∈ buf
  mem : ∀ i, i ∈ M ∨ i ∈ buf → (s.rtag i).eq = true ∨ (s.rtag i).inactive = true ∨ (s.A i).length ≤ 1
  nodup : (M ++ buf).Nodup
  col : ∀ k, (s.ctag k).inactive = false → (s.AT k).length = 1 → k ∈ s.stonCols
  colMem : ∀ k ∈ s.stonCols, (s.AT k).length ≤ 1
  colNodup : s.stonCols.Nodup

theorem QD.fr {M buf : List ℕ} {s t : St} (h : QD M buf s) (f : Fr s t) : QD M buf t := by
  have hQ : Queued { s with dtonRows := M ++ buf } := by
    refine ⟨h.ston, fun i a b c => List.mem_append.mpr (h.dton i a b c), fun i hi => h.mem i (List.mem_append.mp hi), h.nodup,
      h.col, h.colMem, h.colNodup⟩
  have hf : Fr { s with dtonRows := M ++ buf, asrt := true } { t with dtonRows := M ++ buf, asrt := true } :=
    ⟨id, f.A, f.AT, f.row, f.eq, f.col, f.ston, rfl, f.stonc⟩
  have c := (hf.keep rfl).2 ⟨hQ.ston, hQ.dton, hQ.dtonMem, hQ.dtonNodup, hQ.col, hQ.colMem, hQ.colNodup⟩
  exact ⟨c.ston, fun i a b d => List.mem_append.mp (c.dton i a b d), fun i hi => c.dtonMem i (List.mem_append.mpr hi),
    h.nodup, c.col, c.colMem, c.colNodup⟩

theorem dtonPost_stonCols (x : St × List ℕ) (i j k : ℕ) (cells : List Cell) (aik ck : ℚ) :
    (dtonPost x i j k cells aik ck).1.stonCols = if x.1.colSize j = 1 then x.1.stonCols ++ [j] else x.1.stonCols := by
  obtain ⟨w, buf⟩ := x
  unfold dtonPost
  show (dtonNoteCol w j).stonCols = if w.colSize j = 1 then w.stonCols ++ [j] else w.stonCols
  unfold dtonNoteCol
  by_cases h0 : w.colSize j = 0
  · rw [if_pos h0, if_neg (by omega)]; rfl
  · rw [if_neg h0]
    split <;> rfl

theorem dtonPost_nodup (x : St × List ℕ) (i j k : ℕ) (cells : List Cell) (aik ck : ℚ)
    (o : (dtonPost x i j k cells aik ck).1.asrt = true) (h1 : x.1.colSize j = 1) : j ∉ x.1.stonCols := by
  obtain ⟨w, buf⟩ := x
  unfold dtonPost at o
  have o : ((dtonNoteCol w j).asrt && _) = true := o
  have o := (Bool.and_eq_true_iff.mp o).1
  have h1 : w.colSize j = 1 := h1
  unfold dtonNoteCol at o
  rw [if_neg (by omega), if_pos h1] at o
  have o : (w.asrt && (!(w.ctag j).inactive && !w.stonCols.contains j)) = true := o
  simp only [Bool.and_eq_true, Bool.not_eq_true', List.contains_eq_mem, decide_eq_false_iff_not] at o
  exact o.2.2

/-- The lists behind one substitution. -/
theorem dtonExec_queued {s : St} {i j k : ℕ} {aij aik b : ℚ} {M buf : List ℕ} (inv : Inv s)
    (hm : DtonMid i j k aij aik b s) (hsz : s.colSize j = 1 → s.colSize k = 1)
    (hl : ∀ x, x ∈ M ∨ x ∈ buf → (s.A x).length ≤ 2) (hq : QD (i :: M) buf s)
    (o : (dtonExecute (dtonPrep s i j k aij aik) i ((s.A i).take 2) j k aij aik buf
      ((dtonPrep s i j k aij aik).c k)).1.asrt = true) :
    QD M (dtonExecute (dtonPrep s i j k aij aik) i ((s.A i).take 2) j k aij aik buf
      ((dtonPrep s i j k aij aik).c k)).2
      (dtonExecute (dtonPrep s i j k aij aik) i ((s.A i).take 2) j k aij aik buf
      ((dtonPrep s i j k aij aik).c k)).1 := by
  have g := inv.gi
  obtain ⟨hrun, -, -, -, out, -⟩ := dtonExec_run (μ := Mode.all) buf inv hm (ok_all.mpr o)
  have mono := hrun.mono inv
  have hjk : j ≠ k := by
    have hsi := g.rowSorted i
    rcases hm.cells with e | e <;> rw [e] at hsi <;> simp [SortedC] at hsi <;> omega
  rw [dtonExecute_pre_post] at o out mono ⊢
  generalize hr : dtonPost _ _ _ _ _ _ _ = r at o out mono ⊢
  have hP := dtonPost_out ((s.AT k).foldl (dtonSubstRow i j k aij aik) (dtonPre (dtonPrep s i j k aij aik) i j k, buf)) i j k
    ((s.A i).take 2) aik ((dtonPrep s i j k aij aik).c k)
  have hS := dtonPost_stonCols ((s.AT k).foldl (dtonSubstRow i j k aij aik) (dtonPre (dtonPrep s i j k aij aik) i j k, buf)) i j k
    ((s.A i).take 2) aik ((dtonPrep s i j k aij aik).c k)
  have hN := dtonPost_nodup ((s.AT k).foldl (dtonSubstRow i j k aij aik) (dtonPre (dtonPrep s i j k aij aik) i j k, buf)) i j k
    ((s.A i).take 2) aik ((dtonPrep s i j k aij aik).c k)
  have hr' : dtonPost ((s.AT k).foldl (dtonSubstRow i j k aij aik) (dtonPre (dtonPrep s i j k aij aik) i j k, buf)) i j k
    ((s.A i).take 2) aik ((dtonPrep s i j k aij aik).c k) = r := hr
  simp only at hP
  rw [hr'] at hP hS hN
  have hN := hN o
  have L := dtonFold_lists (i := i) (j := j) (k := k) (aij := aij) (aik := aik) (s.AT k) (dtonPre (dtonPrep s i j k aij aik) i j k) buf
    (g.colSorted k).nodup (hP.2.2.2.2.2.2.1.asrt o)
  generalize (s.AT k).foldl (dtonSubstRow i j k aij aik) (dtonPre (dtonPrep s i j k aij aik) i j k, buf) = f at hP hS hN L
  obtain ⟨p1, p2, p3, p4, -⟩ := hP
  have E := core_iff p1
  have l1 : f.1.stonCols = s.stonCols := L.stonCols
  have l2 : ∀ x ∈ s.stonRows, x ∈ r.1.stonRows := by rw [p4]; exact L.stonUp
  have vt : (dtonPre (dtonPrep s i j k aij aik) i j k).rtag = upd s.rtag i { inactive := true } := rfl
  have vs : (dtonPre (dtonPrep s i j k aij aik) i j k).rowSize = upd s.rowSize i (-1) := rfl
  have hact : ∀ q a, (q, a) ∈ s.AT k → q ≠ i → ((dtonPre (dtonPrep s i j k aij aik) i j k).rtag q).inactive = false := by
    intro q a h hq; rw [vt, upd_ne _ _ hq]; exact out.rows _ h
  have hsq : ∀ q a, (q, a) ∈ s.AT k → q ≠ i → (dtonPre (dtonPrep s i j k aij aik) i j k).rowSize q = ((s.A q).length : ℤ) := by
    intro q a h hq; rw [vs, upd_ne _ _ hq]; exact g.rowSz q (g.colIn k hm.colk _ h)
  have hfj : f.1.colSize j = ((r.1.AT j).length : ℤ) := by
    rw [← out.colSize, E.colSize, upd_ne _ _ hjk]
  rw [hfj, l1] at hS
  have hnd := hq.nodup
  rw [List.cons_append, List.nodup_cons] at hnd
  have hgone : ∀ q, (r.1.rtag q).inactive = false → q ≠ i ∧ r.1.rtag q = s.rtag q := by
    intro q h
    have hne : q ≠ i := by intro e; rw [out.rtag, e, upd_same] at h; cases h
    exact ⟨hne, by rw [out.rtag, upd_ne _ _ hne]⟩
  -- a listed column that stays becomes empty
  have hjl : j ∈ s.stonCols → r.1.AT j = [] := by
    intro hjs
    have h1 := hq.colMem j hjs
    have hji : (i, aij) ∈ s.AT j := (g.agree i j aij (g.rowActive hm.row) (g.colActive hm.colj)).mp hm.memj
    have hki : (i, aik) ∈ s.AT k := (g.agree i k aik (g.rowActive hm.row) (g.colActive hm.colk)).mp hm.memk
    have h1' : (s.AT j).length = 1 := by
      have := List.length_pos_of_mem hji; omega
    have h2 : (s.AT k).length = 1 := by
      have e1 := g.colSz j hm.colj
      have e2 := g.colSz k hm.colk
      rw [h1'] at e1
      have := hsz e1
      omega
    obtain ⟨x, hx⟩ := List.length_eq_one_iff.mp h1'
    obtain ⟨y, hy⟩ := List.length_eq_one_iff.mp h2
    rw [hx] at hji
    rw [hy] at hki
    have hx' := List.mem_singleton.mp hji
    have hy' := List.mem_singleton.mp hki
    rw [List.eq_nil_iff_forall_not_mem]
    rintro ⟨q, v⟩ hqv
    obtain ⟨hqi, h | h⟩ := (out.colMem q v).mp hqv
    · obtain ⟨⟨a, ha⟩, -⟩ := h
      rw [hy, ← hy', List.mem_singleton, Prod.mk.injEq] at ha
      exact hqi ha.1
    · have := h.2
      rw [hx, ← hx', List.mem_singleton, Prod.mk.injEq] at this
      exact hqi this.1
  refine ⟨?_, ?_, ?_, ?_, ?_, ?_, ?_⟩
  · -- rows with one cell
    intro q p hqa hA hpa
    obtain ⟨hqi, htag⟩ := hgone q hqa
    rw [htag] at hqa
    by_cases hh : ∃ a, (q, a) ∈ s.AT k
    · obtain ⟨a, ha⟩ := hh
      by_cases h1 : (s.A q).length = 1
      · -- the only cell was the substituted column
        have hka : (k, a) ∈ s.A q := (g.agree q k a (g.colIn k hm.colk _ ha) (g.colActive hm.colk)).mpr ha
        obtain ⟨y, hy⟩ := List.length_eq_one_iff.mp h1
        rw [hy] at hka
        have hy' := List.mem_singleton.mp hka
        refine l2 q (hq.ston q (k, a) hqa (by rw [hy, hy']) hm.colk)
      · rw [p4]
        refine L.ston (q, a) ha (hact q a ha hqi) ?_ ?_
        · rw [← E.A, hA]; rfl
        · rw [hsq q a ha hqi]; omega
    · push Not at hh
      rw [(out.miss q hqi hh).1] at hA
      have hpk : p.1 ≠ k := by
        intro e
        rw [out.ctag, e, upd_same] at hpa; cases hpa
      rw [out.ctag, upd_ne _ _ hpk] at hpa
      exact l2 q (hq.ston q p hqa hA hpa)
  · -- equalities with two cells
    intro q hqa hl2 he
    obtain ⟨hqi, htag⟩ := hgone q hqa
    rw [htag] at hqa he
    obtain ⟨new, hnew, -, -⟩ := L.new
    have old : (s.A q).length = 2 → q ∈ M ∨ q ∈ r.2 := by
      intro h2
      rcases hq.dton q hqa h2 he with h | h
      · rcases List.mem_cons.mp h with h | h
        · exact absurd h hqi
        · exact .inl h
      · refine .inr ?_
        rw [p3, hnew]; exact List.mem_append_left _ h
    by_cases hh : ∃ a, (q, a) ∈ s.AT k
    · obtain ⟨a, ha⟩ := hh
      by_cases h2 : (s.A q).length = 2
      · exact old h2
      · refine .inr ?_
        rw [p3]
        refine L.buf (q, a) ha (hact q a ha hqi) ?_ ?_ ?_
        · rw [vt, upd_ne _ _ hqi]; exact he
        · rw [← E.A]; exact hl2
        · rw [hsq q a ha hqi]; omega
    · push Not at hh
      rw [(out.miss q hqi hh).1] at hl2
      exact old hl2
  · -- what is listed
    intro q hmem
    obtain ⟨new, hnew, -, hn⟩ := L.new
    by_cases e : q = i
    · refine .inr (.inl ?_); rw [out.rtag, e, upd_same]
    rw [out.rtag, upd_ne _ _ e]
    have old : q ∈ M ∨ q ∈ buf → (s.rtag q).eq = true ∨ (s.rtag q).inactive = true ∨ (r.1.A q).length ≤ 1 := by
      intro h
      rcases hq.mem q (h.imp (List.mem_cons_of_mem _) id) with h | h | h
      · exact .inl h
      · exact .inr (.inl h)
      · exact .inr (.inr ((mono.len q).trans h))
    rcases hmem with h | h
    · exact old (.inl h)
    · rw [p3, hnew] at h
      rcases List.mem_append.mp h with h | h
      · exact old (.inr h)
      · have := (hn q h).2.2.1
        rw [vt, upd_ne _ _ e] at this
        exact .inl this
  · -- no duplicates
    obtain ⟨new, hnew, hnn, hn⟩ := L.new
    rw [p3, hnew, ← List.append_assoc]
    refine List.Nodup.append hnd.2 hnn ?_
    intro q h1 h2
    obtain ⟨k1, k2, k3, k4, k5⟩ := hn q h2
    obtain ⟨p, hp, rfl⟩ := List.mem_map.mp k1
    have hpi : p.1 ≠ i := by intro e; rw [vt, e, upd_same] at k2; cases k2
    rw [hsq p.1 p.2 hp hpi] at k4
    have h3 := hl p.1 (List.mem_append.mp h1)
    rw [← E.A] at k5
    have h4 := mono.len p.1
    omega
  · -- columns with one cell
    intro t hta ht1
    have htk : t ≠ k := by intro e; rw [out.ctag, e, upd_same] at hta; cases hta
    rw [out.ctag, upd_ne _ _ htk] at hta
    by_cases e : t = j
    · rw [hS, if_pos (by rw [← e, ht1]; rfl), e]
      exact List.mem_append_right _ List.mem_cons_self
    · rw [(out.col t e htk).1] at ht1
      have := hq.col t hta ht1
      rw [hS]
      split
      · exact List.mem_append_left _ this
      · exact this
  · intro t ht
    have key : t ∈ s.stonCols → (r.1.AT t).length ≤ 1 := by
      intro ht
      by_cases e : t = j
      · rw [e, hjl (e ▸ ht)]; simp
      · by_cases e' : t = k
        · rw [e', out.goneT.1]; simp
        · rw [(out.col t e e').1]; exact hq.colMem t ht
    rw [hS] at ht
    split at ht
    · rename_i h1
      rcases List.mem_append.mp ht with ht | ht
      · exact key ht
      · rw [List.mem_singleton.mp ht]; omega
    · exact key ht
  · rw [hS]
    split
    · rename_i h1
      refine List.Nodup.append hq.colNodup (List.nodup_singleton _) ?_
      intro t h2 h3
      rw [List.mem_singleton.mp h3] at h2
      exact hN (by rw [hfj]; exact h1) (by rw [l1]; exact h2)
    · exact hq.colNodup

/-- The column that stays is alone only if the other one is, too. -/
theorem findSubst_sizes {env : Env} {s s1 : St} {i j k : ℕ} {aij aik : ℚ}
    (h : findSubst env s i = (s1, .subst j k aij aik)) : s.colSize j = 1 → s.colSize k = 1 := by
  unfold findSubst at h
  split at h
  · simp at h
  simp only at h
  split at h
  · rename_i c0 a0 c1 a1 l hA
    split at h
    · simp at h
    · generalize hd : dtonSubstFirst a0 a1 _ _ = d at h
      have hd : dtonSubstFirst a0 a1 (s.colSize c0) (s.colSize c1) = d := hd
      have key : ∀ (x : Bool) (t : St), ((if dtonPivotBad (if d = true then a1 else a0) (if d = true then a0 else a1) = true then
          (t, DtonPlan.retry) else if x = true then ({ t with tick := t.tick + 1 }, DtonPlan.subst (if d = true then c1 else c0)
            (if d = true then c0 else c1) (if d = true then a1 else a0) (if d = true then a0 else a1))
          else ({ t with tick := t.tick + 1 }, DtonPlan.retry)) : St × DtonPlan) = (s1, .subst j k aij aik) →
          j = (if d = true then c1 else c0) ∧ k = (if d = true then c0 else c1) := by
        intro x t ht
        by_cases hb : dtonPivotBad (if d = true then a1 else a0) (if d = true then a0 else a1) = true
        · rw [if_pos hb] at ht; simp at ht
        · rw [if_neg hb] at ht
          by_cases hx : x = true
          · rw [if_pos hx, Prod.mk.injEq, DtonPlan.subst.injEq] at ht
            exact ⟨ht.2.1.symm, ht.2.2.1.symm⟩
          · rw [if_neg hx] at ht; simp at ht
      obtain ⟨e1, e2⟩ := key _ _ h
      rw [e1, e2]
      cases d with
      | true =>
        simp only [if_true]
        intro h1
        by_contra h0
        unfold dtonSubstFirst at hd
        simp only at hd
        rw [if_neg (fun h => h0 h.1), if_pos ⟨h0, h1⟩] at hd
        cases hd
      | false =>
        simp only [Bool.false_eq_true, if_false]
        intro h1
        by_contra h0
        unfold dtonSubstFirst at hd
        simp only at hd
        rw [if_pos ⟨h1, h0⟩] at hd
        cases hd
  · simp at h

theorem modifyBounds_fr (s : St) (i j : ℕ) (aij aik : ℚ) (rhs lbk ubk : D) (t : CTag) :
    Fr s (modifyBounds s i aij aik rhs lbk ubk j t) := by
  unfold modifyBounds
  simp only
  split
  · refine Fr.trans (t := if t.lbInf then s else (updateUb s j (((rhs.sub (D.smul aik lbk)).divq aij)) i).1) ?_ ?_
    · split
      · exact .refl _
      · exact updateUb_fr _ _ _ _
    · generalize (if t.lbInf then s else (updateUb s j (((rhs.sub (D.smul aik lbk)).divq aij)) i).1) = u
      split
      · exact .refl _
      · split
        · exact .refl _
        · exact updateLb_fr _ _ _ _
  · refine Fr.trans (t := if t.lbInf then s else (updateLb s j (((rhs.sub (D.smul aik lbk)).divq aij)) i).1) ?_ ?_
    · split
      · exact .refl _
      · exact updateLb_fr _ _ _ _
    · generalize (if t.lbInf then s else (updateLb s j (((rhs.sub (D.smul aik lbk)).divq aij)) i).1) = u
      split
      · exact .refl _
      · split
        · exact .refl _
        · exact updateUb_fr _ _ _ _

/-- A row of two cells is only skipped if one of its columns has gone. -/
theorem findSubst_skip {env : Env} {s s1 : St} {i : ℕ} (h : findSubst env s i = (s1, .skip)) (two : (s.A i).length = 2)
    (hz : s.rowSize i = 2) : ∃ p ∈ s.A i, (s.ctag p.1).inactive = true := by
  unfold findSubst at h
  rw [if_neg (by omega)] at h
  simp only at h
  have hA : ((s.check ((s.rtag i).eq && !(s.rtag i).inactive)).check (D.eqb (s.lhs i) (s.rhs i) && !D.isInf (s.rhs i))).A = s.A := rfl
  have hC : ((s.check ((s.rtag i).eq && !(s.rtag i).inactive)).check (D.eqb (s.lhs i) (s.rhs i) && !D.isInf (s.rhs i))).ctag = s.ctag := rfl
  split at h
  · rename_i c0 a0 c1 a1 l hl
    have hl : s.A i = (c0, a0) :: (c1, a1) :: l := hl
    rw [hl]
    by_cases hc : (s.ctag c0).inactive = true
    · exact ⟨_, List.mem_cons_self, hc⟩
    by_cases hc' : (s.ctag c1).inactive = true
    · exact ⟨_, List.mem_cons_of_mem _ List.mem_cons_self, hc'⟩
    exfalso
    rw [if_neg (by
      intro h'
      rw [Bool.or_eq_true] at h'
      rcases h' with h' | h'
      · exact hc h'
      · exact hc' h')] at h
    generalize dtonPivotBad _ _ = x at h
    cases x with
    | true => simp at h
    | false =>
      rw [if_neg (by decide)] at h
      generalize env.space _ = y at h
      cases y <;> simp at h
  · rename_i hne
    exfalso
    match hl : s.A i, two with
    | [(c0, a0), (c1, a1)], _ => exact hne c0 a0 c1 a1 [] hl

theorem QD.drop {M buf : List ℕ} {s : St} {i : ℕ} (h : QD (i :: M) buf s)
    (hi : (s.rtag i).inactive = false → (s.A i).length = 2 → (s.rtag i).eq = true → False) : QD M buf s := by
  refine ⟨h.ston, fun q a b c => ?_, fun q hq => h.mem q (hq.imp (List.mem_cons_of_mem _) id), (List.nodup_cons.mp h.nodup).2,
    h.col, h.colMem, h.colNodup⟩
  rcases h.dton q a b c with h | h
  · rcases List.mem_cons.mp h with rfl | h
    · exact (hi a b c).elim
    · exact .inl h
  · exact .inr h

theorem QD.retry {M buf : List ℕ} {s : St} {i : ℕ} (h : QD (i :: M) buf s) : QD M (buf ++ [i]) s := by
  refine ⟨h.ston, fun q a b c => ?_, fun q hq => h.mem q ?_, ?_, h.col, h.colMem, h.colNodup⟩
  · rcases h.dton q a b c with h | h
    · rcases List.mem_cons.mp h with rfl | h
      · exact .inr (by simp)
      · exact .inl h
    · exact .inr (List.mem_append_left _ h)
  · rcases hq with h | h
    · exact .inl (List.mem_cons_of_mem _ h)
    · rcases List.mem_append.mp h with h | h
      · exact .inr h
      · rw [List.mem_singleton.mp h]; exact .inl List.mem_cons_self
  · rw [← List.append_assoc]
    have := h.nodup
    rw [List.cons_append, List.nodup_cons] at this
    refine List.Nodup.append this.2 (List.nodup_singleton _) ?_
    intro q h1 h2
    rw [List.mem_singleton.mp h2] at h1
    exact this.1 h1

theorem dtonStep_queued {env : Env} {M buf L : List ℕ} {red : Bool} {N i : ℕ} {s : St} (inv : Inv s)
    (hI : DtonInv L buf red N s) (hM : ∀ x ∈ M, x ∈ L) (hi : i ∈ L) (hq : QD (i :: M) buf s)
    (o : (dtonStep env (s, buf, red) i).1.asrt = true) :
    QD M (dtonStep env (s, buf, red) i).2.1 (dtonStep env (s, buf, red) i).1 := by
  have g := inv.gi
  generalize hr : dtonStep env (s, buf, red) i = r at o ⊢
  unfold dtonStep at hr
  simp only at hr
  rcases hf : findSubst env s i with ⟨s1, plan⟩
  rw [hf] at hr
  have hfr : Fr s s1 := by
    rcases findSubst_out env s i with h | ⟨_, ⟨h, _⟩ | ⟨t, plan', h⟩⟩
    · rw [hf] at h; obtain ⟨rfl, -⟩ := Prod.mk.inj h; exact .refl _
    · rw [hf] at h; obtain ⟨rfl, -⟩ := Prod.mk.inj h
      exact ((Fr.check _ _).trans (Fr.check _ _)).trans (Fr.flag _ _)
    · rw [hf] at h; obtain ⟨rfl, -⟩ := Prod.mk.inj h
      exact ((Fr.check _ _).trans (Fr.check _ _)).trans (Fr.same id rfl rfl rfl rfl rfl rfl rfl)
  have hok1 : s1.asrt = true → Ok Mode.all (findSubst env s i).1 := fun o => by rw [hf]; exact ok_all.mpr o
  cases plan with
  | skip =>
    simp only at hr
    subst hr
    refine (hq.drop (fun ha h2 he => ?_)).fr hfr
    obtain ⟨p, hp, hpa⟩ := findSubst_skip hf h2 (by rw [g.rowSz i (g.rowActive ha), h2]; rfl)
    have := g.colsActive hI.clean.2.1 hI.clean.2.2 ha p hp
    rw [this] at hpa; cases hpa
  | retry =>
    simp only at hr
    subst hr
    exact (hq.fr hfr).retry
  | subst j k aij aik =>
    simp only at hr
    have hb := modifyBounds_fr s1 i j aij aik (s1.rhs i) (s1.lb k) (s1.ub k) (s1.ctag k)
    have second : (modifyBounds s1 i aij aik (s1.rhs i) (s1.lb k) (s1.ub k) j (s1.ctag k)).asrt = true → ∃ b,
        Run Mode.all s (modifyBounds s1 i aij aik (s1.rhs i) (s1.lb k) (s1.ub k) j (s1.ctag k)) ∧
        DtonMid i j k aij aik b (modifyBounds s1 i aij aik (s1.rhs i) (s1.lb k) (s1.ub k) j (s1.ctag k)) := by
      intro o
      have o1 := modifyBounds_ok (ok_all.mpr o)
      rcases findSubst_out env s i with h | ⟨hsz, ⟨h, hl⟩ | ⟨t, plan', h⟩⟩
      · rw [hf] at h; simp at h
      · rw [hf] at h; simp at h
      · rw [hf] at h
        obtain ⟨rfl, rfl⟩ := Prod.mk.inj h
        have sc := dtonChecked_same s i t
        have two : (s.A i).length = 2 := by
          have h1 := g.rowSz i (by omega)
          have h2 := hI.short i hi
          omega
        obtain ⟨-, hrow, b, hb⟩ := dtonChecked_ok (μ := Mode.all) (s := s) (i := i) ⟨o1.1, o1.2⟩
        obtain ⟨_, hcells, hj, hk, _⟩ := findSubst_subst hf two
        have mid : DtonMid i j k aij aik b { dtonChecked s i with tick := t } :=
          ⟨sc.clean hI.clean, hrow, hcells, hj, hk, hb⟩
        have r1 : Run Mode.all s { dtonChecked s i with tick := t } := .of_same sc rfl rfl rfl
        obtain ⟨r2, mid2⟩ := (modifyBounds_good Mode.all _ i j k aij aik b _ _ _ _ (ok_all.mpr o)).2 (r1.inv inv) mid
        exact ⟨b, r1.trans r2 inv, mid2⟩
    have hsz := findSubst_sizes hf
    have hsz2 : ∀ t, (modifyBounds s1 i aij aik (s1.rhs i) (s1.lb k) (s1.ub k) j (s1.ctag k)).AT t = s.AT t ∨
        (modifyBounds s1 i aij aik (s1.rhs i) (s1.lb k) (s1.ub k) j (s1.ctag k)).AT t = [] := (hfr.trans hb).AT
    have hq2 := hq.fr (hfr.trans hb)
    have hcm : ∀ t, (s.ctag t).inactive = true →
      ((modifyBounds s1 i aij aik (s1.rhs i) (s1.lb k) (s1.ub k) j (s1.ctag k)).ctag t).inactive = true := (hfr.trans hb).col
    generalize modifyBounds s1 i aij aik (s1.rhs i) (s1.lb k) (s1.ub k) j (s1.ctag k) = s2 at *
    split at hr
    · rename_i hin
      subst hr
      obtain ⟨b, _, mid⟩ := second o
      rw [mid.colj] at hin; cases hin
    · change ((dtonExecute (dtonPrep s2 i j k aij aik) i ((s2.A i).take 2) j k aij aik buf
        ((dtonPrep s2 i j k aij aik).c k)).1,
        (dtonExecute (dtonPrep s2 i j k aij aik) i ((s2.A i).take 2) j k aij aik buf
        ((dtonPrep s2 i j k aij aik).c k)).2, true) = r at hr
      have hle : Le s2 (dtonExecute (dtonPrep s2 i j k aij aik) i ((s2.A i).take 2) j k aij aik buf
          ((dtonPrep s2 i j k aij aik).c k)).1 :=
        Le.trans (t := dtonPrep s2 i j k aij aik) (.eq rfl rfl) (dtonExecute_le _ _ _ _ _ _ _ _ _)
      subst hr
      obtain ⟨b, r2, mid⟩ := second (hle.asrt o)
      have m2 := r2.mono inv
      have inv2 := r2.inv inv
      have hcol : ∀ t a, (t, a) ∈ s2.A i → (s2.ctag t).inactive = false → s2.colSize t = s.colSize t := by
        intro t a ht hta
        have hta' : (s.ctag t).inactive = false := act_of_imp (hcm t) hta
        rw [inv2.gi.colSz t hta, g.colSz t hta']
        rcases hsz2 t with e | e
        · rw [e]
        · have := (inv2.gi.agree i t a (inv2.gi.rowActive mid.row) (inv2.gi.colActive hta)).mp ht
          rw [e] at this; cases this
      exact dtonExec_queued inv2 mid
        (by rw [hcol j aij mid.memj mid.colj, hcol k aik mid.memk mid.colk]; exact hsz)
        (fun x hx => (m2.len x).trans (hx.elim (fun h => hI.short x (hM x h)) (hI.buf x))) hq2 o

theorem dtonSteps_queued {env : Env} {L : List ℕ} {N : ℕ} (M : List ℕ) (hM : ∀ i ∈ M, i ∈ L)
    (s : St) (buf : List ℕ) (red : Bool) (inv : Inv s) (hI : DtonInv L buf red N s) (hq : QD M buf s)
    (o : (M.foldl (dtonStep env) (s, buf, red)).1.asrt = true) :
    QD [] (M.foldl (dtonStep env) (s, buf, red)).2.1 (M.foldl (dtonStep env) (s, buf, red)).1 := by
  induction M generalizing s buf red with
  | nil => exact hq
  | cons i M ih =>
    rw [List.foldl_cons] at o ⊢
    have hMt : ∀ x ∈ M, x ∈ L := fun x hx => hM x (List.mem_cons_of_mem _ hx)
    have h2 := dtonSteps_good Mode.all env L N M hMt (dtonStep env (s, buf, red) i).1 (dtonStep env (s, buf, red) i).2.1
      (dtonStep env (s, buf, red) i).2.2 (ok_all.mpr o)
    have h1 := dtonStep_good Mode.all env L buf red N i (hM i List.mem_cons_self) s h2.1
    obtain ⟨r1, hI1⟩ := h1.2 inv hI
    have hq1 := dtonStep_queued (env := env) inv hI hMt (hM i List.mem_cons_self) hq (ok_all.mp h2.1)
    exact ih hMt _ _ _ (r1.inv inv) hI1 hq1 o

theorem dtonRound_queued {env : Env} {s : St} (inv : Inv s) (hc : Clean s) (c : Queued s)
    (o : (dtonRound env s).1.asrt = true) : Queued (dtonRound env s).1 := by
  have hq : QD s.dtonRows [] s := ⟨c.ston, fun i a b d => .inl (c.dton i a b d), fun i hi => c.dtonMem i (by simpa using hi),
    by simpa using c.dtonNodup, c.col, c.colMem, c.colNodup⟩
  have h := dtonSteps_queued (env := env) (N := live s) s.dtonRows (fun _ h => h) s [] false inv
    ⟨hc, inv.dton, by simp, Nat.le_refl _, by simp⟩ hq o
  exact ⟨h.ston, fun i a b d => (h.dton i a b d).elim (fun h => by cases h) id, fun i hi => h.mem i (.inr hi), h.nodup, h.col,
    h.colMem, h.colNodup⟩

theorem dtonLoop_goodQ (μ : Mode) (env : Env) (fuel : ℕ) (s : St) :
    Good μ (fun s => (Clean s ∧ live s < fuel) ∧ Queued s) (fun s => Clean s ∧ Queued s) s (dtonLoop env fuel s) := by
  induction fuel generalizing s with
  | zero =>
    unfold dtonLoop
    exact .of (fun o => ⟨o.1, o.2⟩) (fun _ _ h => absurd h.1.2 (by omega))
  | succ fuel ih =>
    unfold dtonLoop
    split
    · exact (Good.refl μ (fun s => Clean s ∧ Queued s) s).weaken (fun _ h => ⟨h.1.1, h.2⟩) (fun _ h => h)
    · have h := (dtonRound_good μ env fuel s).withQ (fun o i h c => dtonRound_queued i h.1 c o)
      simp only
      generalize dtonRound env s = r at h
      obtain ⟨s1, red⟩ := r
      simp only at h ⊢
      split
      · rename_i hr
        refine Good.trans (h.weaken (I' := fun s => (Clean s ∧ live s < fuel + 1) ∧ Queued s)
          (J' := fun s => (Clean s ∧ live s < fuel) ∧ Queued s) (fun _ h => ⟨⟨h.1.1, by have := h.1.2; omega⟩, h.2⟩)
          (fun _ h => ⟨⟨h.1.1, h.1.2.2 hr⟩, h.2⟩)) (ih s1)
      · exact h.weaken (fun _ h => ⟨⟨h.1.1, by have := h.1.2; omega⟩, h.2⟩) (fun _ h => ⟨h.1.1, h.2⟩)

theorem removeDtonRows_queued {env : Env} {s : St} (i : Inv s) (hc : Clean s) (c : Queued s)
    (o : (removeDtonRows env s).asrt = true) : Queued (removeDtonRows env s) := by
  unfold removeDtonRows at o ⊢
  simp only at o ⊢
  have hsame : SameCore s (((s.check (decide (s.stonRows = []))).check (decide (s.emptyRows = []))).check
    (decide (s.emptyCols = []))) := by constructor <;> rfl
  have f : Fr s (((s.check (decide (s.stonRows = []))).check (decide (s.emptyRows = []))).check
    (decide (s.emptyCols = []))) := ((Fr.check _ _).trans (Fr.check _ _)).trans (Fr.check _ _)
  have hi : Inv (((s.check (decide (s.stonRows = []))).check (decide (s.emptyRows = []))).check
    (decide (s.emptyCols = []))) := ⟨hsame.gi i.gi, i.ston, i.dton⟩
  have hcl := hsame.clean hc
  have hQ : (((s.check (decide (s.stonRows = []))).check (decide (s.emptyRows = []))).check
    (decide (s.emptyCols = []))).asrt = true → Queued (((s.check (decide (s.stonRows = []))).check (decide (s.emptyRows = []))).check
    (decide (s.emptyCols = []))) := fun o => (f.keep o).2 c
  generalize ((s.check (decide (s.stonRows = []))).check (decide (s.emptyRows = []))).check
    (decide (s.emptyCols = [])) = t at *
  have hlive : live t < t.m + 1 := by
    have : live t ≤ t.m := (Finset.card_filter_le _ _).trans (by simp)
    omega
  have loop : (dtonLoop env (t.m + 1) t).asrt = true → Clean (dtonLoop env (t.m + 1) t) ∧ Queued (dtonLoop env (t.m + 1) t) := by
    intro o
    have g := dtonLoop_goodQ Mode.all env (t.m + 1) t (ok_all.mpr o)
    exact (g.2 hi ⟨⟨hcl, hlive⟩, hQ g.1.1⟩).2
  generalize dtonLoop env (t.m + 1) t = u at o loop ⊢
  split at o
  · rename_i h
    rw [if_pos h]; exact (loop o).2
  · rename_i h
    rw [if_neg h]
    obtain ⟨o', k⟩ := delCols_keep u o
    exact k (loop o').2

end Verif
