import Verif.Inv.ListedRun
import Verif.Props.EndToEnd

/-!
# The checks of the debugger follow from the invariants
-/

namespace Verif

variable {s : St}

/-- Two sorted lists of cells with the same elements are equal. -/
theorem sortedC_ext {a b : List Cell} (ha : SortedC a) (hb : SortedC b) (h : ∀ p, p ∈ a ↔ p ∈ b) : a = b := by
  induction a generalizing b with
  | nil =>
    cases b with
    | nil => rfl
    | cons q b => exact absurd ((h q).mpr List.mem_cons_self) (by simp)
  | cons p a ih =>
    cases b with
    | nil => exact absurd ((h p).mp List.mem_cons_self) (by simp)
    | cons q b =>
      obtain ⟨ha1, ha2⟩ := List.pairwise_cons.mp ha
      obtain ⟨hb1, hb2⟩ := List.pairwise_cons.mp hb
      have e : p = q := by
        rcases List.mem_cons.mp ((h p).mp List.mem_cons_self) with e | e
        · exact e
        rcases List.mem_cons.mp ((h q).mpr List.mem_cons_self) with e' | e'
        · exact e'.symm
        · have h1 := hb1 p e
          have h2 := ha1 q e'
          exact absurd (h1.trans h2) (lt_irrefl _)
      subst e
      congr 1
      refine ih ha2 hb2 (fun x => ⟨fun hx => ?_, fun hx => ?_⟩)
      · rcases List.mem_cons.mp ((h x).mp (List.mem_cons_of_mem _ hx)) with e | e
        · subst e; exact absurd (ha1 x hx) (lt_irrefl _)
        · exact e
      · rcases List.mem_cons.mp ((h x).mpr (List.mem_cons_of_mem _ hx)) with e | e
        · subst e; exact absurd (hb1 x hx) (lt_irrefl _)
        · exact e

theorem colCells_length (m : ℕ) (A : ℕ → List Cell) (k : ℕ) :
    ((colCells m A k).length : ℤ) = ∑ i ∈ Finset.range m, (((A i).filter (fun p => decide (p.1 = k))).length : ℤ) := by
  unfold colCells
  rw [List.length_flatMap, ← sum_range_eq]
  simp only [List.length_map]
  induction (List.range m) with
  | nil => rfl
  | cons a l ih => simp only [List.map_cons, List.sum_cons, Nat.cast_add, ih]

theorem row_split (n : ℕ) (l : List Cell) (h : ∀ p ∈ l, p.1 < n) :
    (l.length : ℤ) = ∑ k ∈ Finset.range n, ((l.filter (fun p => decide (p.1 = k))).length : ℤ) := by
  induction l with
  | nil => simp
  | cons p l ih =>
    have e : ∀ k, (((p :: l).filter (fun p => decide (p.1 = k))).length : ℤ) =
        (if k = p.1 then 1 else 0) + ((l.filter (fun p => decide (p.1 = k))).length : ℤ) := by
      intro k
      rw [List.filter_cons]
      by_cases hk : p.1 = k
      · rw [if_pos hk.symm, if_pos (decide_eq_true hk), List.length_cons]; push_cast; ring
      · rw [if_neg (c := k = p.1) (fun e => hk e.symm), if_neg (c := decide (p.1 = k) = true) (by simpa using hk), zero_add]
    rw [Finset.sum_congr rfl (fun k _ => e k), Finset.sum_add_distrib,
      Finset.sum_ite_eq' (Finset.range n) p.1 (fun _ => (1 : ℤ)),
      if_pos (Finset.mem_range.mpr (h p List.mem_cons_self)), ← ih (fun q hq => h q (List.mem_cons_of_mem _ hq)),
      List.length_cons]
    push_cast; ring

theorem Consistent.transpose (h : Consistent s) (g : GI s) (k : ℕ) : s.AT k = colCells s.m s.A k := by
  refine sortedC_ext (g.colSorted k) (colCells_sorted g.rowSorted k) ?_
  rintro ⟨i, v⟩
  rw [mem_colCells, ← h.agree]
  exact ⟨fun hm => ⟨(h.nonzero i k v hm).1, hm⟩, fun hm => hm.2⟩

theorem Consistent.nnzCols (h : Consistent s) (g : GI s) :
    s.nnz = ∑ k ∈ Finset.range s.n, ((s.AT k).length : ℤ) := by
  rw [h.nnzRows]
  have e : ∀ k, ((s.AT k).length : ℤ) =
      ∑ i ∈ Finset.range s.m, (((s.A i).filter (fun p => decide (p.1 = k))).length : ℤ) := by
    intro k; rw [h.transpose g k, colCells_length]
  rw [Finset.sum_congr rfl (fun k _ => e k), Finset.sum_comm]
  exact Finset.sum_congr rfl (fun i _ => row_split s.n (s.A i) (fun p hp => (h.nonzero i p.1 p.2 hp).2.1))

theorem all_range {n : ℕ} {f : ℕ → Bool} (h : ∀ i, f i = true) : (List.range n).all f = true :=
  List.all_eq_true.mpr (fun i _ => h i)

theorem debug_sizes (h : Consistent s) : verifySizes s = true := by
  unfold verifySizes
  rw [Bool.and_eq_true]
  constructor <;> refine all_range (fun i => ?_)
  · cases hi : (s.rtag i).inactive with
    | true =>
      obtain ⟨h1, h2⟩ := h.rowGone i hi
      simp [h1, h2]
    | false =>
      have h1 := h.rowSize i hi
      simp [h1]
  · cases hi : (s.ctag i).inactive with
    | true =>
      obtain ⟨h1, h2⟩ := h.colGone i hi
      simp [h1, h2]
    | false =>
      have h1 := h.colSize i hi
      simp [h1]

theorem csr_ok {m : ℕ} {A : ℕ → List Cell} {nnz : ℤ} (hs : ∀ i, SortedC (A i)) (hz : ∀ i, ∀ p ∈ A i, p.2 ≠ 0)
    (hn : nnz = ∑ i ∈ Finset.range m, ((A i).length : ℤ)) : verifyCsr m A nnz = true := by
  unfold verifyCsr
  rw [Bool.and_eq_true]
  refine ⟨all_range (fun i => ?_), decide_eq_true ?_⟩
  · rw [Bool.and_eq_true]
    refine ⟨decide_eq_true ?_, List.all_eq_true.mpr (fun p hp => decide_eq_true (hz i p hp))⟩
    exact hs i
  · rw [sum_range_eq, hn]

theorem debug_matrices (h : Consistent s) (g : GI s) : verifyMatrices s = true := by
  unfold verifyMatrices
  simp only [Bool.and_eq_true]
  refine ⟨⟨⟨⟨?_, ?_⟩, ?_⟩, ?_⟩, ?_⟩
  · exact csr_ok g.rowSorted (fun i p hp => (g.rowRange i p hp).2.2) h.nnzRows
  · exact csr_ok g.colSorted (fun k p hp => (g.colRange k p hp).2.2) (h.nnzCols g)
  · exact all_range (fun k => decide_eq_true (h.transpose g k))
  · refine all_range (fun i => List.all_eq_true.mpr (fun p hp => ?_))
    rw [Bool.not_eq_true']
    by_contra hc
    have hc : (s.ctag p.1).inactive = true := by simpa using hc
    have := (h.agree i p.1 p.2).mp hp
    rw [(h.colGone p.1 hc).1] at this; cases this
  · refine all_range (fun k => List.all_eq_true.mpr (fun p hp => ?_))
    rw [Bool.not_eq_true']
    by_contra hc
    have hc : (s.rtag p.1).inactive = true := by simpa using hc
    have := (h.agree p.1 k p.2).mpr hp
    rw [(h.rowGone p.1 hc).1] at this; cases this

theorem debug_locks (g : GI s) : verifyLocks s = true := by
  unfold verifyLocks
  refine all_range (fun k => ?_)
  cases hk : (s.ctag k).inactive with
  | true => rfl
  | false =>
    rw [Bool.false_or]
    refine decide_eq_true ?_
    rw [g.locks k hk, countLocks_eq]
    unfold debugLocks
    have hz : ∀ p ∈ s.AT k, p.2 ≠ 0 := fun p hp => (g.colRange k p hp).2.2
    generalize s.AT k = l at hz
    have key : ∀ (f : Cell → ℤ) (b : Cell → Bool), (∀ p ∈ l, f p = if b p then 1 else 0) →
        (l.map f).sum = ((l.filter b).length : ℤ) := by
      intro f b hf
      clear hz
      induction l with
      | nil => rfl
      | cons p l ih =>
        rw [List.map_cons, List.sum_cons, ih (fun q hq => hf q (List.mem_cons_of_mem _ hq)), List.filter_cons,
          hf p List.mem_cons_self]
        cases b p with
        | true => simp only [if_true, List.length_cons]; push_cast; ring
        | false => simp
    rw [Prod.mk.injEq]
    constructor <;> refine key _ _ (fun p hp => ?_) <;> unfold lockOf
    · rcases lt_or_gt_of_ne (hz p hp) with e | e
      · rw [if_neg (not_lt.mpr e.le)]
        simp only [not_lt.mpr e.le, e, decide_false, decide_true, Bool.false_and, Bool.true_and, Bool.false_or]
        cases (s.rtag p.1).lhsInf <;> rfl
      · rw [if_pos e]
        simp only [not_lt.mpr e.le, e, decide_false, decide_true, Bool.false_and, Bool.true_and, Bool.or_false]
        cases (s.rtag p.1).rhsInf <;> rfl
    · rcases lt_or_gt_of_ne (hz p hp) with e | e
      · rw [if_neg (not_lt.mpr e.le)]
        simp only [not_lt.mpr e.le, e, decide_false, decide_true, Bool.false_and, Bool.true_and, Bool.false_or]
        cases (s.rtag p.1).rhsInf <;> rfl
      · rw [if_pos e]
        simp only [not_lt.mpr e.le, e, decide_false, decide_true, Bool.false_and, Bool.true_and, Bool.or_false]
        cases (s.rtag p.1).lhsInf <;> rfl

theorem Consistent.rowCases (h : Consistent s) (i : ℕ) :
    ((s.rtag i).inactive = true ∧ s.A i = [] ∧ s.rowSize i = -1) ∨
    ((s.rtag i).inactive = false ∧ s.rowSize i = (s.A i).length) := by
  cases hi : (s.rtag i).inactive with
  | true => exact .inl ⟨rfl, h.rowGone i hi⟩
  | false => exact .inr ⟨rfl, h.rowSize i hi⟩

theorem Consistent.colCases (h : Consistent s) (k : ℕ) :
    ((s.ctag k).inactive = true ∧ s.AT k = [] ∧ s.colSize k = -1) ∨
    ((s.ctag k).inactive = false ∧ s.colSize k = (s.AT k).length) := by
  cases hk : (s.ctag k).inactive with
  | true => exact .inl ⟨rfl, h.colGone k hk⟩
  | false => exact .inr ⟨rfl, h.colSize k hk⟩

theorem debug_dton (h : Consistent s) (i : Inv s) (q : Queued s) : verifyDtonRows s = true := by
  unfold verifyDtonRows
  rw [Bool.and_eq_true]
  refine ⟨List.all_eq_true.mpr (fun r hr => ?_), all_range (fun r => ?_)⟩
  · have hl := i.dton r hr
    have hm := q.dtonMem r hr
    rcases h.rowCases r with ⟨h1, h2, h3⟩ | ⟨h1, h2⟩
    · rw [h1, h3]; simp
    · rw [h1] at hm ⊢
      rw [h2]
      rcases hm with e | e | e
      · rw [e]; simp [hl]
      · cases e
      · have e2 : ((s.A r).length : ℤ) < 2 := by omega
        simp [hl, e2]
  · rcases h.rowCases r with ⟨h1, h2, h3⟩ | ⟨h1, h2⟩
    · rw [h3]; rfl
    · cases he : (s.rtag r).eq with
      | false => simp
      | true =>
        by_cases hl : (s.A r).length = 2
        · simp [q.dton r h1 hl he]
        · have : ¬ s.rowSize r = 2 := by rw [h2]; omega
          simp [this]

theorem debug_stonCols (h : Consistent s) (q : Queued s) : verifyStonCols s = true := by
  unfold verifyStonCols
  rw [Bool.and_eq_true]
  refine ⟨List.all_eq_true.mpr (fun k hk => decide_eq_true ?_), all_range (fun k => ?_)⟩
  · have := q.colMem k hk
    rcases h.colCases k with ⟨_, h2, h3⟩ | ⟨_, h2⟩
    · rw [h3]; omega
    · rw [h2]; omega
  · rcases h.colCases k with ⟨_, h2, h3⟩ | ⟨h1, h2⟩
    · rw [h3]; rfl
    · by_cases hl : (s.AT k).length = 1
      · simp [q.col k h1 hl]
      · have : ¬ s.colSize k = 1 := by rw [h2]; omega
        simp [this]

/-- The listed indices have the given size, and no other has. -/
theorem listed_ok {n : ℕ} {size : ℕ → ℤ} {v : ℤ} {l : List ℕ} (h1 : ∀ i ∈ l, size i = v)
    (h2 : ∀ i, i < n → size i = v → i ∈ l) : verifyListed n size v l = true := by
  unfold verifyListed
  rw [Bool.and_eq_true]
  refine ⟨List.all_eq_true.mpr (fun i hi => decide_eq_true (h1 i hi)), List.all_eq_true.mpr (fun i hi => ?_)⟩
  by_cases e : size i = v
  · simp [h2 i (List.mem_range.mp hi) e]
  · simp [e]

/-- Every remaining row with one cell is listed. -/
theorem ston_listed (h : Consistent s) (q : Queued s) {i : ℕ} (e : s.rowSize i = 1) : i ∈ s.stonRows := by
  rcases h.rowCases i with ⟨_, _, h3⟩ | ⟨h1, h2⟩
  · rw [h3] at e; cases e
  · have hl : (s.A i).length = 1 := by omega
    obtain ⟨p, hp⟩ := List.length_eq_one_iff.mp hl
    refine q.ston i p h1 hp ?_
    by_contra hc
    have hc : (s.ctag p.1).inactive = true := by simpa using hc
    have := (h.agree i p.1 p.2).mp (by rw [hp]; exact List.mem_singleton_self p)
    rw [(h.colGone p.1 hc).1] at this; cases this

theorem emptyRow_listed (h : Consistent s) (e : Em s) {i : ℕ} (hi : i < s.m) (e0 : s.rowSize i = 0) : i ∈ s.emptyRows := by
  rcases h.rowCases i with ⟨_, _, h3⟩ | ⟨h1, h2⟩
  · rw [h3] at e0; cases e0
  · exact e.1 i hi h1 (List.length_eq_zero_iff.mp (by omega))

theorem emptyCol_listed (h : Consistent s) (e : Em s) {k : ℕ} (hk : k < s.n) (e0 : s.colSize k = 0) : k ∈ s.emptyCols := by
  rcases h.colCases k with ⟨_, _, h3⟩ | ⟨h1, h2⟩
  · rw [h3] at e0; cases e0
  · exact e.2 k hk h1 (List.length_eq_zero_iff.mp (by omega))

theorem debug_tags (h : TagOK s) : verifyRowTags s = true := by
  unfold verifyRowTags
  refine all_range (fun i => ?_)
  have := h i
  generalize s.rtag i = t at this ⊢
  generalize s.lhs i = l at this ⊢
  generalize s.rhs i = r at this ⊢
  obtain ⟨h1, h2, h3, h4, h5⟩ := this
  obtain ⟨a, b, e, d⟩ := t
  cases a <;> cases b <;> cases e <;> cases d <;> cases l <;> cases r <;>
    simp_all [D.eqb, D.isInf]

/-- All checks, for a state in which the listed rows and columns have the sizes they are listed for. -/
theorem debug_ok (i : Inv s) (c : CQ s) (hu : UpdOK s) (ht : TagOK s) (hst : ∀ i ∈ s.stonRows, s.rowSize i = 1) (hnd : s.stonRows.Nodup)
    (her : ∀ i ∈ s.emptyRows, s.rowSize i = 0) (hec : ∀ k ∈ s.emptyCols, s.colSize k = 0)
    {fin : Bool} (hf : fin = true → TE s) : runDebugger s fin = true := by
  have h := i.gi.consistent c.1.1
  unfold runDebugger
  simp only [Bool.and_eq_true]
  refine ⟨⟨⟨⟨⟨⟨⟨⟨⟨⟨debug_sizes h, ?_⟩, ?_⟩, debug_dton h i c.2⟩, ?_⟩, debug_stonCols h c.2⟩, ?_⟩,
    debug_matrices h i.gi⟩, debug_locks i.gi⟩, debug_tags ht⟩, ?_⟩
  · exact listed_ok her (fun r hr => emptyRow_listed h c.1.2 hr)
  · exact listed_ok hst (fun r _ => ston_listed h c.2)
  · exact listed_ok hec (fun k hk => emptyCol_listed h c.1.2 hk)
  · obtain ⟨c1, c2, c3⟩ := c.1.1
    unfold verifyNoDuplicates
    rw [c1, c2, c3]
    simp [c.2.dtonNodup, hnd, hu.nodup]
  · cases fin with
    | false => rfl
    | true =>
      obtain ⟨c1, c2, c3⟩ := c.1.1
      have e := hf rfl
      unfold verifyFinished
      rw [c1, c2, c3, e.row, e.col]; rfl

theorem debug_te (i : Inv s) (c : CQ s) (hu : UpdOK s) (ht : TagOK s) (e : TE s) (fin : Bool) : runDebugger s fin = true := by
  refine debug_ok i c hu ht ?_ ?_ ?_ ?_ (fun _ => e)
  · rw [e.ston]; intro i hi; cases hi
  · rw [e.ston]; exact List.nodup_nil
  · rw [e.row]; intro i hi; cases hi
  · rw [e.col]; intro i hi; cases hi

theorem debug_init {P : LP} (hP : P.Valid) (hS : P.Sides) : runDebugger (initSt P) false = true := by
  have i := initSt_inv hP
  have c := initSt_cq hP
  refine debug_ok i c (initSt_updOK P) (initSt_tagOK hS) ?_ ?_ ?_ ?_ (fun e => by cases e)
  · intro r hr
    have hr : r ∈ (List.range P.m).filter (fun i => decide ((P.A i).length = 1)) := hr
    rw [List.mem_filter, List.mem_range, decide_eq_true_iff] at hr
    rcases initSt_rowSize hP r with e | e
    · rw [e.2.1]; show ((P.A r).length : ℤ) = 1; rw [hr.2]; rfl
    · exact absurd hr.1 e.1
  · exact List.nodup_range.filter _
  · intro r hr
    have hr : r ∈ (List.range P.m).filter (fun i => decide ((P.A i).length = 0)) := hr
    rw [List.mem_filter, List.mem_range, decide_eq_true_iff] at hr
    rcases initSt_rowSize hP r with e | e
    · rw [e.2.1]; show ((P.A r).length : ℤ) = 0; rw [hr.2]; rfl
    · exact absurd hr.1 e.1
  · intro k hk
    have hk : k ∈ (List.range P.n).filter (fun k => decide ((colCells P.m P.A k).length = 0)) := hk
    rw [List.mem_filter, List.mem_range, decide_eq_true_iff] at hk
    rcases initSt_colSize hP k with e | e
    · rw [e.2.1]; show ((colCells P.m P.A k).length : ℤ) = 0; rw [hk.2]; rfl
    · exact absurd hk.1 e.1

end Verif
