import Verif.Inv.Init

/-!
# C20: deleting pending rows and columns keeps `A` and its transpose in agreement

`deleteInactiveRows` and then `deleteInactiveCols` carry out the pending deletions.  The hypothesis
`GI s` is the structural invariant of `Verif.Inv.Basic`; `C20_any_marking` shows that it holds for
every matrix and every choice of rows and columns to delete, and `C20_reachable`
(`Verif.Props.EndToEnd`) that it holds whenever presolve gets there.
-/

namespace Verif

/-- Both pending deletions, as `delete_inactive_rows` followed by
`delete_inactive_cols_from_A_and_AT`. -/
def deletePending (s : St) : St := deleteInactiveCols (deleteInactiveRows s)

theorem mem_offRows {L : List ℕ} {l : List Cell} {p : Cell} : p ∈ offRows L l ↔ p ∈ l ∧ p.1 ∉ L := by
  simp [offRows]

theorem mem_offCols {L : List ℕ} {l : List Cell} {p : Cell} : p ∈ offCols L l ↔ p ∈ l ∧ p.1 ∉ L := by
  simp [offCols]

/-- A list of cells without the cells of the indices in `L`, in the same order. -/
def Keeps (bad : ℕ → Prop) (l l' : List Cell) : Prop :=
  l'.Sublist l ∧ ∀ p, p ∈ l' ↔ p ∈ l ∧ ¬ bad p.1

/-- **C20.**  After the pending deletions the rows and columns represent the same matrix; every
row consists of exactly the old cells of columns that are not inactive, in the old order, and rows
that are inactive are empty; the same for columns; nothing of an inactive row or column is left;
sizes are the numbers of entries (`-1` for inactive rows and columns) and `nnz` is the number of
entries of either copy; nothing else changes but locks, work lists and the pending lists. -/
theorem C20_delete {s : St} (g : GI s) :
    (∀ i k v, (k, v) ∈ (deletePending s).A i ↔ (i, v) ∈ (deletePending s).AT k) ∧
    (∀ i, (s.rtag i).inactive = true → (deletePending s).A i = [] ∧ (deletePending s).rowSize i = -1) ∧
    (∀ k, (s.ctag k).inactive = true → (deletePending s).AT k = [] ∧ (deletePending s).colSize k = -1) ∧
    (∀ i, (s.rtag i).inactive = false →
      Keeps (fun k => (s.ctag k).inactive = true) (s.A i) ((deletePending s).A i) ∧
      (deletePending s).rowSize i = ((deletePending s).A i).length) ∧
    (∀ k, (s.ctag k).inactive = false →
      Keeps (fun i => (s.rtag i).inactive = true) (s.AT k) ((deletePending s).AT k) ∧
      (deletePending s).colSize k = ((deletePending s).AT k).length) ∧
    (deletePending s).nnz = ∑ i ∈ Finset.range s.m, (((deletePending s).A i).length : ℤ) ∧
    (deletePending s).nnz = ∑ k ∈ Finset.range s.n, (((deletePending s).AT k).length : ℤ) ∧
    (deletePending s).rowsToDelete = [] ∧ (deletePending s).fixedCols = [] ∧
    (deletePending s).subCols = [] ∧
    deletePending s = { s with
      A := (deletePending s).A, AT := (deletePending s).AT, rowSize := (deletePending s).rowSize,
      colSize := (deletePending s).colSize, up := (deletePending s).up,
      down := (deletePending s).down, nnz := (deletePending s).nnz, rowsToDelete := [],
      fixedCols := [], subCols := [], emptyRows := (deletePending s).emptyRows,
      stonRows := (deletePending s).stonRows, dtonRows := (deletePending s).dtonRows,
      emptyCols := (deletePending s).emptyCols, stonCols := (deletePending s).stonCols,
      asrt := (deletePending s).asrt } := by
  have hr := deleteInactiveRows_deleted g
  have hrd : (deleteInactiveRows s).rowsToDelete = [] := by rw [hr.eq]
  have hc := deleteInactiveCols_deleted hr.gi hrd
  unfold deletePending
  generalize deleteInactiveRows s = t at hr hc hrd
  generalize deleteInactiveCols t = u at hc
  have ert : t.rtag = s.rtag := by rw [hr.eq]
  have ect : t.ctag = s.ctag := by rw [hr.eq]
  have efc : t.fixedCols = s.fixedCols := by rw [hr.eq]
  have esc : t.subCols = s.subCols := by rw [hr.eq]
  have urt : u.rtag = s.rtag := by rw [hc.eq]; exact ert
  have uct : u.ctag = s.ctag := by rw [hc.eq]; exact ect
  have um : u.m = s.m := by rw [hc.eq]; show t.m = s.m; rw [hr.eq]
  have un : u.n = s.n := by rw [hc.eq]; show t.n = s.n; rw [hr.eq]
  have urd : u.rowsToDelete = [] := by rw [hc.eq]; exact hrd
  have ufc : u.fixedCols = [] := by rw [hc.eq]
  have usc : u.subCols = [] := by rw [hc.eq]
  have gu := hc.gi
  have hrows : ∀ i, (s.rtag i).inactive = true → u.A i = [] ∧ u.rowSize i = -1 := by
    intro i hi
    by_contra hcon
    have hne : u.rowSize i ≠ -1 := by
      intro e; exact hcon ⟨(gu.rowGone i e).1, e⟩
    have := gu.rowPend i (by rw [urt]; exact hi) hne
    rw [urd] at this; cases this
  have hcols : ∀ k, (s.ctag k).inactive = true → u.AT k = [] ∧ u.colSize k = -1 := by
    intro k hk
    by_contra hcon
    have hne : u.colSize k ≠ -1 := by
      intro e; exact hcon ⟨(gu.colGone k e).1, e⟩
    have := gu.colPendIn k (by rw [uct]; exact hk) hne
    rw [ufc, usc] at this; cases this
  have hrows' : ∀ i, (s.rtag i).inactive = false → u.rowSize i ≠ -1 :=
    fun i hi => gu.rowActive (by rw [urt]; exact hi)
  have hcols' : ∀ k, (s.ctag k).inactive = false → u.colSize k ≠ -1 :=
    fun k hk => gu.colActive (by rw [uct]; exact hk)
  have hagree : ∀ i k v, (k, v) ∈ u.A i ↔ (i, v) ∈ u.AT k := by
    intro i k v
    by_cases hi : u.rowSize i = -1
    · rw [(gu.rowGone i hi).1]
      refine ⟨fun h => by simp at h, fun h => ?_⟩
      cases hk : (s.ctag k).inactive with
      | true => rw [(hcols k hk).1] at h; cases h
      | false => exact absurd hi (gu.colIn k (by rw [uct]; exact hk) _ h)
    · by_cases hk : u.colSize k = -1
      · rw [(gu.colGone k hk).1]
        refine ⟨fun h => ?_, fun h => by simp at h⟩
        cases hii : (s.rtag i).inactive with
        | true => rw [(hrows i hii).1] at h; cases h
        | false => exact absurd hk (gu.rowIn i (by rw [urt]; exact hii) _ h)
      · exact gu.agree i k v hi hk
  refine ⟨hagree, hrows, hcols, ?_, ?_, ?_, ?_, urd, ufc, usc, ?_⟩
  · intro i hi
    refine ⟨⟨?_, fun p => ?_⟩, gu.rowSz i (hrows' i hi)⟩
    · rw [hc.A, hr.A, if_neg (g.rowNotDel hi)]; exact List.filter_sublist
    · rw [hc.A, hr.A, if_neg (g.rowNotDel hi), mem_offCols, efc, esc]
      constructor
      · rintro ⟨h1, h2⟩
        exact ⟨h1, fun hk => h2 (g.colPendIn p.1 hk (g.rowIn i hi p h1))⟩
      · rintro ⟨h1, h2⟩
        exact ⟨h1, fun hk => h2 (g.colsDel p.1 hk).1⟩
  · intro k hk
    have e : u.AT k = offRows s.rowsToDelete (s.AT k) := by
      rw [hc.AT, if_neg (by rw [efc, esc]; exact g.colNotDel hk), hr.AT k hk]
    refine ⟨⟨?_, fun p => ?_⟩, gu.colSz k (by rw [uct]; exact hk)⟩
    · rw [e]; exact List.filter_sublist
    · rw [e, mem_offRows]
      constructor
      · rintro ⟨h1, h2⟩
        exact ⟨h1, fun hi => h2 (g.rowPend p.1 hi (g.colIn k hk p h1))⟩
      · rintro ⟨h1, h2⟩
        exact ⟨h1, fun hi => h2 (g.rowsDel p.1 hi).1⟩
  · rw [gu.nnz, um]
  · rw [gu.nnz, um]
    have h1 : ∀ i, ((u.A i).length : ℤ) =
        ∑ k ∈ Finset.range s.n, (((u.A i).filter (fun p => decide (p.1 = k))).length : ℤ) := by
      intro i
      have hb : ∀ p ∈ u.A i, p.1 < s.n := fun p hp => by
        have := (gu.rowRange i p hp).2.1; rwa [un] at this
      revert hb
      generalize u.A i = l
      induction l with
      | nil => intro _; simp
      | cons p l ih =>
        intro hb
        have hp := hb p List.mem_cons_self
        have e : ∀ k, ((p :: l).filter (fun p => decide (p.1 = k))).length =
            (if p.1 = k then 1 else 0) + (l.filter (fun p => decide (p.1 = k))).length := by
          intro k
          rw [List.filter_cons]
          by_cases e : p.1 = k
          · simp [e, Nat.add_comm]
          · simp [e]
        simp only [e]
        push_cast
        rw [Finset.sum_add_distrib, ← ih (fun q hq => hb q (List.mem_cons_of_mem _ hq))]
        rw [Finset.sum_ite_eq]
        simp [hp, Int.add_comm]
    have h2 : ∀ k, ((u.AT k).length : ℤ) =
        ∑ i ∈ Finset.range s.m, (((u.AT k).filter (fun p => decide (p.1 = i))).length : ℤ) := by
      intro k
      have hb : ∀ p ∈ u.AT k, p.1 < s.m := fun p hp => by
        have := (gu.colRange k p hp).2.1; rwa [um] at this
      revert hb
      generalize u.AT k = l
      induction l with
      | nil => intro _; simp
      | cons p l ih =>
        intro hb
        have hp := hb p List.mem_cons_self
        have e : ∀ k, ((p :: l).filter (fun p => decide (p.1 = k))).length =
            (if p.1 = k then 1 else 0) + (l.filter (fun p => decide (p.1 = k))).length := by
          intro k
          rw [List.filter_cons]
          by_cases e : p.1 = k
          · simp [e, Nat.add_comm]
          · simp [e]
        simp only [e]
        push_cast
        rw [Finset.sum_add_distrib, ← ih (fun q hq => hb q (List.mem_cons_of_mem _ hq))]
        rw [Finset.sum_ite_eq]
        simp [hp, Int.add_comm]
    simp only [h1, h2]
    rw [Finset.sum_comm]
    refine Finset.sum_congr rfl (fun k _ => Finset.sum_congr rfl (fun i _ => ?_))
    -- both copies have at most one entry at this place, and the same one
    have hA : ∀ v, (k, v) ∈ u.A i → ((u.A i).filter (fun p => decide (p.1 = k))).length = 1 := by
      intro v hv
      have := mids_of_mem (gu.rowSorted i) hv
      unfold mids at this
      rw [this]; rfl
    have hT : ∀ v, (i, v) ∈ u.AT k → ((u.AT k).filter (fun p => decide (p.1 = i))).length = 1 := by
      intro v hv
      have := mids_of_mem (gu.colSorted k) hv
      unfold mids at this
      rw [this]; rfl
    by_cases hh : ∃ v, (k, v) ∈ u.A i
    · obtain ⟨v, hv⟩ := hh
      rw [hA v hv, hT v ((hagree i k v).mp hv)]
    · have e1 : (u.A i).filter (fun p => decide (p.1 = k)) = [] := by
        rw [List.filter_eq_nil_iff]
        intro p hp hpk
        rw [decide_eq_true_eq] at hpk
        exact hh ⟨p.2, by rw [← hpk]; exact hp⟩
      have e2 : (u.AT k).filter (fun p => decide (p.1 = i)) = [] := by
        rw [List.filter_eq_nil_iff]
        intro p hp hpi
        rw [decide_eq_true_eq] at hpi
        exact hh ⟨p.2, (hagree i k p.2).mpr (by rw [← hpi]; exact hp)⟩
      rw [e1, e2]
  · rw [hc.eq, hr.eq]

/-- A freshly built state with the rows `R` and the columns `F` (fixed) and `S` (substituted)
marked for deletion. -/
def markAll (P : LP) (R F S : List ℕ) : St :=
  { initSt P with
    rtag := fun i => if i ∈ R then { (initSt P).rtag i with inactive := true } else (initSt P).rtag i
    ctag := fun k => if k ∈ F then { (initSt P).ctag k with fixed := true }
      else if k ∈ S then { (initSt P).ctag k with subst := true } else (initSt P).ctag k
    rowsToDelete := R
    fixedCols := F
    subCols := S }

theorem markCols_gi (F S : List ℕ) {s : St} (g : GI s)
    (hF : ∀ k ∈ F ++ S, (s.ctag k).inactive = false) (hnd : (F ++ S).Nodup) :
    GI { s with
      ctag := fun k => if k ∈ F then { s.ctag k with fixed := true }
        else if k ∈ S then { s.ctag k with subst := true } else s.ctag k
      fixedCols := s.fixedCols ++ F
      subCols := s.subCols ++ S } := by
  induction F generalizing s with
  | nil =>
    induction S generalizing s with
    | nil =>
      exact g.of_eq rfl rfl rfl rfl rfl (fun _ => by simp) rfl rfl rfl rfl rfl (by simp) (by simp) rfl
    | cons k S ih =>
      simp only [List.nil_append] at hF hnd
      rw [List.nodup_cons] at hnd
      have g1 := g.markCol (hF k List.mem_cons_self) { s.ctag k with subst := true }
        (CTag.inactive_subst _) s.fixedCols (s.subCols ++ [k]) (by
          rw [← List.append_assoc]; exact List.perm_append_comm)
      have g2 := ih g1 (fun j hj => by
        have hj : j ∈ S := hj
        have : j ≠ k := by rintro rfl; exact hnd.1 hj
        show (upd s.ctag k _ j).inactive = false
        rw [upd_ne _ _ this]; exact hF j (List.mem_cons_of_mem _ hj)) hnd.2
      refine g2.of_eq rfl rfl rfl rfl rfl (fun j => ?_) rfl rfl rfl rfl rfl rfl (by simp) rfl
      simp only [List.mem_cons, List.not_mem_nil, if_false]
      by_cases e : j = k
      · subst e; simp [hnd.1, CTag.inactive_subst]
      · simp [e]
  | cons k F ih =>
    rw [List.cons_append, List.nodup_cons] at hnd
    have g1 := g.markCol (hF k List.mem_cons_self) { s.ctag k with fixed := true }
      rfl (s.fixedCols ++ [k]) s.subCols (by
        rw [List.append_assoc]; exact List.perm_middle)
    have g2 := ih g1 (fun j hj => by
      have : j ≠ k := by rintro rfl; exact hnd.1 hj
      show (upd s.ctag k _ j).inactive = false
      rw [upd_ne _ _ this]; exact hF j (List.mem_cons_of_mem _ hj)) hnd.2
    refine g2.of_eq rfl rfl rfl rfl rfl (fun j => ?_) rfl rfl rfl rfl rfl (by simp) rfl rfl
    simp only [List.mem_cons]
    rw [List.mem_append, not_or] at hnd
    by_cases e : j = k
    · subst e; simp [hnd.1.1, hnd.1.2, CTag.inactive]
    · simp [e]

/-- The hypothesis of `C20_delete` holds for every matrix and every set of rows and columns marked
for deletion. -/
theorem C20_any_marking {P : LP} (h : P.Valid) {R F S : List ℕ} (hR : R.Nodup) (hC : (F ++ S).Nodup)
    (hRm : ∀ i ∈ R, i < P.m) (hCn : ∀ k ∈ F ++ S, k < P.n) : GI (markAll P R F S) := by
  have g1 := markRows_gi R hR (initSt_gi h) (fun i hi => by
    rcases initSt_rowSize h i with e | e
    · exact e.2.2
    · exact absurd (hRm i hi) e.1)
  have g2 := markCols_gi F S g1 (fun k hk => by
    rcases initSt_colSize h k with e | e
    · exact e.2.2
    · exact absurd (hCn k hk) e.1) hC
  exact g2.of_eq rfl rfl rfl rfl rfl (fun _ => rfl) rfl rfl rfl rfl rfl rfl rfl rfl

/-- A matrix with three rows and three columns; row 1 and column 0 are to go. -/
def exDel : LP :=
  { m := 3, n := 3
    A := fun i => if i = 0 then [(0, 1), (2, 2)] else if i = 1 then [(0, 3), (1, 4)]
      else if i = 2 then [(1, -1), (2, 5)] else []
    lhs := fun _ => .ninf, rhs := fun _ => .fin 1, lb := fun _ => .fin 0, ub := fun _ => .pinf
    c := fun _ => 1 }

theorem exDel_valid : exDel.Valid := by
  constructor
  · intro i
    show SortedC (if i = 0 then [(0, 1), (2, 2)] else if i = 1 then [(0, 3), (1, 4)]
      else if i = 2 then [(1, -1), (2, 5)] else [])
    split_ifs <;> simp [SortedC]
  · intro i p hp
    have hp : p ∈ (if i = 0 then [(0, 1), (2, 2)] else if i = 1 then [(0, 3), (1, 4)]
      else if i = 2 then [(1, -1), (2, 5)] else [] : List Cell) := hp
    show i < 3 ∧ p.1 < 3 ∧ p.2 ≠ 0
    split_ifs at hp with h1 h2 h3 <;> simp at hp <;> rcases hp with rfl | rfl <;> refine ⟨by omega, by norm_num, by norm_num⟩

example : GI (markAll exDel [1] [0] []) ∧
    ((deletePending (markAll exDel [1] [0] [])).A 0, (deletePending (markAll exDel [1] [0] [])).A 1,
      (deletePending (markAll exDel [1] [0] [])).A 2, (deletePending (markAll exDel [1] [0] [])).nnz) =
    ([(2, 2)], [], [(1, -1), (2, 5)], 3) :=
  ⟨C20_any_marking exDel_valid (by simp) (by simp) (by simp [exDel]) (by simp [exDel]), by decide +kernel⟩

end Verif
