import Verif.Inv.StepGi
import Verif.Model.Driver
import Mathlib.Algebra.BigOperators.Group.Finset.Basic

/-!
# The structural invariant holds when presolve starts
-/

namespace Verif

/-- What `new_presolver` expects of the matrix (`/repo/include/PSLP/PSLP_API.h:120-160`): rows in
strictly increasing column order, column indices in range, no stored zeros, `m` rows. -/
structure LP.Valid (P : LP) : Prop where
  sorted : ∀ i, SortedC (P.A i)
  range : ∀ i, ∀ p ∈ P.A i, i < P.m ∧ p.1 < P.n ∧ p.2 ≠ 0

theorem mem_colCells {m : ℕ} {A : ℕ → List Cell} {i k : ℕ} {v : ℚ} :
    (i, v) ∈ colCells m A k ↔ i < m ∧ (k, v) ∈ A i := by
  unfold colCells
  simp only [List.mem_flatMap, List.mem_range, List.mem_map, List.mem_filter, decide_eq_true_eq,
    Prod.mk.injEq, Prod.exists]
  constructor
  · rintro ⟨r, hr, a, b, ⟨h1, h2⟩, h3, h4⟩
    subst h2 h3 h4
    exact ⟨hr, h1⟩
  · rintro ⟨h1, h2⟩
    exact ⟨i, h1, k, v, ⟨h2, rfl⟩, rfl, rfl⟩

theorem colCells_sorted {m : ℕ} {A : ℕ → List Cell} (h : ∀ i, SortedC (A i)) (k : ℕ) :
    SortedC (colCells m A k) := by
  unfold SortedC colCells
  rw [List.pairwise_flatMap]
  constructor
  · intro i _
    rw [List.pairwise_map]
    refine List.Pairwise.imp_of_mem ?_ ((h i).filter (fun p => decide (p.1 = k)))
    intro a b ha hb hab
    have h1 : a.1 = k := by simpa using (List.mem_filter.mp ha).2
    have h2 : b.1 = k := by simpa using (List.mem_filter.mp hb).2
    omega
  · refine List.Pairwise.imp ?_ (List.pairwise_lt_range)
    intro a b hab x hx y hy
    obtain ⟨p, _, rfl⟩ := List.mem_map.mp hx
    obtain ⟨q, _, rfl⟩ := List.mem_map.mp hy
    exact hab

theorem sum_range_eq (f : ℕ → ℤ) (m : ℕ) :
    ((List.range m).map f).sum = ∑ i ∈ Finset.range m, f i := by
  induction m with
  | zero => rfl
  | succ m ih => rw [List.range_succ, List.map_append, List.sum_append, ih, Finset.sum_range_succ]; simp

theorem initSt_rowSize {P : LP} (h : P.Valid) (i : ℕ) :
    (i < P.m ∧ (initSt P).rowSize i = (((initSt P).A i).length : ℤ) ∧ ((initSt P).rtag i).inactive = false) ∨
    (¬ i < P.m ∧ (initSt P).rowSize i = -1 ∧ (initSt P).A i = [] ∧ ((initSt P).rtag i).inactive = true) := by
  unfold initSt
  simp only
  by_cases hi : i < P.m
  · simp only [hi, if_true]; exact .inl ⟨trivial, trivial, rfl⟩
  · simp only [hi, if_false]
    refine .inr ⟨not_false, trivial, ?_, trivial⟩
    rw [List.eq_nil_iff_forall_not_mem]
    exact fun p hp => hi (h.range i p hp).1

theorem initSt_colSize {P : LP} (h : P.Valid) (k : ℕ) :
    (k < P.n ∧ (initSt P).colSize k = (((initSt P).AT k).length : ℤ) ∧ ((initSt P).ctag k).inactive = false) ∨
    (¬ k < P.n ∧ (initSt P).colSize k = -1 ∧ (initSt P).AT k = [] ∧ ((initSt P).ctag k).inactive = true) := by
  unfold initSt
  simp only
  by_cases hk : k < P.n
  · simp only [hk, if_true]; exact .inl ⟨trivial, trivial, rfl⟩
  · simp only [hk, if_false]
    refine .inr ⟨not_false, trivial, ?_, rfl⟩
    rw [List.eq_nil_iff_forall_not_mem]
    rintro ⟨i, v⟩ hp
    exact hk (h.range i _ (mem_colCells.mp hp).2).2.1

theorem initSt_gi {P : LP} (h : P.Valid) : GI (initSt P) where
  rowSz := fun i hi => (initSt_rowSize h i).resolve_right (fun e => hi e.2.1) |>.2.1
  rowGone := fun i hi => by
    rcases initSt_rowSize h i with e | e
    · rw [e.2.1] at hi; omega
    · exact ⟨e.2.2.1, e.2.2.2⟩
  colGone := fun k hk => by
    rcases initSt_colSize h k with e | e
    · rw [e.2.1] at hk; omega
    · exact ⟨e.2.2.1, e.2.2.2⟩
  colSz := fun k hk => by
    rcases initSt_colSize h k with e | e
    · exact e.2.1
    · rw [e.2.2.2] at hk; cases hk
  colPend := fun k hk => by
    rcases initSt_colSize h k with e | e
    · rw [e.2.1]; exact_mod_cast List.length_filter_le _ _
    · exact absurd e.2.1 hk
  agree := fun i k v _ _ => by
    show (k, v) ∈ P.A i ↔ (i, v) ∈ colCells P.m P.A k
    rw [mem_colCells]
    exact ⟨fun hm => ⟨(h.range i _ hm).1, hm⟩, fun hm => hm.2⟩
  rowIn := fun i _ p hp => by
    rcases initSt_colSize h p.1 with e | e
    · rw [e.2.1]; omega
    · exact absurd (h.range i p hp).2.1 e.1
  colIn := fun k _ p hp => by
    have hp : (p.1, p.2) ∈ colCells P.m P.A k := hp
    rcases initSt_rowSize h p.1 with e | e
    · rw [e.2.1]; omega
    · exact absurd (mem_colCells.mp hp).1 e.1
  rowSorted := h.sorted
  colSorted := colCells_sorted h.sorted
  rowRange := h.range
  colRange := fun k p hp => by
    have hp : (p.1, p.2) ∈ colCells P.m P.A k := hp
    rw [mem_colCells] at hp
    exact ⟨(h.range p.1 _ hp.2).2.1, hp.1, (h.range p.1 _ hp.2).2.2⟩
  rowPend := fun i hi hs => by
    rcases initSt_rowSize h i with e | e
    · rw [e.2.2] at hi; cases hi
    · exact absurd e.2.1 hs
  colPendIn := fun k hk hs => by
    rcases initSt_colSize h k with e | e
    · rw [e.2.2] at hk; cases hk
    · exact absurd e.2.1 hs
  rowsDel := fun i hi => by cases hi
  rowsNodup := List.nodup_nil
  colsDel := fun i hi => by cases hi
  colsNodup := List.nodup_nil
  nnz := sum_range_eq _ _
  locks := fun _ _ => rfl

end Verif
