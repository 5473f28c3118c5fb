import Verif.Model.Driver

/-!
# A concrete environment and helpers for examples

Used in examples and in witnesses of defects: insertion sort, constant hashes, always enough
space, no time limit.
-/

namespace Verif

/-- Insert an index into a list sorted by key. -/
def insKey (key : ℕ → ℤ × ℤ) (i : ℕ) : List ℕ → List ℕ
  | [] => [i]
  | a :: l =>
    if (key i).1 < (key a).1 ∨ ((key i).1 = (key a).1 ∧ (key i).2 ≤ (key a).2) then i :: a :: l
    else a :: insKey key i l

/-- Stable insertion sort. -/
def sortKey (key : ℕ → ℤ × ℤ) : List ℕ → List ℕ
  | [] => []
  | a :: l => insKey key a (sortKey key l)

/-- The environment of the examples. -/
def envEx : Env where
  space := fun _ => true
  hashSupp := fun _ => 0
  hashCoef := fun _ => 0
  staleHash := fun _ _ => 0
  sort := fun _ key l => sortKey key l
  timeUp := fun _ => false

theorem insKey_perm (key : ℕ → ℤ × ℤ) (i : ℕ) (l : List ℕ) : (insKey key i l).Perm (i :: l) := by
  induction l with
  | nil => exact List.Perm.refl _
  | cons a l ih =>
    unfold insKey; split
    · exact List.Perm.refl _
    · exact (List.Perm.cons a ih).trans (List.Perm.swap i a l)

theorem sortKey_perm (key : ℕ → ℤ × ℤ) (l : List ℕ) : (sortKey key l).Perm l := by
  induction l with
  | nil => exact List.Perm.refl _
  | cons a l ih => exact (insKey_perm key a _).trans (List.Perm.cons a ih)

theorem insKey_sorted (key : ℕ → ℤ × ℤ) (i : ℕ) (l : List ℕ)
    (h : l.Pairwise (fun a b => (key a).1 < (key b).1 ∨ ((key a).1 = (key b).1 ∧ (key a).2 ≤ (key b).2))) :
    (insKey key i l).Pairwise
      (fun a b => (key a).1 < (key b).1 ∨ ((key a).1 = (key b).1 ∧ (key a).2 ≤ (key b).2)) := by
  induction l with
  | nil => simp [insKey]
  | cons a l ih =>
    rw [List.pairwise_cons] at h
    unfold insKey; split
    · rename_i hc
      rw [List.pairwise_cons, List.pairwise_cons]
      refine ⟨?_, h⟩
      intro b hb
      rcases List.mem_cons.mp hb with rfl | hb
      · exact hc
      · have := h.1 b hb; omega
    · rename_i hc
      rw [List.pairwise_cons]
      refine ⟨?_, ih h.2⟩
      intro b hb
      rcases List.mem_cons.mp ((insKey_perm key i l).subset hb) with rfl | hb
      · omega
      · exact h.1 b hb

/-- The example environment satisfies the contract of `qsort`. -/
theorem envEx_sortOK : envEx.SortOK where
  perm := fun _ key l => sortKey_perm key l
  sorted := by
    intro _ key l
    show (sortKey key l).Pairwise _
    induction l with
    | nil => exact List.Pairwise.nil
    | cons a l ih => exact insKey_sorted key a _ ih

/-- A function given by a list of values. -/
def ofList {α : Type} (l : List α) (d : α) (i : ℕ) : α := l.getD i d

/-- All reductions switched on. -/
def stgsAll : Settings := ⟨true, true, true, true, true, true, true, true⟩

end Verif
