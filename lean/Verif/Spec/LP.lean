import Verif.Spec.Num
import Mathlib.Algebra.BigOperators.Group.List.Basic
import Mathlib.Tactic.Ring
import Mathlib.Tactic.FieldSimp
import Mathlib.Algebra.Order.Field.Basic

/-!
# Specification vocabulary for linear programs

Small definitions used in the statements of the properties.  They do not import the model.
A point is a function `x : ℕ → ℚ`.  A side or bound `d` is *absent* when the flag next to it
says so; a side that is present but not a finite number is satisfied by nothing.
-/

namespace Verif

/-- A sparse row applied to a point. -/
def dot (cells : List (ℕ × ℚ)) (x : ℕ → ℚ) : ℚ := (cells.map (fun p => p.2 * x p.1)).sum

/-- `v` respects the lower side `d` (absent when `inf`). -/
def Lo (inf : Bool) (d : D) (v : ℚ) : Prop := inf = true ∨ ∃ a, d = .fin a ∧ a ≤ v

/-- `v` respects the upper side `d` (absent when `inf`). -/
def Hi (inf : Bool) (d : D) (v : ℚ) : Prop := inf = true ∨ ∃ a, d = .fin a ∧ v ≤ a

/-- A side that is not marked absent is a finite number. -/
def FinIf (inf : Bool) (d : D) : Prop := inf = false → ∃ a, d = .fin a

@[simp] theorem dot_nil (x : ℕ → ℚ) : dot [] x = 0 := rfl
@[simp] theorem dot_cons (p : ℕ × ℚ) (l : List (ℕ × ℚ)) (x : ℕ → ℚ) :
    dot (p :: l) x = p.2 * x p.1 + dot l x := by simp [dot]
@[simp] theorem dot_append (l l' : List (ℕ × ℚ)) (x : ℕ → ℚ) :
    dot (l ++ l') x = dot l x + dot l' x := by simp [dot]

@[simp] theorem Lo_true (d : D) (v : ℚ) : Lo true d v := Or.inl rfl
@[simp] theorem Hi_true (d : D) (v : ℚ) : Hi true d v := Or.inl rfl
@[simp] theorem Lo_fin (a v : ℚ) : Lo false (.fin a) v ↔ a ≤ v := by simp [Lo]
@[simp] theorem Hi_fin (a v : ℚ) : Hi false (.fin a) v ↔ v ≤ a := by simp [Hi]
@[simp] theorem FinIf_true (d : D) : FinIf true d := by simp [FinIf]
@[simp] theorem FinIf_fin (b : Bool) (a : ℚ) : FinIf b (.fin a) := fun _ => ⟨a, rfl⟩

theorem dot_congr {l : List (ℕ × ℚ)} {x y : ℕ → ℚ} (h : ∀ p ∈ l, x p.1 = y p.1) :
    dot l x = dot l y := by
  unfold dot
  congr 1
  exact List.map_congr_left (fun p hp => by rw [h p hp])

/-- Changing a point in a column that does not occur changes nothing. -/
theorem dot_update_notMem {l : List (ℕ × ℚ)} {k : ℕ} (h : ∀ p ∈ l, p.1 ≠ k) (x : ℕ → ℚ) (v : ℚ) :
    dot l (fun j => if j = k then v else x j) = dot l x :=
  dot_congr (fun p hp => by simp [h p hp])

/-- Changing a point in one column of a row with distinct columns. -/
theorem dot_update_mem {l : List (ℕ × ℚ)} (hnd : (l.map Prod.fst).Nodup) {k : ℕ} {a : ℚ}
    (h : (k, a) ∈ l) (x : ℕ → ℚ) (v : ℚ) :
    dot l (fun j => if j = k then v else x j) = dot l x + a * (v - x k) := by
  induction l with
  | nil => simp at h
  | cons p l ih =>
    simp only [List.map_cons, List.nodup_cons] at hnd
    rcases List.mem_cons.mp h with rfl | h
    · have : ∀ q ∈ l, q.1 ≠ k := fun q hq e => hnd.1 (List.mem_map.mpr ⟨q, hq, e⟩)
      simp only [dot_cons, if_true, dot_update_notMem this]
      linarith
    · have hne : p.1 ≠ k := fun e => hnd.1 (List.mem_map.mpr ⟨(k, a), h, e.symm⟩)
      simp only [dot_cons, if_neg hne, ih hnd.2 h]
      linarith

end Verif
