import Verif.Model.Driver
import Verif.Spec.LP

/-!
# Feasibility, objective and optimality of the problem handed to `new_presolver`

Stated on the raw input (`LP`), without tags.
-/

namespace Verif

/-- A lower bound as given by the user: `-inf` never restricts, a number restricts. -/
def LoD (d : D) (v : ℚ) : Prop := d = .ninf ∨ ∃ a, d = .fin a ∧ a ≤ v

/-- An upper bound as given by the user. -/
def HiD (d : D) (v : ℚ) : Prop := d = .pinf ∨ ∃ a, d = .fin a ∧ v ≤ a

/-- `x` satisfies all rows and bounds of the problem. -/
structure LP.Feasible (P : LP) (x : ℕ → ℚ) : Prop where
  row : ∀ i < P.m, LoD (P.lhs i) (dot (P.A i) x) ∧ HiD (P.rhs i) (dot (P.A i) x)
  col : ∀ k < P.n, LoD (P.lb k) (x k) ∧ HiD (P.ub k) (x k)

/-- Objective of the problem. -/
def LP.obj (P : LP) (x : ℕ → ℚ) : ℚ := ((List.range P.n).map (fun k => P.c k * x k)).sum

/-- `(Aᵀ y)_k`: the entries of column `k` times the row duals. -/
def LP.colDot (P : LP) (y : ℕ → ℚ) (k : ℕ) : ℚ :=
  ((List.range P.m).map (fun i =>
    (((P.A i).filter (fun p => decide (p.1 = k))).map Prod.snd).sum * y i)).sum

/-- All row duals are numbers and the reduced costs are `z = c - Aᵀ y`. -/
structure LP.Stationary (P : LP) (y z : ℕ → D) : Prop where
  dual : ∀ i < P.m, ∃ q, y i = .fin q
  cost : ∀ k < P.n, z k = .fin (P.c k - P.colDot (fun i => (y i).toQ) k)

/-- `x` is an optimal solution. -/
def LP.Optimal (P : LP) (x : ℕ → ℚ) : Prop :=
  P.Feasible x ∧ ∀ y, P.Feasible y → P.obj x ≤ P.obj y

@[simp] theorem LoD_fin (a v : ℚ) : LoD (.fin a) v ↔ a ≤ v := by simp [LoD]
@[simp] theorem HiD_fin (a v : ℚ) : HiD (.fin a) v ↔ v ≤ a := by simp [HiD]
@[simp] theorem LoD_ninf (v : ℚ) : LoD .ninf v := Or.inl rfl
@[simp] theorem HiD_pinf (v : ℚ) : HiD .pinf v := Or.inl rfl

end Verif
