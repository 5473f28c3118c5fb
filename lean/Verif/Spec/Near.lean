import Verif.Spec.Problem

/-!
# Inputs without stray infinities, and feasibility up to the tolerance

Stated on the raw input (`LP`), without tags.
-/

namespace Verif

/-- Lower bounds and sides are numbers or `-inf`, upper ones numbers or `inf`. -/
structure LP.Regular (P : LP) : Prop where
  lhs : ∀ i < P.m, P.lhs i = .ninf ∨ ∃ q, P.lhs i = .fin q
  rhs : ∀ i < P.m, P.rhs i = .pinf ∨ ∃ q, P.rhs i = .fin q
  lb : ∀ k < P.n, P.lb k = .ninf ∨ ∃ q, P.lb k = .fin q
  ub : ∀ k < P.n, P.ub k = .pinf ∨ ∃ q, P.ub k = .fin q

/-- Sum of the absolute values of the coefficients of a row. -/
def absSum (cells : List (ℕ × ℚ)) : ℚ := (cells.map (fun p => |p.2|)).sum

/-- All bounds hold up to the feasibility tolerance, all rows up to the tolerance times
`1 + 2 ‖aᵢ‖₁`. -/
structure LP.NearFeasible (P : LP) (x : ℕ → ℚ) : Prop where
  row : ∀ i < P.m, LoD (P.lhs i) (dot (P.A i) x + FEAS_TOL * (1 + 2 * absSum (P.A i))) ∧
    HiD (P.rhs i) (dot (P.A i) x - FEAS_TOL * (1 + 2 * absSum (P.A i)))
  col : ∀ k < P.n, LoD (P.lb k) (x k + FEAS_TOL) ∧ HiD (P.ub k) (x k - FEAS_TOL)

end Verif
