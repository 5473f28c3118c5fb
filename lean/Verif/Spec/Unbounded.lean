import Verif.Spec.Near

/-!
# Problems whose objective has no lower bound
-/

namespace Verif

/-- There are feasible points of arbitrarily small objective. -/
def LP.Unbounded (P : LP) : Prop := ∀ M : ℚ, ∃ x, P.Feasible x ∧ P.obj x < M

end Verif
