import Mathlib.Algebra.Order.Field.Rat
import Mathlib.Tactic.Linarith
import Mathlib.Tactic.NormNum

/-!
# Doubles without rounding

`D` is the number type of the model: a C `double` with exact (unrounded) finite
arithmetic, the two infinities and one NaN.  There is one zero (no signed zero).
-/

namespace Verif

/-- A C `double` without rounding.  `pinf` is the macro `INF`
(`/repo/include/core/glbopts.h:23`).  Simplification: finite values are exact rationals,
`-0.0` is identified with `0.0`. -/
inductive D where
  | fin (q : ℚ)
  | pinf
  | ninf
  | nan
deriving DecidableEq, Repr

namespace D

instance : Inhabited D := ⟨fin 0⟩

/-- IEEE negation. -/
def neg : D → D
  | fin a => fin (-a)
  | pinf => ninf
  | ninf => pinf
  | nan => nan

/-- IEEE addition (no rounding). -/
def add : D → D → D
  | fin a, fin b => fin (a + b)
  | nan, _ => nan
  | _, nan => nan
  | pinf, ninf => nan
  | ninf, pinf => nan
  | pinf, _ => pinf
  | _, pinf => pinf
  | ninf, _ => ninf
  | _, ninf => ninf

/-- IEEE subtraction. -/
def sub (a b : D) : D := add a (neg b)

/-- Infinity with the sign of a nonzero rational, NaN for zero. -/
def infOf (q : ℚ) : D := if 0 < q then pinf else if q < 0 then ninf else nan

/-- IEEE multiplication by a finite number (the code only multiplies by finite
coefficients). -/
def smul (q : ℚ) : D → D
  | fin a => fin (q * a)
  | pinf => infOf q
  | ninf => infOf (-q)
  | nan => nan

/-- IEEE division by a finite number.  `a / 0` is the infinity with the sign of `a`
(the code never divides by a negative zero), `0 / 0` is NaN. -/
def divq : D → ℚ → D
  | fin a, q => if q = 0 then infOf a else fin (a / q)
  | pinf, q => if q < 0 then ninf else pinf
  | ninf, q => if q < 0 then pinf else ninf
  | nan, _ => nan

/-- `a < b` on doubles (false if NaN is involved). -/
def lt : D → D → Bool
  | fin a, fin b => decide (a < b)
  | ninf, fin _ => true
  | ninf, pinf => true
  | fin _, pinf => true
  | _, _ => false

/-- `a <= b` on doubles. -/
def le : D → D → Bool
  | fin a, fin b => decide (a ≤ b)
  | ninf, fin _ => true
  | ninf, pinf => true
  | ninf, ninf => true
  | pinf, pinf => true
  | fin _, pinf => true
  | _, _ => false

/-- `a == b` on doubles. -/
def eqb : D → D → Bool
  | fin a, fin b => decide (a = b)
  | ninf, ninf => true
  | pinf, pinf => true
  | _, _ => false

/-- `isinf(x)`: `IS_ABS_INF`, `/repo/include/core/glbopts.h:26`. -/
def isInf : D → Bool
  | pinf => true
  | ninf => true
  | _ => false

/-- `x` is an ordinary number. -/
def isFin : D → Bool
  | fin _ => true
  | _ => false

/-- Rational value of a finite double; `0` otherwise. -/
def toQ : D → ℚ
  | fin a => a
  | _ => 0

/-- `MAX(a, b)`, `/repo/include/core/Numerics.h:35`. -/
def max (a b : D) : D := if lt b a then a else b

/-- `MIN(a, b)`, `/repo/include/core/Numerics.h:39`. -/
def min (a b : D) : D := if lt a b then a else b

/-- `ABS(x)`, `/repo/include/core/Numerics.h:43`. -/
def abs (a : D) : D := if lt a (fin 0) then neg a else a

@[simp] theorem add_fin (a b : ℚ) : add (fin a) (fin b) = fin (a + b) := rfl
@[simp] theorem neg_fin (a : ℚ) : neg (fin a) = fin (-a) := rfl
@[simp] theorem sub_fin (a b : ℚ) : sub (fin a) (fin b) = fin (a - b) := by
  simp [sub, sub_eq_add_neg]
@[simp] theorem smul_fin (q a : ℚ) : smul q (fin a) = fin (q * a) := rfl
theorem divq_fin {q : ℚ} (h : q ≠ 0) (a : ℚ) : divq (fin a) q = fin (a / q) := by
  simp [divq, h]
@[simp] theorem lt_fin (a b : ℚ) : lt (fin a) (fin b) = decide (a < b) := rfl
@[simp] theorem le_fin (a b : ℚ) : le (fin a) (fin b) = decide (a ≤ b) := rfl
@[simp] theorem eqb_fin (a b : ℚ) : eqb (fin a) (fin b) = decide (a = b) := rfl
@[simp] theorem isInf_fin (a : ℚ) : isInf (fin a) = false := rfl
@[simp] theorem isFin_fin (a : ℚ) : isFin (fin a) = true := rfl
@[simp] theorem toQ_fin (a : ℚ) : toQ (fin a) = a := rfl
@[simp] theorem abs_fin (a : ℚ) : abs (fin a) = fin |a| := by
  unfold abs; by_cases h : a < 0
  · simp [h, abs_of_neg h]
  · simp [h, abs_of_nonneg (not_lt.mp h)]
theorem max_fin (a b : ℚ) : max (fin a) (fin b) = fin (Max.max a b) := by
  unfold max; by_cases h : b < a
  · simp [h, max_eq_left h.le]
  · simp [h, max_eq_right (not_lt.mp h)]
theorem min_fin (a b : ℚ) : min (fin a) (fin b) = fin (Min.min a b) := by
  unfold min; by_cases h : a < b
  · simp [h, min_eq_left h.le]
  · simp [h, min_eq_right (not_lt.mp h)]

theorem isFin_iff {d : D} : d.isFin = true ↔ ∃ q, d = fin q := by
  cases d <;> simp [isFin]

end D

/-- `FEAS_TOL`, `/repo/include/core/Numerics.h:24`. -/
def FEAS_TOL : ℚ := 1 / 1000000
/-- `ZERO_TOL`, `/repo/include/core/Numerics.h:26`. -/
def ZERO_TOL : ℚ := 1 / 10000000000
/-- `BOUND_MARGINAL`, `/repo/include/core/Numerics.h:25`. -/
def BOUND_MARGINAL : ℚ := 1 / 2 * FEAS_TOL
/-- `HUGE_VAL_PS`, `/repo/include/core/Numerics.h:28`. -/
def HUGE_VAL_PS : ℚ := 10000000
/-- `MAX_RATIO_PIVOT`, `/repo/include/core/glbopts.h:46`. -/
def MAX_RATIO_PIVOT : ℚ := 1000

theorem FEAS_TOL_pos : 0 < FEAS_TOL := by norm_num [FEAS_TOL]
theorem ZERO_TOL_pos : 0 < ZERO_TOL := by norm_num [ZERO_TOL]

/-- `IS_EQUAL_FEAS_TOL(x, y)` on doubles, `/repo/include/core/Numerics.h:48`. -/
def isEqualFeasTol (x y : D) : Bool := D.le (D.abs (D.sub x y)) (D.fin FEAS_TOL)

/-- `IS_ZERO_FEAS_TOL(x)` on doubles, `/repo/include/core/Numerics.h:49`. -/
def isZeroFeasTol (x : D) : Bool := D.le (D.abs x) (D.fin FEAS_TOL)

@[simp] theorem isEqualFeasTol_fin (a b : ℚ) :
    isEqualFeasTol (.fin a) (.fin b) = decide (|a - b| ≤ FEAS_TOL) := by
  simp [isEqualFeasTol]

@[simp] theorem isZeroFeasTol_fin (a : ℚ) :
    isZeroFeasTol (.fin a) = decide (|a| ≤ FEAS_TOL) := by
  simp [isZeroFeasTol]

end Verif
