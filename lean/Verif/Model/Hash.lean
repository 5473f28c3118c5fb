import Verif.Model.ParRows
import Mathlib.Algebra.Order.Floor.Ring
import Mathlib.Data.Rat.Floor

/-!
# The hash functions of `/repo/src/explorers/Parallel_rows.c`

The rest of the model takes the hashes from the environment; here is what the code computes.
Simplified: exact arithmetic.  The conversion of a negative `double` to `uint32_t` (line 78) is
undefined behaviour in C; `wrap32` is what compilers commonly do.
-/

namespace Verif

/-- `round` of the C library: halves away from zero. -/
def cRound (q : ℚ) : ℤ := if 0 ≤ q then ⌊q + 1 / 2⌋ else -⌊-q + 1 / 2⌋

/-- Value of a 32-bit unsigned integer. -/
def wrap32 (z : ℤ) : ℤ := z % 4294967296

/-- The cast `(int)` of a `uint32_t`, `/repo/src/explorers/Parallel_rows.c:108-110`. -/
def toI32 (z : ℤ) : ℤ := if z < 2147483648 then z else z - 4294967296

/-- The loop of the djb2 hash, `/repo/src/explorers/Parallel_rows.c:47-51` and `75-80`. -/
def djb2 (l : List ℤ) : ℤ := l.foldl (fun h a => wrap32 (h * 33 + a)) 5381

/-- Largest absolute value, `/repo/src/explorers/Parallel_rows.c:63-71`. -/
def maxAbs : List ℚ → ℚ
  | [] => 0
  | a :: l => l.foldl (fun m v => if m < |v| then |v| else m) |a|

/-- The scaled coefficients, `/repo/src/explorers/Parallel_rows.c:72` and `78`. -/
def normalize : List ℚ → List ℚ
  | [] => []
  | a :: l =>
    let scale := if 0 < a then 1 / maxAbs (a :: l) else -1 / maxAbs (a :: l)
    (a :: l).map (fun v => v * scale)

/-- `hash_int_array`, `/repo/src/explorers/Parallel_rows.c:41-56`. -/
def hashSuppC (l : List ℕ) : ℤ := toI32 (djb2 (l.map Int.ofNat))

/-- `hash_double_array_with_scale`, `/repo/src/explorers/Parallel_rows.c:61-83`. -/
def hashCoefC (l : List ℚ) : ℤ :=
  toI32 (djb2 ((normalize l).map (fun v => wrap32 (cRound (v * 1000000)))))

/-- The coefficient hash is a function of the normalized coefficients. -/
def Env.HashOK (env : Env) : Prop := ∃ H : List ℚ → ℤ, ∀ l, env.hashCoef l = H (normalize l)

end Verif
