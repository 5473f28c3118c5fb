import Mathlib.Data.Int.Basic
import Mathlib.Logic.Function.Basic
import Mathlib.Tactic.Linarith

/-!
# Survivor maps and in-place shrinking

Models `/repo/src/core/utils.c:22-81`, the map loop of
`/repo/src/core/Matrix.c:239-255`, `shrink_locks`/`shrink_activities`
(`/repo/src/core/State.c:174-194`) and `bounds_shrink`
(`/repo/src/core/Constraints.c:294-303`).  The value type is arbitrary.
-/

namespace Verif

/-- Loop state of Matrix.c:243-253 after the first `k` columns: the map built so far and
`col_count`.  `inact i` is `col_sizes[i] == SIZE_INACTIVE_COL`. -/
def mapLoop (inact : ℕ → Bool) : ℕ → (ℕ → ℤ) × ℕ
  | 0 => (fun _ => 0, 0)
  | k + 1 =>
    let (f, cnt) := mapLoop inact k
    if inact k then (Function.update f k (-1), cnt)
    else (Function.update f k (cnt : ℤ), cnt + 1)

/-- `col_idxs_map` as computed by Matrix.c:242-254 (entries `0..n-1` are meaningful). -/
def idxMap (inact : ℕ → Bool) (n : ℕ) : ℕ → ℤ := (mapLoop inact n).1

/-- the new `A->n`, Matrix.c:255. -/
def idxCount (inact : ℕ → Bool) (n : ℕ) : ℕ := (mapLoop inact n).2

/-- `dPtr_shrink`, `iPtr_shrink`, `rowTagPtr_shrink`, `colTagPtr_shrink` (utils.c:22-64),
`shrink_locks`, `shrink_activities`, `bounds_shrink`: after the first `k` iterations. -/
def ptrShrink {α : Type} (ptr : ℕ → α) (map : ℕ → ℤ) : ℕ → (ℕ → α)
  | 0 => ptr
  | k + 1 =>
    let p := ptrShrink ptr map k
    if map k ≠ -1 then Function.update p (map k).toNat (p k) else p

/-- `shrink_idx_vector` (utils.c:66-81): after the first `k` iterations, the buffer and
`curr`. -/
def shrinkIdxLoop (map : ℕ → ℤ) (data : ℕ → ℕ) : ℕ → (ℕ → ℕ) × ℕ
  | 0 => (data, 0)
  | k + 1 =>
    let (d, curr) := shrinkIdxLoop map data k
    if map (d k) ≠ -1 then (Function.update d curr (map (d k)).toNat, curr + 1) else (d, curr)

/-- `shrink_idx_vector` on a vector given by buffer and length; result as a list. -/
def shrinkIdxVector (map : ℕ → ℤ) (data : ℕ → ℕ) (len : ℕ) : List ℕ :=
  let (d, curr) := shrinkIdxLoop map data len
  (List.range curr).map d

end Verif
