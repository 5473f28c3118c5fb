import Mathlib.Data.Nat.Basic
import Mathlib.Tactic.Linarith
import Mathlib.Logic.Function.Basic

/-!
# Growable vectors (`DEFINE_VECTOR`, `/repo/include/data_structures/Vec_macros.h:36-133`)

Value type is arbitrary, so everything holds for `int`, `double` and `uint16_t` vectors.
-/

namespace Verif

/-- How a vector operation can end abnormally. -/
inductive VErr where
  /-- a write outside the allocated buffer (undefined behaviour in C) -/
  | ub
  /-- `realloc` returned NULL: the code prints a message and calls `exit(1)` -/
  | exit
deriving DecidableEq, Repr

/-- `struct TYPE##Vec`, Vec_macros.h:38-43.  `buf` holds the buffer contents (cells at or
beyond `cap` do not exist); `cap` is both the field `capacity` and the number of cells
really allocated. -/
structure Vec (α : Type) where
  buf : ℕ → α
  len : ℕ
  cap : ℕ

namespace Vec
variable {α : Type}

/-- `TYPE##Vec_new(capacity)` when both allocations succeed, Vec_macros.h:45-61.
`fresh` is the unspecified contents of the new buffer. -/
def new (fresh : ℕ → α) (capacity : ℕ) : Vec α := ⟨fresh, 0, capacity⟩

/-- `ps_realloc` of the buffer to `newCap` cells: old contents are kept, new cells are
unspecified (`fresh`).  Used at Vec_macros.h:81 and 107. -/
def realloc (fresh : ℕ → α) (v : Vec α) (newCap : ℕ) : Vec α :=
  { v with buf := fun k => if k < v.cap ∧ k < newCap then v.buf k else fresh k, cap := newCap }

/-- A single write `vec->data[k] = x`. -/
def write (v : Vec α) (k : ℕ) (x : α) : Except VErr (Vec α) :=
  if k < v.cap then .ok { v with buf := Function.update v.buf k x } else .error .ub

/-- `TYPE##Vec_clear_no_resize`, Vec_macros.h:69-72. -/
def clear (v : Vec α) : Vec α := { v with len := 0 }

/-- `TYPE##Vec_append`, Vec_macros.h:74-93. `allocOk` tells whether `realloc` succeeds. -/
def append (allocOk : Bool) (fresh : ℕ → α) (v : Vec α) (x : α) : Except VErr (Vec α) := do
  let v ←
    if v.len ≥ v.cap then
      if allocOk then .ok (realloc fresh v (v.cap * 2)) else .error .exit
    else .ok v
  let v ← write v v.len x
  .ok { v with len := v.len + 1 }

/-- The loop `while (vec->len + n > new_capacity) new_capacity *= 2`,
Vec_macros.h:101-104 (`c` is at least 1 by line 100). -/
def growCap (need c : ℕ) : ℕ :=
  if h : need > c ∧ c > 0 then growCap need (c * 2) else c
termination_by need - c
decreasing_by omega

/-- `memcpy(vec->data + vec->len, values, n)`, Vec_macros.h:119. -/
def blit (v : Vec α) (xs : List α) : Except VErr (Vec α) :=
  if v.len + xs.length ≤ v.cap then
    .ok { v with buf := fun k =>
            if h : v.len ≤ k ∧ k - v.len < xs.length then xs[k - v.len]'h.2 else v.buf k }
  else if xs.length = 0 then .ok v else .error .ub

/-- `TYPE##Vec_append_array`, Vec_macros.h:95-121. -/
def appendArray (allocOk : Bool) (fresh : ℕ → α) (v : Vec α) (xs : List α) :
    Except VErr (Vec α) := do
  let v ←
    if v.len + xs.length > v.cap then
      let newCap := growCap (v.len + xs.length) (if v.cap > 0 then v.cap else 1)
      if allocOk then .ok (realloc fresh v newCap) else .error .exit
    else .ok v
  let v ← blit v xs
  .ok { v with len := v.len + xs.length }

/-- `TYPE##Vec_contains`, Vec_macros.h:122-133. -/
def contains [DecidableEq α] (v : Vec α) (x : α) : Bool :=
  (List.range v.len).any fun i => v.buf i = x

/-- Abstraction: the elements `data[0..len-1]`. -/
def toList (v : Vec α) : List α := (List.range v.len).map v.buf

end Vec

/-- One client operation on a vector, together with the outcome of a possible `realloc`
and the unspecified contents of new cells. -/
inductive VOp (α : Type) where
  | append (allocOk : Bool) (fresh : ℕ → α) (x : α)
  | appendArray (allocOk : Bool) (fresh : ℕ → α) (xs : List α)
  | clear

/-- Run one operation. -/
def VOp.run {α : Type} (v : Vec α) : VOp α → Except VErr (Vec α)
  | .append ok fresh x => v.append ok fresh x
  | .appendArray ok fresh xs => v.appendArray ok fresh xs
  | .clear => .ok v.clear

/-- Run a history of operations (stops at the first abnormal end). -/
def VOp.runAll {α : Type} (v : Vec α) : List (VOp α) → Except VErr (Vec α)
  | [] => .ok v
  | op :: ops => do VOp.runAll (← op.run v) ops

end Verif
