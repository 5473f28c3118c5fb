import Verif.Model.Driver

/-!
# The reduced problem handed to the user

`problem_clean` with `remove_all` (`/repo/src/core/Problem.c:85-93`,
`/repo/src/core/Constraints.c:305-320`) followed by `populate_presolved_problem`
(`/repo/src/core/Presolver.c:573-603`).  The array code is modelled in `Verif.Model.Mat` and
`Verif.Model.Shrink`; here only what it computes (`C09_run_partial`).
-/

namespace Verif

/-- Indices that are still present, in increasing order. -/
def liveIdx (size : ℕ → ℤ) (n : ℕ) : List ℕ := (List.range n).filter (fun i => decide (size i ≠ -1))

/-- Entry `t` of an array after `dPtr_shrink`, `bounds_shrink` or `objective_shrink`
(`/repo/src/core/Constraints.c:313-317`, `/repo/src/core/Problem.c:92`). -/
def shrunk {α : Type} (live : List ℕ) (d : α) (f : ℕ → α) (t : ℕ) : α :=
  match live[t]? with
  | some i => f i
  | none => d

/-- `PresolvedProblem`, `/repo/src/core/Presolver.c:573-603`.  Bounds are copied whatever the tags
say. -/
def reducedLP (s : St) : LP :=
  let rows := liveIdx s.rowSize s.m
  let cols := liveIdx s.colSize s.n
  { m := rows.length
    n := cols.length
    A := shrunk rows [] (fun i => (s.A i).map (fun p => ((idxMapOf s.colSize p.1).getD 0, p.2)))
    lhs := shrunk rows .ninf s.lhs
    rhs := shrunk rows .pinf s.rhs
    lb := shrunk cols .ninf s.lb
    ub := shrunk cols .pinf s.ub
    c := shrunk cols 0 s.c }

end Verif
