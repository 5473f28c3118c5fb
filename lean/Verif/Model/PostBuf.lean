import Verif.Model.Postsolve

/-!
# Postsolve with the solution buffer kept between calls

`presolver->sol` is allocated once by `new_presolver` and written by every call of
`postsolve` (`/repo/src/core/Presolver.c:760-779`).  Here the buffer is an explicit argument,
so that what a call leaves behind is visible to the next one.
-/

namespace Verif

/-- The loops of `copy_reduced_sol_to_orginal`, `/repo/src/core/Postsolver.c:84-114`: exactly the
first `n` entries of `x` and `z` and the first `m` entries of `y` are written; everything else in
the buffer stays as it was. -/
def copyInto (n m : ℕ) (cmap rmap : ℕ → Option ℕ) (x y z : ℕ → D) (buf : Sol) : Sol :=
  { x := fun i => if i < n then (match cmap i with | none => .pinf | some k => x k) else buf.x i
    z := fun i => if i < n then (match cmap i with | none => .pinf | some k => z k) else buf.z i
    y := fun i => if i < m then (match rmap i with | none => .pinf | some k => y k) else buf.y i }

/-- What one call of `postsolve` is given. -/
structure PostArgs where
  x : ℕ → D
  y : ℕ → D
  z : ℕ → D

/-- What `postsolve` reads of the presolver: dimensions, log, maps
(`PostsolveInfo`, `/repo/include/core/Postsolver.h`, passed as `const`). -/
structure PostInfo where
  n : ℕ
  m : ℕ
  log : List Rec
  cmap : ℕ → Option ℕ
  rmap : ℕ → Option ℕ

/-- One call of `postsolve`, `/repo/src/core/Presolver.c:760-779` and `postsolver_run`,
`/repo/src/core/Postsolver.c:513-664`, on the buffer left by earlier calls. -/
def postsolveInto (I : PostInfo) (a : PostArgs) (buf : Sol) : Option Sol :=
  replay none I.log (copyInto I.n I.m I.cmap I.rmap a.x a.y a.z buf)

/-- A sequence of calls on the same presolver (`none`: one of them ran into undefined
behaviour). -/
def postsolveSeq (I : PostInfo) : List PostArgs → Sol → Option Sol
  | [], buf => some buf
  | a :: rest, buf => (postsolveInto I a buf).bind (postsolveSeq I rest)

end Verif
