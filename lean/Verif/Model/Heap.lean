import Verif.Spec.Num

/-!
# Ownership: allocation, failure and freeing

Blocks are named after the call that allocates them (`Site`), fields of structs after the block
they are meant to point to.  Every access through a pointer checks that it points to a block that
is allocated; every `free` checks that the block is allocated.  Sizes and contents other than
pointers are not modelled.  `realloc` of a vector keeps the name of the block (only `vec->data`
refers to it).
-/

namespace Verif

/-- The vectors (`/repo/include/data_structures/Vec_macros.h`) created by `new_presolver`. -/
inductive Vid where
  | intVec | stonRows | stonCols | dtonRows | emptyCols | emptyRows | updActs | fixedCols
  | subCols | rowsDel | pStarts | pIndices | pVals | pType
deriving DecidableEq, Repr

/-- The allocation calls of `new_presolver` and `populate_presolved_problem`
(`/repo/src/core/Presolver.c:240-329, 589-598`, `Workspace.c:28-40`, `Matrix.c:60-75, 90-99`,
`Tags.c:25`, `Locks.c:27`, `Activity.c:30`, `State.c:51`, `Postsolver.c:40`,
`Constraints.c:33`, `Problem.c:29, 61`). -/
inductive Site where
  | lhsCopy | rhsCopy | cCopy | colTags | bounds | rowSizes | colSizes
  | work | wCols | wRows | wMax1 | wMax2 | maps | mapCols | mapRows
  | A | Ai | Ap | Ax | AT | ATi | ATp | ATx
  | rowTags | locks | acts | state | pinfo | constraints
  | presolver | obj | prob | stats | redProb | sol | solX | solY | solZ
  | redLbs | redUbs | redAp
  | vec (v : Vid) | vecData (v : Vid)
deriving DecidableEq, Repr

/-- A pointer; `junk` is an uninitialized field. -/
inductive Ptr where
  | null | junk | blk (s : Site)
deriving DecidableEq, Repr

/-- The heap.  `bad`: a null, dangling or uninitialized pointer was dereferenced or freed.
`lost`: an allocation happened at a site whose earlier block was still allocated.
`exited`: `exit(1)` was called. -/
structure Heap where
  live : List Site
  fld : Site → Site → Ptr
  bad : Bool
  lost : Bool
  exited : Bool

/-- The heap before the first call. -/
def Heap.empty : Heap := ⟨[], fun _ _ => .junk, false, false, false⟩

/-- Computations on the heap. -/
abbrev HM := StateM Heap

/-- Which allocation calls fail. -/
abbrev Fail := Site → Bool

/-- `malloc`: the fields of the new block are uninitialized. -/
def hMalloc (fail : Fail) (s : Site) : HM Ptr := fun h =>
  if fail s then (.null, h)
  else (.blk s, { h with live := s :: h.live, lost := h.lost || decide (s ∈ h.live),
                         fld := fun t f => if t = s then .junk else h.fld t f })

/-- `calloc`: the fields of the new block are null. -/
def hCalloc (fail : Fail) (s : Site) : HM Ptr := fun h =>
  if fail s then (.null, h)
  else (.blk s, { h with live := s :: h.live, lost := h.lost || decide (s ∈ h.live),
                         fld := fun t f => if t = s then .null else h.fld t f })

/-- Record undefined behaviour. -/
def hBad : HM Unit := fun h => ((), { h with bad := true })

/-- `free`. -/
def hFree (p : Ptr) : HM Unit := fun h =>
  match p with
  | .null => ((), h)
  | .junk => hBad h
  | .blk s => if s ∈ h.live then ((), { h with live := h.live.erase s }) else hBad h

/-- Access to the contents of the block `p` points to. -/
def hUse (p : Ptr) : HM Unit := fun h =>
  match p with
  | .blk s => if s ∈ h.live then ((), h) else hBad h
  | _ => hBad h

/-- `p->f`. -/
def hGet (p : Ptr) (f : Site) : HM Ptr := fun h =>
  match p with
  | .blk s => if s ∈ h.live then (h.fld s f, h) else (.junk, (hBad h).2)
  | _ => (.junk, (hBad h).2)

/-- `p->f = q`. -/
def hSet (p : Ptr) (f : Site) (q : Ptr) : HM Unit := fun h =>
  match p with
  | .blk s =>
    if s ∈ h.live then
      ((), { h with fld := fun t g => if t = s ∧ g = f then q else h.fld t g })
    else hBad h
  | _ => hBad h

/-- `PS_FREE(p->f)`: free the field and set it to null. -/
def hFreeField (p : Ptr) (f : Site) : HM Unit := do
  let q ← hGet p f
  hFree q
  hSet p f .null

/-- `Vec_new`, `/repo/include/data_structures/Vec_macros.h:42-59`. -/
def vecNew (fail : Fail) (v : Vid) : HM Ptr := do
  let p ← hMalloc fail (.vec v)
  if p = .null then return .null
  let d ← hMalloc fail (.vecData v)
  hSet p (.vecData v) d
  if d = .null then
    hFree p
    return .null
  return p

/-- `Vec_free`, `/repo/include/data_structures/Vec_macros.h:61-65`. -/
def vecFree (v : Vid) (p : Ptr) : HM Unit := do
  hFreeField p (.vecData v)
  hFree p

/-- `Vec_append`, `/repo/include/data_structures/Vec_macros.h:72-94`, when the vector is full:
the data block is reallocated, or the vector is freed and the process exits.
`fails` says whether `realloc` fails. -/
def vecGrow (fails : Bool) (v : Vid) (p : Ptr) : HM Unit := do
  let d ← hGet p (.vecData v)
  hUse d
  if fails then
    vecFree v p
    fun h => ((), { h with exited := true })

/-- `free_work`, `/repo/src/core/Workspace.c:54-70`. -/
def freeWork (w : Ptr) : HM Unit := do
  if w = .null then return
  hFreeField w .wCols
  hFreeField w .wRows
  hFreeField w .wMax1
  hFreeField w .wMax2
  let v ← hGet w (.vec .intVec)
  vecFree .intVec v
  let m ← hGet w .maps
  hFreeField m .mapCols
  let m ← hGet w .maps
  hFreeField m .mapRows
  hFreeField w .maps
  hFree w

/-- `new_work`, `/repo/src/core/Workspace.c:26-52`. -/
def newWork (fail : Fail) : HM Ptr := do
  let w ← hMalloc fail .work
  if w = .null then return .null
  hSet w .wCols (← hCalloc fail .wCols)
  hSet w .wRows (← hCalloc fail .wRows)
  hSet w .wMax1 (← hCalloc fail .wMax1)
  hSet w .wMax2 (← hCalloc fail .wMax2)
  hSet w (.vec .intVec) (← vecNew fail .intVec)
  hSet w .maps (← hMalloc fail .maps)
  let m ← hGet w .maps
  hSet m .mapCols (← hMalloc fail .mapCols)
  let m ← hGet w .maps
  hSet m .mapRows (← hMalloc fail .mapRows)
  let p1 ← hGet w .wCols
  let p2 ← hGet w .wRows
  let p3 ← hGet w .wMax1
  let p4 ← hGet w .wMax2
  let p5 ← hGet w (.vec .intVec)
  let m ← hGet w .maps
  let p7 ← hGet m .mapCols
  let p8 ← hGet m .mapRows
  if Ptr.null ∈ [p1, p2, p3, p4, p5, m, p7, p8] then
    freeWork w
    return .null
  return w

/-- The sites of one of the two matrices. -/
structure MatSites where
  self : Site
  i : Site
  p : Site
  x : Site

/-- The sites of `A`. -/
def sitesA : MatSites := ⟨.A, .Ai, .Ap, .Ax⟩
/-- The sites of `AT`. -/
def sitesAT : MatSites := ⟨.AT, .ATi, .ATp, .ATx⟩

/-- `free_matrix`, `/repo/src/core/Matrix.c:189-199`. -/
def freeMatrix (M : MatSites) (p : Ptr) : HM Unit := do
  if p ≠ .null then
    hFreeField p M.i
    hFreeField p M.p
    hFreeField p M.x
  hFree p

/-- Allocation part of `matrix_new_no_extra_space`, `/repo/src/core/Matrix.c:87-117`, and of
`matrix_alloc:58-85`, with the copying into the new arrays. -/
def newMatrix (fail : Fail) (M : MatSites) : HM Ptr := do
  let a ← hMalloc fail M.self
  if a = .null then return .null
  hSet a M.i (← hMalloc fail M.i)
  hSet a M.p (← hMalloc fail M.p)
  hSet a M.x (← hMalloc fail M.x)
  let i ← hGet a M.i
  let p ← hGet a M.p
  let x ← hGet a M.x
  if Ptr.null ∈ [i, p, x] then
    freeMatrix M a
    return .null
  hUse x
  hUse i
  hUse p
  return a

/-- `postsolve_info_free`, `/repo/src/core/Postsolver.c:70-82`. -/
def postsolveInfoFree (p : Ptr) : HM Unit := do
  if p = .null then return
  vecFree .pStarts (← hGet p (.vec .pStarts))
  vecFree .pIndices (← hGet p (.vec .pIndices))
  vecFree .pVals (← hGet p (.vec .pVals))
  vecFree .pType (← hGet p (.vec .pType))
  hFree p

/-- `postsolve_info_new`, `/repo/src/core/Postsolver.c:38-68`. -/
def postsolveInfoNew (fail : Fail) : HM Ptr := do
  let p ← hMalloc fail .pinfo
  hSet p (.vec .pStarts) (← vecNew fail .pStarts)
  hSet p (.vec .pIndices) (← vecNew fail .pIndices)
  hSet p (.vec .pVals) (← vecNew fail .pVals)
  hSet p (.vec .pType) (← vecNew fail .pType)
  let a ← hGet p (.vec .pStarts)
  let b ← hGet p (.vec .pIndices)
  let c ← hGet p (.vec .pVals)
  let d ← hGet p (.vec .pType)
  if Ptr.null ∈ [a, b, c, d] then
    hFreeField p (.vec .pStarts)
    hFreeField p (.vec .pIndices)
    hFreeField p (.vec .pVals)
    hFreeField p (.vec .pType)
    hFree p
    return .null
  hUse (← hGet a (.vecData .pStarts))
  return p

/-- The vectors of `State`, in the order of `/repo/src/core/State.c:79-87` and `161-169`. -/
def stateVecsNew : List Vid :=
  [.stonRows, .stonCols, .dtonRows, .emptyCols, .emptyRows, .updActs, .fixedCols, .subCols,
   .rowsDel]

/-- `free_state`, `/repo/src/core/State.c:154-172`. -/
def freeState (p : Ptr) : HM Unit := do
  if p = .null then return
  stateVecsNew.forM (fun v => do vecFree v (← hGet p (.vec v)))
  postsolveInfoFree (← hGet p .pinfo)
  hFree p

/-- The vectors tested in `/repo/src/core/State.c:90-92` (`updated_activities` is not). -/
def stateVecsTested : List Vid :=
  [.stonRows, .stonCols, .dtonRows, .emptyCols, .emptyRows, .fixedCols, .subCols, .rowsDel]

/-- `new_state`, `/repo/src/core/State.c:47-97`: the allocations. -/
def newStateVecs (fail : Fail) (rowSizes colSizes locks acts work : Ptr) : HM Ptr := do
  let p ← hMalloc fail .state
  if p = .null then return .null
  hSet p .locks locks
  hSet p .rowSizes rowSizes
  hSet p .colSizes colSizes
  hSet p .acts acts
  hSet p .work work
  stateVecsNew.forM (fun v => do hSet p (.vec v) (← vecNew fail v))
  hSet p .pinfo (← postsolveInfoNew fail)
  let vs ← stateVecsTested.mapM (fun v => hGet p (.vec v))
  let i ← hGet p .pinfo
  if Ptr.null ∈ vs ++ [i] then
    freeState p
    return .null
  return p

/-- One append in `new_state`: the vector, whether it is full, and whether the reallocation
fails. -/
def appendOne (p : Ptr) (a : Vid × Bool × Bool) : HM Unit := do
  let q ← hGet p (.vec a.1)
  if a.2.1 then vecGrow a.2.2 a.1 q
  else hUse (← hGet q (.vecData a.1))

/-- `new_state`, `/repo/src/core/State.c:99-150`: the appends. -/
def appendAll (p : Ptr) : List (Vid × Bool × Bool) → HM Unit
  | [] => pure ()
  | a :: l => do
    appendOne p a
    appendAll p l

/-- `constraints_new`, `/repo/src/core/Constraints.c:29-48`. -/
def constraintsNew (fail : Fail) (A AT lhs rhs bounds state rowTags colTags : Ptr) :
    HM Ptr := do
  let p ← hMalloc fail .constraints
  if p = .null then return .null
  hSet p .lhsCopy lhs
  hSet p .rhsCopy rhs
  hSet p .A A
  hSet p .AT AT
  hSet p .bounds bounds
  hSet p .state state
  hSet p .rowTags rowTags
  hSet p .colTags colTags
  return p

/-- `free_constraints`, `/repo/src/core/Constraints.c:50-65`. -/
def freeConstraints (p : Ptr) : HM Unit := do
  if p = .null then return
  hFreeField p .lhsCopy
  hFreeField p .rhsCopy
  freeMatrix sitesA (← hGet p .A)
  freeMatrix sitesAT (← hGet p .AT)
  hFreeField p .bounds
  hFreeField p .rowTags
  hFreeField p .colTags
  hFree p

/-- `objective_new`, `/repo/src/core/Problem.c:59-67`. -/
def objectiveNew (fail : Fail) (c : Ptr) : HM Ptr := do
  let p ← hMalloc fail .obj
  if p = .null then return .null
  hSet p .cCopy c
  return p

/-- `free_objective`, `/repo/src/core/Problem.c:69-74`. -/
def freeObjective (p : Ptr) : HM Unit := do
  if p = .null then return
  hFreeField p .cCopy
  hFree p

/-- `new_problem`, `/repo/src/core/Problem.c:27-36`. -/
def newProblem (fail : Fail) (constraints obj : Ptr) : HM Ptr := do
  let p ← hMalloc fail .prob
  if p = .null then return .null
  hSet p .constraints constraints
  hSet p .obj obj
  return p

/-- `free_problem`, `/repo/src/core/Problem.c:38-57`. -/
def freeProblem (p : Ptr) : HM Unit := do
  if p = .null then return
  let c ← hGet p .constraints
  if c = .null then return
  let d ← hGet c .state
  if d ≠ .null then
    freeWork (← hGet d .work)
    hFreeField d .locks
    hFreeField d .acts
    hFreeField d .rowSizes
    hFreeField d .colSizes
    freeState d
  freeConstraints (← hGet p .constraints)
  freeObjective (← hGet p .obj)
  hFree p

/-- `free_presolver`, `/repo/src/core/Presolver.c:781-808`. -/
def freePresolver (p : Ptr) : HM Unit := do
  if p = .null then return
  freeProblem (← hGet p .prob)
  hFreeField p .stats
  let r ← hGet p .redProb
  if r ≠ .null then
    hFreeField r .redAp
    hFreeField r .redLbs
    hFreeField r .redUbs
    hFreeField p .redProb
  let s ← hGet p .sol
  if s ≠ .null then
    hFreeField s .solX
    hFreeField s .solY
    hFreeField s .solZ
    hFreeField p .sol
  hFree p

/-- The locals of `new_presolver` handed to `presolver_clean_up`,
`/repo/src/core/Presolver.c:174-189`. -/
structure Scope where
  A : Ptr := .null
  AT : Ptr := .null
  lhsCopy : Ptr := .null
  rhsCopy : Ptr := .null
  cCopy : Ptr := .null
  rowSizes : Ptr := .null
  colSizes : Ptr := .null
  rowTags : Ptr := .null
  locks : Ptr := .null
  acts : Ptr := .null
  state : Ptr := .null
  constraints : Ptr := .null
  presolver : Ptr := .null
  obj : Ptr := .null
  colTags : Ptr := .null
  bounds : Ptr := .null
  work : Ptr := .null

/-- `presolver_clean_up`, `/repo/src/core/Presolver.c:191-210`, and `return NULL`. -/
def cleanUp (c : Scope) : HM Ptr := do
  freeMatrix sitesA c.A
  freeMatrix sitesAT c.AT
  hFree c.lhsCopy
  hFree c.rhsCopy
  hFree c.cCopy
  hFree c.rowSizes
  hFree c.colSizes
  hFree c.rowTags
  hFree c.colTags
  hFree c.bounds
  hFree c.acts
  hFree c.locks
  freeWork c.work
  freeState c.state
  freeConstraints c.constraints
  freeObjective c.obj
  freePresolver c.presolver
  return .null

/-- What the input decides about allocation: whether the matrix has an entry, and the appends in
`new_state`. -/
structure Inp where
  hasNnz : Bool
  appended : List (Vid × Bool × Bool)

/-- `init_thread_func`, `/repo/src/core/Presolver.c:116-144`, `new_locks`, `new_activities`: the
tags are read for every entry of the matrix.  Returns row tags, locks, activities. -/
def initThreadHeap (fail : Fail) (inp : Inp) (A bounds colTags rowSizes : Ptr) :
    HM (Ptr × Ptr × Ptr) := do
  let rt ← hCalloc fail .rowTags
  hUse bounds
  hUse colTags
  hUse A
  let lk ← hCalloc fail .locks
  if lk ≠ .null ∧ inp.hasNnz then hUse rt
  let ac ← hMalloc fail .acts
  if ac ≠ .null ∧ inp.hasNnz then hUse colTags
  hUse rowSizes
  return (rt, lk, ac)

/-- `new_presolver`, `/repo/src/core/Presolver.c:229-303`, with the allocations of `new_state`.
The second thread is run at the point of its creation: its heap accesses are at other sites than
those of the main thread (C38).  The flag says whether to go to `cleanup`. -/
def initData (fail : Fail) (inp : Inp) : HM (Scope × Bool) := do
  let lhs ← hMalloc fail .lhsCopy
  let rhs ← hMalloc fail .rhsCopy
  let c ← hMalloc fail .cCopy
  let ct ← hCalloc fail .colTags
  let bnd ← hMalloc fail .bounds
  let work ← newWork fail
  let rs ← hMalloc fail .rowSizes
  let cs ← hMalloc fail .colSizes
  let sc : Scope := { lhsCopy := lhs, rhsCopy := rhs, cCopy := c, colTags := ct, bounds := bnd,
                      work := work, rowSizes := rs, colSizes := cs }
  if Ptr.null ∈ [lhs, rhs, c, ct, bnd, work, rs, cs] then return (sc, true)
  hUse lhs
  hUse rhs
  hUse c
  let A ← newMatrix fail sitesA
  let sc := { sc with A := A }
  if A = .null then return (sc, true)
  let (rt, lk, ac) ← initThreadHeap fail inp A bnd ct rs
  let wc ← hGet work .wCols
  let AT ← newMatrix fail sitesAT
  let sc := { sc with AT := AT }
  if AT = .null then return (sc, true)
  hUse wc
  hUse cs
  let sc := { sc with rowTags := rt }
  if rt = .null then return (sc, true)
  let sc := { sc with locks := lk, acts := ac }
  if Ptr.null ∈ [lk, ac] then return (sc, true)
  let d ← newStateVecs fail rs cs lk ac work
  let sc := { sc with state := d }
  return (sc, decide (d = .null))

/-- `new_presolver`, `/repo/src/core/Presolver.c:304-341`. -/
def finishInit (fail : Fail) (sc : Scope) : HM Ptr := do
  let cn ← constraintsNew fail sc.A sc.AT sc.lhsCopy sc.rhsCopy sc.bounds sc.state sc.rowTags
    sc.colTags
  let sc := { sc with constraints := cn }
  if cn = .null then return ← cleanUp sc
  let p ← hMalloc fail .presolver
  let ob ← objectiveNew fail sc.cCopy
  let sc := { sc with presolver := p, obj := ob }
  if Ptr.null ∈ [p, ob] then return ← cleanUp sc
  hSet p .prob (← newProblem fail cn ob)
  let st ← hCalloc fail .stats
  hUse st
  hSet p .stats st
  hSet p .redProb (← hCalloc fail .redProb)
  hSet p .sol (← hMalloc fail .sol)
  let sol ← hGet p .sol
  if sol = .null then return ← cleanUp sc
  hSet sol .solX (← hMalloc fail .solX)
  hSet sol .solY (← hMalloc fail .solY)
  hSet sol .solZ (← hMalloc fail .solZ)
  let x ← hGet sol .solX
  let y ← hGet sol .solY
  let z ← hGet sol .solZ
  if Ptr.null ∈ [x, y, z] then return ← cleanUp sc
  hUse (← hGet p .stats)
  return p

/-- `new_presolver`, `/repo/src/core/Presolver.c:212-351`. -/
def newPresolver (fail : Fail) (inp : Inp) : HM Ptr := do
  let r ← initData fail inp
  if r.2 then return ← cleanUp r.1
  appendAll r.1.state inp.appended
  finishInit fail r.1

/-- `presolver->prob->constraints->state`. -/
def stateOf (p : Ptr) : HM Ptr := do
  hGet (← hGet (← hGet p .prob) .constraints) .state

/-- The struct a vector hangs off: the work space, the postsolve log, or the state. -/
def vecOwner (p : Ptr) (v : Vid) : HM Ptr := do
  let d ← stateOf p
  match v with
  | .intVec => hGet d .work
  | .pStarts => hGet d .pinfo
  | .pIndices => hGet d .pinfo
  | .pVals => hGet d .pinfo
  | .pType => hGet d .pinfo
  | _ => pure d

/-- `populate_presolved_problem`, `/repo/src/core/Presolver.c:573-603`.  The other pointers of
`reduced_prob` are borrowed and never freed through it. -/
def populate (fail : Fail) (p : Ptr) : HM Unit := do
  let r ← hGet p .redProb
  let c ← hGet (← hGet p .prob) .constraints
  hUse (← hGet (← hGet c .A) .Ax)
  hUse (← hGet (← hGet c .A) .Ai)
  hSet r .redLbs (← hMalloc fail .redLbs)
  hSet r .redUbs (← hMalloc fail .redUbs)
  hUse (← hGet r .redLbs)
  hUse (← hGet r .redUbs)
  hSet r .redAp (← hMalloc fail .redAp)
  hUse (← hGet r .redAp)

/-- What `run_presolver` and `postsolve` do to the heap between `new_presolver` and
`free_presolver`: appends that reallocate a vector, the reallocations of `remove_extra_space`
(`/repo/src/core/Matrix.c:238-241`, which keep the block), writes through the solution, and the
creation of the reduced problem. -/
inductive HOp where
  | grow (v : Vid)
  | compact
  | writeSol
  | populate
deriving DecidableEq, Repr

/-- Access to the three arrays of a matrix. -/
def compactOne (c : Ptr) (M : MatSites) : HM Unit := do
  let a ← hGet c M.self
  hUse (← hGet a M.x)
  hUse (← hGet a M.i)
  hUse (← hGet a M.p)

/-- One operation, no allocation failing. -/
def HOp.run (p : Ptr) : HOp → HM Unit
  | .grow v => do
    let o ← vecOwner p v
    vecGrow false v (← hGet o (.vec v))
  | .compact => do
    let c ← hGet (← hGet p .prob) .constraints
    compactOne c sitesA
    compactOne c sitesAT
  | .writeSol => do
    let s ← hGet p .sol
    hUse (← hGet s .solX)
    hUse (← hGet s .solY)
    hUse (← hGet s .solZ)
    let d ← stateOf p
    let m ← hGet (← hGet d .work) .maps
    hUse (← hGet m .mapCols)
    hUse (← hGet m .mapRows)
  | .populate => Verif.populate (fun _ => false) p

/-- A sequence of operations. -/
def runOps (p : Ptr) : List HOp → HM Unit
  | [] => pure ()
  | o :: os => do
    o.run p
    runOps p os

end Verif
