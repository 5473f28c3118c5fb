import Verif.Model.State

/-!
# The two threads of `new_presolver`

Programs are trees of single reads and writes of memory cells, so that every interleaving of the
two threads is visible.  A memory cell is an array and an index.
-/

namespace Verif

/-- The arrays accessed while the two threads run (`/repo/src/core/Presolver.c:250-296`): the
matrix `A` (`Ap` is split into starts and ends), the caller's bounds, the copies of the sides,
the arrays built by the second thread, the arrays built by the main thread. -/
inductive Arr where
  | Ax | Ai | ApStart | ApEnd | lbs | ubs | lhs | rhs
  | bndLb | bndUb | colTags | rowTags | lockUp | lockDown
  | actMin | actMax | actInfMin | actInfMax | actStatus | rowSizes
  | iwork | ATx | ATi | ATpStart | ATpEnd | colSizes
deriving DecidableEq, Repr

/-- Contents of a memory cell. -/
inductive Val where
  | int (z : ℤ) | dbl (d : D) | rt (t : RTag) | ct (t : CTag) | ast (t : ActStatus)
deriving DecidableEq

/-- A memory cell. -/
abbrev Loc := Arr × ℤ

/-- Memory. -/
abbrev Mem := Loc → Val

/-- Store to a cell. -/
def Mem.set (μ : Mem) (l : Loc) (v : Val) : Mem := fun k => if k = l then v else μ k

/-- A thread: finished with a value, about to read a cell, or about to write one. -/
inductive Prog (α : Type) where
  | ret (a : α)
  | rd (l : Loc) (k : Val → Prog α)
  | wr (l : Loc) (v : Val) (k : Prog α)

namespace Prog

/-- Sequential composition. -/
def bind {α β : Type} : Prog α → (α → Prog β) → Prog β
  | ret a, f => f a
  | rd l k, f => rd l (fun v => (k v).bind f)
  | wr l v k, f => wr l v (k.bind f)

instance : Monad Prog where
  pure := ret
  bind := bind

/-- Execution without interference. -/
def run {α : Type} : Prog α → Mem → α × Mem
  | ret a, μ => (a, μ)
  | rd l k, μ => (k (μ l)).run μ
  | wr l v k, μ => k.run (μ.set l v)

end Prog

/-- Read an `int`. -/
def rdInt (a : Arr) (i : ℤ) : Prog ℤ :=
  .rd (a, i) (fun v => .ret (match v with | .int z => z | _ => 0))
/-- Read a `double`. -/
def rdDbl (a : Arr) (i : ℤ) : Prog D :=
  .rd (a, i) (fun v => .ret (match v with | .dbl d => d | _ => .nan))
/-- Read a row tag. -/
def rdRt (i : ℤ) : Prog RTag :=
  .rd (.rowTags, i) (fun v => .ret (match v with | .rt t => t | _ => {}))
/-- Read a column tag. -/
def rdCt (i : ℤ) : Prog CTag :=
  .rd (.colTags, i) (fun v => .ret (match v with | .ct t => t | _ => {}))
/-- Write a cell. -/
def put (a : Arr) (i : ℤ) (v : Val) : Prog Unit := .wr (a, i) v (.ret ())

/-- `for (j = start; j < start + n; ++j) f(j)`. -/
def forFrom : ℕ → ℤ → (ℤ → Prog Unit) → Prog Unit
  | 0, _, _ => .ret ()
  | n + 1, j, f => (f j).bind (fun _ => forFrom n (j + 1) f)

/-- Loop over the cells of row `i` of `A`.  Simplification: the bounds of the row are read once,
the code of `transpose` reads `A->p[i].end` in every iteration. -/
def forRow (i : ℤ) (f : ℤ → Prog Unit) : Prog Unit := do
  let s ← rdInt .ApStart i
  let e ← rdInt .ApEnd i
  forFrom (e - s).toNat s f

/-- `x++` on an array of `int`. -/
def incr (a : Arr) (i : ℤ) : Prog Unit := do
  let z ← rdInt a i
  put a i (.int (z + 1))

/-- `count_rows`, `/repo/src/core/Matrix.c:531-537`, on the row ranges `s`, `e`. -/
def countRowsP (m : ℕ) (s e out : Arr) : Prog Unit :=
  forFrom m 0 (fun i => do
    let a ← rdInt s i
    let b ← rdInt e i
    put out i (.int (b - a)))

/-- `calc_memory_row`, `/repo/src/core/Matrix.c:186-189` with `EXTRA_ROW_SPACE` and
`EXTRA_MEMORY_RATIO` as parameters (the values do not matter here). -/
abbrev RowMem := ℤ → ℤ

/-- `transpose`, `/repo/src/core/Matrix.c:119-167`: `count` is `work->iwork_n_cols`.
Allocation is left out (C40); the memory obtained from it is the arrays `AT…`. -/
def transposeP (m n : ℕ) (rowMem : RowMem) (nAlloc : ℤ) : Prog Unit := do
  forFrom n 0 (fun k => put .iwork k (.int 0))
  forFrom m 0 (fun i => forRow i (fun j => do
    let k ← rdInt .Ai j
    incr .iwork k))
  put .ATpStart 0 (.int 0)
  forFrom n 0 (fun i => do
    let start ← rdInt .ATpStart i
    let cnt ← rdInt .iwork i
    put .ATpEnd i (.int (start + cnt))
    put .ATpStart (i + 1) (.int (start + rowMem cnt))
    put .iwork i (.int start))
  put .ATpStart n (.int nAlloc)
  put .ATpEnd n (.int nAlloc)
  forFrom m 0 (fun i => forRow i (fun j => do
    let k ← rdInt .Ai j
    let pos ← rdInt .iwork k
    let v ← rdDbl .Ax j
    put .ATx pos (.dbl v)
    put .ATi pos (.int i)
    incr .iwork k))

/-- Main thread between `ps_thread_create` and `ps_thread_join`,
`/repo/src/core/Presolver.c:275-282`. -/
def mainThread (m n : ℕ) (rowMem : RowMem) (nAlloc : ℤ) : Prog Unit := do
  transposeP m n rowMem nAlloc
  countRowsP n .ATpStart .ATpEnd .colSizes

/-- `new_rowtags`, `/repo/src/core/Tags.c:23-48` (the calloc is the first loop). -/
def rowTagsP (m : ℕ) : Prog Unit := do
  forFrom m 0 (fun i => put .rowTags i (.rt {}))
  forFrom m 0 (fun i => do
    let r ← rdDbl .rhs i
    if D.eqb r .pinf then
      put .rhs i (.dbl .pinf)
      let t ← rdRt i
      put .rowTags i (.rt { t with rhsInf := true })
    let l ← rdDbl .lhs i
    if D.eqb l .ninf then
      put .lhs i (.dbl .ninf)
      let t ← rdRt i
      put .rowTags i (.rt { t with lhsInf := true })
    else
      let r ← rdDbl .rhs i
      if D.eqb l r then
        let t ← rdRt i
        put .rowTags i (.rt { t with eq := true }))

/-- Bounds and column tags, `/repo/src/core/Presolver.c:122-138`. -/
def boundsP (n : ℕ) : Prog Unit :=
  forFrom n 0 (fun i => do
    let l ← rdDbl .lbs i
    put .bndLb i (.dbl l)
    let u ← rdDbl .ubs i
    put .bndUb i (.dbl u)
    if D.eqb l .ninf then
      let t ← rdCt i
      put .colTags i (.ct { t with lbInf := true })
    if D.eqb u .pinf then
      let t ← rdCt i
      put .colTags i (.ct { t with ubInf := true }))

/-- `new_locks`, `/repo/src/core/Locks.c:24-64`. -/
def locksP (m n : ℕ) : Prog Unit := do
  forFrom n 0 (fun k => do put .lockUp k (.int 0); put .lockDown k (.int 0))
  forFrom m 0 (fun i => forRow i (fun j => do
    let v ← rdDbl .Ax j
    let t ← rdRt i
    let k ← rdInt .Ai j
    if D.lt (.fin 0) v then
      if !t.rhsInf then incr .lockUp k
      if !t.lhsInf then incr .lockDown k
    else
      if !t.rhsInf then incr .lockDown k
      if !t.lhsInf then incr .lockUp k))

/-- One of the two sums of `new_activities`, `/repo/src/core/Activity.c:77-120`: `act->max` (or
`act->min`) is accumulated in memory; the value of a cell is its upper (lower) bound. -/
def actSumP (out : Arr) (isMax : Bool) (i : ℤ) : Prog Unit :=
  forRow i (fun j => do
    let v ← rdDbl .Ax j
    let k ← rdInt .Ai j
    let b ← rdDbl (if D.lt (.fin 0) v = isMax then .bndUb else .bndLb) k
    let a ← rdDbl out i
    put out i (.dbl (D.add a (match v with | .fin q => D.smul q b | _ => .nan))))

/-- `new_activities`, `/repo/src/core/Activity.c:27-125`. -/
def activitiesP (m : ℕ) : Prog Unit :=
  forFrom m 0 (fun i => do
    put .actInfMin i (.int 0)
    put .actInfMax i (.int 0)
    put .actMax i (.dbl (.fin 0))
    put .actMin i (.dbl (.fin 0))
    put .actStatus i (.ast .notAdded)
    forRow i (fun j => do
      let v ← rdDbl .Ax j
      let k ← rdInt .Ai j
      let t ← rdCt k
      if D.lt (.fin 0) v then
        if t.ubInf then incr .actInfMax i
        if t.lbInf then incr .actInfMin i
      else
        if t.lbInf then incr .actInfMax i
        if t.ubInf then incr .actInfMin i)
    let x ← rdInt .actInfMax i
    if x = 0 then actSumP .actMax true i
    let y ← rdInt .actInfMin i
    if y = 0 then actSumP .actMin false i)

/-- `init_thread_func`, `/repo/src/core/Presolver.c:116-144`. -/
def initThread (m n : ℕ) : Prog Unit := do
  rowTagsP m
  boundsP n
  locksP m n
  activitiesP m
  countRowsP m .ApStart .ApEnd .rowSizes

/-! ### Interleaving -/

/-- Which thread acted, on which cell, and whether it wrote. -/
structure Access where
  main : Bool
  loc : Loc
  write : Bool
deriving DecidableEq

/-- What is left of the main thread, of the second thread, and the memory. -/
abbrev Config (α β : Type) := Prog α × Prog β × Mem

/-- One step of one of the two threads. -/
inductive TStep {α β : Type} : Config α β → Access → Config α β → Prop where
  | mainRd (l : Loc) (k : Val → Prog α) (q : Prog β) (μ : Mem) :
      TStep (.rd l k, q, μ) ⟨true, l, false⟩ (k (μ l), q, μ)
  | mainWr (l : Loc) (v : Val) (k : Prog α) (q : Prog β) (μ : Mem) :
      TStep (.wr l v k, q, μ) ⟨true, l, true⟩ (k, q, μ.set l v)
  | sndRd (l : Loc) (k : Val → Prog β) (p : Prog α) (μ : Mem) :
      TStep (p, .rd l k, μ) ⟨false, l, false⟩ (p, k (μ l), μ)
  | sndWr (l : Loc) (v : Val) (k : Prog β) (p : Prog α) (μ : Mem) :
      TStep (p, .wr l v k, μ) ⟨false, l, true⟩ (p, k, μ.set l v)

/-- An execution with the accesses made, oldest first. -/
inductive TSteps {α β : Type} : Config α β → List Access → Config α β → Prop where
  | refl (c : Config α β) : TSteps c [] c
  | step {c d e : Config α β} {a : Access} {tr : List Access} :
      TStep c a d → TSteps d tr e → TSteps c (a :: tr) e

end Verif
