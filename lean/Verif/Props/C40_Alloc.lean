import Verif.Model.Heap

/-!
# C40, C41: allocation failure and freeing
-/

namespace Verif

/-- Exactly one allocation call fails. -/
def failAt (s : Site) : Fail := fun t => decide (t = s)
/-- No allocation call fails. -/
def failNone : Fail := fun _ => false

/-- The vectors `new_state` appends to. -/
def appendable : List Vid := [.emptyRows, .stonRows, .dtonRows, .emptyCols, .stonCols, .updActs]

/-- Appends go to vectors of the state; no reallocation fails. -/
def Inp.Ok (inp : Inp) : Prop := ∀ a ∈ inp.appended, a.1 ∈ appendable ∧ a.2.2 = false

/-- The failure was reported: `NULL` is returned, nothing stays allocated, no bad pointer was used
and the process goes on. -/
def Reported (r : Ptr × Heap) : Prop :=
  r.1 = .null ∧ r.2.live = [] ∧ r.2.bad = false ∧ r.2.lost = false ∧ r.2.exited = false

instance (r : Ptr × Heap) : Decidable (Reported r) := by unfold Reported; infer_instance

/-- The allocation calls whose failure is reported. -/
def handledSites : List Site :=
  [.lhsCopy, .rhsCopy, .cCopy, .colTags, .bounds, .rowSizes, .colSizes, .work, .wCols, .wRows,
   .wMax1, .wMax2, .mapCols, .mapRows, .A, .Ai, .Ap, .Ax, .locks, .acts, .state, .constraints]

/-- The allocation calls whose failure is not reported. -/
def unhandledSites : List Site :=
  [.maps, .AT, .ATi, .ATp, .ATx, .rowTags, .pinfo, .presolver, .obj, .prob, .stats, .redProb,
   .sol, .solX, .solY, .solZ] ++
  ([.intVec, .stonRows, .stonCols, .dtonRows, .emptyCols, .emptyRows, .updActs, .fixedCols,
    .subCols, .rowsDel, .pStarts, .pIndices, .pVals, .pType] : List Vid).flatMap
    (fun v => [Site.vec v, Site.vecData v])

/-- Every allocation call is in one of the two lists (the last three are made by
`populate_presolved_problem`). -/
theorem sites_complete (s : Site) :
    s ∈ handledSites ∨ s ∈ unhandledSites ∨ s ∈ [Site.redLbs, Site.redUbs, Site.redAp] := by
  cases s with
  | vec v => right; left; cases v <;> decide
  | vecData v => right; left; cases v <;> decide
  | _ => decide

/-! ### Appends -/

/-- The vector `v` of the state is in order. -/
def vecOk (h : Heap) (o : Site) (v : Vid) : Bool :=
  decide (o ∈ h.live) && decide (h.fld o (.vec v) = .blk (.vec v)) &&
    decide (.vec v ∈ h.live) && decide (h.fld (.vec v) (.vecData v) = .blk (.vecData v)) &&
    decide (.vecData v ∈ h.live)

theorem hUse_ok {h : Heap} {s : Site} (hs : s ∈ h.live) : hUse (.blk s) h = ((), h) := by
  unfold hUse
  dsimp only
  rw [if_pos hs]

theorem hGet_ok {h : Heap} {s f : Site} {q : Ptr} (hs : s ∈ h.live) (hf : h.fld s f = q) :
    hGet (.blk s) f h = (q, h) := by
  unfold hGet
  simp only [if_pos hs, hf]

theorem hm_bind {α β : Type} (x : HM α) (f : α → HM β) (h : Heap) :
    (x >>= f) h = f (x h).1 (x h).2 := rfl

theorem vecGrow_ok {h : Heap} {o : Site} {v : Vid} (hv : vecOk h o v = true) :
    vecGrow false v (.blk (.vec v)) h = ((), h) := by
  simp only [vecOk, Bool.and_eq_true, decide_eq_true_eq] at hv
  obtain ⟨⟨⟨⟨h1, h2⟩, h3⟩, h4⟩, h5⟩ := hv
  unfold vecGrow
  rw [hm_bind, hGet_ok h3 h4, hm_bind, hUse_ok h5]
  rfl

theorem appendAll_ok {h : Heap} (hv : ∀ v ∈ appendable, vecOk h .state v = true) :
    ∀ l : List (Vid × Bool × Bool), (∀ a ∈ l, a.1 ∈ appendable ∧ a.2.2 = false) →
      appendAll (.blk .state) l h = ((), h)
  | [], _ => rfl
  | a :: l, hl => by
    have ha := hl a List.mem_cons_self
    have hva := hv _ ha.1
    have h0 := hva
    simp only [vecOk, Bool.and_eq_true, decide_eq_true_eq] at hva
    obtain ⟨⟨⟨⟨h1, h2⟩, h3⟩, h4⟩, h5⟩ := hva
    have e : appendOne (.blk .state) a h = ((), h) := by
      unfold appendOne
      rw [hm_bind, hGet_ok h1 h2]
      cases hb : a.2.1 with
      | true =>
        simp only [if_true, ha.2]
        exact vecGrow_ok h0
      | false =>
        rw [if_neg Bool.false_ne_true, hm_bind, hGet_ok h3 h4, hUse_ok h5]
    unfold appendAll
    rw [hm_bind, e]
    exact appendAll_ok hv l (fun b hb => hl b (List.mem_cons_of_mem _ hb))

/-- The appends of `new_state` leave ownership as it is. -/
theorem newPresolver_appended (fail : Fail) (inp : Inp) (hi : inp.Ok)
    (hs : (initData fail inp Heap.empty).1.2 = true ∨
      (initData fail inp Heap.empty).1.1.state = .blk .state ∧
      ∀ v ∈ appendable, vecOk (initData fail inp Heap.empty).2 .state v = true) :
    newPresolver fail inp Heap.empty = newPresolver fail ⟨inp.hasNnz, []⟩ Heap.empty := by
  have e0 : initData fail ⟨inp.hasNnz, []⟩ = initData fail inp := rfl
  unfold newPresolver
  rw [hm_bind, hm_bind, e0]
  generalize initData fail inp Heap.empty = r at hs ⊢
  obtain ⟨⟨sc, stop⟩, h⟩ := r
  dsimp only at hs ⊢
  cases stop with
  | true => rfl
  | false =>
    rcases hs with hs | ⟨hs, hv⟩
    · cases hs
    · rw [if_neg Bool.false_ne_true, if_neg Bool.false_ne_true, hm_bind, hm_bind, hs,
        appendAll_ok hv _ hi]
      rfl

/-! ### C40 -/

/-- **C40, handled calls.**  Whatever the input: if one of these allocation calls fails,
`new_presolver` returns `NULL`, every block is freed exactly once, and no null, dangling or
uninitialized pointer is used. -/
theorem C40_reported_partial (s : Site) (hs : s ∈ handledSites) (inp : Inp) (hi : inp.Ok) :
    Reported (newPresolver (failAt s) inp Heap.empty) := by
  have key : ∀ b : Bool, ∀ s ∈ handledSites,
      ((initData (failAt s) ⟨b, []⟩ Heap.empty).1.2 = true ∨
        (initData (failAt s) ⟨b, []⟩ Heap.empty).1.1.state = .blk .state ∧
        ∀ v ∈ appendable, vecOk (initData (failAt s) ⟨b, []⟩ Heap.empty).2 .state v = true) ∧
      Reported (newPresolver (failAt s) ⟨b, []⟩ Heap.empty) := by
    decide +kernel
  have k := key inp.hasNnz s hs
  rw [newPresolver_appended (failAt s) inp hi k.1]
  exact k.2

/-- An input with one nonzero and one finite activity. -/
def inpEx : Inp := ⟨true, [(.updActs, false, false)]⟩

/-- **C40 fails for the other calls.**  For every other allocation call of `new_presolver` there is
an input for which the failure is not reported: a null or freed pointer is used, a block is leaked
or a presolver is returned. -/
theorem C40_not_reported : ∀ s ∈ unhandledSites,
    ¬ Reported (newPresolver (failAt s) inpEx Heap.empty) := by
  decide +kernel

/-- What goes wrong in detail: dereference of the null `mappings`; dereference of a null vector in
`free_state`; leak of what the second thread allocated; double free after `constraints` exists;
null dereference in `init_stats`; a presolver without a problem is returned. -/
theorem C40_failure_kinds :
    (newPresolver (failAt .maps) inpEx Heap.empty).2.bad = true ∧
    (newPresolver (failAt (.vec .stonRows)) inpEx Heap.empty).2.bad = true ∧
    (newPresolver (failAt .AT) inpEx Heap.empty).2.live = [.acts, .locks, .rowTags] ∧
    (newPresolver (failAt .presolver) inpEx Heap.empty).2.bad = true ∧
    (newPresolver (failAt .stats) inpEx Heap.empty).2.bad = true ∧
    (newPresolver (failAt .prob) inpEx Heap.empty).1 = .blk .presolver := by
  decide +kernel

/-- A failing reallocation while `new_state` fills its vectors ends the process. -/
theorem C40_realloc_exits :
    (newPresolver failNone ⟨true, [(.stonRows, true, true)]⟩ Heap.empty).2.exited = true := by
  decide +kernel

example : inpEx.Ok := by
  intro a ha
  rw [List.mem_singleton.mp ha]
  exact ⟨by decide, rfl⟩

/-! ### C41 -/

/-- The pointers followed between `new_presolver` and `free_presolver`. -/
def linkTable : List (Site × Site) :=
  [(.presolver, .prob), (.prob, .constraints), (.constraints, .state), (.state, .work),
   (.state, .pinfo), (.constraints, .A), (.constraints, .AT), (.A, .Ax), (.A, .Ai), (.A, .Ap),
   (.AT, .ATx), (.AT, .ATi), (.AT, .ATp), (.presolver, .sol), (.sol, .solX), (.sol, .solY),
   (.sol, .solZ), (.work, .maps), (.maps, .mapCols), (.maps, .mapRows)]

/-- The struct a vector hangs off. -/
def ownerSite : Vid → Site
  | .intVec => .work
  | .pStarts => .pinfo
  | .pIndices => .pinfo
  | .pVals => .pinfo
  | .pType => .pinfo
  | _ => .state

/-- All vectors. -/
def allVids : List Vid :=
  [.intVec, .stonRows, .stonCols, .dtonRows, .emptyCols, .emptyRows, .updActs, .fixedCols,
   .subCols, .rowsDel, .pStarts, .pIndices, .pVals, .pType]

/-- Pointers lead to allocated blocks. -/
def LinksOk (h : Heap) : Prop :=
  (∀ l ∈ linkTable, l.1 ∈ h.live ∧ h.fld l.1 l.2 = .blk l.2 ∧ l.2 ∈ h.live) ∧
  ∀ v ∈ allVids, vecOk h (ownerSite v) v = true

instance (h : Heap) : Decidable (LinksOk h) := by unfold LinksOk; infer_instance

theorem LinksOk.link {h : Heap} (hl : LinksOk h) (s f : Site) (hm : (s, f) ∈ linkTable) :
    hGet (.blk s) f h = (.blk f, h) :=
  hGet_ok (hl.1 _ hm).1 (hl.1 _ hm).2.1

theorem LinksOk.use {h : Heap} (hl : LinksOk h) (s f : Site) (hm : (s, f) ∈ linkTable) :
    hUse (.blk f) h = ((), h) :=
  hUse_ok (hl.1 _ hm).2.2

theorem stateOf_ok {h : Heap} (hl : LinksOk h) :
    stateOf (.blk .presolver) h = (.blk .state, h) := by
  unfold stateOf
  rw [hm_bind, hl.link .presolver .prob (by decide), hm_bind,
    hl.link .prob .constraints (by decide), hl.link .constraints .state (by decide)]

theorem vecOwner_ok {h : Heap} (hl : LinksOk h) (v : Vid) :
    vecOwner (.blk .presolver) v h = (.blk (ownerSite v), h) := by
  unfold vecOwner
  rw [hm_bind, stateOf_ok hl]
  cases v <;> first
    | rfl
    | exact hl.link .state .work (by decide)
    | exact hl.link .state .pinfo (by decide)

theorem mem_allVids (v : Vid) : v ∈ allVids := by cases v <;> decide

/-- Everything but the creation of the reduced problem leaves ownership as it is. -/
theorem HOp.run_ok {h : Heap} (hl : LinksOk h) (o : HOp) (ho : o ≠ .populate) :
    o.run (.blk .presolver) h = ((), h) := by
  cases o with
  | populate => exact (ho rfl).elim
  | grow v =>
    have hv := hl.2 v (mem_allVids v)
    have h0 := hv
    simp only [vecOk, Bool.and_eq_true, decide_eq_true_eq] at hv
    obtain ⟨⟨⟨⟨h1, h2⟩, _⟩, _⟩, _⟩ := hv
    unfold HOp.run
    dsimp only
    rw [hm_bind, vecOwner_ok hl, hm_bind, hGet_ok h1 h2]
    exact vecGrow_ok h0
  | compact =>
    have k : ∀ M ∈ [sitesA, sitesAT], (Site.constraints, M.self) ∈ linkTable ∧
        (M.self, M.x) ∈ linkTable ∧ (M.self, M.i) ∈ linkTable ∧ (M.self, M.p) ∈ linkTable := by
      intro M hM
      simp only [List.mem_cons, List.not_mem_nil, or_false] at hM
      rcases hM with rfl | rfl <;> decide
    have one : ∀ M ∈ [sitesA, sitesAT], compactOne (.blk .constraints) M h = ((), h) := by
      intro M hM
      obtain ⟨k1, k2, k3, k4⟩ := k M hM
      unfold compactOne
      rw [hm_bind, hl.link _ _ k1, hm_bind, hl.link _ _ k2, hm_bind, hl.use _ _ k2, hm_bind,
        hl.link _ _ k3, hm_bind, hl.use _ _ k3, hm_bind, hl.link _ _ k4, hl.use _ _ k4]
    unfold HOp.run
    dsimp only
    rw [hm_bind, hl.link .presolver .prob (by decide), hm_bind,
      hl.link .prob .constraints (by decide), hm_bind, one _ (by simp), one _ (by simp)]
  | writeSol =>
    unfold HOp.run
    dsimp only
    rw [hm_bind, hl.link .presolver .sol (by decide), hm_bind, hl.link .sol .solX (by decide),
      hm_bind, hl.use .sol .solX (by decide), hm_bind, hl.link .sol .solY (by decide),
      hm_bind, hl.use .sol .solY (by decide), hm_bind, hl.link .sol .solZ (by decide),
      hm_bind, hl.use .sol .solZ (by decide), hm_bind, stateOf_ok hl, hm_bind,
      hl.link .state .work (by decide), hm_bind, hl.link .work .maps (by decide), hm_bind,
      hl.link .maps .mapCols (by decide), hm_bind, hl.use .maps .mapCols (by decide), hm_bind,
      hl.link .maps .mapRows (by decide), hl.use .maps .mapRows (by decide)]

theorem runOps_ok {h : Heap} (hl : LinksOk h) : ∀ ops : List HOp, HOp.populate ∉ ops →
    runOps (.blk .presolver) ops h = ((), h)
  | [], _ => rfl
  | o :: os, hn => by
    unfold runOps
    rw [hm_bind, HOp.run_ok hl o (fun e => hn (e ▸ List.mem_cons_self))]
    exact runOps_ok hl os (fun hm => hn (List.mem_cons_of_mem _ hm))

theorem runOps_append (p : Ptr) (a b : List HOp) (h : Heap) :
    runOps p (a ++ b) h = runOps p b (runOps p a h).2 := by
  induction a generalizing h with
  | nil => rfl
  | cons o os ih =>
    change runOps p (os ++ b) _ = runOps p b (runOps p os _).2
    exact ih _

theorem runOps_populate (p : Ptr) (b : List HOp) (h : Heap) :
    runOps p (HOp.populate :: b) h = runOps p b (populate failNone p h).2 := rfl

/-- At most one creation of the reduced problem: two possible heaps. -/
theorem runOps_two {h0 : Heap} (k3 : LinksOk h0)
    (k4 : LinksOk (populate failNone (.blk .presolver) h0).2) (ops : List HOp)
    (hp : ops.count .populate ≤ 1) :
    (runOps (.blk .presolver) ops h0).2 = h0 ∨
      (runOps (.blk .presolver) ops h0).2 = (populate failNone (.blk .presolver) h0).2 := by
  by_cases hm : HOp.populate ∈ ops
  · obtain ⟨a, b, rfl⟩ := List.append_of_mem hm
    rw [List.count_append, List.count_cons_self] at hp
    have ha : HOp.populate ∉ a := List.count_eq_zero.mp (by omega)
    have hb : HOp.populate ∉ b := List.count_eq_zero.mp (by omega)
    rw [runOps_append, runOps_ok k3 a ha, runOps_populate, runOps_ok k4 b hb]
    exact .inr rfl
  · rw [runOps_ok k3 ops hm]
    exact .inl rfl

/-- `new_presolver`, some operations, `free_presolver`. -/
def lifetime (inp : Inp) (ops : List HOp) (h : Heap) : Ptr × Heap :=
  let r := newPresolver failNone inp h
  let q := runOps r.1 ops r.2
  (r.1, (freePresolver r.1 q.2).2)

/-- **C41, released exactly once.**  Without allocation failures, whatever the input, whatever
vectors grow, however often solutions are written: when `run_presolver` has built the reduced
problem at most once, `free_presolver` frees every block exactly once and touches nothing that is
not allocated. -/
theorem C41_released (inp : Inp) (hi : inp.Ok) (ops : List HOp)
    (hp : ops.count .populate ≤ 1) :
    let r := lifetime inp ops Heap.empty
    r.1 ≠ .null ∧ r.2.live = [] ∧ r.2.bad = false ∧ r.2.lost = false ∧ r.2.exited = false := by
  have key : ∀ b : Bool,
      ((initData failNone ⟨b, []⟩ Heap.empty).1.2 = true ∨
        (initData failNone ⟨b, []⟩ Heap.empty).1.1.state = .blk .state ∧
        ∀ v ∈ appendable, vecOk (initData failNone ⟨b, []⟩ Heap.empty).2 .state v = true) ∧
      (newPresolver failNone ⟨b, []⟩ Heap.empty).1 = .blk .presolver ∧
      LinksOk (newPresolver failNone ⟨b, []⟩ Heap.empty).2 ∧
      LinksOk (populate failNone (.blk .presolver)
        (newPresolver failNone ⟨b, []⟩ Heap.empty).2).2 := by
    decide +kernel
  have fin : ∀ b : Bool, ∀ h ∈ [(newPresolver failNone ⟨b, []⟩ Heap.empty).2,
        (populate failNone (.blk .presolver) (newPresolver failNone ⟨b, []⟩ Heap.empty).2).2],
      (freePresolver (.blk .presolver) h).2.live = [] ∧
      (freePresolver (.blk .presolver) h).2.bad = false ∧
      (freePresolver (.blk .presolver) h).2.lost = false ∧
      (freePresolver (.blk .presolver) h).2.exited = false := by
    decide +kernel
  obtain ⟨k1, k2, k3, k4⟩ := key inp.hasNnz
  have e := newPresolver_appended failNone inp hi k1
  intro r
  have hr : r = lifetime inp ops Heap.empty := rfl
  clear_value r
  unfold lifetime at hr
  rw [e] at hr
  dsimp only at hr
  rw [k2] at hr
  subst hr
  refine ⟨by simp, ?_⟩
  dsimp only
  apply fin inp.hasNnz
  rw [List.mem_cons, List.mem_singleton]
  generalize (newPresolver failNone ⟨inp.hasNnz, []⟩ Heap.empty).2 = h0 at k3 k4 ⊢
  exact runOps_two k3 k4 ops hp

/-- `free_presolver(NULL)` does nothing. -/
theorem C41_free_null (h : Heap) : freePresolver .null h = ((), h) := rfl

/-- **C41 fails for two runs.**  A second `run_presolver` overwrites the pointers to the arrays of
the reduced problem, which are then never freed. -/
theorem C41_two_runs_leak :
    (lifetime inpEx [.populate, .populate] Heap.empty).2.live ≠ [] := by
  decide +kernel

example : ([HOp.grow .pVals, .grow .updActs, .compact, .populate, .writeSol, .writeSol]).count
    .populate ≤ 1 := by decide

end Verif
