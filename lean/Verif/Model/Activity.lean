import Verif.Model.State

/-!
# Row activities (`/repo/src/core/Activity.c`)
-/

namespace Verif

/-- Counting loop of `Activity_init`, lines 166-192: terms with an infinite contribution to
the minimal activity.  (`new_activities:46-80` contains the same loop.) -/
def countInfMin (ctag : ℕ → CTag) (cells : List Cell) : ℤ :=
  cells.foldl (fun k p =>
    if 0 < p.2 then (if (ctag p.1).lbInf then k + 1 else k)
    else (if (ctag p.1).ubInf then k + 1 else k)) 0

/-- Counting loop of `Activity_init`, lines 166-192: infinite contributions to the maximal
activity. -/
def countInfMax (ctag : ℕ → CTag) (cells : List Cell) : ℤ :=
  cells.foldl (fun k p =>
    if 0 < p.2 then (if (ctag p.1).ubInf then k + 1 else k)
    else (if (ctag p.1).lbInf then k + 1 else k)) 0

/-- `compute_min_act_no_tags`, `/repo/src/core/Activity.c:299-317`. -/
def minActNoTags (lb ub : ℕ → D) (cells : List Cell) : D :=
  cells.foldl (fun a p =>
    if 0 < p.2 then D.add a (D.smul p.2 (lb p.1)) else D.add a (D.smul p.2 (ub p.1))) (.fin 0)

/-- `compute_max_act_no_tags`, `/repo/src/core/Activity.c:319-337`. -/
def maxActNoTags (lb ub : ℕ → D) (cells : List Cell) : D :=
  cells.foldl (fun a p =>
    if 0 < p.2 then D.add a (D.smul p.2 (ub p.1)) else D.add a (D.smul p.2 (lb p.1))) (.fin 0)

/-- `compute_min_act_tags`, `/repo/src/core/Activity.c:247-271`. -/
def minActTags (ctag : ℕ → CTag) (lb ub : ℕ → D) (cells : List Cell) : D :=
  cells.foldl (fun a p =>
    if 0 < p.2 then (if (ctag p.1).lbInf then a else D.add a (D.smul p.2 (lb p.1)))
    else (if (ctag p.1).ubInf then a else D.add a (D.smul p.2 (ub p.1)))) (.fin 0)

/-- `compute_max_act_tags`, `/repo/src/core/Activity.c:273-297`. -/
def maxActTags (ctag : ℕ → CTag) (lb ub : ℕ → D) (cells : List Cell) : D :=
  cells.foldl (fun a p =>
    if 0 < p.2 then (if (ctag p.1).ubInf then a else D.add a (D.smul p.2 (ub p.1)))
    else (if (ctag p.1).lbInf then a else D.add a (D.smul p.2 (lb p.1)))) (.fin 0)

/-- `compute_min_act_one_tag`, `/repo/src/core/Activity.c:339-363`. -/
def minActOneTag (lb ub : ℕ → D) (cells : List Cell) (avoid : ℕ) : D :=
  cells.foldl (fun a p =>
    if p.1 = avoid then a
    else if 0 < p.2 then D.add a (D.smul p.2 (lb p.1))
    else D.add a (D.smul p.2 (ub p.1))) (.fin 0)

/-- `compute_max_act_one_tag`, `/repo/src/core/Activity.c:365-389`. -/
def maxActOneTag (lb ub : ℕ → D) (cells : List Cell) (avoid : ℕ) : D :=
  cells.foldl (fun a p =>
    if p.1 = avoid then a
    else if 0 < p.2 then D.add a (D.smul p.2 (ub p.1))
    else D.add a (D.smul p.2 (lb p.1))) (.fin 0)

/-- `Activity_init`, `/repo/src/core/Activity.c:155-245` (the body of the loop of
`new_activities:27-131` is the same). -/
def actInit (ctag : ℕ → CTag) (lb ub : ℕ → D) (cells : List Cell) : Act :=
  let nmin := countInfMin ctag cells
  let nmax := countInfMax ctag cells
  { nInfMin := nmin, nInfMax := nmax, status := .notAdded
    max := if nmax = 0 then maxActNoTags lb ub cells else .fin 0
    min := if nmin = 0 then minActNoTags lb ub cells else .fin 0 }

/-- `Altered_Activity`, `/repo/include/core/Activity.h:64-72` (bit mask of four flags). -/
structure Altered where
  min : Bool := false
  max : Bool := false
  minRecompute : Bool := false
  maxRecompute : Bool := false
deriving DecidableEq, Repr

/-- The four-fold repeated block of `update_act_bound_change` for the maximal activity
(`/repo/src/core/Activity.c:404-418, 466-480`). -/
def bumpMax (a : Act) (coeff : ℚ) (oldB newB : D) (finite : Bool) (lb ub : ℕ → D)
    (cells : List Cell) : Act :=
  if a.nInfMax = 0 then { a with max := D.add a.max (D.smul coeff (D.sub newB oldB)) }
  else if !finite then
    let k := a.nInfMax - 1
    if k = 0 then { a with nInfMax := k, max := maxActNoTags lb ub cells }
    else { a with nInfMax := k }
  else a

/-- The same block for the minimal activity (`/repo/src/core/Activity.c:424-438, 447-461`). -/
def bumpMin (a : Act) (coeff : ℚ) (oldB newB : D) (finite : Bool) (lb ub : ℕ → D)
    (cells : List Cell) : Act :=
  if a.nInfMin = 0 then { a with min := D.add a.min (D.smul coeff (D.sub newB oldB)) }
  else if !finite then
    let k := a.nInfMin - 1
    if k = 0 then { a with nInfMin := k, min := minActNoTags lb ub cells }
    else { a with nInfMin := k }
  else a

/-- `update_act_bound_change`, `/repo/src/core/Activity.c:391-482`: new activity and which
side was altered.  `cells` is the row, `lb`/`ub` the bounds after the change. -/
def updActBoundChange (a : Act) (coeff : ℚ) (oldB newB : D) (finite lower : Bool)
    (lb ub : ℕ → D) (cells : List Cell) : Act × Altered :=
  if lower then
    if coeff < 0 then (bumpMax a coeff oldB newB finite lb ub cells, { max := true })
    else (bumpMin a coeff oldB newB finite lb ub cells, { min := true })
  else
    if coeff < 0 then (bumpMin a coeff oldB newB finite lb ub cells, { min := true })
    else (bumpMax a coeff oldB newB finite lb ub cells, { max := true })

/-- Tail of the loops in `update_activities_bound_change:505-518` and
`update_activities_fixed_col:554-568`: put the row on the list of updated activities. -/
def noteAltered (s : St) (i : ℕ) (alt : Altered) : St :=
  let a := s.act i
  if (a.nInfMax = 0 ∧ alt.max = true) ∨ (a.nInfMin = 0 ∧ alt.min = true) then
    match a.status with
    | .notAdded => { s with act := upd s.act i { a with status := .added }
                            updActs := s.updActs ++ [i] }
    | .propagatedThisRound => { s with act := upd s.act i { a with status := .propagateNextRound }
                                       updActs := s.updActs ++ [i] }
    | _ => s
  else s

/-- `update_activities_bound_change`, `/repo/src/core/Activity.c:484-520`; `cells` is the
column, the bounds in `s` are already the new ones. -/
def updActsBoundChange (s : St) (cells : List Cell) (oldB newB : D) (finite lower : Bool) : St :=
  cells.foldl (fun s p =>
    let r := updActBoundChange (s.act p.1) p.2 oldB newB finite lower s.lb s.ub (s.A p.1)
    noteAltered { s with act := upd s.act p.1 r.1 } p.1 r.2) s

/-- Body of the loop of `update_activities_fixed_col`, `/repo/src/core/Activity.c:533-569`. -/
def updActsFixedColStep (oldUb oldLb val : D) (ubUpd lbUpd ubInf lbInf : Bool) (s : St)
    (p : Cell) : St :=
  let r1 : Act × Altered :=
    if ubUpd then
      updActBoundChange (s.act p.1) p.2 oldUb val (!ubInf) false s.lb s.ub (s.A p.1)
    else (s.act p.1, {})
  let r2 : Act × Altered :=
    if lbUpd then updActBoundChange r1.1 p.2 oldLb val (!lbInf) true s.lb s.ub (s.A p.1)
    else (r1.1, {})
  noteAltered { s with act := upd s.act p.1 r2.1 } p.1
    { min := r1.2.min || r2.2.min, max := r1.2.max || r2.2.max }

/-- `update_activities_fixed_col`, `/repo/src/core/Activity.c:522-570`. -/
def updActsFixedCol (s : St) (cells : List Cell) (oldUb oldLb val : D)
    (ubUpd lbUpd ubInf lbInf : Bool) : St :=
  cells.foldl (updActsFixedColStep oldUb oldLb val ubUpd lbUpd ubInf lbInf) s

/-- First half of `update_activity_coeff_change`, `/repo/src/core/Activity.c:585-632`:
remove the contribution of a coefficient. -/
def dropCoeff (a : Act) (lb ub : D) (t : CTag) (q : ℚ) : Act :=
  if 0 < q then
    let a := if t.lbInf then { a with nInfMin := a.nInfMin - 1 }
      else if a.nInfMin = 0 then { a with min := D.sub a.min (D.smul q lb) } else a
    if t.ubInf then { a with nInfMax := a.nInfMax - 1 }
    else if a.nInfMax = 0 then { a with max := D.sub a.max (D.smul q ub) } else a
  else if q < 0 then
    let a := if t.lbInf then { a with nInfMax := a.nInfMax - 1 }
      else if a.nInfMax = 0 then { a with max := D.sub a.max (D.smul q lb) } else a
    if t.ubInf then { a with nInfMin := a.nInfMin - 1 }
    else if a.nInfMin = 0 then { a with min := D.sub a.min (D.smul q ub) } else a
  else a

/-- Second half of `update_activity_coeff_change`, `/repo/src/core/Activity.c:637-691`: add
the contribution of a coefficient. -/
def addCoeff (a : Act) (lb ub : D) (t : CTag) (q : ℚ) : Act :=
  if 0 < q then
    let a := if t.lbInf then { a with nInfMin := a.nInfMin + 1 }
      else if a.nInfMin = 0 then { a with min := D.add a.min (D.smul q lb) } else a
    if t.ubInf then { a with nInfMax := a.nInfMax + 1 }
    else if a.nInfMax = 0 then { a with max := D.add a.max (D.smul q ub) } else a
  else if q < 0 then
    let a := if t.lbInf then { a with nInfMax := a.nInfMax + 1 }
      else if a.nInfMax = 0 then { a with max := D.add a.max (D.smul q lb) } else a
    if t.ubInf then { a with nInfMin := a.nInfMin + 1 }
    else if a.nInfMin = 0 then { a with min := D.add a.min (D.smul q ub) } else a
  else a

/-- `update_activity_coeff_change`, `/repo/src/core/Activity.c:572-719`. -/
def updActCoeffChange (a : Act) (lb ub : D) (old new : ℚ) (t : CTag) : Act × Altered :=
  let a' := addCoeff (dropCoeff a lb ub t old) lb ub t new
  if a'.nInfMin = 0 ∧ a.nInfMin = 1 then (a', { minRecompute := true })
  else if a'.nInfMax = 0 ∧ a.nInfMax = 1 then (a', { maxRecompute := true })
  else (a', {})

/-- `remove_finite_lb_from_activities`, `/repo/src/core/Activity.c:721-755`. -/
def removeFiniteLb (act : ℕ → Act) (cells : List Cell) (bound : D) : ℕ → Act :=
  cells.foldl (fun act p =>
    let a := act p.1
    if 0 < p.2 then
      let a := if a.nInfMin = 0 then { a with min := D.sub a.min (D.smul p.2 bound) } else a
      upd act p.1 { a with nInfMin := a.nInfMin + 1 }
    else if p.2 < 0 then
      let a := if a.nInfMax = 0 then { a with max := D.sub a.max (D.smul p.2 bound) } else a
      upd act p.1 { a with nInfMax := a.nInfMax + 1 }
    else act) act

/-- `remove_finite_ub_from_activities`, `/repo/src/core/Activity.c:757-791`. -/
def removeFiniteUb (act : ℕ → Act) (cells : List Cell) (bound : D) : ℕ → Act :=
  cells.foldl (fun act p =>
    let a := act p.1
    if 0 < p.2 then
      let a := if a.nInfMax = 0 then { a with max := D.sub a.max (D.smul p.2 bound) } else a
      upd act p.1 { a with nInfMax := a.nInfMax + 1 }
    else if p.2 < 0 then
      let a := if a.nInfMin = 0 then { a with min := D.sub a.min (D.smul p.2 bound) } else a
      upd act p.1 { a with nInfMin := a.nInfMin + 1 }
    else act) act

/-- `recompute_n_infs`, `/repo/src/core/Activity.c:793-834`. -/
def recomputeNInfs (ctag : ℕ → CTag) (a : Act) (cells : List Cell) : Act :=
  let live := cells.filter (fun p => !(ctag p.1).inactive)
  { a with nInfMax := countInfMax ctag live, nInfMin := countInfMin ctag live }

end Verif
