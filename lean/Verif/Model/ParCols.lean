import Verif.Model.ParRows

/-!
# Parallel columns (`/repo/src/explorers/Parallel_cols.c`)
-/

namespace Verif

/-- New lower bound of the column that absorbs a parallel one,
`/repo/src/explorers/Parallel_cols.c:100-157`: bounds of `x_j + ratio * x_k`. -/
def mergeLb (ratio : ℚ) (lbj : D) (tj : CTag) (lbk ubk : D) (tk : CTag) : D :=
  if 0 < ratio then
    if tj.lbInf || tk.lbInf then .ninf else D.add lbj (D.smul ratio lbk)
  else
    if tj.lbInf || tk.ubInf then .ninf else D.add lbj (D.smul ratio ubk)

/-- New upper bound, same lines. -/
def mergeUb (ratio : ℚ) (ubj : D) (tj : CTag) (lbk ubk : D) (tk : CTag) : D :=
  if 0 < ratio then
    if tj.ubInf || tk.ubInf then .pinf else D.add ubj (D.smul ratio ubk)
  else
    if tj.ubInf || tk.lbInf then .pinf else D.add ubj (D.smul ratio lbk)

/-- New tag of the absorbing column, same lines. -/
def mergeTag (ratio : ℚ) (tj tk : CTag) : CTag :=
  if 0 < ratio then { tj with lbInf := tj.lbInf || tk.lbInf, ubInf := tj.ubInf || tk.ubInf }
  else { tj with lbInf := tj.lbInf || tk.ubInf, ubInf := tj.ubInf || tk.lbInf }

/-- Ghost: costs or coefficients of the columns are parallel only up to the tolerances
(`/repo/src/explorers/Parallel_cols.c:89`, `/repo/src/explorers/Parallel_rows.c:271-280`). -/
def mergeInexact (s : St) (j k : ℕ) (ratio : ℚ) : Bool :=
  decide (s.c k ≠ ratio * s.c j) || decide (s.AT k ≠ (s.AT j).map (fun p => (p.1, ratio * p.2)))

/-- Merge column `k` into column `j`, `/repo/src/explorers/Parallel_cols.c:91-166`.  The record
keeps the old bounds of `j` but its new tag, as in the code. -/
def mergeCols (s : St) (j k : ℕ) (ratio : ℚ) : St :=
  let lbj := s.lb j
  let ubj := s.ub j
  let tj := s.ctag j
  let tk := s.ctag k
  let s := { s with
    lb := upd s.lb j (mergeLb ratio lbj tj (s.lb k) (s.ub k) tk)
    ub := upd s.ub j (mergeUb ratio ubj tj (s.lb k) (s.ub k) tk)
    ctag := upd s.ctag j (mergeTag ratio tj tk)
    tiny := s.tiny || mergeInexact s j k ratio }
  let s := setColToSubstituted s k
  s.save (.parallelCol j k (s.ctag j) (s.ctag k) lbj ubj (s.lb k) (s.ub k) ratio)

/-- What to do with two parallel columns whose costs are not parallel. -/
inductive ParFix where
  | nothing | kLower | kUpper | jLower | jUpper
deriving DecidableEq, Repr

/-- Decision for parallel columns with different costs,
`/repo/src/explorers/Parallel_cols.c:174-264`. -/
def parColDecide (ratio cj ck : ℚ) (tj tk : CTag) : ParFix :=
  if ratio * cj < ck then
    if 0 < ratio then
      if tj.ubInf then .kLower else if tk.lbInf then .jUpper else .nothing
    else
      if tj.lbInf then .kLower else if tk.lbInf then .jLower else .nothing
  else
    if 0 < ratio then
      if tj.lbInf then .kUpper else if tk.ubInf then .jLower else .nothing
    else
      if tj.ubInf then .kUpper else if tk.ubInf then .jUpper else .nothing

/-- Inner loop of `process_single_bin`, `/repo/src/explorers/Parallel_cols.c:72-266`: state,
whether a merge happened, whether `UNBNDORINFEAS` was found.  `aj0` is the first coefficient of
column `j`, `cj` its cost. -/
def parColInner (j : ℕ) (cj aj0 : ℚ) : List ℕ → St → Bool → St × Bool × Bool
  | [], s, rec => (s, rec, false)
  | k :: rest, s, rec =>
    if (s.ctag k).inactive then parColInner j cj aj0 rest s rec
    else
      let ck := s.c k
      let ak0 := firstCoef (s.AT k)
      let ratio := ak0 / aj0
      let s := s.check (decide (ratio ≠ 0))
      if isEqualFeasTol (.fin (ck * aj0)) (.fin (cj * ak0)) then
        parColInner j cj aj0 rest (mergeCols s j k ratio) true
      else
        let s := s.check (!(s.ctag j).inactive && decide (ck ≠ ratio * cj))
        match parColDecide ratio cj ck (s.ctag j) (s.ctag k) with
        | .nothing => parColInner j cj aj0 rest s rec
        | .kLower =>
          if (s.ctag k).lbInf then (s, rec, true)
          else parColInner j cj aj0 rest (fixCol s k (s.lb k) ck).1 rec
        | .kUpper =>
          if (s.ctag k).ubInf then (s, rec, true)
          else parColInner j cj aj0 rest (fixCol s k (s.ub k) ck).1 rec
        | .jLower =>
          if (s.ctag j).lbInf then (s, rec, true)
          else ((fixCol s j (s.lb j) cj).1, rec, false)
        | .jUpper =>
          if (s.ctag j).ubInf then (s, rec, true)
          else ((fixCol s j (s.ub j) cj).1, rec, false)

/-- Recount of infinite contributions, `/repo/src/explorers/Parallel_cols.c:270-282`. -/
def recountRows (s : St) (cells : List Cell) : St :=
  cells.foldl (fun s p =>
    { s with act := upd s.act p.1 (recomputeNInfs s.ctag (s.act p.1) (s.A p.1)) }) s

/-- Outer loop of `process_single_bin`, `/repo/src/explorers/Parallel_cols.c:57-283` (the last
column of the bin has nothing to be compared with). -/
def parColsBin : List ℕ → St → St × Status
  | [], s => (s, UNCHANGED)
  | j :: rest, s =>
    if rest = [] then (s, UNCHANGED)
    else if (s.ctag j).inactive then parColsBin rest s
    else
      let s := s.flag ((j :: rest).any (fun i => !(s.ctag i).inactive && decide (s.AT i = [])))
      let r := parColInner j (s.c j) (firstCoef (s.AT j)) rest s false
      if r.2.2 then (r.1, UNBNDORINFEAS)
      else parColsBin rest (if r.2.1 then recountRows r.1 (r.1.AT j) else r.1)

/-- `process_all_bins`, `/repo/src/explorers/Parallel_cols.c:288-307`. -/
def parColsBins (groups : List (List ℕ)) (s : St) : St × Status :=
  groups.foldl (fun acc bin => let r := parColsBin bin acc.1; (r.1, acc.2 ||| r.2)) (s, UNCHANGED)

/-- `remove_parallel_cols`, `/repo/src/explorers/Parallel_cols.c:309-348`. -/
def removeParallelCols (env : Env) (s : St) : St × Status :=
  let s := ((s.check (decide (s.stonRows = []))).check (decide (s.emptyRows = []))).check
    (decide (s.emptyCols = []))
  let groups := findParallel env s.tick s.AT (fun k => (s.ctag k).inactive) s.n
  let r := parColsBins groups { s with tick := s.tick + 1 }
  (deleteInactiveCols (deleteFixedCols r.1), r.2)

end Verif
