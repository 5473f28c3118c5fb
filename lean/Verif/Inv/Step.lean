import Verif.Inv.Gi
import Verif.Inv.DelRows
import Verif.Inv.DelCols
import Verif.Model.ParCols

/-!
# Elementary steps of the presolver

Every explorer is a sequence of the steps below (`Verif.Inv.*`).  A step says exactly what happens
to the matrix, the sides, the bounds, the tags, the costs and the log; activities, work lists,
clock and ghost flags are left open.
-/

namespace Verif

/-- Which reductions are allowed: merging of parallel columns, side changes by parallel rows, rounding
(dropping of nonzero coefficients, merging of columns that are not exactly parallel), fixing of columns
whose bounds are only nearly equal or to an infinite value, substitution of singleton columns. -/
structure Mode where
  merge : Bool
  sideRec : Bool
  round : Bool
  near : Bool
  ston : Bool

/-- The column with the single entry `q` in the equality row `i` goes; the row becomes an
inequality (`/repo/src/explorers/StonCols.c:35-210, 252-270`). -/
def halfStep (s : St) (i k : ℕ) (q : ℚ) (b : D) (upper : Bool) : St :=
  let ck := s.c k
  let s := subVarInObj s (s.A i) k q (s.rhs i)
  let s := dropCol { s with ctag := upd s.ctag k { s.ctag k with subst := true } } k
  let s := s.save (.eqToIneq i (ck / q))
  let s := s.save (.subCol k (s.A i) (s.rhs i) i 0)
  eqToIneqSide (removeCoeffH s i k) i q b upper

/-- The rows of a column that are still active. -/
def liveRows (s : St) (k : ℕ) : List ℕ :=
  ((s.AT k).map Prod.fst).filter (fun i => !(s.rtag i).inactive)

/-- Column `k` goes to infinity together with its rows
(`/repo/src/core/CoreTransformation.c:70-141`). -/
def fixInfStep (s : St) (k : ℕ) (pos : Bool) (bound v : D) : St :=
  { s with
    rtag := fun i => if i ∈ liveRows s k then { s.rtag i with inactive := true } else s.rtag i
    rowsToDelete := s.rowsToDelete ++ liveRows s k
    log := ((liveRows s k).map (fun i => Rec.deletedRow i 0)).reverse ++
      fixedColInfRec s k pos bound :: s.log
    ctag := upd s.ctag k { s.ctag k with fixed := true }
    colSize := upd s.colSize k (-1)
    AT := upd s.AT k []
    lb := upd s.lb k v
    ub := upd s.ub k v }

/-- Column `k` is fixed (`/repo/src/core/CoreTransformation.c:30-68`, without the activities). -/
def fixStep (s : St) (k : ℕ) (val : D) (ck : ℚ) : St :=
  { s with ub := upd s.ub k val
           lb := upd s.lb k val
           ctag := upd s.ctag k { s.ctag k with fixed := true }
           fixedCols := s.fixedCols ++ [k]
           log := .fixedCol k val ck (s.AT k) :: s.log }

/-- Row `i` is marked for deletion (`/repo/include/core/CoreTransformations.h:103-116`). -/
def deactStep (s : St) (i : ℕ) (val : ℚ) : St :=
  { s with rowsToDelete := s.rowsToDelete ++ [i]
           rtag := upd s.rtag i { s.rtag i with inactive := true }
           log := Rec.deletedRow i val :: s.log }

/-- Removal of an equality row with one cell (`/repo/src/explorers/SimpleReductions.c:160-180`). -/
def stonEqStep (s : St) (row k : ℕ) (a : ℚ) (val : D) : St :=
  { s with ub := upd s.ub k val
           lb := upd s.lb k val
           ctag := upd s.ctag k { s.ctag k with fixed := true }
           fixedCols := s.fixedCols ++ [k]
           rowSize := upd s.rowSize row (-1)
           rtag := upd s.rtag row { inactive := true }
           A := upd s.A row []
           nnz := s.nnz - 1
           log := .deletedRow row (s.c k / a) :: .addedRows row (s.AT k) a ::
             .fixedCol k val (s.c k) (s.AT k) :: s.log }

/-- Removal of an empty row (`/repo/src/explorers/SimpleReductions.c:484-501`). -/
def emptyRowStep (s : St) (i : ℕ) : St :=
  { s with rtag := upd s.rtag i { s.rtag i with inactive := true }
           rowSize := upd s.rowSize i (-1)
           log := Rec.deletedRow i 0 :: s.log }

/-- Removal of an empty column (`/repo/src/explorers/SimpleReductions.c:527-592`). -/
def emptyColStep (s : St) (k : ℕ) (v : D) : St :=
  { s with lb := if s.c k < 0 then upd s.lb k (s.ub k) else s.lb
           ub := if 0 < s.c k then upd s.ub k (s.lb k) else s.ub
           off := D.add s.off (D.smul (s.c k) v)
           ctag := upd s.ctag k { s.ctag k with fixed := true }
           colSize := upd s.colSize k (-1)
           log := Rec.fixedCol k v (s.c k) [] :: s.log }

/-- Sides, tag and locks of a row change. -/
def sidesStep (s : St) (i : ℕ) (t : RTag) (l r : D) (u d : ℕ → ℤ) (recs : List Rec) : St :=
  { s with rtag := upd s.rtag i t
           lhs := upd s.lhs i l
           rhs := upd s.rhs i r
           up := u
           down := d
           log := recs ++ s.log }

/-- The bound of a column changes inside a group of bound changes. -/
def boundStep (s : St) (j : ℕ) (lb ub : D) (t : CTag) (implied other : D) (low : Bool) : St :=
  { s with lb := upd s.lb j lb
           ub := upd s.ub j ub
           ctag := upd s.ctag j t
           log := Rec.boundChangeNoRow j implied other low :: s.log }

/-- Bound changes that row `i` implies; the number counts the records of bound changes. -/
inductive PropRun (i : ℕ) (s : St) : ℕ → St → Prop
  | nil : PropRun i s 0 s
  | same {num : ℕ} {t t' : St} (h : PropRun i s num t) (e : SameCore t t') : PropRun i s num t'
  | bound {num : ℕ} {t t' : St} (j : ℕ) (lb ub : D) (tag : CTag) (implied other : D) (low : Bool)
      (h : PropRun i s num t) (hj : (t.ctag j).inactive = false) (hcell : ∃ v, (j, v) ∈ t.A i)
      (htag : tag.inactive = false) (e : SameCore (boundStep t j lb ub tag implied other low) t') :
      PropRun i s (num + 1) t'
  | fix {num : ℕ} {t t' : St} (k : ℕ) (val : D) (h : PropRun i s (num + 1) t)
      (hk : (t.ctag k).inactive = false) (hrows : ∀ p ∈ t.AT k, (t.rtag p.1).inactive = false)
      (e : SameCore (fixStep t k val (t.c k)) t') : PropRun i s (num + 1) t'

/-- Elimination of column `k` through the equality `aij * x j + aik * x k = b` in row `i`
(`/repo/src/explorers/DtonsEq.c:488-648, 677-722`). -/
structure DtonOut (s s' : St) (i j k : ℕ) (aij aik b : ℚ) : Prop where
  cells : s.A i = [(j, aij), (k, aik)] ∨ s.A i = [(k, aik), (j, aij)]
  row : (s.rtag i).inactive = false
  colj : (s.ctag j).inactive = false
  colk : (s.ctag k).inactive = false
  rows : ∀ p ∈ s.AT k, (s.rtag p.1).inactive = false
  rhs : s.rhs i = .fin b
  fits : ∀ q a, q ≠ i → (q, a) ∈ s.AT k → RowFits j k (aij / aik) (s.A q)
  m : s'.m = s.m
  n : s'.n = s.n
  lb : s'.lb = s.lb
  ub : s'.ub = s.ub
  rtag : s'.rtag = upd s.rtag i { inactive := true }
  ctag : s'.ctag = upd s.ctag k { fixed := true, subst := true }
  c : s'.c = upd s.c j (s.c j - aij / aik * s.c k)
  off : s'.off = D.add s.off (D.smul (s.c k) (D.divq (.fin b) aik))
  goneA : s'.A i = []
  hit : ∀ q a, q ≠ i → (q, a) ∈ s.AT k → s'.A q = newRow j k (aij / aik) (s.A q) ∧
    s'.lhs q = newSide (s.rtag q).lhsInf aik b a (s.lhs q) ∧
    s'.rhs q = newSide (s.rtag q).rhsInf aik b a (s.rhs q)
  miss : ∀ q, q ≠ i → (∀ a, (q, a) ∉ s.AT k) → s'.A q = s.A q ∧ s'.lhs q = s.lhs q ∧
    s'.rhs q = s.rhs q
  goneRow : s'.rowSize i = -1
  rowSize : ∀ q, q ≠ i → s'.rowSize q = s.rowSize q - (((s.A q).length : ℤ) - ((s'.A q).length : ℤ))
  col : ∀ t, t ≠ j → t ≠ k → s'.AT t = s.AT t ∧ s'.colSize t = s.colSize t
  goneT : s'.AT k = [] ∧ s'.colSize k = -1
  colSorted : SortedC (s'.AT j)
  colMem : ∀ q v, (q, v) ∈ s'.AT j ↔ q ≠ i ∧
    (((∃ a, (q, a) ∈ s.AT k) ∧ v = newCoef j k (aij / aik) (s.A q) ∧
        ¬ |newCoef j k (aij / aik) (s.A q)| ≤ ZERO_TOL) ∨
      ((∀ a, (q, a) ∉ s.AT k) ∧ (q, v) ∈ s.AT j))
  colSize : s'.colSize j = ((s'.AT j).length : ℤ)
  nnz : s'.nnz = ∑ q ∈ Finset.range s.m, ((s'.A q).length : ℤ)
  up : ∀ t, t ≠ j → s'.up t = s.up t ∧ s'.down t = s.down t
  locks : (s'.up j, s'.down j) = countLocks s'.rtag (s'.AT j)
  rowsToDelete : s'.rowsToDelete = s.rowsToDelete
  fixedCols : s'.fixedCols = s.fixedCols
  subCols : s'.subCols = s.subCols
  log : s'.log = .deletedRow i (s.c k / aik) :: .subCol k (s.A i) (.fin b) i (s.c k) ::
    ((((s.AT k).filter (fun p => decide (p.1 ≠ i))).map
      (fun p => Rec.addedRow i p.1 (-p.2 / aik))).reverse ++ s.log)

/-- One step of the presolver. -/
inductive Raw (μ : Mode) (s s' : St) : Prop
  | same (h : SameCore s s')
  | fix (k : ℕ) (val : D) (hk : (s.ctag k).inactive = false)
      (hrows : ∀ p ∈ s.AT k, (s.rtag p.1).inactive = false)
      (h : SameCore (fixStep s k val (s.c k)) s')
  | fixInf (k : ℕ) (pos : Bool) (bound v : D) (hk : (s.ctag k).inactive = false) (hc : s.c k = 0)
      (h : SameCore (fixInfStep s k pos bound v) s') (hμ : μ.near = true)
  | deact (i : ℕ) (hi : (s.rtag i).inactive = false) (h : SameCore (deactStep s i 0) s')
  | sides (i : ℕ) (t : RTag) (l r : D) (u d : ℕ → ℤ) (hi : (s.rtag i).inactive = false)
      (ht : t.inactive = false) (hl : LockShift (s.A i) (s.rtag i) t s.up s.down u d)
      (h : SameCore (sidesStep s i t l r u d []) s')
  | sideRec (i other : ℕ) (t : RTag) (l r : D) (u d : ℕ → ℤ) (rc : Rec)
      (hi : (s.rtag i).inactive = false) (hother : (s.rtag other).inactive = false)
      (hne : i ≠ other)
      (hcols : ∀ p ∈ s.A i, (s.ctag p.1).inactive = false)
      (ht : t.inactive = false) (hl : LockShift (s.A i) (s.rtag i) t s.up s.down u d)
      (hrec : ∃ side ratio, rc = .rhsChange i other (s.A i) side ratio ∨
        rc = .lhsChange i other (s.A i) side ratio)
      (hμ : μ.sideRec = true)
      (h : SameCore (sidesStep s i t l r u d [rc]) s')
  | stonEq (row k : ℕ) (a : ℚ) (val : D) (hi : (s.rtag row).inactive = false)
      (hk : (s.ctag k).inactive = false) (hrow : s.A row = [(k, a)])
      (hrows : ∀ p ∈ s.AT k, (s.rtag p.1).inactive = false)
      (h : SameCore (stonEqStep s row k a val) s')
  | emptyRow (i : ℕ) (hi : (s.rtag i).inactive = false) (hA : s.A i = [])
      (h : SameCore (emptyRowStep s i) s')
  | emptyCol (k : ℕ) (v : D) (hk : (s.ctag k).inactive = false) (hT : s.AT k = [])
      (h : SameCore (emptyColStep s k v) s')
  | freeSton (i k : ℕ) (q : ℚ) (side : D) (hi : (s.rtag i).inactive = false)
      (hk : (s.ctag k).inactive = false) (hT : s.AT k = [(i, q)])
      (hcols : ∀ p ∈ s.A i, (s.ctag p.1).inactive = false)
      (h : SameCore (freeColIneq s i k q side) s') (hμ : μ.ston = true)
  | half (i k : ℕ) (q : ℚ) (b : D) (upper : Bool) (hi : (s.rtag i).inactive = false)
      (hk : (s.ctag k).inactive = false) (hT : s.AT k = [(i, q)])
      (hsides : (s.rtag i).lhsInf = false ∧ (s.rtag i).rhsInf = false)
      (hcols : ∀ p ∈ s.A i, (s.ctag p.1).inactive = false)
      (h : SameCore (halfStep s i k q b upper) s') (hμ : μ.ston = true)
  | fixSton (i k : ℕ) (q : ℚ) (v : D) (hi : (s.rtag i).inactive = false)
      (hk : (s.ctag k).inactive = false) (hT : s.AT k = [(i, q)])
      (h : SameCore (fixColSton s i k q v) s')
  | prop (i num : ℕ) (t : St) (hi : (s.rtag i).inactive = false) (hnum : 0 < num)
      (hrun : PropRun i s num t) (h : SameCore (t.save (.boundChangeTheRow i (t.A i) num)) s')
  | dton (i j k : ℕ) (aij aik b : ℚ) (h : DtonOut s s' i j k aij aik b)
      (hcols : ∀ p ∈ s.A i, (s.ctag p.1).inactive = false)
      (hμ : μ.round = true ∨ ∀ q a, q ≠ i → (q, a) ∈ s.AT k →
        |newCoef j k (aij / aik) (s.A q)| ≤ ZERO_TOL → newCoef j k (aij / aik) (s.A q) = 0)
  | merge (j k : ℕ) (ratio : ℚ) (hjk : j ≠ k) (hj : (s.ctag j).inactive = false)
      (hk : (s.ctag k).inactive = false) (hμ : μ.merge = true)
      (hex : μ.round = true ∨ (s.c k = ratio * s.c j ∧
        s.AT k = (s.AT j).map (fun p => (p.1, ratio * p.2))))
      (h : SameCore (mergeCols s j k ratio) s')
  | relax (k : ℕ) (t : CTag) (ht : t.inactive = (s.ctag k).inactive)
      (h : SameCore { s with ctag := upd s.ctag k t } s')
  | delRows (h : SameCore (deleteInactiveRows s) s')
  | delCols (hd : s.rowsToDelete = []) (h : SameCore (deleteInactiveCols (deleteFixedCols s)) s')

theorem fixStep_gi {s : St} (g : GI s) {k : ℕ} (hk : (s.ctag k).inactive = false) (val : D) (ck : ℚ) :
    GI (fixStep s k val ck) := by
  have := g.markCol hk { s.ctag k with fixed := true } rfl (s.fixedCols ++ [k]) s.subCols (by
    rw [List.append_assoc]; exact List.perm_middle)
  exact this.of_eq rfl rfl rfl rfl rfl (fun _ => rfl) rfl rfl rfl rfl rfl rfl rfl rfl

theorem boundStep_gi {s : St} (g : GI s) {j : ℕ} (hj : (s.ctag j).inactive = false) {lb ub : D}
    {t : CTag} (ht : t.inactive = false) {im o : D} {low : Bool} :
    GI (boundStep s j lb ub t im o low) := by
  refine g.of_eq rfl rfl rfl rfl rfl (fun k => ?_) rfl rfl rfl rfl rfl rfl rfl rfl
  show (upd s.ctag j t k).inactive = _
  by_cases e : k = j
  · rw [e, upd_same, ht, hj]
  · rw [upd_ne _ _ e]

/-- What a run of bound changes leaves alone. -/
structure PropFrame (s t : St) : Prop where
  m : t.m = s.m
  n : t.n = s.n
  A : t.A = s.A
  AT : t.AT = s.AT
  lhs : t.lhs = s.lhs
  rhs : t.rhs = s.rhs
  rtag : t.rtag = s.rtag
  c : t.c = s.c
  off : t.off = s.off
  rowSize : t.rowSize = s.rowSize
  colSize : t.colSize = s.colSize
  rowsToDelete : t.rowsToDelete = s.rowsToDelete
  subCols : t.subCols = s.subCols
  nnz : t.nnz = s.nnz
  inactive : ∀ k, (s.ctag k).inactive = true → (t.ctag k).inactive = true

theorem PropRun.frame {i num : ℕ} {s t : St} (h : PropRun i s num t) : PropFrame s t := by
  induction h with
  | nil => exact ⟨rfl, rfl, rfl, rfl, rfl, rfl, rfl, rfl, rfl, rfl, rfl, rfl, rfl, rfl, fun _ h => h⟩
  | same h e ih =>
    exact ⟨e.m.trans ih.m, e.n.trans ih.n, e.A.trans ih.A, e.AT.trans ih.AT, e.lhs.trans ih.lhs,
      e.rhs.trans ih.rhs, e.rtag.trans ih.rtag, e.c.trans ih.c, e.off.trans ih.off,
      e.rowSize.trans ih.rowSize, e.colSize.trans ih.colSize, e.rowsToDelete.trans ih.rowsToDelete,
      e.subCols.trans ih.subCols, e.nnz.trans ih.nnz, fun k hk => by rw [e.ctag]; exact ih.inactive k hk⟩
  | @bound num t t' j lb ub tag im o low h hj hcell htag e ih =>
    refine ⟨e.m.trans ih.m, e.n.trans ih.n, e.A.trans ih.A, e.AT.trans ih.AT, e.lhs.trans ih.lhs,
      e.rhs.trans ih.rhs, e.rtag.trans ih.rtag, e.c.trans ih.c, e.off.trans ih.off,
      e.rowSize.trans ih.rowSize, e.colSize.trans ih.colSize, e.rowsToDelete.trans ih.rowsToDelete,
      e.subCols.trans ih.subCols, e.nnz.trans ih.nnz, fun k hk => ?_⟩
    rw [e.ctag]
    have := ih.inactive k hk
    have hne : k ≠ j := by rintro rfl; rw [hj] at this; cases this
    show (upd t.ctag j tag k).inactive = true
    rw [upd_ne _ _ hne]; exact this
  | @fix num t t' k val h hk hrows e ih =>
    refine ⟨e.m.trans ih.m, e.n.trans ih.n, e.A.trans ih.A, e.AT.trans ih.AT, e.lhs.trans ih.lhs,
      e.rhs.trans ih.rhs, e.rtag.trans ih.rtag, e.c.trans ih.c, e.off.trans ih.off,
      e.rowSize.trans ih.rowSize, e.colSize.trans ih.colSize, e.rowsToDelete.trans ih.rowsToDelete,
      e.subCols.trans ih.subCols, e.nnz.trans ih.nnz, fun j hj => ?_⟩
    rw [e.ctag]
    have := ih.inactive j hj
    have hne : j ≠ k := by rintro rfl; rw [hk] at this; cases this
    show (upd t.ctag k _ j).inactive = true
    rw [upd_ne _ _ hne]; exact this

theorem PropRun.gi {i num : ℕ} {s t : St} (h : PropRun i s num t) (g : GI s) : GI t := by
  induction h with
  | nil => exact g
  | same h e ih => exact e.gi ih
  | bound j lb ub tag im o low h hj hcell htag e ih => exact e.gi (boundStep_gi ih hj htag)
  | fix k val h hk hrows e ih => exact e.gi (fixStep_gi ih hk _ _)

/-- A run without bound changes changes nothing. -/
theorem PropRun.zero {i : ℕ} {s t : St} (h : PropRun i s 0 t) : SameCore s t := by
  generalize hn : 0 = num at h
  induction h with
  | nil => exact .refl _
  | same h e ih => exact (ih hn).trans e
  | bound => omega
  | fix => omega

theorem deactStep_gi {s : St} (g : GI s) {i : ℕ} (hi : (s.rtag i).inactive = false) (v : ℚ) :
    GI (deactStep s i v) :=
  (g.markRow hi).of_eq rfl rfl rfl rfl rfl (fun _ => rfl) rfl rfl rfl rfl rfl rfl rfl rfl

theorem markRows_gi (L : List ℕ) (hnd : L.Nodup) {s : St} (g : GI s)
    (hL : ∀ i ∈ L, (s.rtag i).inactive = false) :
    GI { s with
      rtag := fun i => if i ∈ L then { s.rtag i with inactive := true } else s.rtag i
      rowsToDelete := s.rowsToDelete ++ L } := by
  induction L generalizing s with
  | nil => exact g.of_eq rfl rfl rfl rfl (by simp) (fun _ => rfl) rfl rfl rfl rfl (by simp) rfl rfl rfl
  | cons i L ih =>
    rw [List.nodup_cons] at hnd
    have g1 := g.markRow (hL i List.mem_cons_self)
    have g2 := ih hnd.2 g1 (fun j hj => by
      have : j ≠ i := by rintro rfl; exact hnd.1 hj
      show (upd s.rtag i _ j).inactive = false
      rw [upd_ne _ _ this]; exact hL j (List.mem_cons_of_mem _ hj))
    refine g2.of_eq rfl rfl rfl rfl ?_ (fun _ => rfl) rfl rfl rfl rfl (by simp) rfl rfl rfl
    funext j
    simp only [List.mem_cons]
    by_cases e : j = i
    · subst e; simp [hnd.1]
    · simp [e]

theorem fixInfStep_gi {s : St} (g : GI s) {k : ℕ} (hk : (s.ctag k).inactive = false) (pos : Bool)
    (bound v : D) : GI (fixInfStep s k pos bound v) := by
  have g1 := markRows_gi (liveRows s k) ((g.colSorted k).nodup.filter _) g (fun i hi => by
    simpa using (List.mem_filter.mp hi).2)
  have g2 := g1.goneCol hk (fun p hp => by
    show (if p.1 ∈ liveRows s k then _ else _ : RTag).inactive = true
    split
    · rfl
    · rename_i h
      by_contra hc
      exact h (List.mem_filter.mpr ⟨List.mem_map_of_mem hp, by simpa using hc⟩))
    { s.ctag k with fixed := true } rfl
  exact g2.of_eq rfl rfl rfl rfl rfl (fun _ => rfl) rfl rfl rfl rfl rfl rfl rfl rfl

theorem stonEqStep_gi {s : St} (g : GI s) {row k : ℕ} {a : ℚ} (hi : (s.rtag row).inactive = false)
    (hk : (s.ctag k).inactive = false) (hrow : s.A row = [(k, a)]) (val : D) :
    GI (stonEqStep s row k a val) := by
  have g1 := fixStep_gi g hk val (s.c k)
  have g2 := g1.goneRow (i := row) hi (fun p hp => by
    have hp : p ∈ s.A row := hp
    rw [hrow, List.mem_singleton] at hp
    rw [hp]
    show (upd s.ctag k _ k).inactive = true
    rw [upd_same]; rfl)
    (Or.inl (g.rowRange row (k, a) (by rw [hrow]; exact List.mem_cons_self)).1)
    { inactive := true } rfl
  refine g2.of_eq rfl rfl rfl rfl rfl (fun _ => rfl) rfl rfl rfl rfl rfl rfl rfl ?_
  show s.nnz - 1 = s.nnz - ((s.A row).length : ℤ)
  rw [hrow]; rfl

theorem emptyRowStep_gi {s : St} (g : GI s) {i : ℕ} (hi : (s.rtag i).inactive = false)
    (hA : s.A i = []) : GI (emptyRowStep s i) := by
  have g2 := g.goneRow hi (fun p hp => by rw [hA] at hp; cases hp) (Or.inr hA)
    { s.rtag i with inactive := true } rfl
  refine g2.of_eq rfl rfl ?_ rfl rfl (fun _ => rfl) rfl rfl rfl rfl rfl rfl rfl ?_
  · show s.A = upd s.A i []
    rw [← hA, upd_self]
  · show s.nnz = s.nnz - ((s.A i).length : ℤ)
    rw [hA]; simp

theorem emptyColStep_gi {s : St} (g : GI s) {k : ℕ} (hk : (s.ctag k).inactive = false)
    (hT : s.AT k = []) (v : D) : GI (emptyColStep s k v) := by
  have g2 := g.goneCol hk (fun p hp => by rw [hT] at hp; cases hp) { s.ctag k with fixed := true } rfl
  refine g2.of_eq rfl rfl rfl ?_ rfl (fun _ => rfl) rfl rfl rfl rfl rfl rfl rfl rfl
  show s.AT = upd s.AT k []
  rw [← hT, upd_self]

theorem CTag.inactive_subst (t : CTag) : ({ t with subst := true } : CTag).inactive = true := by
  simp [CTag.inactive]

theorem freeColIneq_gi {s : St} (g : GI s) {i k : ℕ} {q : ℚ} (hi : (s.rtag i).inactive = false)
    (hk : (s.ctag k).inactive = false) (hT : s.AT k = [(i, q)]) (side : D) :
    GI (freeColIneq s i k q side) := by
  have g1 := g.markRow hi
  have g2 := g1.goneCol hk (fun p hp => by
    have hp : p ∈ s.AT k := hp
    rw [hT, List.mem_singleton] at hp
    rw [hp]
    show (upd s.rtag i _ i).inactive = true
    rw [upd_same]) { s.ctag k with subst := true } (CTag.inactive_subst _)
  unfold freeColIneq
  rw [subVarInObj_eq]
  exact g2.of_eq rfl rfl rfl rfl rfl (fun _ => rfl) rfl rfl rfl rfl rfl rfl rfl rfl

/-- `eqToIneqSide` with the locks spelled out. -/
theorem eqToIneqSide_eq (s : St) (i : ℕ) (q : ℚ) (b : D) (upper : Bool) :
    ∃ l r u d, eqToIneqSide s i q b upper =
      sidesStep s i (if upper then { lhsInf := true } else { rhsInf := true }) l r u d [] ∧
      u = (locksEqToIneq s (s.A i) upper).up ∧ d = (locksEqToIneq s (s.A i) upper).down := by
  have key : ∀ (t : St) (cells : List Cell) (f : RTag) (l r : ℕ → D),
      locksEqToIneq { t with rtag := upd t.rtag i f, lhs := l, rhs := r } cells upper =
      { t with rtag := upd t.rtag i f
               lhs := l
               rhs := r
               up := (locksEqToIneq t cells upper).up
               down := (locksEqToIneq t cells upper).down } := by
    intro t cells f l r
    rw [locksEqToIneq_eq, locksEqToIneq_eq]
    induction cells generalizing t with
    | nil => rfl
    | cons p cells ih => rw [List.foldl_cons, List.foldl_cons]; exact ih (t.addLock p.1 _ _)
  unfold eqToIneqSide
  cases upper with
  | true =>
    refine ⟨.ninf, D.sub (s.rhs i) (D.smul q b), _, _, ?_, rfl, rfl⟩
    rw [if_pos rfl]
    exact key s (s.A i) _ _ _
  | false =>
    refine ⟨D.sub (s.lhs i) (D.smul q b), .pinf, _, _, ?_, rfl, rfl⟩
    rw [if_neg Bool.false_ne_true]
    exact key s (s.A i) _ _ _

/-- The state of `halfStep` before the sides change. -/
def halfMid (s : St) (i k : ℕ) (q : ℚ) : St :=
  { s with
    c := costSub s (s.A i) k q
    off := offSub s k q (s.rhs i)
    ctag := upd s.ctag k { s.ctag k with subst := true }
    AT := upd s.AT k []
    colSize := upd s.colSize k (-1)
    A := upd s.A i (dropCell k (s.A i))
    rowSize := upd s.rowSize i (s.rowSize i - 1)
    nnz := s.nnz - 1
    undef := s.undef || !(s.A i).any (fun p => decide (p.1 = k))
    log := .subCol k (s.A i) (s.rhs i) i 0 :: .eqToIneq i (s.c k / q) :: s.log }

theorem halfStep_eq (s : St) (i k : ℕ) (q : ℚ) (b : D) (upper : Bool) :
    ∃ l r u d, halfStep s i k q b upper =
      sidesStep (halfMid s i k q) i (if upper then { lhsInf := true } else { rhsInf := true }) l r u d [] ∧
      u = (locksEqToIneq (halfMid s i k q) (dropCell k (s.A i)) upper).up ∧
      d = (locksEqToIneq (halfMid s i k q) (dropCell k (s.A i)) upper).down := by
  have e : halfStep s i k q b upper = eqToIneqSide (halfMid s i k q) i q b upper := by
    unfold halfStep
    rw [subVarInObj_eq]
    rfl
  rw [e]
  obtain ⟨l, r, u, d, h1, h2, h3⟩ := eqToIneqSide_eq (halfMid s i k q) i q b upper
  have e2 : (halfMid s i k q).A i = dropCell k (s.A i) := by simp [halfMid]
  rw [e2] at h2 h3
  exact ⟨l, r, u, d, h1, h2, h3⟩

theorem halfMid_gi {s : St} (g : GI s) {i k : ℕ} {q : ℚ} (hi : (s.rtag i).inactive = false)
    (hk : (s.ctag k).inactive = false) (hT : s.AT k = [(i, q)]) : GI (halfMid s i k q) :=
  (g.dropSton hi hk hT { s.ctag k with subst := true } (CTag.inactive_subst _)).of_eq
    rfl rfl rfl rfl rfl (fun _ => rfl) rfl rfl rfl rfl rfl rfl rfl rfl

theorem sidesStep_gi {s : St} (g : GI s) {i : ℕ} (hi : (s.rtag i).inactive = false) {t : RTag}
    (ht : t.inactive = false) {u d : ℕ → ℤ} (h : LockShift (s.A i) (s.rtag i) t s.up s.down u d)
    (l r : D) (recs : List Rec) : GI (sidesStep s i t l r u d recs) :=
  (g.rtagStep hi t ht u d h).of_eq rfl rfl rfl rfl rfl (fun _ => rfl) rfl rfl rfl rfl rfl rfl rfl rfl

theorem halfStep_gi {s : St} (g : GI s) {i k : ℕ} {q : ℚ} (hi : (s.rtag i).inactive = false)
    (hk : (s.ctag k).inactive = false) (hT : s.AT k = [(i, q)])
    (hs : (s.rtag i).lhsInf = false ∧ (s.rtag i).rhsInf = false) (b : D) (upper : Bool) :
    GI (halfStep s i k q b upper) := by
  obtain ⟨l, r, u, d, h1, h2, h3⟩ := halfStep_eq s i k q b upper
  have g1 := halfMid_gi g hi hk hT
  rw [h1]
  have e2 : (halfMid s i k q).A i = dropCell k (s.A i) := by simp [halfMid]
  refine sidesStep_gi g1 hi (by cases upper <;> rfl) ?_ l r []
  rw [e2, h2, h3]
  exact locksEqToIneq_shift _ _ (dropCell_sorted (g.rowSorted i) k) upper _ _ hs.1 hs.2
    (by cases upper <;> rfl) (by cases upper <;> rfl)

theorem fixColSton_gi {s : St} (g : GI s) {i k : ℕ} {q : ℚ} (hi : (s.rtag i).inactive = false)
    (hk : (s.ctag k).inactive = false) (hT : s.AT k = [(i, q)]) (v : D) :
    GI (fixColSton s i k q v) :=
  (g.dropSton hi hk hT { s.ctag k with fixed := true } rfl).of_eq
    rfl rfl rfl rfl rfl (fun _ => rfl) rfl rfl rfl rfl rfl rfl rfl rfl

theorem mergeTag_inactive (ratio : ℚ) (tj tk : CTag) :
    (mergeTag ratio tj tk).inactive = tj.inactive := by
  unfold mergeTag
  split <;> rfl

theorem mergeCols_gi {s : St} (g : GI s) {j k : ℕ} (hjk : j ≠ k) (hj : (s.ctag j).inactive = false)
    (hk : (s.ctag k).inactive = false) (ratio : ℚ) : GI (mergeCols s j k ratio) := by
  have g1 := g.markCol hk { s.ctag k with subst := true } (CTag.inactive_subst _) s.fixedCols
    (s.subCols ++ [k]) (by
      rw [← List.append_assoc]
      exact List.perm_append_comm.trans (List.Perm.refl _))
  refine g1.of_eq rfl rfl rfl rfl rfl (fun t => ?_) rfl rfl rfl rfl rfl rfl rfl rfl
  show (upd (upd s.ctag j (mergeTag ratio (s.ctag j) (s.ctag k))) k _ t).inactive =
    (upd s.ctag k { s.ctag k with subst := true } t).inactive
  by_cases e : t = k
  · subst e
    rw [upd_same, upd_same]
    exact (CTag.inactive_subst _).trans (CTag.inactive_subst _).symm
  · rw [upd_ne _ _ e, upd_ne _ _ e]
    by_cases e' : t = j
    · subst e'; rw [upd_same, mergeTag_inactive]
    · rw [upd_ne _ _ e']

/-- What `deleteFixedCols` leaves alone. -/
theorem deleteFixedCols_eq (s : St) : ∃ l r a o b, deleteFixedCols s =
    { s with lhs := l, rhs := r, act := a, off := o, asrt := b } := by
  unfold deleteFixedCols
  have h1 : ∀ (v : D) (p : Cell) (s : St), ∃ l r a, shiftSides v s p =
      { s with lhs := l, rhs := r, act := a } := by
    intro v p s
    unfold shiftSides
    split
    · exact ⟨_, _, _, rfl⟩
    · exact ⟨_, _, _, rfl⟩
  have h2 : ∀ (v : D) (L : List Cell) (s : St), ∃ l r a, L.foldl (shiftSides v) s =
      { s with lhs := l, rhs := r, act := a } := by
    intro v L
    induction L with
    | nil => intro s; exact ⟨_, _, _, rfl⟩
    | cons p L ih =>
      intro s
      rw [List.foldl_cons]
      obtain ⟨l, r, a, e⟩ := h1 v p s
      obtain ⟨l', r', a', e'⟩ := ih (shiftSides v s p)
      exact ⟨l', r', a', by rw [e', e]⟩
  have h3 : ∀ (k : ℕ) (s : St), ∃ l r a o b, delFixedCol s k =
      { s with lhs := l, rhs := r, act := a, off := o, asrt := b } := by
    intro k s
    unfold delFixedCol
    have ht : ∃ b, ((s.check (s.ctag k).fixed).check (!D.isInf (s.ub k))).check
        (D.eqb (s.lb k) (s.ub k)) = { s with asrt := b } := ⟨_, rfl⟩
    simp only
    change ∃ l r a o b, (if D.eqb (St.ub (((s.check (s.ctag k).fixed).check (!D.isInf (s.ub k))).check
        (D.eqb (s.lb k) (s.ub k))) k) (.fin 0) = true then _ else _) = _
    generalize ((s.check (s.ctag k).fixed).check (!D.isInf (s.ub k))).check
        (D.eqb (s.lb k) (s.ub k)) = t at *
    obtain ⟨b, rfl⟩ := ht
    split
    · exact ⟨_, _, _, _, _, rfl⟩
    · generalize hL : St.AT _ k = L
      generalize hv : St.ub _ k = v
      obtain ⟨l, r, a, e⟩ := h2 v L { s with asrt := b }
      rw [e]
      exact ⟨_, _, _, _, _, rfl⟩
  suffices ∀ (L : List ℕ) (s : St), ∃ l r a o b, L.foldl delFixedCol s =
      { s with lhs := l, rhs := r, act := a, off := o, asrt := b } from this s.fixedCols s
  intro L
  induction L with
  | nil => intro s; exact ⟨_, _, _, _, _, rfl⟩
  | cons k L ih =>
    intro s
    rw [List.foldl_cons]
    obtain ⟨l, r, a, o, b, e⟩ := h3 k s
    obtain ⟨l', r', a', o', b', e'⟩ := ih (delFixedCol s k)
    exact ⟨l', r', a', o', b', by rw [e', e]⟩

end Verif
