import Verif.Inv.Reach
import Verif.Props.C22_ActUpdate
import Verif.Props.C24_Propagation

/-!
# Feasibility along a run: what the state says about the original problem

`Feas P s` relates a state `s` of a run on the problem `P` to `P`: every bound and every side of `P`
is either still in `s`, shifted by the columns that are gone, or it follows from the bounds of `s` up
to a multiple of `FEAS_TOL`.
-/

namespace Verif

/-- The record does not make postsolve compute a value of `x`, except for a column fixed to a
number. -/
def Rec.plain : Rec → Bool
  | .fixedColInf _ _ _ _ => false
  | .subCol _ _ _ _ _ => false
  | .parallelCol _ _ _ _ _ _ _ _ _ => false
  | _ => true

/-- All records are plain. -/
def PlainLog (s : St) : Prop := ∀ r ∈ s.log, r.plain = true

/-- The value under which a log (newest record first) has a column fixed; postsolve lets the oldest
record win. -/
def logVal : List Rec → ℕ → Option D
  | [], _ => none
  | .fixedCol j v _ _ :: l, k => (logVal l k).or (if j = k then some v else none)
  | _ :: l, k => logVal l k

/-- Lower bound of a column: its value once it is fixed. -/
def curLb (s : St) (k : ℕ) : D := (logVal s.log k).getD (s.lb k)

/-- Upper bound of a column: its value once it is fixed. -/
def curUb (s : St) (k : ℕ) : D := (logVal s.log k).getD (s.ub k)

/-- By how much the value of a column may violate the bounds it had. -/
def slk (s : St) (k : ℕ) : ℚ := if (logVal s.log k).isSome then FEAS_TOL else 0

/-- Sum of the absolute values of a row. -/
def norm1 (cells : List Cell) : ℚ := (cells.map (fun p => |p.2|)).sum

/-- Largest contribution of a cell, with the slack taken off. -/
def hiTerm (s : St) (p : Cell) : ℚ :=
  if 0 < p.2 then p.2 * ((curUb s p.1).toQ - slk s p.1) else p.2 * ((curLb s p.1).toQ + slk s p.1)

/-- Smallest contribution of a cell, with the slack taken off. -/
def loTerm (s : St) (p : Cell) : ℚ :=
  if 0 < p.2 then p.2 * ((curLb s p.1).toQ + slk s p.1) else p.2 * ((curUb s p.1).toQ - slk s p.1)

/-- The bounds of `s` imply the upper side `B` of the row `cells`, up to the tolerance. -/
structure DropHi (s : St) (cells : List Cell) (B : ℚ) : Prop where
  ub : ∀ p ∈ cells, 0 < p.2 → ∃ u, curUb s p.1 = .fin u
  lb : ∀ p ∈ cells, ¬ 0 < p.2 → ∃ l, curLb s p.1 = .fin l
  le : (cells.map (hiTerm s)).sum ≤ B + FEAS_TOL * (1 + norm1 cells)

/-- The bounds of `s` imply the lower side `B` of the row `cells`, up to the tolerance. -/
structure DropLo (s : St) (cells : List Cell) (B : ℚ) : Prop where
  lb : ∀ p ∈ cells, 0 < p.2 → ∃ l, curLb s p.1 = .fin l
  ub : ∀ p ∈ cells, ¬ 0 < p.2 → ∃ u, curUb s p.1 = .fin u
  le : B - FEAS_TOL * (1 + norm1 cells) ≤ (cells.map (loTerm s)).sum

/-- Contribution of the columns that are gone to row `i` of the original problem. -/
def gone (P : LP) (s : St) (i : ℕ) : ℚ :=
  (((P.A i).filter (fun p => decide (s.colSize p.1 = -1))).map (fun p => p.2 * (curLb s p.1).toQ)).sum

/-- Column `k` of the state and of the original problem. -/
structure ColF (P : LP) (s : St) (k : ℕ) : Prop where
  sub : (s.ctag k).subst = false
  new : (s.ctag k).fixed = false → logVal s.log k = none
  lbT : (s.ctag k).fixed = false → (s.ctag k).lbInf = true → s.lb k = .ninf
  lbF : (s.ctag k).fixed = false → FinIf (s.ctag k).lbInf (s.lb k)
  ubT : (s.ctag k).fixed = false → (s.ctag k).ubInf = true → s.ub k = .pinf
  ubF : (s.ctag k).fixed = false → FinIf (s.ctag k).ubInf (s.ub k)
  gap : (s.ctag k).fixed = false → ∀ l u, s.lb k = .fin l → s.ub k = .fin u → l ≤ u + FEAS_TOL
  old : (s.ctag k).fixed = true → ∃ v, logVal s.log k = some (.fin v) ∧
    (s.colSize k ≠ -1 → s.lb k = .fin v ∧ s.ub k = .fin v)
  lo : ∀ b, P.lb k = .fin b → ∃ l, curLb s k = .fin l ∧ b ≤ l + slk s k
  hi : ∀ b, P.ub k = .fin b → ∃ u, curUb s k = .fin u ∧ u - slk s k ≤ b

/-- The sides of row `i` of the state and of the original problem. -/
structure RowF (P : LP) (s : St) (i : ℕ) : Prop where
  cells : (s.rtag i).inactive = false → s.A i = (P.A i).filter (fun p => decide (s.colSize p.1 ≠ -1))
  eq : (s.rtag i).inactive = false → (s.rtag i).eq = true →
    (s.rtag i).lhsInf = false ∧ (s.rtag i).rhsInf = false
  rhs : (s.rtag i).inactive = false → (s.rtag i).rhsInf = false →
    ∃ B, P.rhs i = .fin B ∧ s.rhs i = .fin (B - gone P s i)
  rhsD : ((s.rtag i).inactive = true ∨ (s.rtag i).rhsInf = true) →
    ∀ B, P.rhs i = .fin B → DropHi s (P.A i) B
  lhs : (s.rtag i).inactive = false → (s.rtag i).lhsInf = false →
    ∃ B, P.lhs i = .fin B ∧ s.lhs i = .fin (B - gone P s i)
  lhsD : ((s.rtag i).inactive = true ∨ (s.rtag i).lhsInf = true) →
    ∀ B, P.lhs i = .fin B → DropLo s (P.A i) B
  rhsT : (s.rtag i).inactive = false → (s.rtag i).rhsInf = true → s.rhs i = .pinf
  lhsT : (s.rtag i).inactive = false → (s.rtag i).lhsInf = true → s.lhs i = .ninf

/-- The stored activity of an active row is the recomputed one. -/
def ActF (s : St) (i : ℕ) : Prop :=
  (s.rtag i).inactive = false → Recomputed (s.act i) (effTags s) s.lb s.ub (s.A i)

/-- The state `s` of a run on `P`. -/
structure Feas (P : LP) (s : St) : Prop where
  valid : P.Valid
  m : s.m = P.m
  n : s.n = P.n
  subs : s.subCols = []
  crng : ∀ k, s.colSize k ≠ -1 → k < P.n
  rrng : ∀ i, (s.rtag i).inactive = false → i < P.m
  col : ∀ k < P.n, ColF P s k
  row : ∀ i < P.m, RowF P s i
  act : ∀ i < P.m, ActF s i

/-- Same as `Feas` once no column was fixed to an infinite value, substituted or merged. -/
def FeasP (P : LP) (s : St) : Prop := PlainLog s → Feas P s

/-! ### The log -/

theorem logVal_append {a b : List Rec} {k : ℕ} : logVal (a ++ b) k = (logVal b k).or (logVal a k) := by
  induction a with
  | nil => simp [logVal]
  | cons r a ih =>
    cases r <;> simp only [List.cons_append, logVal, ih]
    rename_i j v _ _
    cases logVal b k <;> simp

theorem slk_nonneg (s : St) (k : ℕ) : 0 ≤ slk s k := by
  unfold slk; split
  · exact FEAS_TOL_pos.le
  · exact le_refl _

theorem slk_le (s : St) (k : ℕ) : slk s k ≤ FEAS_TOL := by
  unfold slk; split
  · exact le_refl _
  · exact FEAS_TOL_pos.le

theorem norm1_nonneg (l : List Cell) : 0 ≤ norm1 l := by
  unfold norm1
  refine List.sum_nonneg ?_
  intro x hx
  obtain ⟨p, _, rfl⟩ := List.mem_map.mp hx
  exact abs_nonneg _

theorem norm1_mem {l : List Cell} {p : Cell} (h : p ∈ l) : |p.2| ≤ norm1 l := by
  induction l with
  | nil => cases h
  | cons q l ih =>
    unfold norm1 at *
    rw [List.map_cons, List.sum_cons]
    rcases List.mem_cons.mp h with rfl | h
    · have := norm1_nonneg l; unfold norm1 at this; linarith
    · have := ih h; have := abs_nonneg q.2; linarith

/-! ### Bounds only get tighter -/

/-- From `s` to `t` finite bounds stay finite and move inwards, up to the slack. -/
structure Tight (s t : St) (k : ℕ) : Prop where
  lo : ∀ l, curLb s k = .fin l → ∃ l', curLb t k = .fin l' ∧ l + slk s k ≤ l' + slk t k
  hi : ∀ u, curUb s k = .fin u → ∃ u', curUb t k = .fin u' ∧ u' - slk t k ≤ u - slk s k

theorem Tight.of_eq {s t : St} {k : ℕ} (h : logVal t.log k = logVal s.log k) (hl : t.lb k = s.lb k)
    (hu : t.ub k = s.ub k) : Tight s t k := by
  have e1 : curLb t k = curLb s k := by unfold curLb; rw [h, hl]
  have e2 : curUb t k = curUb s k := by unfold curUb; rw [h, hu]
  have e3 : slk t k = slk s k := by unfold slk; rw [h]
  exact ⟨fun l hl => ⟨l, by rw [e1, hl], by rw [e3]⟩, fun u hu => ⟨u, by rw [e2, hu], by rw [e3]⟩⟩

theorem sum_map_le {l : List Cell} {f g : Cell → ℚ} (h : ∀ p ∈ l, f p ≤ g p) : (l.map f).sum ≤ (l.map g).sum := by
  induction l with
  | nil => exact le_refl _
  | cons p l ih =>
    rw [List.map_cons, List.map_cons, List.sum_cons, List.sum_cons]
    exact add_le_add (h p List.mem_cons_self) (ih (fun q hq => h q (List.mem_cons_of_mem _ hq)))

theorem DropHi.tight {s t : St} {cells : List Cell} {B : ℚ} (h : DropHi s cells B)
    (T : ∀ p ∈ cells, Tight s t p.1) : DropHi t cells B := by
  refine ⟨fun p hp h0 => ?_, fun p hp h0 => ?_, le_trans (sum_map_le (fun p hp => ?_)) h.le⟩
  · obtain ⟨u, hu⟩ := h.ub p hp h0
    obtain ⟨u', hu', _⟩ := (T p hp).hi u hu
    exact ⟨u', hu'⟩
  · obtain ⟨u, hu⟩ := h.lb p hp h0
    obtain ⟨u', hu', _⟩ := (T p hp).lo u hu
    exact ⟨u', hu'⟩
  · unfold hiTerm
    split
    · rename_i h0
      obtain ⟨u, hu⟩ := h.ub p hp h0
      obtain ⟨u', hu', hle⟩ := (T p hp).hi u hu
      rw [hu, hu']
      exact mul_le_mul_of_nonneg_left hle h0.le
    · rename_i h0
      obtain ⟨u, hu⟩ := h.lb p hp h0
      obtain ⟨u', hu', hle⟩ := (T p hp).lo u hu
      rw [hu, hu']
      exact mul_le_mul_of_nonpos_left hle (not_lt.mp h0)

theorem DropLo.tight {s t : St} {cells : List Cell} {B : ℚ} (h : DropLo s cells B)
    (T : ∀ p ∈ cells, Tight s t p.1) : DropLo t cells B := by
  refine ⟨fun p hp h0 => ?_, fun p hp h0 => ?_, le_trans h.le (sum_map_le (fun p hp => ?_))⟩
  · obtain ⟨u, hu⟩ := h.lb p hp h0
    obtain ⟨u', hu', _⟩ := (T p hp).lo u hu
    exact ⟨u', hu'⟩
  · obtain ⟨u, hu⟩ := h.ub p hp h0
    obtain ⟨u', hu', _⟩ := (T p hp).hi u hu
    exact ⟨u', hu'⟩
  · unfold loTerm
    split
    · rename_i h0
      obtain ⟨u, hu⟩ := h.lb p hp h0
      obtain ⟨u', hu', hle⟩ := (T p hp).lo u hu
      rw [hu, hu']
      exact mul_le_mul_of_nonneg_left hle h0.le
    · rename_i h0
      obtain ⟨u, hu⟩ := h.ub p hp h0
      obtain ⟨u', hu', hle⟩ := (T p hp).hi u hu
      rw [hu, hu']
      exact mul_le_mul_of_nonpos_left hle (not_lt.mp h0)

/-! ### Columns and rows that an operation leaves alone -/

theorem ColF.frame {P : LP} {s t : St} {k : ℕ} (h : ColF P s k) (hc : t.ctag k = s.ctag k)
    (hs : t.colSize k ≠ -1 → s.colSize k ≠ -1) (hl : t.lb k = s.lb k) (hu : t.ub k = s.ub k)
    (hg : logVal t.log k = logVal s.log k) : ColF P t k := by
  have T : Tight s t k := .of_eq hg hl hu
  refine ⟨by rw [hc]; exact h.sub, ?_, ?_, ?_, ?_, ?_, ?_, ?_, ?_, ?_⟩
  · rw [hc, hg]; exact h.new
  · rw [hc, hl]; exact h.lbT
  · rw [hc, hl]; exact h.lbF
  · rw [hc, hu]; exact h.ubT
  · rw [hc, hu]; exact h.ubF
  · rw [hc, hl, hu]; exact h.gap
  · rw [hc, hg, hl, hu]
    intro hf
    obtain ⟨v, h1, h2⟩ := h.old hf
    exact ⟨v, h1, fun x => h2 (hs x)⟩
  · intro b hb
    obtain ⟨l, h1, h2⟩ := h.lo b hb
    obtain ⟨l', h3, h4⟩ := T.lo l h1
    exact ⟨l', h3, h2.trans h4⟩
  · intro b hb
    obtain ⟨l, h1, h2⟩ := h.hi b hb
    obtain ⟨l', h3, h4⟩ := T.hi l h1
    exact ⟨l', h3, h4.trans h2⟩

/-- A row whose cells, sides and tag stay, while bounds get tighter and no column disappears. -/
theorem RowF.frame {P : LP} {s t : St} {i : ℕ} (h : RowF P s i) (hr : t.rtag i = s.rtag i)
    (hA : (s.rtag i).inactive = false → t.A i = s.A i)
    (hc : (s.rtag i).inactive = false → ∀ p ∈ P.A i, (t.colSize p.1 = -1 ↔ s.colSize p.1 = -1))
    (hg : (s.rtag i).inactive = false → ∀ p ∈ P.A i, s.colSize p.1 = -1 → curLb t p.1 = curLb s p.1)
    (hl : t.lhs i = s.lhs i) (hu : t.rhs i = s.rhs i) (T : ∀ p ∈ P.A i, Tight s t p.1) :
    RowF P t i := by
  have eg : (s.rtag i).inactive = false → gone P t i = gone P s i := by
    intro ha
    unfold gone
    have e : (P.A i).filter (fun p => decide (t.colSize p.1 = -1)) =
        (P.A i).filter (fun p => decide (s.colSize p.1 = -1)) :=
      List.filter_congr (fun p hp => by rw [decide_eq_decide]; exact hc ha p hp)
    rw [e]
    congr 1
    refine List.map_congr_left (fun p hp => ?_)
    obtain ⟨h1, h2⟩ := List.mem_filter.mp hp
    rw [hg ha p h1 (of_decide_eq_true h2)]
  refine ⟨?_, ?_, ?_, ?_, ?_, ?_, by rw [hr, hu]; exact h.rhsT, by rw [hr, hl]; exact h.lhsT⟩
  · rw [hr]; intro ha
    rw [hA ha, h.cells ha]
    exact List.filter_congr (fun p hp => by rw [decide_eq_decide]; exact not_congr (hc ha p hp).symm)
  · rw [hr]; exact h.eq
  · rw [hr, hu]; intro ha hb
    rw [eg ha]; exact h.rhs ha hb
  · rw [hr]; intro hd B hB; exact (h.rhsD hd B hB).tight T
  · rw [hr, hl]; intro ha hb
    rw [eg ha]; exact h.lhs ha hb
  · rw [hr]; intro hd B hB; exact (h.lhsD hd B hB).tight T

/-- Same activity up to its status. -/
def ActEq (a b : Act) : Prop := a.nInfMin = b.nInfMin ∧ a.nInfMax = b.nInfMax ∧ a.min = b.min ∧ a.max = b.max

theorem ActEq.refl (a : Act) : ActEq a a := ⟨rfl, rfl, rfl, rfl⟩

theorem ActEq.rec {a b : Act} (h : ActEq a b) {ctag : ℕ → CTag} {lb ub : ℕ → D} {cells : List Cell}
    (hb : Recomputed b ctag lb ub cells) : Recomputed a ctag lb ub cells := by
  obtain ⟨h1, h2, h3, h4⟩ := h
  unfold Recomputed at *
  rw [h1, h2, h3, h4]; exact hb

/-- Nothing that matters changes. -/
theorem Feas.frame {P : LP} {s t : St} (h : Feas P s) (m : t.m = s.m) (n : t.n = s.n) (sc : t.subCols = s.subCols) (A : t.A = s.A)
    (cs : t.colSize = s.colSize) (lhs : t.lhs = s.lhs) (rhs : t.rhs = s.rhs) (lb : t.lb = s.lb)
    (ub : t.ub = s.ub) (rt : t.rtag = s.rtag) (ct : t.ctag = s.ctag)
    (lg : ∀ k, logVal t.log k = logVal s.log k) (ac : ∀ i, ActEq (t.act i) (s.act i)) : Feas P t := by
  refine ⟨h.valid, m.trans h.m, n.trans h.n, sc.trans h.subs,
    by rw [cs]; exact h.crng, by rw [rt]; exact h.rrng, fun k hk => ?_, fun i hi => ?_, fun i hi => ?_⟩
  · exact (h.col k hk).frame (by rw [ct]) (by rw [cs]; exact id) (by rw [lb]) (by rw [ub]) (lg k)
  · exact (h.row i hi).frame (by rw [rt]) (fun _ => by rw [A]) (fun _ p _ => by rw [cs])
      (fun _ p _ _ => by unfold curLb; rw [lg, lb]) (by rw [lhs]) (by rw [rhs])
      (fun p _ => .of_eq (lg _) (by rw [lb]) (by rw [ub]))
  · intro ha
    rw [rt] at ha
    have e : effTags t = effTags s := by unfold effTags; rw [ct]
    rw [lb, ub, A, e]
    exact (ac i).rec (h.act i hi ha)

theorem Feas.core {P : LP} {s t : St} (h : Feas P s) (c : SameCore s t) (ac : ∀ i, ActEq (t.act i) (s.act i)) :
    Feas P t :=
  h.frame c.m c.n c.subCols c.A c.colSize c.lhs c.rhs c.lb c.ub c.rtag c.ctag (fun k => by rw [c.log]) ac

theorem Feas.check {P : LP} {s : St} (h : Feas P s) (b : Bool) : Feas P (s.check b) :=
  h.core (sameCore_check s b) (fun _ => .refl _)

/-! ### Cells of active rows -/

section
variable {P : LP} {s : St} {i : ℕ}

theorem Feas.colsOK (h : Feas P s) (g : GI s) (ha : (s.rtag i).inactive = false) :
    ColsOK (effTags s) s.lb s.ub (s.A i) := by
  intro p hp
  have hk : p.1 < P.n := by rw [← h.n]; exact (g.rowRange i p hp).2.1
  have hc := h.col p.1 hk
  unfold effTags effTag
  cases hf : (s.ctag p.1).fixed with
  | false => exact ⟨hc.lbF hf, hc.ubF hf⟩
  | true =>
    obtain ⟨v, -, h2⟩ := hc.old hf
    obtain ⟨h3, h4⟩ := h2 (g.rowIn i ha p hp)
    rw [h3, h4]
    exact ⟨fun _ => ⟨v, rfl⟩, fun _ => ⟨v, rfl⟩⟩

/-- Bounds of the cells of an active row are the current ones. -/
theorem Feas.cur (h : Feas P s) {k : ℕ} (hk : k < P.n) (hs : s.colSize k ≠ -1) :
    curLb s k = s.lb k ∧ curUb s k = s.ub k := by
  have hc := h.col k hk
  unfold curLb curUb
  cases hf : (s.ctag k).fixed with
  | false => rw [hc.new hf]; exact ⟨rfl, rfl⟩
  | true =>
    obtain ⟨v, h1, h2⟩ := hc.old hf
    rw [h1, (h2 hs).1, (h2 hs).2]; exact ⟨rfl, rfl⟩

/-- A column that is gone has a value. -/
theorem Feas.val (h : Feas P s) (g : GI s) {k : ℕ} (hk : k < P.n) (hs : s.colSize k = -1) :
    ∃ v, curLb s k = .fin v ∧ curUb s k = .fin v ∧ slk s k = FEAS_TOL := by
  have hc := h.col k hk
  have hin := (g.colGone k hs).2
  have hf : (s.ctag k).fixed = true := by
    unfold CTag.inactive at hin; rw [hc.sub, Bool.or_false] at hin; exact hin
  obtain ⟨v, h1, -⟩ := hc.old hf
  refine ⟨v, ?_, ?_, ?_⟩
  · unfold curLb; rw [h1]; rfl
  · unfold curUb; rw [h1]; rfl
  · unfold slk; rw [h1]; rfl

theorem sum_filter_split (l : List Cell) (f : Cell → Bool) (w : Cell → ℚ) :
    (l.map w).sum = ((l.filter f).map w).sum + ((l.filter (fun p => !f p)).map w).sum := by
  induction l with
  | nil => simp
  | cons p l ih =>
    rw [List.map_cons, List.sum_cons, ih, List.filter_cons, List.filter_cons]
    cases hf : f p
    · simp [hf]; ring
    · simp [hf]; ring

theorem filter_neg_size (l : List Cell) (cs : ℕ → ℤ) :
    l.filter (fun p => !decide (cs p.1 ≠ -1)) = l.filter (fun p => decide (cs p.1 = -1)) :=
  List.filter_congr (fun p _ => by by_cases h : cs p.1 = -1 <;> simp [h])

/-- A side of an active row that the bounds imply. -/
theorem Feas.dropHi (h : Feas P s) (g : GI s) (hi : i < P.m) (ha : (s.rtag i).inactive = false)
    {r : ℚ} (hfin : ∀ p ∈ s.A i, unbMax (effTags s) p = false)
    (hle : ((s.A i).map (maxTerm s.lb s.ub)).sum ≤ r + FEAS_TOL * (1 + norm1 (P.A i))) :
    DropHi s (P.A i) (r + gone P s i) := by
  have hr := h.row i hi
  have hcells := hr.cells ha
  have hok := h.colsOK g ha
  have hlive : ∀ p ∈ P.A i, s.colSize p.1 ≠ -1 → p ∈ s.A i := fun p hp hs => by
    rw [hcells]; exact List.mem_filter.mpr ⟨hp, decide_eq_true hs⟩
  have hn : ∀ p ∈ P.A i, p.1 < P.n := fun p hp => (h.valid.range i p hp).2.1
  have hb : ∀ p ∈ P.A i, s.colSize p.1 ≠ -1 → (0 < p.2 → s.ub p.1 = .fin (s.ub p.1).toQ) ∧
      (¬ 0 < p.2 → s.lb p.1 = .fin (s.lb p.1).toQ) := by
    intro p hp hs
    have hu := hfin p (hlive p hp hs)
    have := hok p (hlive p hp hs)
    unfold unbMax at hu
    constructor
    · intro h0; rw [if_pos h0] at hu; exact this.2.eq hu
    · intro h0; rw [if_neg h0] at hu; exact this.1.eq hu
  refine ⟨fun p hp h0 => ?_, fun p hp h0 => ?_, ?_⟩
  · by_cases hs : s.colSize p.1 = -1
    · obtain ⟨v, _, h2, _⟩ := h.val g (hn p hp) hs; exact ⟨v, h2⟩
    · rw [(h.cur (hn p hp) hs).2]; exact ⟨_, (hb p hp hs).1 h0⟩
  · by_cases hs : s.colSize p.1 = -1
    · obtain ⟨v, h1, _, _⟩ := h.val g (hn p hp) hs; exact ⟨v, h1⟩
    · rw [(h.cur (hn p hp) hs).1]; exact ⟨_, (hb p hp hs).2 h0⟩
  · rw [sum_filter_split _ (fun p => decide (s.colSize p.1 ≠ -1)) (hiTerm s), filter_neg_size, ← hcells]
    have e1 : ((s.A i).map (hiTerm s)).sum ≤ ((s.A i).map (maxTerm s.lb s.ub)).sum := by
      refine sum_map_le (fun p hp => ?_)
      have hp' : p ∈ P.A i := by rw [hcells] at hp; exact (List.mem_filter.mp hp).1
      have hc := h.cur (hn p hp') (g.rowIn i ha p hp)
      have hsl := slk_nonneg s p.1
      unfold hiTerm maxTerm
      rw [hc.1, hc.2]
      split
      · rename_i h0; exact mul_le_mul_of_nonneg_left (by linarith) h0.le
      · rename_i h0; exact mul_le_mul_of_nonpos_left (by linarith) (not_lt.mp h0)
    have e2 : (((P.A i).filter (fun p => decide (s.colSize p.1 = -1))).map (hiTerm s)).sum ≤ gone P s i := by
      unfold gone
      refine sum_map_le (fun p hp => ?_)
      obtain ⟨hp, hs⟩ := List.mem_filter.mp hp
      obtain ⟨v, h1, h2, -⟩ := h.val g (hn p hp) (of_decide_eq_true hs)
      have hsl := slk_nonneg s p.1
      unfold hiTerm
      rw [h1, h2]
      split
      · rename_i h0; exact mul_le_mul_of_nonneg_left (by simp only [D.toQ_fin]; linarith) h0.le
      · rename_i h0; exact mul_le_mul_of_nonpos_left (by simp only [D.toQ_fin]; linarith) (not_lt.mp h0)
    linarith

theorem Feas.dropLo (h : Feas P s) (g : GI s) (hi : i < P.m) (ha : (s.rtag i).inactive = false)
    {r : ℚ} (hfin : ∀ p ∈ s.A i, unbMin (effTags s) p = false)
    (hle : r - FEAS_TOL * (1 + norm1 (P.A i)) ≤ ((s.A i).map (minTerm s.lb s.ub)).sum) :
    DropLo s (P.A i) (r + gone P s i) := by
  have hr := h.row i hi
  have hcells := hr.cells ha
  have hok := h.colsOK g ha
  have hlive : ∀ p ∈ P.A i, s.colSize p.1 ≠ -1 → p ∈ s.A i := fun p hp hs => by
    rw [hcells]; exact List.mem_filter.mpr ⟨hp, decide_eq_true hs⟩
  have hn : ∀ p ∈ P.A i, p.1 < P.n := fun p hp => (h.valid.range i p hp).2.1
  have hb : ∀ p ∈ P.A i, s.colSize p.1 ≠ -1 → (0 < p.2 → s.lb p.1 = .fin (s.lb p.1).toQ) ∧
      (¬ 0 < p.2 → s.ub p.1 = .fin (s.ub p.1).toQ) := by
    intro p hp hs
    have hu := hfin p (hlive p hp hs)
    have := hok p (hlive p hp hs)
    unfold unbMin at hu
    constructor
    · intro h0; rw [if_pos h0] at hu; exact this.1.eq hu
    · intro h0; rw [if_neg h0] at hu; exact this.2.eq hu
  refine ⟨fun p hp h0 => ?_, fun p hp h0 => ?_, ?_⟩
  · by_cases hs : s.colSize p.1 = -1
    · obtain ⟨v, h1, _, _⟩ := h.val g (hn p hp) hs; exact ⟨v, h1⟩
    · rw [(h.cur (hn p hp) hs).1]; exact ⟨_, (hb p hp hs).1 h0⟩
  · by_cases hs : s.colSize p.1 = -1
    · obtain ⟨v, _, h2, _⟩ := h.val g (hn p hp) hs; exact ⟨v, h2⟩
    · rw [(h.cur (hn p hp) hs).2]; exact ⟨_, (hb p hp hs).2 h0⟩
  · rw [sum_filter_split _ (fun p => decide (s.colSize p.1 ≠ -1)) (loTerm s), filter_neg_size, ← hcells]
    have e1 : ((s.A i).map (minTerm s.lb s.ub)).sum ≤ ((s.A i).map (loTerm s)).sum := by
      refine sum_map_le (fun p hp => ?_)
      have hp' : p ∈ P.A i := by rw [hcells] at hp; exact (List.mem_filter.mp hp).1
      have hc := h.cur (hn p hp') (g.rowIn i ha p hp)
      have hsl := slk_nonneg s p.1
      unfold loTerm minTerm
      rw [hc.1, hc.2]
      split
      · rename_i h0; exact mul_le_mul_of_nonneg_left (by linarith) h0.le
      · rename_i h0; exact mul_le_mul_of_nonpos_left (by linarith) (not_lt.mp h0)
    have e2 : gone P s i ≤ (((P.A i).filter (fun p => decide (s.colSize p.1 = -1))).map (loTerm s)).sum := by
      unfold gone
      refine sum_map_le (fun p hp => ?_)
      obtain ⟨hp, hs⟩ := List.mem_filter.mp hp
      obtain ⟨v, h1, h2, -⟩ := h.val g (hn p hp) (of_decide_eq_true hs)
      have hsl := slk_nonneg s p.1
      unfold loTerm
      rw [h1, h2]
      split
      · rename_i h0; exact mul_le_mul_of_nonneg_left (by simp only [D.toQ_fin]; linarith) h0.le
      · rename_i h0; exact mul_le_mul_of_nonpos_left (by simp only [D.toQ_fin]; linarith) (not_lt.mp h0)
    linarith

end

end Verif
