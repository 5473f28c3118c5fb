import Verif.Props.C21_Activity
import Verif.Lemmas.ActUpd

/-!
# Feasibility of a point with respect to a state
-/

namespace Verif

/-- The value `v` respects both sides of a row. -/
def Sides (t : RTag) (lhs rhs : D) (v : ℚ) : Prop := Lo t.lhsInf lhs v ∧ Hi t.rhsInf rhs v

/-- The value `v` respects both sides of a row up to `ε`. -/
def SidesTol (ε : ℚ) (t : RTag) (lhs rhs : D) (v : ℚ) : Prop :=
  Lo t.lhsInf lhs (v + ε) ∧ Hi t.rhsInf rhs (v - ε)

/-- Row `i` holds at `x`. -/
def RowOK (s : St) (i : ℕ) (x : ℕ → ℚ) : Prop :=
  Sides (s.rtag i) (s.lhs i) (s.rhs i) (dot (s.A i) x)

/-- The columns of row `i` are within their bounds at `x`. -/
def RowBox (s : St) (i : ℕ) (x : ℕ → ℚ) : Prop :=
  ∀ p ∈ s.A i, InCol s.ctag s.lb s.ub x p.1

theorem Lo.mono {inf : Bool} {d : D} {v w : ℚ} (h : Lo inf d v) (hvw : v ≤ w) : Lo inf d w := by
  rcases h with h | ⟨a, e, h⟩
  · exact Or.inl h
  · exact Or.inr ⟨a, e, h.trans hvw⟩

theorem Hi.mono {inf : Bool} {d : D} {v w : ℚ} (h : Hi inf d v) (hvw : w ≤ v) : Hi inf d w := by
  rcases h with h | ⟨a, e, h⟩
  · exact Or.inl h
  · exact Or.inr ⟨a, e, hvw.trans h⟩

theorem Sides.tol {ε : ℚ} (hε : 0 ≤ ε) {t : RTag} {lhs rhs : D} {v : ℚ} (h : Sides t lhs rhs v) :
    SidesTol ε t lhs rhs v := ⟨h.1.mono (by linarith), h.2.mono (by linarith)⟩

/-- An exact activity without infinite contributions is a finite lower bound of the row. -/
theorem act_min_le {a : Act} {ctag : ℕ → CTag} {lb ub : ℕ → D} {cells : List Cell}
    (hok : ColsOK ctag lb ub cells) (ha : Recomputed a ctag lb ub cells) (h0 : a.nInfMin = 0) :
    ∃ q, a.min = .fin q ∧ ∀ x, (∀ p ∈ cells, InCol ctag lb ub x p.1) → q ≤ dot cells x := by
  rw [recomputed_iff hok] at ha
  refine ⟨_, ha.min h0, fun x hx => sum_minTerm_le hx (countP_zero_all ?_)⟩
  rw [← ha.nmin]; exact h0

theorem le_act_max {a : Act} {ctag : ℕ → CTag} {lb ub : ℕ → D} {cells : List Cell}
    (hok : ColsOK ctag lb ub cells) (ha : Recomputed a ctag lb ub cells) (h0 : a.nInfMax = 0) :
    ∃ q, a.max = .fin q ∧ ∀ x, (∀ p ∈ cells, InCol ctag lb ub x p.1) → dot cells x ≤ q := by
  rw [recomputed_iff hok] at ha
  refine ⟨_, ha.max h0, fun x hx => le_sum_maxTerm hx (countP_zero_all ?_)⟩
  rw [← ha.nmax]; exact h0

/-- What the code needs of an activity: without infinite contributions the stored value is a
valid bound of the row over the box.  Weaker than `Recomputed`. -/
structure ActValid (a : Act) (ctag : ℕ → CTag) (lb ub : ℕ → D) (cells : List Cell) : Prop where
  min : a.nInfMin = 0 → ∃ q, a.min = .fin q ∧
    ∀ x, (∀ p ∈ cells, InCol ctag lb ub x p.1) → q ≤ dot cells x
  max : a.nInfMax = 0 → ∃ q, a.max = .fin q ∧
    ∀ x, (∀ p ∈ cells, InCol ctag lb ub x p.1) → dot cells x ≤ q

theorem Recomputed.valid {a : Act} {ctag : ℕ → CTag} {lb ub : ℕ → D} {cells : List Cell}
    (ha : Recomputed a ctag lb ub cells) (hok : ColsOK ctag lb ub cells) :
    ActValid a ctag lb ub cells := ⟨act_min_le hok ha, le_act_max hok ha⟩

end Verif
