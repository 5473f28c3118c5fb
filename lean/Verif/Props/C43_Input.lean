import Verif.Model.Driver
import Verif.Lemmas.Bounds
import Verif.Lemmas.EnvEx
import Verif.Spec.Problem

/-!
# C43: the classification of rows and bounds is faithful to the input
-/

namespace Verif

theorem Lo_tag {d : D} (v : ℚ) : Lo (D.eqb d .ninf) d v ↔ LoD d v := by
  cases d <;> simp_all [D.eqb, Lo, LoD]

theorem Hi_tag {d : D} (v : ℚ) : Hi (D.eqb d .pinf) d v ↔ HiD d v := by
  cases d <;> simp_all [D.eqb, Hi, HiD]

theorem initSt_rtag {P : LP} {i : ℕ} (h : i < P.m) : (initSt P).rtag i = rowTagOf (P.lhs i) (P.rhs i) :=
  if_pos h

theorem initSt_ctag {P : LP} {k : ℕ} (h : k < P.n) : (initSt P).ctag k = colTagOf (P.lb k) (P.ub k) :=
  if_pos h

/-- **C43 (tags).** Whatever the input: a side or bound is marked infinite exactly when it is the
infinity of that side; a row is marked as an equation exactly when both sides are the same number
(or both `+INF`); no row or column starts out inactive (only what lies outside the arrays does). -/
theorem C43_tags (P : LP) :
    (∀ i < P.m, (((initSt P).rtag i).lhsInf = true ↔ P.lhs i = .ninf) ∧
      (((initSt P).rtag i).rhsInf = true ↔ P.rhs i = .pinf) ∧
      (((initSt P).rtag i).eq = true ↔ (∃ b, P.lhs i = .fin b ∧ P.rhs i = .fin b) ∨
        (P.lhs i = .pinf ∧ P.rhs i = .pinf)) ∧
      ((initSt P).rtag i).inactive = false) ∧
    (∀ k < P.n, (((initSt P).ctag k).lbInf = true ↔ P.lb k = .ninf) ∧
      (((initSt P).ctag k).ubInf = true ↔ P.ub k = .pinf) ∧
      ((initSt P).ctag k).inactive = false) := by
  constructor
  · intro i hi
    simp only [initSt, hi, if_true, rowTagOf]
    cases hl : P.lhs i <;> cases hr : P.rhs i <;> simp [D.eqb]
    exact eq_comm
  · intro k hk
    simp only [initSt, hk, if_true, colTagOf, CTag.inactive]
    cases hl : P.lb k <;> cases hr : P.ub k <;> simp [D.eqb]

/-- **C43 (the classified problem is the given one).** The feasible points and the
objective of the state the presolver starts from are those of the input, whatever the sides and bounds (a `NaN` or an infinity
of the wrong sign admits no point in either reading). -/
theorem C43_faithful (P : LP) (x : ℕ → ℚ) :
    (FeasPt (initSt P) x ↔ P.Feasible x) ∧ objective (initSt P) x = P.obj x := by
  constructor
  · constructor
    · rintro ⟨hr, hc⟩
      constructor
      · intro i hi
        have := hr i hi ((C43_tags P).1 i hi).2.2.2
        unfold RowOK at this
        rw [initSt_rtag hi] at this
        exact ⟨(Lo_tag _).mp this.1,
          (Hi_tag _).mp this.2⟩
      · intro k hk
        have := hc k hk (by
          show (if k < P.n then ((colCells P.m P.A k).length : ℤ) else -1) ≠ -1
          rw [if_pos hk]
          omega) (by rw [initSt_ctag hk]; rfl)
        unfold ColIn at this
        rw [initSt_ctag hk] at this
        exact ⟨(Lo_tag _).mp this.1,
          (Hi_tag _).mp this.2⟩
    · rintro ⟨hr, hc⟩
      constructor
      · intro i hi _
        have := hr i hi
        unfold RowOK
        rw [initSt_rtag hi]
        exact ⟨(Lo_tag _).mpr this.1,
          (Hi_tag _).mpr this.2⟩
      · intro k hk _ _
        have := hc k hk
        unfold ColIn
        rw [initSt_ctag hk]
        exact ⟨(Lo_tag _).mpr this.1,
          (Hi_tag _).mpr this.2⟩
  · rfl

/-- An equation, a ranged, a one-sided and a free row; a bounded, a half-bounded and a free column. -/
example : let P : LP :=
      { m := 4, n := 3, A := fun _ => [(0, 1), (2, 1)]
        lhs := ofList [.fin 1, .fin 0, .ninf, .ninf] .ninf, rhs := ofList [.fin 1, .fin 2, .fin 5, .pinf] .pinf
        lb := ofList [.fin 0, .fin 0, .ninf] .ninf, ub := ofList [.fin 1, .pinf, .pinf] .pinf
        c := fun _ => 1 }
    (List.range 4).map (initSt P).rtag =
      [{ eq := true }, {}, { lhsInf := true }, { lhsInf := true, rhsInf := true }] ∧
    (List.range 3).map (initSt P).ctag = [{}, { ubInf := true }, { lbInf := true, ubInf := true }] := by
  decide +kernel

end Verif
