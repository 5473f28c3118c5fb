import Verif.Props.C31_StonIneq

/-!
# C30 and C31 for the step of `remove_ston_cols`

The theorems of `C30_StonEq.lean` and `C31_StonIneq.lean` speak about the two functions that process a
singleton column, given the answers of the implied-free tests on the stored row.  Here the same
conclusions are stated for the body of the loop of `remove_ston_cols__`
(`/repo/src/explorers/StonCols.c:607-675`), which finds the row of the column, runs the two tests
and chooses between the two functions.
-/

namespace Verif

private theorem check2 (s : St) : (s.check true).check true = s := by
  show ({ s with asrt := s.asrt && true && true } : St) = s
  rw [Bool.and_true, Bool.and_true]

/-- **C30, the step.**  The loop body on a singleton column `k` of an active equality row `i` with
other entries and exact activities either does nothing, or yields a problem whose feasible points
are exactly the projections of the old ones with the same objective value, and replaying the records
it wrote sets `x_k` to the only value at which the row holds. -/
theorem C30_step (s : St) (st : Status) (i k : ℕ) (q b o : ℚ) (h : StonReady s i k q)
    (hA : s.AT k = [(i, q)]) (hs : 1 < s.rowSize i) (he : (s.rtag i).eq = true)
    (hr : s.rhs i = .fin b) (hl : s.lhs i = .fin b) (ht : (s.rtag i).lhsInf = false)
    (ht' : (s.rtag i).rhsInf = false) (ho : s.off = .fin o)
    (ha : Recomputed (s.act i) s.ctag s.lb s.ub (s.A i)) :
    let r := stonColStep (s, st) k
    (r.2 = st ∧ core r.1 = core s) ∨
    (r.2 = st ||| REDUCED ∧ ∃ v, SubstExact s r.1 k v ∧
      (∀ x w, dot (s.A i) (setAt x k w) = b ↔ w = v x) ∧
      ∃ recs, r.1.log = recs ++ s.log ∧
        ∀ (σ : Sol) (x : ℕ → ℚ), (∀ p ∈ s.A i, p.1 ≠ k → σ.x p.1 = .fin (x p.1)) →
          ∃ σ', replay none recs σ = some σ' ∧ σ'.x = upd σ.x k (.fin (v x))) := by
  intro r
  have hkact := (h.cols _ h.mem).2.1
  have key := C30_ston_eq s i k q b o h hr hl ht ht' ho ha
  have e : r = stonColStep (s, st) k := rfl
  unfold stonColStep at e
  simp only [hA, hkact, Bool.not_false, decide_true, check2] at e
  rw [if_neg (by simp [h.row]; omega), if_pos he] at e
  rw [e]
  rcases key with ⟨h1, h2⟩ | ⟨h1, h2⟩
  · exact .inl ⟨by simp only [h1]; exact Nat.or_zero st, h2⟩
  · exact .inr ⟨by simp only [h1], h2⟩

/-- The hypotheses hold for the first column of `exStonEq`, and the step reduces. -/
example : exStonEq.AT 0 = [(0, 1)] ∧ 1 < exStonEq.rowSize 0 ∧ (exStonEq.rtag 0).eq = true ∧
    (stonColStep (exStonEq, UNCHANGED) 0).2 = REDUCED := by decide +kernel

/-- **C31, the step.**  The loop body on a singleton column `k` of an active inequality row `i` with
other entries, exact activities, consistent sides and consistent column bounds: nothing happens; or the
objective is unbounded below as soon as there is a feasible point; or an optimal solution survives,
and replaying the records it wrote recovers from a feasible point of the new problem a feasible
point of the old one with the same objective. -/
theorem C31_step (s : St) (st : Status) (i k : ℕ) (q o : ℚ) (h : StonReady s i k q)
    (hA : s.AT k = [(i, q)]) (hs : 1 < s.rowSize i) (he : (s.rtag i).eq = false)
    (ho : s.off = .fin o)
    (hlf : FinIf (s.rtag i).lhsInf (s.lhs i)) (hrf : FinIf (s.rtag i).rhsInf (s.rhs i))
    (hfree : (s.rtag i).lhsInf = false ∨ (s.rtag i).rhsInf = false)
    (hcons : ∃ v, Sides (s.rtag i) (s.lhs i) (s.rhs i) v) (hbox : ∃ v, ColIn s k v)
    (ha : Recomputed (s.act i) s.ctag s.lb s.ub (s.A i)) :
    let r := stonColStep (s, st) k
    (r.2 = st ∧ core r.1 = core s) ∨
    (r.2 = st ||| UNBNDORINFEAS ∧ core r.1 = core s ∧
      ∀ x, FeasPt s x → ∀ M, ∃ v, FeasPt s (setAt x k v) ∧ objP s (setAt x k v) < M) ∨
    (r.2 = st ||| REDUCED ∧ ∃ lift, StonKeeps s r.1 k lift ∧
      ∃ recs, r.1.log = recs ++ s.log ∧
        ∀ (σ : Sol) (x : ℕ → ℚ), (∀ p ∈ s.A i, r.1.colSize p.1 ≠ -1 → σ.x p.1 = .fin (x p.1)) →
          ∃ σ', replay none recs σ = some σ' ∧ σ'.x = upd σ.x k (.fin (lift x))) := by
  intro r
  have hkact := (h.cols _ h.mem).2.1
  have key := C31_ston_ineq s i k q o h ho hlf hrf hfree hcons hbox ha
  have e : r = stonColStep (s, st) k := rfl
  unfold stonColStep at e
  simp only [hA, hkact, Bool.not_false, decide_true, check2] at e
  rw [if_neg (by simp [h.row]; omega), if_neg (by simp [he])] at e
  rw [e]
  rcases key with ⟨h1, h2⟩ | ⟨h1, h2⟩ | ⟨h1, h2⟩
  · exact .inl ⟨by simp only [h1]; exact Nat.or_zero st, h2⟩
  · exact .inr (.inl ⟨by simp only [h1], h2⟩)
  · exact .inr (.inr ⟨by simp only [h1], h2⟩)

/-- The hypotheses hold for the first column of `exStonIneq`, and the step reduces. -/
example : exStonIneq.AT 0 = [(0, 1)] ∧ 1 < exStonIneq.rowSize 0 ∧ (exStonIneq.rtag 0).eq = false ∧
    (stonColStep (exStonIneq, UNCHANGED) 0).2 = REDUCED := by decide +kernel

end Verif
