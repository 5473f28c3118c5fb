import Verif.Props.C32_Dton

/-!
# C47: which variable of a doubleton equality is eliminated
-/

namespace Verif

/-- The quotient of the absolute values is a whole number. -/
def WholeRatio (p q : ℚ) : Prop := ∃ n : ℤ, |p| / |q| = n

theorem isIntegral_iff (q : ℚ) : isIntegral (.fin q) = true ↔ ∃ n : ℤ, q = n := by
  show decide (q.den = 1) = true ↔ _
  rw [decide_eq_true_iff]
  constructor
  · intro h
    exact ⟨q.num, (Rat.coe_int_num_of_den_eq_one h).symm⟩
  · rintro ⟨n, rfl⟩
    exact Rat.den_intCast n

theorem wholeRatio_iff (p q : ℚ) : isIntegral (.fin (|p| / |q|)) = true ↔ WholeRatio p q := isIntegral_iff _

/-- The decision as a specification: `stay` and `go` are the two coefficients, `n` and `g` the sizes of the columns
that stay and go. -/
structure GoodChoice (stay go : ℚ) (n g : ℤ) : Prop where
  /-- A singleton column stays only if the other one is a singleton too. -/
  single : n = 1 → g = 1
  /-- Unless a single singleton column decides, the substitution has a whole coefficient if one of the two possible
  ones has. -/
  whole : (n = 1 ↔ g = 1) → WholeRatio go stay → WholeRatio stay go
  /-- If neither criterion decides, the longer column stays. -/
  short : (n = 1 ↔ g = 1) → (WholeRatio go stay ↔ WholeRatio stay go) → g ≤ n

theorem dtonSubstFirst_good (a b : ℚ) (n0 n1 : ℤ) :
    (dtonSubstFirst a b n0 n1 = true → GoodChoice b a n1 n0) ∧
      (dtonSubstFirst a b n0 n1 = false → GoodChoice a b n0 n1) := by
  have w0 := wholeRatio_iff a b
  have w1 := wholeRatio_iff b a
  unfold dtonSubstFirst
  simp only
  generalize isIntegral (.fin (|a| / |b|)) = i0 at w0 ⊢
  generalize isIntegral (.fin (|b| / |a|)) = i1 at w1 ⊢
  refine ⟨fun h => ⟨?_, ?_, ?_⟩, fun h => ⟨?_, ?_, ?_⟩⟩ <;> (try simp only [← w0, ← w1]) <;> clear w0 w1 <;>
    cases i0 <;> cases i1 <;> split_ifs at h <;> simp_all <;> omega

/-- **C47.**  In every state and for every row with two cells, whatever the free space in the transpose: if the code
decides to eliminate column `k` and to keep column `j`, then the row has exactly these two cells, both columns are
active, the coefficient of the substitution lies within a factor of thousand of one, and the choice between the two columns
is the intended one. -/
theorem C47_choice {env : Env} {s s1 : St} {i j k : ℕ} {aij aik : ℚ}
    (h : findSubst env s i = (s1, .subst j k aij aik)) (two : (s.A i).length = 2) :
    (s.A i = [(j, aij), (k, aik)] ∨ s.A i = [(k, aik), (j, aij)]) ∧
      (s.ctag j).inactive = false ∧ (s.ctag k).inactive = false ∧
      1 / 1000 ≤ |aij / aik| ∧ |aij / aik| ≤ 1000 ∧ GoodChoice aij aik (s.colSize j) (s.colSize k) := by
  obtain ⟨-, hA, hj, hk, hp⟩ := findSubst_subst h two
  unfold dtonPivotBad MAX_RATIO_PIVOT at hp
  simp only [Bool.or_eq_false_iff, decide_eq_false_iff_not, not_lt] at hp
  refine ⟨hA, hj, hk, hp.2, hp.1, ?_⟩
  unfold findSubst at h
  split at h
  · simp at h
  simp only at h
  generalize hs0 : (s.check ((s.rtag i).eq && !(s.rtag i).inactive)).check
    ((s.lhs i).eqb (s.rhs i) && !(s.rhs i).isInf) = s0 at h
  have eA : s0.A = s.A := by rw [← hs0]; rfl
  have eC : s0.colSize = s.colSize := by rw [← hs0]; rfl
  rw [← eA] at two
  match hA : s0.A i, two with
  | [(c0, a0), (c1, a1)], _ =>
    rw [hA] at h
    simp only at h
    split at h
    · simp at h
    have G := dtonSubstFirst_good a0 a1 (s0.colSize c0) (s0.colSize c1)
    cases hd : dtonSubstFirst a0 a1 (s0.colSize c0) (s0.colSize c1) with
    | false =>
      have := G.2 hd
      simp only [hd, Bool.false_eq_true, if_false] at h
      split_ifs at h <;> simp only [Prod.mk.injEq, DtonPlan.subst.injEq, reduceCtorEq, and_false] at h
      obtain ⟨-, rfl, rfl, rfl, rfl⟩ := h
      rwa [eC] at this
    | true =>
      have := G.1 hd
      simp only [hd, if_true] at h
      split_ifs at h <;> simp only [Prod.mk.injEq, DtonPlan.subst.injEq, reduceCtorEq, and_false] at h
      obtain ⟨-, rfl, rfl, rfl, rfl⟩ := h
      rwa [eC] at this

/-- The hypotheses of `C47_choice` hold on the row `2 x0 - x1 = 3`: `x1` goes although its column is as long as that of
`x0`, because then the substitution has a whole coefficient. -/
example : (findSubst envEx exDton 0).2 = .subst 0 1 2 (-1) ∧ (exDton.A 0).length = 2 ∧
    exDton.colSize 0 = 2 ∧ exDton.colSize 1 = 2 ∧ WholeRatio 2 (-1) ∧ ¬ WholeRatio (-1) 2 := by
  refine ⟨by decide +kernel, by decide +kernel, by decide +kernel, by decide +kernel, ⟨2, by norm_num⟩, ?_⟩
  rintro ⟨n, h⟩
  have : (2 * n : ℚ) = 1 := by rw [← h]; norm_num
  have : (2 * n : ℤ) = 1 := by exact_mod_cast this
  omega

end Verif
