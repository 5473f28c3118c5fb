import Verif.Props.C34_ParallelCols

/-!
# C34 for the reduced costs of merged columns

`retrieve_parallel_col` (`/repo/src/core/Postsolver.c:218-313`) gives column `k` either `ratio * z_j` or `0`.
Stationarity demands `ratio * z_j` (the column and its cost are `ratio` times those of `j`); the
theorem below says that this is what comes out whenever the reduced cost of the merged column is
complementary, and that the two values are then at the bounds the signs ask for.
-/

namespace Verif

/-- A value of the box below which there is none is the lower bound. -/
theorem Within.at_lb {t : CTag} {lb ub : D} {v : ℚ} (h : Within t lb ub v)
    (hm : ∀ w, Within t lb ub w → v ≤ w) : t.lbInf = false ∧ lb = .fin v := by
  rcases h.1 with hi | ⟨a, e, ha⟩
  · have := hm (v - 1) ⟨.inl hi, h.2.mono (by linarith)⟩
    linarith
  · by_cases hi : t.lbInf = true
    · have := hm (v - 1) ⟨.inl hi, h.2.mono (by linarith)⟩
      linarith
    · have := hm a ⟨.inr ⟨a, e, le_refl _⟩, h.2.mono ha⟩
      exact ⟨by simpa using hi, by rw [e, le_antisymm ha this]⟩

/-- A value of the box above which there is none is the upper bound. -/
theorem Within.at_ub {t : CTag} {lb ub : D} {v : ℚ} (h : Within t lb ub v)
    (hm : ∀ w, Within t lb ub w → w ≤ v) : t.ubInf = false ∧ ub = .fin v := by
  rcases h.2 with hi | ⟨a, e, ha⟩
  · have := hm (v + 1) ⟨h.1.mono (by linarith), .inl hi⟩
    linarith
  · by_cases hi : t.ubInf = true
    · have := hm (v + 1) ⟨h.1.mono (by linarith), .inl hi⟩
      linarith
    · have := hm a ⟨h.1.mono ha, .inr ⟨a, e, le_refl _⟩⟩
      exact ⟨by simpa using hi, by rw [e, le_antisymm this ha]⟩

/-- If the first try leaves a value within the bounds of `k`, it is taken. -/
theorem parSplit_first {X r u v : ℚ} (hr : r ≠ 0) {tj tk : CTag} {lbj ubj lbk ubk : D}
    (ht : parTry tj lbj ubj = .fin u) (hX : X = u + r * v) (hv : Within tk lbk ubk v) :
    parSplit (.fin X) tj tk lbj ubj lbk ubk r = (.fin u, .fin v) := by
  have hT := FEAS_TOL_pos
  have hd : D.divq (D.sub (.fin X) (.fin u)) r = .fin v := by
    rw [D.sub_fin, D.divq_fin hr, hX]
    congr 1
    field_simp
    ring
  unfold parSplit
  simp only [ht, hd]
  rw [if_neg, if_neg]
  · rcases hv.2 with h | ⟨a, e, h⟩
    · simp [h]
    · simp only [e, D.add_fin, D.le_fin, Bool.and_eq_true, decide_eq_true_eq, not_and]
      intro _; linarith
  · rcases hv.1 with h | ⟨a, e, h⟩
    · simp [h]
    · simp only [e, D.add_fin, D.le_fin, Bool.and_eq_true, decide_eq_true_eq, not_and]
      intro _; linarith

theorem atBound_lb {t : CTag} {lb ub : D} {v a : ℚ} (hi : t.lbInf = false) (e : lb = .fin a)
    (h : |v - a| ≤ FEAS_TOL) : atBound (.fin v) t lb ub = true := by
  simp [atBound, hi, e, h]

theorem atBound_ub {t : CTag} {lb ub : D} {v a : ℚ} (hi : t.ubInf = false) (e : ub = .fin a)
    (h : |v - a| ≤ FEAS_TOL) : atBound (.fin v) t lb ub = true := by
  simp [atBound, hi, e, h]

/-- **C34, reduced costs.**  Columns `j` and `k` with (nonempty) bounds were merged into `x_j + r x_k`, and the
merged value `X` with reduced cost `zj` is complementary: `X` is a sum of values within the bounds, if
`zj > 0` no sum is smaller, and if `zj < 0` no sum is larger.  Then postsolve gives `z_j = zj` and
`z_k = r zj`; for `zj > 0` the two values are at the bounds that belong to the signs of `zj` and `r zj`;
for `zj < 0` they are so up to `|r|` times the tolerance and up to the tolerance. -/
theorem C34_dual (σ : Sol) (j k : ℕ) (hjk : j ≠ k) (r X zj : ℚ) (hr : r ≠ 0) (tj tk : CTag)
    (lbj ubj lbk ubk : D) (hj : FinBox tj lbj ubj)
    (hx : σ.x j = .fin X) (hz : σ.z j = .fin zj)
    (hX : ∃ u v, Within tj lbj ubj u ∧ Within tk lbk ubk v ∧ X = u + r * v)
    (hpos : 0 < zj → ∀ u v, Within tj lbj ubj u → Within tk lbk ubk v → X ≤ u + r * v)
    (hneg : zj < 0 → ∀ u v, Within tj lbj ubj u → Within tk lbk ubk v → u + r * v ≤ X) :
    let σ' := retRec σ (.parallelCol j k (mergeTag r tj tk) { tk with subst := true } lbj ubj lbk ubk r)
    σ'.z j = .fin zj ∧ σ'.z k = .fin (r * zj) ∧
    (0 < zj → ∃ u v, σ'.x j = .fin u ∧ σ'.x k = .fin v ∧ lbj = .fin u ∧
      (if 0 < r then lbk else ubk) = .fin v) ∧
    (zj < 0 → ∃ u v a b, σ'.x j = .fin u ∧ σ'.x k = .fin v ∧ ubj = .fin a ∧ |u - a| ≤ |r| * FEAS_TOL ∧
      (if 0 < r then ubk else lbk) = .fin b ∧ |v - b| ≤ FEAS_TOL) := by
  intro σ'
  have hT := FEAS_TOL_pos
  obtain ⟨u, v, hu, hv, eX⟩ := hX
  have hv' : Within { tk with subst := true } lbk ubk v := hv
  have e0 : ∀ w : ℚ, |w - w| ≤ FEAS_TOL := fun w => by rw [sub_self, abs_zero]; exact hT.le
  have ezj : σ'.z j = .fin zj := by
    show upd σ.z k _ j = _
    rw [upd_ne _ _ hjk]; exact hz
  -- what remains once the split is known
  have fin : ∀ u' v', parSplit (.fin X) (mergeTag r tj tk) { tk with subst := true } lbj ubj lbk ubk r = (.fin u', .fin v') →
      atBound (.fin u') (mergeTag r tj tk) lbj ubj = true →
      atBound (.fin v') { tk with subst := true } lbk ubk = true →
      σ'.x j = .fin u' ∧ σ'.x k = .fin v' ∧ σ'.z k = .fin (r * zj) := by
    intro u' v' hs h1 h2
    show upd (upd σ.x j (parSplit (σ.x j) _ _ _ _ _ _ _).1) k (parSplit (σ.x j) _ _ _ _ _ _ _).2 j = _ ∧
      upd (upd σ.x j (parSplit (σ.x j) _ _ _ _ _ _ _).1) k (parSplit (σ.x j) _ _ _ _ _ _ _).2 k = _ ∧
      upd σ.z k (if atBound (parSplit (σ.x j) _ _ _ _ _ _ _).1 _ _ _ && atBound (parSplit (σ.x j) _ _ _ _ _ _ _).2 _ _ _
        then D.smul r (σ.z j) else .fin 0) k = _
    rw [hx, hs]
    refine ⟨by rw [upd_ne _ _ hjk, upd_same], by rw [upd_same], ?_⟩
    rw [upd_same, h1, h2, hz]; rfl
  obtain ⟨m1, m2, -, -⟩ := merge_eq r tj tk lbj ubj lbk ubk
  rcases lt_trichotomy zj 0 with hlt | heq | hgt
  · -- negative reduced cost: both at the bounds where the sum is largest
    have hmax := hneg hlt
    obtain ⟨ju, ej⟩ := hu.at_ub (fun w hw => by have := hmax w v hw hv; linarith)
    suffices ∃ u' v' b, σ'.x j = .fin u' ∧ σ'.x k = .fin v' ∧ σ'.z k = .fin (r * zj) ∧ |u' - u| ≤ |r| * FEAS_TOL ∧
        (if 0 < r then ubk else lbk) = .fin b ∧ |v' - b| ≤ FEAS_TOL by
      obtain ⟨u', v', b, h1, h2, h3, h4, h5, h6⟩ := this
      exact ⟨ezj, h3, fun h => absurd h (not_lt.mpr hlt.le), fun _ => ⟨u', v', u, b, h1, h2, ej, h4, h5, h6⟩⟩
    have hr0 : (0 : ℚ) ≤ |r| * FEAS_TOL := by positivity
    have hu0 : |u - u| ≤ |r| * FEAS_TOL := by rw [sub_self, abs_zero]; exact hr0
    by_cases hp : 0 < r
    · obtain ⟨ku, ek⟩ := hv.at_ub (fun w hw => by
        have := hmax u w hu hw
        by_contra hc; nlinarith)
      have mu : (mergeTag r tj tk).ubInf = false := by rw [m2]; simp [scaledTag, hp, ju, ku]
      rw [if_pos hp]
      rcases ml : (mergeTag r tj tk).lbInf with _ | _
      · have jl : tj.lbInf = false := by rw [ml] at m1; exact (Bool.or_eq_false_iff.mp m1.symm).1
        obtain ⟨a, ea⟩ := hj.1 jl
        have hau : a ≤ u := by rcases hu.1 with h | ⟨a', e', h⟩
                               · rw [jl] at h; cases h
                               · rw [ea] at e'; injection e' with e'; rw [e']; exact h
        have ht : parTry (mergeTag r tj tk) lbj ubj = .fin a := by simp [parTry, ml, ea]
        have hd : D.divq (D.sub (.fin X) (.fin a)) r = .fin ((X - a) / r) := by
          rw [D.sub_fin, D.divq_fin hr]
        have hge : v ≤ (X - a) / r := by rw [le_div_iff₀ hp]; linarith
        have c1 : ¬ ((!tk.lbInf && D.le (D.add (.fin ((X - a) / r)) (.fin FEAS_TOL)) lbk) = true) := by
          rcases hv.1 with h | ⟨a', e', h⟩
          · simp [h]
          · simp only [e', D.add_fin, D.le_fin, Bool.and_eq_true, decide_eq_true_eq, not_and]
            intro _; linarith
        by_cases c2 : v + FEAS_TOL ≤ (X - a) / r
        · have hs : parSplit (.fin X) (mergeTag r tj tk) { tk with subst := true } lbj ubj lbk ubk r = (.fin u, .fin v) := by
            unfold parSplit
            simp only [ht, hd]
            rw [if_neg c1, if_pos (by simp [ku, ek, c2])]
            rw [ek, D.smul_fin, D.sub_fin, eX]
            congr 2; ring
          obtain ⟨h1, h2, h3⟩ := fin u v hs (atBound_ub mu ej (e0 u)) (atBound_ub ku ek (e0 v))
          exact ⟨u, v, v, h1, h2, h3, hu0, ek, e0 v⟩
        · have hs : parSplit (.fin X) (mergeTag r tj tk) { tk with subst := true } lbj ubj lbk ubk r =
              (.fin a, .fin ((X - a) / r)) := by
            unfold parSplit
            simp only [ht, hd]
            rw [if_neg c1, if_neg (by simp [ek, c2])]
          have hnear : |(X - a) / r - v| ≤ FEAS_TOL := by
            rw [abs_of_nonneg (by linarith)]; linarith [not_le.mp c2]
          obtain ⟨h1, h2, h3⟩ := fin a _ hs (atBound_lb ml ea (e0 a)) (atBound_ub ku ek hnear)
          refine ⟨a, _, v, h1, h2, h3, ?_, ek, hnear⟩
          rw [abs_sub_comm, abs_of_nonneg (by linarith), abs_of_pos hp]
          have : (X - a) / r < v + FEAS_TOL := not_le.mp c2
          rw [div_lt_iff₀ hp] at this
          nlinarith
      · have ht : parTry (mergeTag r tj tk) lbj ubj = .fin u := by simp [parTry, ml, mu, ej]
        obtain ⟨h1, h2, h3⟩ := fin u v (parSplit_first hr ht eX hv') (atBound_ub mu ej (e0 u)) (atBound_ub ku ek (e0 v))
        exact ⟨u, v, v, h1, h2, h3, hu0, ek, e0 v⟩
    · have hn : r < 0 := lt_of_le_of_ne (not_lt.mp hp) hr
      obtain ⟨kl, ek⟩ := hv.at_lb (fun w hw => by
        have := hmax u w hu hw
        by_contra hc; nlinarith)
      have mu : (mergeTag r tj tk).ubInf = false := by rw [m2]; simp [scaledTag, hp, ju, kl]
      rw [if_neg hp]
      rcases ml : (mergeTag r tj tk).lbInf with _ | _
      · have jl : tj.lbInf = false := by rw [ml] at m1; exact (Bool.or_eq_false_iff.mp m1.symm).1
        obtain ⟨a, ea⟩ := hj.1 jl
        have hau : a ≤ u := by rcases hu.1 with h | ⟨a', e', h⟩
                               · rw [jl] at h; cases h
                               · rw [ea] at e'; injection e' with e'; rw [e']; exact h
        have ht : parTry (mergeTag r tj tk) lbj ubj = .fin a := by simp [parTry, ml, ea]
        have hd : D.divq (D.sub (.fin X) (.fin a)) r = .fin ((X - a) / r) := by
          rw [D.sub_fin, D.divq_fin hr]
        have hle : (X - a) / r ≤ v := by rw [div_le_iff_of_neg hn]; linarith
        by_cases c1 : (X - a) / r + FEAS_TOL ≤ v
        · have hs : parSplit (.fin X) (mergeTag r tj tk) { tk with subst := true } lbj ubj lbk ubk r = (.fin u, .fin v) := by
            unfold parSplit
            simp only [ht, hd]
            rw [if_pos (by simp [kl, ek, c1])]
            rw [ek, D.smul_fin, D.sub_fin, eX]
            congr 2; ring
          obtain ⟨h1, h2, h3⟩ := fin u v hs (atBound_ub mu ej (e0 u)) (atBound_lb kl ek (e0 v))
          exact ⟨u, v, v, h1, h2, h3, hu0, ek, e0 v⟩
        · have c2 : ¬ ((!tk.ubInf && D.le (D.add ubk (.fin FEAS_TOL)) (.fin ((X - a) / r))) = true) := by
            rcases hv.2 with h | ⟨a', e', h⟩
            · simp [h]
            · simp only [e', D.add_fin, D.le_fin, Bool.and_eq_true, decide_eq_true_eq, not_and]
              intro _; linarith
          have hs : parSplit (.fin X) (mergeTag r tj tk) { tk with subst := true } lbj ubj lbk ubk r =
              (.fin a, .fin ((X - a) / r)) := by
            unfold parSplit
            simp only [ht, hd]
            rw [if_neg (by simp [ek, c1]), if_neg c2]
          have hnear : |(X - a) / r - v| ≤ FEAS_TOL := by
            rw [abs_sub_comm, abs_of_nonneg (by linarith)]; linarith [not_le.mp c1]
          obtain ⟨h1, h2, h3⟩ := fin a _ hs (atBound_lb ml ea (e0 a)) (atBound_lb kl ek hnear)
          refine ⟨a, _, v, h1, h2, h3, ?_, ek, hnear⟩
          rw [abs_sub_comm, abs_of_nonneg (by linarith), abs_of_neg hn]
          have : v - FEAS_TOL < (X - a) / r := by linarith [not_le.mp c1]
          rw [lt_div_iff_of_neg hn] at this
          nlinarith
      · have ht : parTry (mergeTag r tj tk) lbj ubj = .fin u := by simp [parTry, ml, mu, ej]
        obtain ⟨h1, h2, h3⟩ := fin u v (parSplit_first hr ht eX hv') (atBound_ub mu ej (e0 u)) (atBound_lb kl ek (e0 v))
        exact ⟨u, v, v, h1, h2, h3, hu0, ek, e0 v⟩
  · refine ⟨ezj, ?_, fun h => absurd h (by rw [heq]; exact lt_irrefl _), fun h => absurd h (by rw [heq]; exact lt_irrefl _)⟩
    show upd σ.z k _ k = _
    rw [upd_same, hz, heq, D.smul_fin, mul_zero, ite_self]
  · have hmin := hpos hgt
    obtain ⟨jl, ej⟩ := hu.at_lb (fun w hw => by have := hmin w v hw hv; linarith)
    suffices σ'.x j = .fin u ∧ σ'.x k = .fin v ∧ σ'.z k = .fin (r * zj) ∧ (if 0 < r then lbk else ubk) = .fin v by
      obtain ⟨h1, h2, h3, h4⟩ := this
      exact ⟨ezj, h3, fun _ => ⟨u, v, h1, h2, ej, h4⟩, fun h => absurd h (not_lt.mpr hgt.le)⟩
    by_cases hp : 0 < r
    · obtain ⟨kl, ek⟩ := hv.at_lb (fun w hw => by
        have := hmin u w hu hw
        by_contra hc; nlinarith)
      have ml : (mergeTag r tj tk).lbInf = false := by rw [m1]; simp [scaledTag, hp, jl, kl]
      rw [if_pos hp]
      have ht : parTry (mergeTag r tj tk) lbj ubj = .fin u := by simp [parTry, ml, ej]
      obtain ⟨h1, h2, h3⟩ := fin u v (parSplit_first hr ht eX hv') (atBound_lb ml ej (e0 u)) (atBound_lb kl ek (e0 v))
      exact ⟨h1, h2, h3, ek⟩
    · have hn : r < 0 := lt_of_le_of_ne (not_lt.mp hp) hr
      obtain ⟨ku, ek⟩ := hv.at_ub (fun w hw => by
        have := hmin u w hu hw
        by_contra hc; nlinarith)
      have ml : (mergeTag r tj tk).lbInf = false := by rw [m1]; simp [scaledTag, hp, jl, ku]
      rw [if_neg hp]
      have ht : parTry (mergeTag r tj tk) lbj ubj = .fin u := by simp [parTry, ml, ej]
      obtain ⟨h1, h2, h3⟩ := fin u v (parSplit_first hr ht eX hv') (atBound_lb ml ej (e0 u)) (atBound_ub ku ek (e0 v))
      exact ⟨h1, h2, h3, ek⟩

/-! ### Example -/

/-- `x0 ≤ 3` without lower bound, `-1 ≤ x1 ≤ 1`, ratio `-2`: the merged column has the upper bound `5`, where its
reduced cost `-4` is complementary.  Postsolve gives `x = (3, -1)` and `z = (-4, 8)`. -/
def exParSol : Sol where
  x := ofList [.fin 5] .pinf
  y := fun _ => .pinf
  z := ofList [.fin (-4)] .pinf

example : let σ' := retRec exParSol (.parallelCol 0 1 (mergeTag (-2) { lbInf := true } {}) { subst := true }
      .ninf (.fin 3) (.fin (-1)) (.fin 1) (-2))
    σ'.z 0 = .fin (-4) ∧ σ'.z 1 = .fin ((-2) * (-4)) := by
  have := C34_dual exParSol 0 1 (by decide) (-2) 5 (-4) (by norm_num) { lbInf := true } {} .ninf (.fin 3) (.fin (-1))
    (.fin 1) ⟨fun h => absurd h (by decide), fun _ => ⟨3, rfl⟩⟩ rfl rfl
    ⟨3, -1, ⟨.inl rfl, .inr ⟨3, rfl, le_refl _⟩⟩, ⟨.inr ⟨-1, rfl, le_refl _⟩, .inr ⟨1, rfl, by norm_num⟩⟩, by norm_num⟩
    (fun h => absurd h (by norm_num))
    (by
      rintro - u v ⟨-, hu⟩ ⟨hv, -⟩
      have h1 : u ≤ 3 := by rcases hu with h | ⟨a, e, h⟩
                            · cases h
                            · injection e with e; rw [e]; exact h
      have h2 : -1 ≤ v := by rcases hv with h | ⟨a, e, h⟩
                             · cases h
                             · injection e with e; rw [e]; exact h
      linarith)
  exact ⟨this.1, this.2.1⟩

end Verif
