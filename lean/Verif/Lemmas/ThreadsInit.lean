import Verif.Lemmas.ThreadsRun

/-!
# What the second initialization thread computes
-/

namespace Verif

theorem D.eqb_pinf_iff {d : D} : D.eqb d .pinf = true ↔ d = .pinf := by cases d <;> simp [D.eqb]
theorem D.eqb_ninf_iff {d : D} : D.eqb d .ninf = true ↔ d = .ninf := by cases d <;> simp [D.eqb]

theorem loc_ne {a : Arr} {i j : ℤ} (h : i ≠ j) : ((a, i) : Loc) ≠ (a, j) := fun e => h (Prod.mk.inj e).2
theorem arr_ne {a b : Arr} {i j : ℤ} (h : a ≠ b) : ((a, i) : Loc) ≠ (b, j) := fun e => h (Prod.mk.inj e).1

/-- Body of the second loop of `new_rowtags`. -/
def rowTagBody (i : ℤ) : Prog Unit := do
  let r ← rdDbl .rhs i
  if D.eqb r .pinf then
    put .rhs i (.dbl .pinf)
    let t ← rdRt i
    put .rowTags i (.rt { t with rhsInf := true })
  let l ← rdDbl .lhs i
  if D.eqb l .ninf then
    put .lhs i (.dbl .ninf)
    let t ← rdRt i
    put .rowTags i (.rt { t with lhsInf := true })
  else
    let r ← rdDbl .rhs i
    if D.eqb l r then
      let t ← rdRt i
      put .rowTags i (.rt { t with eq := true })

theorem rowTagBody_run {i : ℤ} {μ : Mem} {l r : D} (hl : μ (.lhs, i) = .dbl l) (hr : μ (.rhs, i) = .dbl r)
    (ht : μ (.rowTags, i) = .rt {}) :
    ((rowTagBody i).run μ).2 = μ.set (.rowTags, i) (.rt (rowTagOf l r)) := by
  -- the part after the right side, for a tag `t` found there
  have tail : ∀ (μ : Mem) (t : RTag), μ (.lhs, i) = .dbl l → μ (.rhs, i) = .dbl r → μ (.rowTags, i) = .rt t →
      (Prog.run (do
        let l ← rdDbl .lhs i
        if D.eqb l .ninf then
          put .lhs i (.dbl .ninf)
          let t ← rdRt i
          put .rowTags i (.rt { t with lhsInf := true })
        else
          let r ← rdDbl .rhs i
          if D.eqb l r then
            let t ← rdRt i
            put .rowTags i (.rt { t with eq := true })) μ).2 =
        μ.set (.rowTags, i) (.rt (if D.eqb l .ninf then { t with lhsInf := true } else
          if D.eqb l r then { t with eq := true } else t)) := by
    intro μ t hl hr ht
    rw [run_bind', run_rdDbl hl]
    simp only
    by_cases h1 : D.eqb l .ninf = true
    · rw [if_pos h1, if_pos h1, run_bind', run_put]
      simp only
      rw [set_id (by rw [hl, D.eqb_ninf_iff.mp h1]), run_bind', run_rdRt ht]
      rfl
    · rw [if_neg h1, if_neg h1, run_bind', run_rdDbl hr]
      simp only
      by_cases h2 : D.eqb l r = true
      · rw [if_pos h2, if_pos h2, run_bind', run_rdRt ht]; rfl
      · rw [if_neg h2, if_neg h2, run_pure, set_id ht]
  unfold rowTagBody
  rw [run_bind', run_rdDbl hr]
  simp only
  by_cases h1 : D.eqb r .pinf = true
  · rw [if_pos h1]
    rw [run_bind', run_put]
    simp only
    rw [set_id (by rw [hr, D.eqb_pinf_iff.mp h1]), run_bind', run_rdRt ht]
    simp only
    rw [run_bind', run_put]
    simp only
    rw [tail _ { rhsInf := true } (by rw [set_off _ _ (arr_ne (by decide)), hl])
      (by rw [set_off _ _ (arr_ne (by decide)), hr]) (set_here _ _ _), set_set]
    congr 2
    unfold rowTagOf
    rw [h1]
    by_cases h2 : D.eqb l .ninf = true
    · rw [if_pos h2, h2]; rfl
    · rw [if_neg h2]
      rw [Bool.not_eq_true] at h2
      rw [h2]
      by_cases h3 : D.eqb l r = true
      · rw [if_pos h3, h3]; rfl
      · rw [if_neg h3]; rw [Bool.not_eq_true] at h3; rw [h3]; rfl
  · rw [if_neg h1]
    rw [show (pure PUnit.unit : Prog PUnit) = (pure () : Prog Unit) from rfl]
    first
      | rw [pure_bind, tail μ {} hl hr ht]
      | rw [tail μ {} hl hr ht]
    congr 2
    unfold rowTagOf
    rw [Bool.not_eq_true] at h1
    rw [h1]
    by_cases h2 : D.eqb l .ninf = true
    · rw [if_pos h2, h2]; rfl
    · rw [if_neg h2]
      rw [Bool.not_eq_true] at h2
      rw [h2]
      by_cases h3 : D.eqb l r = true
      · rw [if_pos h3, h3]; rfl
      · rw [if_neg h3]; rw [Bool.not_eq_true] at h3; rw [h3]; rfl

theorem rowTagsP_run {m : ℕ} {lhs rhs : ℕ → D} {μ : Mem} (hl : ∀ i < m, μ (.lhs, i) = .dbl (lhs i))
    (hr : ∀ i < m, μ (.rhs, i) = .dbl (rhs i)) : ∀ i < m,
      ((rowTagsP m).run μ).2 (.lhs, i) = .dbl (lhs i) ∧ ((rowTagsP m).run μ).2 (.rhs, i) = .dbl (rhs i) ∧
      ((rowTagsP m).run μ).2 (.rowTags, i) = .rt (rowTagOf (lhs i) (rhs i)) := by
  unfold rowTagsP
  rw [run_bind']
  have h0 := forFrom_inv (f := fun i => put .rowTags i (.rt {}))
    (I := fun t μ => ∀ i < m, μ (.lhs, (i : ℤ)) = .dbl (lhs i) ∧ μ (.rhs, (i : ℤ)) = .dbl (rhs i) ∧
      (i < t → μ (.rowTags, (i : ℤ)) = .rt {})) m 0 μ (fun i hi => ⟨hl i hi, hr i hi, fun h => by omega⟩)
    (fun t ht μ h i hi => by
      rw [run_put]
      obtain ⟨h1, h2, h3⟩ := h i hi
      simp only
      refine ⟨by rw [set_off _ _ (arr_ne (by decide)), h1], by rw [set_off _ _ (arr_ne (by decide)), h2], fun hlt => ?_⟩
      by_cases e : i = t
      · subst e; rw [zero_add]; exact set_here _ _ _
      · rw [set_off _ _ (loc_ne (by omega)), h3 (by omega)])
  generalize ((forFrom m 0 fun i => put .rowTags i (.rt {})).run μ).2 = μ1 at h0
  have h1 := forFrom_inv (f := rowTagBody)
    (I := fun t μ => ∀ i < m, μ (.lhs, (i : ℤ)) = .dbl (lhs i) ∧ μ (.rhs, (i : ℤ)) = .dbl (rhs i) ∧
      μ (.rowTags, (i : ℤ)) = .rt (if i < t then rowTagOf (lhs i) (rhs i) else {})) m 0 μ1
    (fun i hi => ⟨(h0 i hi).1, (h0 i hi).2.1, by rw [if_neg (by omega)]; exact (h0 i hi).2.2 hi⟩)
    (fun t ht μ h i hi => by
      obtain ⟨h1, h2, h3⟩ := h i hi
      obtain ⟨t1, t2, t3⟩ := h t ht
      rw [if_neg (lt_irrefl t)] at t3
      rw [zero_add, rowTagBody_run t1 t2 t3]
      refine ⟨by rw [set_off _ _ (arr_ne (by decide)), h1], by rw [set_off _ _ (arr_ne (by decide)), h2], ?_⟩
      by_cases e : i = t
      · subst e; rw [if_pos (Nat.lt_succ_self _)]; exact set_here _ _ _
      · rw [set_off _ _ (loc_ne (by omega)), h3]
        congr 1
        by_cases h : i < t
        · rw [if_pos h, if_pos (by omega)]
        · rw [if_neg h, if_neg (by omega)])
  intro i hi
  have := h1 i hi
  rw [if_pos hi] at this
  exact this

/-- Body of the loop over the bounds. -/
def boundBody (i : ℤ) : Prog Unit := do
  let l ← rdDbl .lbs i
  put .bndLb i (.dbl l)
  let u ← rdDbl .ubs i
  put .bndUb i (.dbl u)
  if D.eqb l .ninf then
    let t ← rdCt i
    put .colTags i (.ct { t with lbInf := true })
  if D.eqb u .pinf then
    let t ← rdCt i
    put .colTags i (.ct { t with ubInf := true })

theorem boundBody_run {i : ℤ} {μ : Mem} {l u : D} (hl : μ (.lbs, i) = .dbl l) (hu : μ (.ubs, i) = .dbl u)
    (ht : μ (.colTags, i) = .ct {}) :
    ((boundBody i).run μ).2 = ((μ.set (.bndLb, i) (.dbl l)).set (.bndUb, i) (.dbl u)).set (.colTags, i)
      (.ct (colTagOf l u)) := by
  have tail : ∀ (μ : Mem) (t : CTag), μ (.colTags, i) = .ct t →
      (Prog.run (do
        if D.eqb u .pinf then
          let t ← rdCt i
          put .colTags i (.ct { t with ubInf := true })) μ).2 =
        μ.set (.colTags, i) (.ct (if D.eqb u .pinf then { t with ubInf := true } else t)) := by
    intro μ t ht
    by_cases h2 : D.eqb u .pinf = true
    · rw [if_pos h2, if_pos h2, run_bind', run_rdCt ht]; rfl
    · rw [if_neg h2, if_neg h2, run_pure, set_id ht]
  unfold boundBody
  rw [run_bind', run_rdDbl hl]
  simp only
  rw [run_bind', run_put]
  simp only
  rw [run_bind', run_rdDbl (by rw [set_off _ _ (arr_ne (by decide)), hu])]
  simp only
  rw [run_bind', run_put]
  simp only
  have ht' : (((μ.set (.bndLb, i) (.dbl l)).set (.bndUb, i) (.dbl u))) (.colTags, i) = .ct {} := by
    rw [set_off _ _ (arr_ne (by decide)), set_off _ _ (arr_ne (by decide)), ht]
  generalize (μ.set (.bndLb, i) (.dbl l)).set (.bndUb, i) (.dbl u) = ν at ht' ⊢
  by_cases h1 : D.eqb l .ninf = true
  · rw [if_pos h1]
    rw [run_bind', run_rdCt ht']
    simp only
    rw [run_bind', run_put]
    simp only
    rw [tail _ { lbInf := true } (set_here _ _ _), set_set]
    congr 2
    unfold colTagOf
    rw [h1]
    by_cases h2 : D.eqb u .pinf = true
    · rw [if_pos h2, h2]
    · rw [if_neg h2]; rw [Bool.not_eq_true] at h2; rw [h2]
  · rw [if_neg h1]
    first
      | rw [pure_bind, tail ν {} ht']
      | rw [tail ν {} ht']
    congr 2
    unfold colTagOf
    rw [Bool.not_eq_true] at h1
    rw [h1]
    by_cases h2 : D.eqb u .pinf = true
    · rw [if_pos h2, h2]
    · rw [if_neg h2]; rw [Bool.not_eq_true] at h2; rw [h2]

theorem boundsP_run {n : ℕ} {lb ub : ℕ → D} {μ : Mem} (hl : ∀ i < n, μ (.lbs, i) = .dbl (lb i))
    (hu : ∀ i < n, μ (.ubs, i) = .dbl (ub i)) (ht : ∀ i < n, μ (.colTags, i) = .ct {}) : ∀ i < n,
      ((boundsP n).run μ).2 (.bndLb, i) = .dbl (lb i) ∧ ((boundsP n).run μ).2 (.bndUb, i) = .dbl (ub i) ∧
      ((boundsP n).run μ).2 (.colTags, i) = .ct (colTagOf (lb i) (ub i)) := by
  have h1 := forFrom_inv (f := boundBody)
    (I := fun t μ => ∀ i < n, μ (.lbs, (i : ℤ)) = .dbl (lb i) ∧ μ (.ubs, (i : ℤ)) = .dbl (ub i) ∧
      (i < t → μ (.bndLb, (i : ℤ)) = .dbl (lb i) ∧ μ (.bndUb, (i : ℤ)) = .dbl (ub i)) ∧
      μ (.colTags, (i : ℤ)) = .ct (if i < t then colTagOf (lb i) (ub i) else {})) n 0 μ
    (fun i hi => ⟨hl i hi, hu i hi, fun h => by omega, by rw [if_neg (by omega)]; exact ht i hi⟩)
    (fun t ht μ h i hi => by
      obtain ⟨h1, h2, h3, h4⟩ := h i hi
      obtain ⟨t1, t2, t3, t4⟩ := h t ht
      rw [if_neg (lt_irrefl t)] at t4
      rw [zero_add, boundBody_run t1 t2 t4]
      refine ⟨?_, ?_, fun hlt => ?_, ?_⟩
      · rw [set_off _ _ (arr_ne (by decide)), set_off _ _ (arr_ne (by decide)), set_off _ _ (arr_ne (by decide)), h1]
      · rw [set_off _ _ (arr_ne (by decide)), set_off _ _ (arr_ne (by decide)), set_off _ _ (arr_ne (by decide)), h2]
      · by_cases e : i = t
        · subst e
          exact ⟨by rw [set_off _ _ (arr_ne (by decide)), set_off _ _ (arr_ne (by decide)), set_here],
            by rw [set_off _ _ (arr_ne (by decide)), set_here]⟩
        · obtain ⟨a, b⟩ := h3 (by omega)
          exact ⟨by rw [set_off _ _ (arr_ne (by decide)), set_off _ _ (arr_ne (by decide)),
              set_off _ _ (loc_ne (by omega)), a],
            by rw [set_off _ _ (arr_ne (by decide)), set_off _ _ (loc_ne (by omega)),
              set_off _ _ (arr_ne (by decide)), b]⟩
      · by_cases e : i = t
        · subst e; rw [if_pos (Nat.lt_succ_self _)]; exact set_here _ _ _
        · rw [set_off _ _ (loc_ne (by omega)), set_off _ _ (arr_ne (by decide)), set_off _ _ (arr_ne (by decide)), h4]
          congr 1
          by_cases h : i < t
          · rw [if_pos h, if_pos (by omega)]
          · rw [if_neg h, if_neg (by omega)])
  intro i hi
  have := h1 i hi
  rw [if_pos hi] at this
  exact ⟨(this.2.2.1 hi).1, (this.2.2.1 hi).2, this.2.2.2⟩

theorem countRowsP_run {m : ℕ} {s e out : Arr} {S E : ℕ → ℤ} {μ : Mem} (h1 : out ≠ s) (h2 : out ≠ e)
    (hs : ∀ i < m, μ (s, i) = .int (S i)) (he : ∀ i < m, μ (e, i) = .int (E i)) :
    ∀ i < m, ((countRowsP m s e out).run μ).2 (out, i) = .int (E i - S i) := by
  have h := forFrom_inv (f := fun i => do
      let a ← rdInt s i
      let b ← rdInt e i
      put out i (.int (b - a)))
    (I := fun t μ => ∀ i < m, μ (s, (i : ℤ)) = .int (S i) ∧ μ (e, (i : ℤ)) = .int (E i) ∧
      (i < t → μ (out, (i : ℤ)) = .int (E i - S i))) m 0 μ
    (fun i hi => ⟨hs i hi, he i hi, fun h => by omega⟩)
    (fun t ht μ h i hi => by
      obtain ⟨a1, a2, a3⟩ := h i hi
      obtain ⟨b1, b2, b3⟩ := h t ht
      rw [zero_add, run_bind', run_rdInt b1]
      simp only
      rw [run_bind', run_rdInt b2]
      simp only
      rw [run_put]
      simp only
      refine ⟨by rw [set_off _ _ (arr_ne h1.symm), a1], by rw [set_off _ _ (arr_ne h2.symm), a2], fun hlt => ?_⟩
      by_cases e : i = t
      · subst e; exact set_here _ _ _
      · rw [set_off _ _ (loc_ne (by omega)), a3 (by omega)])
  exact fun i hi => (h i hi).2.2 hi

end Verif
