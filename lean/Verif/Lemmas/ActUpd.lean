import Verif.Model.Ston
import Verif.Model.PrimProp
import Verif.Lemmas.Act

/-! # Incremental activity updates: helper lemmas -/

namespace Verif

/-- The stored activity agrees with one computed from scratch: same numbers of infinite
contributions, same extreme values where they are finite.  (The extreme value is meaningless
while there are infinite contributions.) -/
def Recomputed (a : Act) (ctag : ℕ → CTag) (lb ub : ℕ → D) (cells : List Cell) : Prop :=
  a.nInfMin = (actInit ctag lb ub cells).nInfMin ∧ a.nInfMax = (actInit ctag lb ub cells).nInfMax ∧
  (a.nInfMin = 0 → a.min = (actInit ctag lb ub cells).min) ∧
  (a.nInfMax = 0 → a.max = (actInit ctag lb ub cells).max)

/-- The same in terms of sums. -/
structure ActOK (a : Act) (ctag : ℕ → CTag) (lb ub : ℕ → D) (cells : List Cell) : Prop where
  nmin : a.nInfMin = (cells.countP (unbMin ctag) : ℤ)
  nmax : a.nInfMax = (cells.countP (unbMax ctag) : ℤ)
  min : a.nInfMin = 0 → a.min = .fin ((cells.map (minTerm lb ub)).sum)
  max : a.nInfMax = 0 → a.max = .fin ((cells.map (maxTerm lb ub)).sum)

theorem countP_zero_all {f : Cell → Bool} {cells : List Cell}
    (h : (cells.countP f : ℤ) = 0) : ∀ p ∈ cells, f p = false := by
  have := List.countP_eq_zero.mp (by exact_mod_cast h)
  intro p hp; simpa using this p hp

theorem recomputed_iff {a : Act} {ctag : ℕ → CTag} {lb ub : ℕ → D} {cells : List Cell}
    (hok : ColsOK ctag lb ub cells) :
    Recomputed a ctag lb ub cells ↔ ActOK a ctag lb ub cells := by
  have e1 : (actInit ctag lb ub cells).nInfMin = (cells.countP (unbMin ctag) : ℤ) :=
    countInfMin_eq _ _
  have e2 : (actInit ctag lb ub cells).nInfMax = (cells.countP (unbMax ctag) : ℤ) :=
    countInfMax_eq _ _
  have e3 : (cells.countP (unbMin ctag) : ℤ) = 0 →
      (actInit ctag lb ub cells).min = .fin ((cells.map (minTerm lb ub)).sum) := by
    intro h
    have h' : countInfMin ctag cells = 0 := by rw [countInfMin_eq]; exact h
    simp only [actInit, h', if_true]
    exact minActNoTags_eq hok (countP_zero_all h)
  have e4 : (cells.countP (unbMax ctag) : ℤ) = 0 →
      (actInit ctag lb ub cells).max = .fin ((cells.map (maxTerm lb ub)).sum) := by
    intro h
    have h' : countInfMax ctag cells = 0 := by rw [countInfMax_eq]; exact h
    simp only [actInit, h', if_true]
    exact maxActNoTags_eq hok (countP_zero_all h)
  constructor
  · rintro ⟨h1, h2, h3, h4⟩
    exact ⟨h1.trans e1, h2.trans e2, fun h => (h3 h).trans (e3 ((h1.trans e1).symm.trans h)),
      fun h => (h4 h).trans (e4 ((h2.trans e2).symm.trans h))⟩
  · rintro ⟨h1, h2, h3, h4⟩
    exact ⟨h1.trans e1.symm, h2.trans e2.symm, fun h => (h3 h).trans (e3 (h1.symm.trans h)).symm,
      fun h => (h4 h).trans (e4 (h2.symm.trans h)).symm⟩

/-- A list of cells that does not mention column `k`. -/
def NoCol (k : ℕ) (l : List Cell) : Prop := ∀ p ∈ l, p.1 ≠ k

theorem split_col {cells : List Cell} (hnd : (cells.map Prod.fst).Nodup) {k : ℕ} {q : ℚ}
    (h : (k, q) ∈ cells) : ∃ l1 l2, cells = l1 ++ (k, q) :: l2 ∧ NoCol k l1 ∧ NoCol k l2 := by
  obtain ⟨l1, l2, rfl⟩ := List.append_of_mem h
  refine ⟨l1, l2, rfl, ?_, ?_⟩
  · intro p hp e
    simp only [List.map_append, List.map_cons, List.nodup_append, List.mem_map, List.mem_cons] at hnd
    exact hnd.2.2 p.1 ⟨p, hp, rfl⟩ k (Or.inl rfl) e
  · intro p hp e
    simp only [List.map_append, List.map_cons, List.nodup_append, List.nodup_cons, List.mem_map] at hnd
    exact hnd.2.1.1 ⟨p, hp, e⟩

section congr
variable {k : ℕ} {l : List Cell}

theorem countP_unbMin_congr {t t' : ℕ → CTag} (h : NoCol k l)
    (he : ∀ j, j ≠ k → t j = t' j) : l.countP (unbMin t) = l.countP (unbMin t') :=
  List.countP_congr (fun p hp => by unfold unbMin; rw [he p.1 (h p hp)])
theorem countP_unbMax_congr {t t' : ℕ → CTag} (h : NoCol k l)
    (he : ∀ j, j ≠ k → t j = t' j) : l.countP (unbMax t) = l.countP (unbMax t') :=
  List.countP_congr (fun p hp => by unfold unbMax; rw [he p.1 (h p hp)])
theorem sum_minTerm_congr {lb ub lb' ub' : ℕ → D} (h : NoCol k l)
    (h1 : ∀ j, j ≠ k → lb j = lb' j) (h2 : ∀ j, j ≠ k → ub j = ub' j) :
    (l.map (minTerm lb ub)).sum = (l.map (minTerm lb' ub')).sum := by
  congr 1; apply List.map_congr_left; intro p hp
  unfold minTerm; rw [h1 p.1 (h p hp), h2 p.1 (h p hp)]
theorem sum_maxTerm_congr {lb ub lb' ub' : ℕ → D} (h : NoCol k l)
    (h1 : ∀ j, j ≠ k → lb j = lb' j) (h2 : ∀ j, j ≠ k → ub j = ub' j) :
    (l.map (maxTerm lb ub)).sum = (l.map (maxTerm lb' ub')).sum := by
  congr 1; apply List.map_congr_left; intro p hp
  unfold maxTerm; rw [h1 p.1 (h p hp), h2 p.1 (h p hp)]

end congr

/-- Data of a column change seen from one row. -/
structure ColChange (k : ℕ) (ctag ctag' : ℕ → CTag) (lb lb' ub ub' : ℕ → D) : Prop where
  tag : ∀ j, j ≠ k → ctag j = ctag' j
  lb : ∀ j, j ≠ k → lb j = lb' j
  ub : ∀ j, j ≠ k → ub j = ub' j

/-- Block of `update_act_bound_change` that handles the minimum. -/
theorem bumpMin_ok {k : ℕ} {q : ℚ} {l1 l2 : List Cell} {ctag ctag' : ℕ → CTag}
    {lb lb' ub ub' : ℕ → D} (h1 : NoCol k l1) (h2 : NoCol k l2)
    (hc : ColChange k ctag ctag' lb lb' ub ub')
    (hok' : ColsOK ctag' lb' ub' (l1 ++ (k, q) :: l2))
    {a : Act} {oldB newB : D}
    (hmin : a.nInfMin = ((l1 ++ (k, q) :: l2).countP (unbMin ctag) : ℤ))
    (hminv : a.nInfMin = 0 → a.min = .fin (((l1 ++ (k, q) :: l2).map (minTerm lb ub)).sum))
    {finite : Bool} (hfin : finite = !unbMin ctag (k, q)) (hnew : unbMin ctag' (k, q) = false)
    (hold : finite = true → ∃ o, oldB = .fin o ∧ minTerm lb ub (k, q) = q * o)
    (hnewB : ∃ b, newB = .fin b ∧ minTerm lb' ub' (k, q) = q * b) :
    let r := bumpMin a q oldB newB finite lb' ub' (l1 ++ (k, q) :: l2)
    r.nInfMin = ((l1 ++ (k, q) :: l2).countP (unbMin ctag') : ℤ) ∧
    (r.nInfMin = 0 → r.min = .fin (((l1 ++ (k, q) :: l2).map (minTerm lb' ub')).sum)) ∧
    r.nInfMax = a.nInfMax ∧ r.max = a.max ∧ r.status = a.status := by
  have c1 := countP_unbMin_congr h1 hc.tag
  have c2 := countP_unbMin_congr h2 hc.tag
  have s1 := sum_minTerm_congr h1 hc.lb hc.ub
  have s2 := sum_minTerm_congr h2 hc.lb hc.ub
  obtain ⟨b, rfl, hb⟩ := hnewB
  have hcnt : ∀ t : ℕ → CTag, (l1 ++ (k, q) :: l2).countP (unbMin t) =
      l1.countP (unbMin t) + l2.countP (unbMin t) + (if unbMin t (k, q) then 1 else 0) := by
    intro t; rw [List.countP_append, List.countP_cons]; omega
  rw [hcnt] at hmin
  have hn' : ((l1 ++ (k, q) :: l2).countP (unbMin ctag') : ℤ) =
      l1.countP (unbMin ctag') + l2.countP (unbMin ctag') := by
    rw [hcnt, hnew]; push_cast; simp
  intro r
  have hr : r = bumpMin a q oldB (.fin b) finite lb' ub' (l1 ++ (k, q) :: l2) := rfl
  clear_value r
  unfold bumpMin at hr
  by_cases hz : a.nInfMin = 0
  · rw [if_pos hz] at hr
    have hunb : unbMin ctag (k, q) = false := by
      cases hu : unbMin ctag (k, q)
      · rfl
      · rw [hu] at hmin; simp only [if_true] at hmin; omega
    obtain ⟨o, rfl, ho⟩ := hold (by rw [hfin, hunb]; rfl)
    rw [hunb] at hmin
    simp only [Bool.false_eq_true, if_false] at hmin
    subst hr
    refine ⟨?_, ?_, rfl, rfl, rfl⟩
    · rw [hn', ← c1, ← c2]; simp only; rw [hmin]; push_cast; ring
    · intro _
      simp only [hminv hz, D.sub_fin, D.smul_fin, D.add_fin, List.map_append, List.map_cons,
        List.sum_append, List.sum_cons, s1, s2, ho, hb]
      congr 1; ring
  · rw [if_neg hz] at hr
    by_cases hf : finite = true
    · have hunb : unbMin ctag (k, q) = false := by
        rw [hfin] at hf; simpa using hf
      rw [hf] at hr; simp only [Bool.not_true, Bool.false_eq_true, if_false] at hr
      subst hr
      rw [hunb] at hmin
      simp only [Bool.false_eq_true, if_false] at hmin
      refine ⟨?_, fun h => absurd h hz, rfl, rfl, rfl⟩
      rw [hn', ← c1, ← c2, hmin]; push_cast; ring
    · have hf : finite = false := by simpa using hf
      have hunb : unbMin ctag (k, q) = true := by
        rw [hfin] at hf; simpa using hf
      rw [hunb] at hmin
      simp only [if_true] at hmin
      rw [hf] at hr; simp only [Bool.not_false, if_true] at hr
      by_cases hk : a.nInfMin - 1 = 0
      · rw [if_pos hk] at hr
        subst hr
        have hzero : ((l1 ++ (k, q) :: l2).countP (unbMin ctag') : ℤ) = 0 := by
          rw [hn', ← c1, ← c2]; push_cast at hmin; omega
        refine ⟨by simp only [hk, hzero], ?_, rfl, rfl, rfl⟩
        intro _
        exact minActNoTags_eq hok' (countP_zero_all hzero)
      · rw [if_neg hk] at hr
        subst hr
        refine ⟨?_, fun h => absurd h hk, rfl, rfl, rfl⟩
        simp only; rw [hn', ← c1, ← c2, hmin]; push_cast; ring

/-- Block of `update_act_bound_change` that handles the maximum. -/
theorem bumpMax_ok {k : ℕ} {q : ℚ} {l1 l2 : List Cell} {ctag ctag' : ℕ → CTag}
    {lb lb' ub ub' : ℕ → D} (h1 : NoCol k l1) (h2 : NoCol k l2)
    (hc : ColChange k ctag ctag' lb lb' ub ub')
    (hok' : ColsOK ctag' lb' ub' (l1 ++ (k, q) :: l2))
    {a : Act} {oldB newB : D}
    (hmax : a.nInfMax = ((l1 ++ (k, q) :: l2).countP (unbMax ctag) : ℤ))
    (hmaxv : a.nInfMax = 0 → a.max = .fin (((l1 ++ (k, q) :: l2).map (maxTerm lb ub)).sum))
    {finite : Bool} (hfin : finite = !unbMax ctag (k, q)) (hnew : unbMax ctag' (k, q) = false)
    (hold : finite = true → ∃ o, oldB = .fin o ∧ maxTerm lb ub (k, q) = q * o)
    (hnewB : ∃ b, newB = .fin b ∧ maxTerm lb' ub' (k, q) = q * b) :
    let r := bumpMax a q oldB newB finite lb' ub' (l1 ++ (k, q) :: l2)
    r.nInfMax = ((l1 ++ (k, q) :: l2).countP (unbMax ctag') : ℤ) ∧
    (r.nInfMax = 0 → r.max = .fin (((l1 ++ (k, q) :: l2).map (maxTerm lb' ub')).sum)) ∧
    r.nInfMin = a.nInfMin ∧ r.min = a.min ∧ r.status = a.status := by
  have c1 := countP_unbMax_congr h1 hc.tag
  have c2 := countP_unbMax_congr h2 hc.tag
  have s1 := sum_maxTerm_congr h1 hc.lb hc.ub
  have s2 := sum_maxTerm_congr h2 hc.lb hc.ub
  obtain ⟨b, rfl, hb⟩ := hnewB
  have hcnt : ∀ t : ℕ → CTag, (l1 ++ (k, q) :: l2).countP (unbMax t) =
      l1.countP (unbMax t) + l2.countP (unbMax t) + (if unbMax t (k, q) then 1 else 0) := by
    intro t; rw [List.countP_append, List.countP_cons]; omega
  rw [hcnt] at hmax
  have hn' : ((l1 ++ (k, q) :: l2).countP (unbMax ctag') : ℤ) =
      l1.countP (unbMax ctag') + l2.countP (unbMax ctag') := by
    rw [hcnt, hnew]; push_cast; simp
  intro r
  have hr : r = bumpMax a q oldB (.fin b) finite lb' ub' (l1 ++ (k, q) :: l2) := rfl
  clear_value r
  unfold bumpMax at hr
  by_cases hz : a.nInfMax = 0
  · rw [if_pos hz] at hr
    have hunb : unbMax ctag (k, q) = false := by
      cases hu : unbMax ctag (k, q)
      · rfl
      · rw [hu] at hmax; simp only [if_true] at hmax; omega
    obtain ⟨o, rfl, ho⟩ := hold (by rw [hfin, hunb]; rfl)
    rw [hunb] at hmax
    simp only [Bool.false_eq_true, if_false] at hmax
    subst hr
    refine ⟨?_, ?_, rfl, rfl, rfl⟩
    · rw [hn', ← c1, ← c2]; simp only; rw [hmax]; push_cast; ring
    · intro _
      simp only [hmaxv hz, D.sub_fin, D.smul_fin, D.add_fin, List.map_append, List.map_cons,
        List.sum_append, List.sum_cons, s1, s2, ho, hb]
      congr 1; ring
  · rw [if_neg hz] at hr
    by_cases hf : finite = true
    · have hunb : unbMax ctag (k, q) = false := by
        rw [hfin] at hf; simpa using hf
      rw [hf] at hr; simp only [Bool.not_true, Bool.false_eq_true, if_false] at hr
      subst hr
      rw [hunb] at hmax
      simp only [Bool.false_eq_true, if_false] at hmax
      refine ⟨?_, fun h => absurd h hz, rfl, rfl, rfl⟩
      rw [hn', ← c1, ← c2, hmax]; push_cast; ring
    · have hf : finite = false := by simpa using hf
      have hunb : unbMax ctag (k, q) = true := by
        rw [hfin] at hf; simpa using hf
      rw [hunb] at hmax
      simp only [if_true] at hmax
      rw [hf] at hr; simp only [Bool.not_false, if_true] at hr
      by_cases hk : a.nInfMax - 1 = 0
      · rw [if_pos hk] at hr
        subst hr
        have hzero : ((l1 ++ (k, q) :: l2).countP (unbMax ctag') : ℤ) = 0 := by
          rw [hn', ← c1, ← c2]; push_cast at hmax; omega
        refine ⟨by simp only [hk, hzero], ?_, rfl, rfl, rfl⟩
        intro _
        exact maxActNoTags_eq hok' (countP_zero_all hzero)
      · rw [if_neg hk] at hr
        subst hr
        refine ⟨?_, fun h => absurd h hk, rfl, rfl, rfl⟩
        simp only; rw [hn', ← c1, ← c2, hmax]; push_cast; ring

end Verif
