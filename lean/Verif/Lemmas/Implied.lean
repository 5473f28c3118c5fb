import Verif.Props.C24_Propagation

/-! # Implied bounds of a variable in a row (`implied_free_from_above_by_row` and its mirror) -/

namespace Verif

/-- The other columns of the row are within their bounds at `x`. -/
def OthersIn (ctag : ℕ → CTag) (lb ub : ℕ → D) (cells : List Cell) (k : ℕ) (x : ℕ → ℚ) : Prop :=
  ∀ p ∈ cells, p.1 ≠ k → InCol ctag lb ub x p.1

theorem others_min {ctag : ℕ → CTag} {lb ub : ℕ → D} {l1 l2 : List Cell} {k : ℕ} {q : ℚ}
    {x : ℕ → ℚ} (h1 : NoCol k l1) (h2 : NoCol k l2)
    (hx : OthersIn ctag lb ub (l1 ++ (k, q) :: l2) k x)
    (hu : ∀ p ∈ l1 ++ l2, unbMin ctag p = false) :
    ((l1 ++ l2).map (minTerm lb ub)).sum + q * x k ≤ dot (l1 ++ (k, q) :: l2) x := by
  have h := sum_minTerm_le (ctag := ctag) (lb := lb) (ub := ub) (x := x) (cells := l1 ++ l2)
    (fun p hp => hx p (by simp at hp ⊢; tauto)
      (by rcases List.mem_append.mp hp with h | h; exacts [h1 p h, h2 p h])) hu
  simp only [dot_append, dot_cons] at h ⊢
  linarith

theorem others_max {ctag : ℕ → CTag} {lb ub : ℕ → D} {l1 l2 : List Cell} {k : ℕ} {q : ℚ}
    {x : ℕ → ℚ} (h1 : NoCol k l1) (h2 : NoCol k l2)
    (hx : OthersIn ctag lb ub (l1 ++ (k, q) :: l2) k x)
    (hu : ∀ p ∈ l1 ++ l2, unbMax ctag p = false) :
    dot (l1 ++ (k, q) :: l2) x ≤ ((l1 ++ l2).map (maxTerm lb ub)).sum + q * x k := by
  have h := le_sum_maxTerm (ctag := ctag) (lb := lb) (ub := ub) (x := x) (cells := l1 ++ l2)
    (fun p hp => hx p (by simp at hp ⊢; tauto)
      (by rcases List.mem_append.mp hp with h | h; exacts [h1 p h, h2 p h])) hu
  simp only [dot_append, dot_cons] at h ⊢
  linarith

theorem minActTags_one {ctag : ℕ → CTag} {lb ub : ℕ → D} {l1 l2 : List Cell} {c : Cell}
    (hok : ColsOK ctag lb ub (l1 ++ c :: l2)) (hc : unbMin ctag c = true)
    (hu : ∀ p ∈ l1 ++ l2, unbMin ctag p = false) :
    minActTags ctag lb ub (l1 ++ c :: l2) = .fin (((l1 ++ l2).map (minTerm lb ub)).sum) := by
  rw [minActTags_eq hok]
  congr 1
  have e : ∀ l : List Cell, (∀ p ∈ l, unbMin ctag p = false) →
      l.map (fun p => if unbMin ctag p = true then 0 else minTerm lb ub p) = l.map (minTerm lb ub) := by
    intro l hl
    exact List.map_congr_left (fun p hp => by rw [hl p hp]; simp)
  simp only [List.map_append, List.map_cons, List.sum_append, List.sum_cons, hc, if_true, zero_add]
  rw [e l1 (fun p hp => hu p (by simp [hp])), e l2 (fun p hp => hu p (by simp [hp]))]

theorem maxActTags_one {ctag : ℕ → CTag} {lb ub : ℕ → D} {l1 l2 : List Cell} {c : Cell}
    (hok : ColsOK ctag lb ub (l1 ++ c :: l2)) (hc : unbMax ctag c = true)
    (hu : ∀ p ∈ l1 ++ l2, unbMax ctag p = false) :
    maxActTags ctag lb ub (l1 ++ c :: l2) = .fin (((l1 ++ l2).map (maxTerm lb ub)).sum) := by
  rw [maxActTags_eq hok]
  congr 1
  have e : ∀ l : List Cell, (∀ p ∈ l, unbMax ctag p = false) →
      l.map (fun p => if unbMax ctag p = true then 0 else maxTerm lb ub p) = l.map (maxTerm lb ub) := by
    intro l hl
    exact List.map_congr_left (fun p hp => by rw [hl p hp]; simp)
  simp only [List.map_append, List.map_cons, List.sum_append, List.sum_cons, hc, if_true, zero_add]
  rw [e l1 (fun p hp => hu p (by simp [hp])), e l2 (fun p hp => hu p (by simp [hp]))]

theorem countP_split_zero {f : Cell → Bool} {l1 l2 : List Cell} {c : Cell}
    (h : ((l1 ++ c :: l2).countP f : ℤ) = 0) : f c = false ∧ ∀ p ∈ l1 ++ l2, f p = false := by
  have := countP_zero_all h
  exact ⟨this c (by simp), fun p hp => this p (by simp at hp ⊢; tauto)⟩

/-- The implied upper bound holds at every point at which the row holds and the other columns are
within their bounds. -/
theorem impliedUb_sound {q : ℚ} {cells : List Cell} {lhs rhs : D} {rt : RTag} {k : ℕ} {a : Act}
    {ctag : ℕ → CTag} {lb ub : ℕ → D} (hnd : (cells.map Prod.fst).Nodup) (hk : (k, q) ∈ cells)
    (hok : ColsOK ctag lb ub cells) (ha : Recomputed a ctag lb ub cells) {x : ℕ → ℚ}
    (hx : OthersIn ctag lb ub cells k x) (hrow : Sides rt lhs rhs (dot cells x)) {b : D}
    (h : impliedUb q cells lhs rhs rt (lb k) (ctag k) a ctag lb ub = b) (hb : b ≠ .pinf) :
    ∃ u, b = .fin u ∧ x k ≤ u := by
  obtain ⟨l1, l2, rfl, h1, h2⟩ := split_col hnd hk
  have haok := (recomputed_iff hok).mp ha
  have hkok := hok (k, q) hk
  unfold impliedUb at h
  by_cases hA : 0 < q ∧ rt.rhsInf = false
  · rw [if_pos hA] at h
    obtain ⟨hq, hri⟩ := hA
    have hq0 : q ≠ 0 := ne_of_gt hq
    have hr := hrow.2
    rcases hr with hr | ⟨r, er, hr⟩
    · rw [hri] at hr; simp at hr
    rw [er] at h
    have key : ∀ S : ℚ, (S + q * x k ≤ dot (l1 ++ (k, q) :: l2) x) → x k ≤ (r - S) / q := by
      intro S hS
      rw [le_div_iff₀ hq]; linarith
    by_cases hn : a.nInfMin = 0
    · rw [if_pos hn] at h
      have hz := haok.nmin.symm.trans hn
      obtain ⟨hc, hu⟩ := countP_split_zero hz
      have hlb : (ctag k).lbInf = false := by
        unfold unbMin at hc; simpa [hq] using hc
      obtain ⟨l, el⟩ := hkok.1 hlb
      simp only at el
      rw [haok.min hn, el, D.sub_fin, D.divq_fin hq0, D.add_fin] at h
      have hS := key _ (others_min h1 h2 hx hu)
      refine ⟨_, h.symm, ?_⟩
      have e : l + (r - ((l1 ++ (k, q) :: l2).map (minTerm lb ub)).sum) / q =
          (r - ((l1 ++ l2).map (minTerm lb ub)).sum) / q := by
        have : ((l1 ++ (k, q) :: l2).map (minTerm lb ub)).sum =
            ((l1 ++ l2).map (minTerm lb ub)).sum + q * l := by
          simp only [List.map_append, List.map_cons, List.sum_append, List.sum_cons, minTerm, hq,
            if_true, el, D.toQ]
          ring
        rw [this]; field_simp; ring
      rw [e]; exact hS
    · rw [if_neg hn] at h
      by_cases hn1 : a.nInfMin = 1 ∧ (ctag k).lbInf = true
      · rw [if_pos hn1] at h
        have hc : unbMin ctag (k, q) = true := by unfold unbMin; simpa [hq] using hn1.2
        have hu := others_bounded (haok.nmin.symm.trans hn1.1) hc
        rw [minActTags_one hok hc hu, D.sub_fin, D.divq_fin hq0] at h
        exact ⟨_, h.symm, key _ (others_min h1 h2 hx hu)⟩
      · rw [if_neg hn1] at h; exact absurd h.symm hb
  · rw [if_neg hA] at h
    by_cases hB : q < 0 ∧ rt.lhsInf = false
    · rw [if_pos hB] at h
      obtain ⟨hq, hri⟩ := hB
      have hq0 : q ≠ 0 := ne_of_lt hq
      have hnp : ¬ 0 < q := not_lt.mpr hq.le
      have hr := hrow.1
      rcases hr with hr | ⟨r, er, hr⟩
      · rw [hri] at hr; simp at hr
      rw [er] at h
      have key : ∀ S : ℚ, (dot (l1 ++ (k, q) :: l2) x ≤ S + q * x k) → x k ≤ (r - S) / q := by
        intro S hS
        rw [le_div_iff_of_neg hq]; linarith
      by_cases hn : a.nInfMax = 0
      · rw [if_pos hn] at h
        have hz := haok.nmax.symm.trans hn
        obtain ⟨hc, hu⟩ := countP_split_zero hz
        have hlb : (ctag k).lbInf = false := by
          unfold unbMax at hc; simpa [hnp] using hc
        obtain ⟨l, el⟩ := hkok.1 hlb
        simp only at el
        rw [haok.max hn, el, D.sub_fin, D.divq_fin hq0, D.add_fin] at h
        have hS := key _ (others_max h1 h2 hx hu)
        refine ⟨_, h.symm, ?_⟩
        have e : l + (r - ((l1 ++ (k, q) :: l2).map (maxTerm lb ub)).sum) / q =
            (r - ((l1 ++ l2).map (maxTerm lb ub)).sum) / q := by
          have : ((l1 ++ (k, q) :: l2).map (maxTerm lb ub)).sum =
              ((l1 ++ l2).map (maxTerm lb ub)).sum + q * l := by
            simp only [List.map_append, List.map_cons, List.sum_append, List.sum_cons, maxTerm, hnp,
              if_false, el, D.toQ]
            ring
          rw [this]; field_simp; ring
        rw [e]; exact hS
      · rw [if_neg hn] at h
        by_cases hn1 : a.nInfMax = 1 ∧ (ctag k).lbInf = true
        · rw [if_pos hn1] at h
          have hc : unbMax ctag (k, q) = true := by unfold unbMax; simpa [hnp] using hn1.2
          have hu := others_bounded (haok.nmax.symm.trans hn1.1) hc
          rw [maxActTags_one hok hc hu, D.sub_fin, D.divq_fin hq0] at h
          exact ⟨_, h.symm, key _ (others_max h1 h2 hx hu)⟩
        · rw [if_neg hn1] at h; exact absurd h.symm hb
    · rw [if_neg hB] at h; exact absurd h.symm hb

/-- The implied lower bound holds at every point at which the row holds and the other columns are
within their bounds. -/
theorem impliedLb_sound {q : ℚ} {cells : List Cell} {lhs rhs : D} {rt : RTag} {k : ℕ} {a : Act}
    {ctag : ℕ → CTag} {lb ub : ℕ → D} (hnd : (cells.map Prod.fst).Nodup) (hk : (k, q) ∈ cells)
    (hok : ColsOK ctag lb ub cells) (ha : Recomputed a ctag lb ub cells) {x : ℕ → ℚ}
    (hx : OthersIn ctag lb ub cells k x) (hrow : Sides rt lhs rhs (dot cells x)) {b : D}
    (h : impliedLb q cells lhs rhs rt (ub k) (ctag k) a ctag lb ub = b) (hb : b ≠ .ninf) :
    ∃ u, b = .fin u ∧ u ≤ x k := by
  obtain ⟨l1, l2, rfl, h1, h2⟩ := split_col hnd hk
  have haok := (recomputed_iff hok).mp ha
  have hkok := hok (k, q) hk
  unfold impliedLb at h
  by_cases hA : 0 < q ∧ rt.lhsInf = false
  · rw [if_pos hA] at h
    obtain ⟨hq, hri⟩ := hA
    have hq0 : q ≠ 0 := ne_of_gt hq
    have hr := hrow.1
    rcases hr with hr | ⟨r, er, hr⟩
    · rw [hri] at hr; simp at hr
    rw [er] at h
    have key : ∀ S : ℚ, (dot (l1 ++ (k, q) :: l2) x ≤ S + q * x k) → (r - S) / q ≤ x k := by
      intro S hS
      rw [div_le_iff₀ hq]; linarith
    by_cases hn : a.nInfMax = 0
    · rw [if_pos hn] at h
      have hz := haok.nmax.symm.trans hn
      obtain ⟨hc, hu⟩ := countP_split_zero hz
      have hlb : (ctag k).ubInf = false := by
        unfold unbMax at hc; simpa [hq] using hc
      obtain ⟨l, el⟩ := hkok.2 hlb
      simp only at el
      rw [haok.max hn, el, D.sub_fin, D.divq_fin hq0, D.add_fin] at h
      have hS := key _ (others_max h1 h2 hx hu)
      refine ⟨_, h.symm, ?_⟩
      have e : l + (r - ((l1 ++ (k, q) :: l2).map (maxTerm lb ub)).sum) / q =
          (r - ((l1 ++ l2).map (maxTerm lb ub)).sum) / q := by
        have : ((l1 ++ (k, q) :: l2).map (maxTerm lb ub)).sum =
            ((l1 ++ l2).map (maxTerm lb ub)).sum + q * l := by
          simp only [List.map_append, List.map_cons, List.sum_append, List.sum_cons, maxTerm, hq,
            if_true, el, D.toQ]
          ring
        rw [this]; field_simp; ring
      rw [e]; exact hS
    · rw [if_neg hn] at h
      by_cases hn1 : a.nInfMax = 1 ∧ (ctag k).ubInf = true
      · rw [if_pos hn1] at h
        have hc : unbMax ctag (k, q) = true := by unfold unbMax; simpa [hq] using hn1.2
        have hu := others_bounded (haok.nmax.symm.trans hn1.1) hc
        rw [maxActTags_one hok hc hu, D.sub_fin, D.divq_fin hq0] at h
        exact ⟨_, h.symm, key _ (others_max h1 h2 hx hu)⟩
      · rw [if_neg hn1] at h; exact absurd h.symm hb
  · rw [if_neg hA] at h
    by_cases hB : q < 0 ∧ rt.rhsInf = false
    · rw [if_pos hB] at h
      obtain ⟨hq, hri⟩ := hB
      have hq0 : q ≠ 0 := ne_of_lt hq
      have hnp : ¬ 0 < q := not_lt.mpr hq.le
      have hr := hrow.2
      rcases hr with hr | ⟨r, er, hr⟩
      · rw [hri] at hr; simp at hr
      rw [er] at h
      have key : ∀ S : ℚ, (S + q * x k ≤ dot (l1 ++ (k, q) :: l2) x) → (r - S) / q ≤ x k := by
        intro S hS
        rw [div_le_iff_of_neg hq]; linarith
      by_cases hn : a.nInfMin = 0
      · rw [if_pos hn] at h
        have hz := haok.nmin.symm.trans hn
        obtain ⟨hc, hu⟩ := countP_split_zero hz
        have hlb : (ctag k).ubInf = false := by
          unfold unbMin at hc; simpa [hnp] using hc
        obtain ⟨l, el⟩ := hkok.2 hlb
        simp only at el
        rw [haok.min hn, el, D.sub_fin, D.divq_fin hq0, D.add_fin] at h
        have hS := key _ (others_min h1 h2 hx hu)
        refine ⟨_, h.symm, ?_⟩
        have e : l + (r - ((l1 ++ (k, q) :: l2).map (minTerm lb ub)).sum) / q =
            (r - ((l1 ++ l2).map (minTerm lb ub)).sum) / q := by
          have : ((l1 ++ (k, q) :: l2).map (minTerm lb ub)).sum =
              ((l1 ++ l2).map (minTerm lb ub)).sum + q * l := by
            simp only [List.map_append, List.map_cons, List.sum_append, List.sum_cons, minTerm, hnp,
              if_false, el, D.toQ]
            ring
          rw [this]; field_simp; ring
        rw [e]; exact hS
      · rw [if_neg hn] at h
        by_cases hn1 : a.nInfMin = 1 ∧ (ctag k).ubInf = true
        · rw [if_pos hn1] at h
          have hc : unbMin ctag (k, q) = true := by unfold unbMin; simpa [hnp] using hn1.2
          have hu := others_bounded (haok.nmin.symm.trans hn1.1) hc
          rw [minActTags_one hok hc hu, D.sub_fin, D.divq_fin hq0] at h
          exact ⟨_, h.symm, key _ (others_min h1 h2 hx hu)⟩
        · rw [if_neg hn1] at h; exact absurd h.symm hb
    · rw [if_neg hB] at h; exact absurd h.symm hb

/-- A column that is implied free from above by the row: the row and the other bounds keep it
below its upper bound. -/
theorem impliedFreeAbove_sound {q : ℚ} {cells : List Cell} {lhs rhs : D} {rt : RTag} {k : ℕ}
    {a : Act} {ctag : ℕ → CTag} {lb ub : ℕ → D} (hnd : (cells.map Prod.fst).Nodup)
    (hk : (k, q) ∈ cells) (hok : ColsOK ctag lb ub cells) (ha : Recomputed a ctag lb ub cells)
    {x : ℕ → ℚ} (hx : OthersIn ctag lb ub cells k x) (hrow : Sides rt lhs rhs (dot cells x))
    (h : impliedFreeAbove q cells lhs rhs rt (lb k) (ub k) (ctag k) a ctag lb ub = true) :
    Hi (ctag k).ubInf (ub k) (x k) := by
  unfold impliedFreeAbove at h
  cases hi : (ctag k).ubInf with
  | true => simp
  | false =>
    obtain ⟨u, eu⟩ := (hok (k, q) hk).2 hi
    simp only at eu
    rw [hi, eu] at h
    simp only [Bool.false_eq_true, if_false] at h
    have hb : impliedUb q cells lhs rhs rt (lb k) (ctag k) a ctag lb ub ≠ .pinf := by
      intro e; rw [e] at h; simp [D.sub, D.neg, D.add, D.le] at h
    obtain ⟨w, ew, hw⟩ := impliedUb_sound hnd hk hok ha hx hrow rfl hb
    rw [ew, D.sub_fin, D.le_fin, decide_eq_true_eq] at h
    rw [eu, Hi_fin]; linarith

/-- A column that is implied free from below by the row. -/
theorem impliedFreeBelow_sound {q : ℚ} {cells : List Cell} {lhs rhs : D} {rt : RTag} {k : ℕ}
    {a : Act} {ctag : ℕ → CTag} {lb ub : ℕ → D} (hnd : (cells.map Prod.fst).Nodup)
    (hk : (k, q) ∈ cells) (hok : ColsOK ctag lb ub cells) (ha : Recomputed a ctag lb ub cells)
    {x : ℕ → ℚ} (hx : OthersIn ctag lb ub cells k x) (hrow : Sides rt lhs rhs (dot cells x))
    (h : impliedFreeBelow q cells lhs rhs rt (lb k) (ub k) (ctag k) a ctag lb ub = true) :
    Lo (ctag k).lbInf (lb k) (x k) := by
  unfold impliedFreeBelow at h
  cases hi : (ctag k).lbInf with
  | true => simp
  | false =>
    obtain ⟨u, eu⟩ := (hok (k, q) hk).1 hi
    simp only at eu
    rw [hi, eu] at h
    simp only [Bool.false_eq_true, if_false] at h
    have hb : impliedLb q cells lhs rhs rt (ub k) (ctag k) a ctag lb ub ≠ .ninf := by
      intro e; rw [e] at h; simp [D.sub, D.neg, D.add, D.le] at h
    obtain ⟨w, ew, hw⟩ := impliedLb_sound hnd hk hok ha hx hrow rfl hb
    rw [ew, D.sub_fin, D.le_fin, decide_eq_true_eq] at h
    rw [eu, Lo_fin]; linarith

end Verif
