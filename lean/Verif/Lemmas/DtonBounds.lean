import Verif.Lemmas.DtonLoop

/-! # Bounds transferred by the doubleton elimination -/

namespace Verif

/-- Records whose retrieval does not touch the primal solution. -/
def XNeutral : Rec → Prop
  | .addedRow _ _ _ => True
  | .boundChangeNoRow _ _ _ _ => True
  | .boundChangeTheRow _ _ _ => True
  | _ => False

/-- A change of the bounds of column `j` only. -/
structure ColFrame (s s' : St) (j : ℕ) : Prop where
  rows : SameRows s s'
  others : ∀ t, t ≠ j → s'.lb t = s.lb t ∧ s'.ub t = s.ub t ∧ s'.ctag t = s.ctag t
  fixed : (s'.ctag j).fixed = (s.ctag j).fixed ∧ (s'.ctag j).subst = (s.ctag j).subst
  fin : ColFin s' j
  fixedCols : s'.fixedCols = s.fixedCols
  old : ∀ v, ColIn s' j v → ColIn s j v
  log : ∃ recs, s'.log = recs ++ s.log ∧ ∀ r ∈ recs, XNeutral r

/-- Bounds of column `j` intersected with `P` up to the tolerance, unless the intersection is
empty. -/
structure Cut (s s' : St) (j : ℕ) (P : ℚ → Prop) : Prop where
  frame : ColFrame s s' j
  keep : ∀ v, ColIn s j v → P v → ColIn s' j v
  alt : (∀ v, ColIn s j v → ¬ P v) ∨ (∀ v, ColIn s' j v → ∃ w, P w ∧ |v - w| ≤ FEAS_TOL)

theorem ColFrame.trans {a b c : St} {j : ℕ} (h : ColFrame a b j) (h' : ColFrame b c j) :
    ColFrame a c j := by
  refine ⟨h.rows.trans h'.rows, fun t ht => ?_, ?_, h'.fin, h'.fixedCols.trans h.fixedCols,
    fun v hv => h.old v (h'.old v hv), ?_⟩
  · obtain ⟨a1, a2, a3⟩ := h.others t ht
    obtain ⟨b1, b2, b3⟩ := h'.others t ht
    exact ⟨b1.trans a1, b2.trans a2, b3.trans a3⟩
  · exact ⟨h'.fixed.1.trans h.fixed.1, h'.fixed.2.trans h.fixed.2⟩
  · obtain ⟨r1, e1, n1⟩ := h.log
    obtain ⟨r2, e2, n2⟩ := h'.log
    refine ⟨r2 ++ r1, by rw [e2, e1, List.append_assoc], fun r hr => ?_⟩
    rcases List.mem_append.mp hr with h | h
    · exact n2 r h
    · exact n1 r h

theorem colFrame_inactive {s s' : St} {j : ℕ} (h : ColFrame s s' j) :
    (s'.ctag j).inactive = (s.ctag j).inactive := by
  unfold CTag.inactive; rw [h.fixed.1, h.fixed.2]

theorem Cut.refl (s : St) (j : ℕ) (hf : ColFin s j) : Cut s s j (fun _ => True) :=
  ⟨⟨.refl s, fun _ _ => ⟨rfl, rfl, rfl⟩, ⟨rfl, rfl⟩, hf, rfl, fun _ h => h, [], rfl, by simp⟩,
    fun _ h _ => h, Or.inr (fun v _ => ⟨v, trivial, by simpa using FEAS_TOL_pos.le⟩)⟩

theorem ColFrame.same {s s' : St} {j : ℕ} (hf : ColFin s j) (hr : SameRows s s') (h1 : s'.lb = s.lb)
    (h2 : s'.ub = s.ub) (h3 : s'.ctag = s.ctag) (h4 : s'.log = s.log)
    (h5 : s'.fixedCols = s.fixedCols) : ColFrame s s' j := by
  refine ⟨hr, fun t _ => ?_, ?_, ?_, h5, fun v hv => ?_, [], by rw [h4]; rfl, by simp⟩
  · rw [h1, h2, h3]; exact ⟨rfl, rfl, rfl⟩
  · rw [h3]; exact ⟨rfl, rfl⟩
  · unfold ColFin; rw [h1, h2, h3]; exact hf
  · unfold ColIn at hv ⊢; rwa [h1, h2, h3] at hv

theorem cut_ub (s : St) (j : ℕ) (c : ℚ) (i : ℕ) (hact : (s.ctag j).inactive = false)
    (hf : ColFin s j) : Cut s (updateUb s j (.fin c) i).1 j (fun v => v ≤ c) := by
  have hcs := updateUb_cases s j (.fin c) i
  rcases updateUb_sound s j c i hact hf with ⟨e, hno⟩ | ⟨e, hT⟩
  · generalize updateUb s j (.fin c) i = r at hcs e ⊢
    obtain ⟨sr, h | h | h⟩ := hcs
    · obtain ⟨_, h1, h2, h3, h4, h5, _⟩ := h
      exact ⟨.same hf sr h1 h2 h3 h4 h5, fun v hv hP => absurd hP (hno v hv), Or.inl hno⟩
    · rw [h.1] at e; cases e
    · rw [h.1] at e; cases e
  · have hlog : ∃ recs, (updateUb s j (.fin c) i).1.log = recs ++ s.log ∧ ∀ r ∈ recs, XNeutral r := by
      obtain ⟨sr, h | h | h⟩ := hcs
      · rw [e] at h; exact absurd h.1 (by decide)
      · exact ⟨[_, _], h.2.2.2.2.1, by simp [XNeutral]⟩
      · exact ⟨[], h.2.2.2.2.1, by simp⟩
    exact ⟨⟨hT.rows, hT.others, hT.fixed, hT.fin, hT.fixedCols, hT.old, hlog⟩, hT.keep, Or.inr hT.new⟩

theorem cut_lb (s : St) (j : ℕ) (c : ℚ) (i : ℕ) (hact : (s.ctag j).inactive = false)
    (hf : ColFin s j) : Cut s (updateLb s j (.fin c) i).1 j (fun v => c ≤ v) := by
  have hcs := updateLb_cases s j (.fin c) i
  rcases updateLb_sound s j c i hact hf with ⟨e, hno⟩ | ⟨e, hT⟩
  · generalize updateLb s j (.fin c) i = r at hcs e ⊢
    obtain ⟨sr, h | h | h⟩ := hcs
    · obtain ⟨_, h1, h2, h3, h4, h5, _⟩ := h
      exact ⟨.same hf sr h1 h2 h3 h4 h5, fun v hv hP => absurd hP (hno v hv), Or.inl hno⟩
    · rw [h.1] at e; cases e
    · rw [h.1] at e; cases e
  · have hlog : ∃ recs, (updateLb s j (.fin c) i).1.log = recs ++ s.log ∧ ∀ r ∈ recs, XNeutral r := by
      obtain ⟨sr, h | h | h⟩ := hcs
      · rw [e] at h; exact absurd h.1 (by decide)
      · exact ⟨[_, _], h.2.2.2.2.1, by simp [XNeutral]⟩
      · exact ⟨[], h.2.2.2.2.1, by simp⟩
    exact ⟨⟨hT.rows, hT.others, hT.fixed, hT.fin, hT.fixedCols, hT.old, hlog⟩, hT.keep, Or.inr hT.new⟩

theorem Cut.congr {s s' : St} {j : ℕ} {P Q : ℚ → Prop} (h : Cut s s' j P) (e : ∀ v, P v ↔ Q v) :
    Cut s s' j Q := by
  refine ⟨h.frame, fun v h1 h2 => h.keep v h1 ((e v).mpr h2), ?_⟩
  rcases h.alt with a | a
  · exact Or.inl (fun v hv hQ => a v hv ((e v).mpr hQ))
  · refine Or.inr (fun v hv => ?_)
    obtain ⟨w, h1, h2⟩ := a v hv
    exact ⟨w, (e w).mp h1, h2⟩

/-- Two cuts one after the other. -/
structure Cut2 (s s' : St) (j : ℕ) (P Q : ℚ → Prop) : Prop where
  frame : ColFrame s s' j
  keep : ∀ v, ColIn s j v → P v → Q v → ColIn s' j v
  alt : (∀ v, ColIn s j v → P v → Q v → False) ∨
    (∀ v, ColIn s' j v → (∃ w, P w ∧ |v - w| ≤ FEAS_TOL) ∧ (∃ w, Q w ∧ |v - w| ≤ FEAS_TOL))

theorem Cut.comp {a b c : St} {j : ℕ} {P Q : ℚ → Prop} (h : Cut a b j P) (h' : Cut b c j Q) :
    Cut2 a c j P Q := by
  refine ⟨h.frame.trans h'.frame, fun v h1 h2 h3 => h'.keep v (h.keep v h1 h2) h3, ?_⟩
  rcases h.alt with x | x
  · exact Or.inl (fun v h1 h2 _ => x v h1 h2)
  · rcases h'.alt with y | y
    · exact Or.inl (fun v h1 h2 h3 => y v (h.keep v h1 h2) h3)
    · exact Or.inr (fun v hv => ⟨x v (h'.frame.old v hv), y v hv⟩)

/-- The value of the substituted variable. -/
def partner (aij aik b v : ℚ) : ℚ := (b - aij * v) / aik

theorem partner_dist {aij aik b v w : ℚ} (hk : aik ≠ 0) (h : |v - w| ≤ FEAS_TOL) :
    |partner aij aik b v - partner aij aik b w| ≤ |aij / aik| * FEAS_TOL := by
  have : partner aij aik b v - partner aij aik b w = -(aij / aik) * (v - w) := by
    unfold partner; field_simp; ring
  rw [this, abs_mul, abs_neg]
  exact mul_le_mul_of_nonneg_left h (abs_nonneg _)

theorem cand_pos {aij aik b c v : ℚ} (hp : 0 < aik * aij) :
    (v ≤ (b - aik * c) / aij ↔ c ≤ partner aij aik b v) ∧
    ((b - aik * c) / aij ≤ v ↔ partner aij aik b v ≤ c) := by
  unfold partner
  rcases (mul_pos_iff.mp hp) with ⟨h1, h2⟩ | ⟨h1, h2⟩
  · rw [le_div_iff₀ h2, le_div_iff₀ h1, div_le_iff₀ h2, div_le_iff₀ h1]
    constructor <;> constructor <;> intro h <;> linarith
  · rw [le_div_iff_of_neg h2, le_div_iff_of_neg h1, div_le_iff_of_neg h2, div_le_iff_of_neg h1]
    constructor <;> constructor <;> intro h <;> linarith

theorem cand_neg {aij aik b c v : ℚ} (hp : aik * aij < 0) :
    (v ≤ (b - aik * c) / aij ↔ partner aij aik b v ≤ c) ∧
    ((b - aik * c) / aij ≤ v ↔ c ≤ partner aij aik b v) := by
  unfold partner
  rcases (mul_neg_iff.mp hp) with ⟨h1, h2⟩ | ⟨h1, h2⟩
  · rw [le_div_iff_of_neg h2, le_div_iff₀ h1, div_le_iff_of_neg h2, div_le_iff₀ h1]
    constructor <;> constructor <;> intro h <;> linarith
  · rw [le_div_iff₀ h2, le_div_iff_of_neg h1, div_le_iff₀ h2, div_le_iff_of_neg h1]
    constructor <;> constructor <;> intro h <;> linarith

/-- `modify_bounds` intersects the bounds of column `j` with the values whose partner is within the
bounds of column `k`, up to the tolerance, unless there is no such value. -/
theorem modifyBounds_cut (s : St) (i j k : ℕ) {aij aik b : ℚ} (ha : aij ≠ 0) (hk0 : aik ≠ 0)
    (hj : (s.ctag j).inactive = false) (hfj : ColFin s j) (hfk : ColFin s k) :
    Cut2 s (modifyBounds s i aij aik (.fin b) (s.lb k) (s.ub k) j (s.ctag k)) j
      (fun v => Lo (s.ctag k).lbInf (s.lb k) (partner aij aik b v))
      (fun v => Hi (s.ctag k).ubInf (s.ub k) (partner aij aik b v)) := by
  have hfx : (s.ctag j).fixed = false := by
    have := hj; simp only [CTag.inactive, Bool.or_eq_false_iff] at this; exact this.1
  unfold modifyBounds
  simp only
  by_cases hp : 0 < aik * aij
  · rw [if_pos hp]
    have h1 : Cut s (if (s.ctag k).lbInf then s
        else (updateUb s j (D.divq (D.sub (.fin b) (D.smul aik (s.lb k))) aij) i).1) j
        (fun v => Lo (s.ctag k).lbInf (s.lb k) (partner aij aik b v)) := by
      cases hi : (s.ctag k).lbInf
      · obtain ⟨l, el⟩ := hfk.1 hi
        rw [el]
        simp only [D.smul_fin, D.sub_fin, D.divq_fin ha, Bool.false_eq_true, if_false]
        exact (cut_ub s j _ i hj hfj).congr (fun v => by rw [Lo_fin]; exact (cand_pos hp).1)
      · simp only [if_true]
        exact (Cut.refl s j hfj).congr (fun v => by simp)
    generalize (if (s.ctag k).lbInf then s
        else (updateUb s j (D.divq (D.sub (.fin b) (D.smul aik (s.lb k))) aij) i).1) = u at h1
    rw [if_neg (by rw [h1.frame.fixed.1, hfx]; simp)]
    refine h1.comp ?_
    have hju : (u.ctag j).inactive = false := by rw [colFrame_inactive h1.frame]; exact hj
    cases hi : (s.ctag k).ubInf
    · obtain ⟨l, el⟩ := hfk.2 hi
      rw [el]
      simp only [D.smul_fin, D.sub_fin, D.divq_fin ha, Bool.false_eq_true, if_false]
      exact (cut_lb u j _ i hju h1.frame.fin).congr (fun v => by rw [Hi_fin]; exact (cand_pos hp).2)
    · simp only [if_true]
      exact (Cut.refl u j h1.frame.fin).congr (fun v => by simp)
  · rw [if_neg hp]
    have hp : aik * aij < 0 := lt_of_le_of_ne (not_lt.mp hp) (mul_ne_zero hk0 ha)
    have h1 : Cut s (if (s.ctag k).lbInf then s
        else (updateLb s j (D.divq (D.sub (.fin b) (D.smul aik (s.lb k))) aij) i).1) j
        (fun v => Lo (s.ctag k).lbInf (s.lb k) (partner aij aik b v)) := by
      cases hi : (s.ctag k).lbInf
      · obtain ⟨l, el⟩ := hfk.1 hi
        rw [el]
        simp only [D.smul_fin, D.sub_fin, D.divq_fin ha, Bool.false_eq_true, if_false]
        exact (cut_lb s j _ i hj hfj).congr (fun v => by rw [Lo_fin]; exact (cand_neg hp).2)
      · simp only [if_true]
        exact (Cut.refl s j hfj).congr (fun v => by simp)
    generalize (if (s.ctag k).lbInf then s
        else (updateLb s j (D.divq (D.sub (.fin b) (D.smul aik (s.lb k))) aij) i).1) = u at h1
    rw [if_neg (by rw [h1.frame.fixed.1, hfx]; simp)]
    refine h1.comp ?_
    have hju : (u.ctag j).inactive = false := by rw [colFrame_inactive h1.frame]; exact hj
    cases hi : (s.ctag k).ubInf
    · obtain ⟨l, el⟩ := hfk.2 hi
      rw [el]
      simp only [D.smul_fin, D.sub_fin, D.divq_fin ha, Bool.false_eq_true, if_false]
      exact (cut_ub u j _ i hju h1.frame.fin).congr (fun v => by rw [Hi_fin]; exact (cand_neg hp).1)
    · simp only [if_true]
      exact (Cut.refl u j h1.frame.fin).congr (fun v => by simp)

/-! ### The rewritten row as a function -/

theorem dot_mids (j : ℕ) (l : List Cell) (x : ℕ → ℚ) : dot (mids j l) x = coefAt j l * x j := by
  unfold coefAt
  have : ∀ p ∈ mids j l, p.1 = j := fun p hp => (mem_mids.mp hp).2
  generalize mids j l = m at this
  induction m with
  | nil => simp
  | cons p m ih =>
    simp only [dot_cons, List.map_cons, List.sum_cons]
    rw [ih (fun q hq => this q (List.mem_cons_of_mem _ hq)), this p List.mem_cons_self]
    ring

theorem dot_three (j : ℕ) (l : List Cell) (x : ℕ → ℚ) :
    dot l x = dot (lows j l) x + coefAt j l * x j + dot (highs j l) x := by
  rw [← dot_mids]
  unfold lows mids highs
  induction l with
  | nil => simp
  | cons p l ih =>
    rcases lt_trichotomy p.1 j with h | h | h
    · rw [List.filter_cons_of_pos (by simpa using h), List.filter_cons_of_neg (by simpa using h.ne),
        List.filter_cons_of_neg (by simpa using h.le)]
      simp only [dot_cons]; rw [ih]; ring
    · rw [List.filter_cons_of_neg (by simp; omega), List.filter_cons_of_pos (by simpa using h),
        List.filter_cons_of_neg (by simp; omega)]
      simp only [dot_cons]; rw [ih]; ring
    · rw [List.filter_cons_of_neg (by simp; omega), List.filter_cons_of_neg (by simp; omega),
        List.filter_cons_of_pos (by simpa using h)]
      simp only [dot_cons]; rw [ih]; ring

theorem dot_without (k : ℕ) (l : List Cell) (x : ℕ → ℚ) :
    dot l x = dot (without k l) x + coefAt k l * x k := by
  rw [← dot_mids]
  unfold without mids
  induction l with
  | nil => simp
  | cons p l ih =>
    by_cases h : p.1 = k
    · rw [List.filter_cons_of_neg (by simpa using h), List.filter_cons_of_pos (by simpa using h)]
      simp only [dot_cons]; rw [ih]; ring
    · rw [List.filter_cons_of_pos (by simpa using h), List.filter_cons_of_neg (by simpa using h)]
      simp only [dot_cons]; rw [ih]; ring

theorem coefAt_without {j k : ℕ} (h : j ≠ k) (l : List Cell) : coefAt j (without k l) = coefAt j l := by
  unfold coefAt
  congr 2
  unfold mids without
  rw [List.filter_filter]
  apply List.filter_congr
  intro p _
  by_cases e : p.1 = j
  · simp [e, h]
  · simp [e]

theorem coefAt_ne_zero {j : ℕ} {l : List Cell} (h : coefAt j l ≠ 0) : ∃ w, (j, w) ∈ l := by
  by_contra hn
  apply h
  exact coefAt_noCol (fun p hp e => hn ⟨p.2, e ▸ hp⟩)

/-- Value of the rewritten row when no coefficient is rounded away. -/
theorem dot_newRow {j k : ℕ} (hjk : j ≠ k) {ratio : ℚ} {l : List Cell}
    (hz : |newCoef j k ratio l| ≤ ZERO_TOL → newCoef j k ratio l = 0) (x : ℕ → ℚ) :
    dot (newRow j k ratio l) x = dot l x - coefAt k l * x k - ratio * coefAt k l * x j := by
  have h1 := dot_without k l x
  have h2 := dot_three j (without k l) x
  rw [coefAt_without hjk] at h2
  unfold newRow newCol
  by_cases h : |newCoef j k ratio l| ≤ ZERO_TOL
  · rw [if_pos h]
    have hz := hz h
    unfold newCoef at hz
    rw [dot_append, h1, h2]
    have : coefAt j l = ratio * coefAt k l := by linarith
    rw [this]; ring
  · rw [if_neg h, dot_append, dot_cons, h1, h2]
    unfold newCoef
    simp only
    ring

theorem newSide_Lo {inf : Bool} {aik b a : ℚ} {d : D} (hf : FinIf inf d) (w : ℚ) :
    Lo inf (newSide inf aik b a d) w ↔ Lo inf d (w + a / aik * b) := by
  cases inf
  · obtain ⟨q, rfl⟩ := hf rfl
    unfold newSide
    by_cases hb : b = 0
    · simp [hb]
    · simp [hb]
  · simp

theorem newSide_Hi {inf : Bool} {aik b a : ℚ} {d : D} (hf : FinIf inf d) (w : ℚ) :
    Hi inf (newSide inf aik b a d) w ↔ Hi inf d (w + a / aik * b) := by
  cases inf
  · obtain ⟨q, rfl⟩ := hf rfl
    unfold newSide
    by_cases hb : b = 0
    · simp [hb]
    · simp [hb]; constructor <;> intro h <;> linarith
  · simp

theorem dropCell_eq {k : ℕ} {l : List Cell} (h : (l.map Prod.fst).Nodup) :
    dropCell k l = without k l := by
  by_cases hm : ∃ w, (k, w) ∈ l
  · obtain ⟨w, hw⟩ := hm
    obtain ⟨l1, l2, rfl, h1, h2⟩ := split_col h hw
    rw [dropCell_split h1, without_split h1 h2]
  · have hn : NoCol k l := fun p hp e => hm ⟨p.2, e ▸ hp⟩
    rw [without_of_noCol hn]
    unfold dropCell
    exact List.eraseP_of_forall_not (fun p hp => by simpa using hn p hp)

end Verif
