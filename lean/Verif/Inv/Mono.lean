import Verif.Inv.StepGi

/-!
# What only ever shrinks
-/

namespace Verif

/-- Rows only get shorter; what is inactive stays inactive; what is gone stays gone. -/
structure Mono (s s' : St) : Prop where
  m : s'.m = s.m
  n : s'.n = s.n
  len : ∀ i, (s'.A i).length ≤ (s.A i).length
  rowGone : ∀ i, s.rowSize i = -1 → s'.rowSize i = -1
  colGone : ∀ k, s.colSize k = -1 → s'.colSize k = -1
  rowIn : ∀ i, (s.rtag i).inactive = true → (s'.rtag i).inactive = true
  colIn : ∀ k, (s.ctag k).inactive = true → (s'.ctag k).inactive = true

theorem Mono.refl (s : St) : Mono s s :=
  ⟨rfl, rfl, fun _ => le_refl _, fun _ h => h, fun _ h => h, fun _ h => h, fun _ h => h⟩

theorem Mono.trans {a b c : St} (h : Mono a b) (h' : Mono b c) : Mono a c :=
  ⟨h'.m.trans h.m, h'.n.trans h.n, fun i => (h'.len i).trans (h.len i),
    fun i e => h'.rowGone i (h.rowGone i e), fun i e => h'.colGone i (h.colGone i e),
    fun i e => h'.rowIn i (h.rowIn i e), fun i e => h'.colIn i (h.colIn i e)⟩

theorem SameCore.mono {s t : St} (h : SameCore s t) : Mono s t :=
  ⟨h.m, h.n, fun i => by rw [h.A], fun i e => by rw [h.rowSize]; exact e,
    fun i e => by rw [h.colSize]; exact e, fun i e => by rw [h.rtag]; exact e,
    fun i e => by rw [h.ctag]; exact e⟩

/-- Mono when rows, columns and tags change at one index each. -/
theorem Mono.of_upd {s t : St} (m : t.m = s.m) (n : t.n = s.n)
    (len : ∀ i, (t.A i).length ≤ (s.A i).length)
    (rs : ∀ i, t.rowSize i = s.rowSize i ∨ t.rowSize i = -1 ∨ s.rowSize i ≠ -1)
    (cs : ∀ k, t.colSize k = s.colSize k ∨ t.colSize k = -1 ∨ s.colSize k ≠ -1)
    (rt : ∀ i, (t.rtag i).inactive = (s.rtag i).inactive ∨ (t.rtag i).inactive = true ∨
      (s.rtag i).inactive = false)
    (ct : ∀ k, (t.ctag k).inactive = (s.ctag k).inactive ∨ (t.ctag k).inactive = true ∨
      (s.ctag k).inactive = false) : Mono s t := by
  refine ⟨m, n, len, fun i e => ?_, fun i e => ?_, fun i e => ?_, fun i e => ?_⟩
  · rcases rs i with h | h | h
    · rw [h]; exact e
    · exact h
    · exact absurd e h
  · rcases cs i with h | h | h
    · rw [h]; exact e
    · exact h
    · exact absurd e h
  · rcases rt i with h | h | h
    · rw [h]; exact e
    · exact h
    · rw [h] at e; cases e
  · rcases ct i with h | h | h
    · rw [h]; exact e
    · exact h
    · rw [h] at e; cases e

theorem upd_rowTag {f : ℕ → RTag} {i : ℕ} (t : RTag) (h : t.inactive = true ∨ (f i).inactive = false) (j : ℕ) :
    (upd f i t j).inactive = (f j).inactive ∨ (upd f i t j).inactive = true ∨ (f j).inactive = false := by
  by_cases e : j = i
  · subst e; rw [upd_same]; tauto
  · rw [upd_ne _ _ e]; exact Or.inl rfl

theorem upd_colTag {f : ℕ → CTag} {i : ℕ} (t : CTag) (h : t.inactive = true ∨ (f i).inactive = false) (j : ℕ) :
    (upd f i t j).inactive = (f j).inactive ∨ (upd f i t j).inactive = true ∨ (f j).inactive = false := by
  by_cases e : j = i
  · subst e; rw [upd_same]; tauto
  · rw [upd_ne _ _ e]; exact Or.inl rfl

theorem upd_size {f : ℕ → ℤ} {i : ℕ} (v : ℤ) (h : v = -1 ∨ f i ≠ -1) (j : ℕ) :
    upd f i v j = f j ∨ upd f i v j = -1 ∨ f j ≠ -1 := by
  by_cases e : j = i
  · subst e; rw [upd_same]; tauto
  · rw [upd_ne _ _ e]; exact Or.inl rfl

theorem upd_len {A : ℕ → List Cell} {i : ℕ} {l : List Cell} (h : l.length ≤ (A i).length) (j : ℕ) :
    (upd A i l j).length ≤ (A j).length := by
  by_cases e : j = i
  · subst e; rw [upd_same]; exact h
  · rw [upd_ne _ _ e]

theorem newRow_length {j k : ℕ} {ratio a : ℚ} {l : List Cell} (h : SortedC l) (hk : (k, a) ∈ l) :
    (newRow j k ratio l).length ≤ l.length := by
  have h1 : (without k l).length + 1 ≤ l.length := by
    have := List.length_eq_countP_add_countP (fun p : Cell => decide (p.1 ≠ k)) (l := l)
    have h2 : 0 < l.countP (fun p : Cell => ¬ (decide (p.1 ≠ k)) = true) := by
      rw [List.countP_pos_iff]
      exact ⟨(k, a), hk, by simp⟩
    unfold without
    rw [← List.countP_eq_length_filter]
    omega
  have h2 : (newRow j k ratio l).length ≤ (without k l).length + 1 := by
    have h3 : (lows j (without k l)).length + (highs j (without k l)).length ≤ (without k l).length := by
      have hs := congrArg List.length (sorted_split (h.filter (fun p => decide (p.1 ≠ k))) j)
      simp only [List.length_append] at hs
      unfold without
      omega
    unfold newRow newCol
    split
    · rw [List.length_append]; omega
    · rw [List.length_append, List.length_cons]; omega
  omega

theorem PropRun.mono {i num : ℕ} {s t : St} (h : PropRun i s num t) : Mono s t := by
  have f := h.frame
  exact ⟨f.m, f.n, fun i => by rw [f.A], fun i e => by rw [f.rowSize]; exact e,
    fun i e => by rw [f.colSize]; exact e, fun i e => by rw [f.rtag]; exact e, f.inactive⟩

theorem DtonOut.mono {s s' : St} {i j k : ℕ} {aij aik b : ℚ} (d : DtonOut s s' i j k aij aik b)
    (g : GI s) : Mono s s' := by
  refine Mono.of_upd d.m d.n (fun q => ?_) (fun q => ?_) (fun t => ?_) (fun q => ?_) (fun t => ?_)
  · by_cases hq : q = i
    · rw [hq, d.goneA]; simp
    · by_cases hh : ∃ a, (q, a) ∈ s.AT k
      · obtain ⟨a, ha⟩ := hh
        rw [(d.hit q a hq ha).1]
        exact newRow_length (g.rowSorted q)
          ((g.agree q k a (g.rowActive (d.rows _ ha)) (g.colActive d.colk)).mpr ha)
      · rw [(d.miss q hq (fun a ha => hh ⟨a, ha⟩)).1]
  · by_cases hq : q = i
    · rw [hq, d.goneRow]; exact Or.inr (Or.inl rfl)
    · by_cases e : s.rowSize q = -1
      · have hmiss : ∀ a, (q, a) ∉ s.AT k := fun a ha => g.rowActive (d.rows _ ha) e
        left
        rw [d.rowSize q hq, (d.miss q hq hmiss).1]; simp
      · exact Or.inr (Or.inr e)
  · by_cases e : t = k
    · rw [e]; exact Or.inr (Or.inl d.goneT.2)
    · by_cases e' : t = j
      · rw [e']; exact Or.inr (Or.inr (g.colActive d.colj))
      · exact Or.inl (d.col t e' e).2
  · rw [d.rtag]; exact upd_rowTag _ (Or.inl rfl) q
  · rw [d.ctag]; exact upd_colTag _ (Or.inl rfl) t

theorem deleteFixedCols_mono (s : St) : SameCore { s with lhs := (deleteFixedCols s).lhs, rhs := (deleteFixedCols s).rhs, off := (deleteFixedCols s).off } (deleteFixedCols s) := by
  obtain ⟨l, r, a, o, b, e⟩ := deleteFixedCols_eq s
  rw [e]
  constructor <;> rfl

theorem Raw.mono {μ : Mode} {s s' : St} (r : Raw μ s s') (g : GI s) : Mono s s' := by
  cases r with
  | same h => exact h.mono
  | fix k val hk hrows h =>
    refine Mono.trans ?_ h.mono
    exact Mono.of_upd rfl rfl (fun _ => le_refl _) (fun _ => Or.inl rfl) (fun _ => Or.inl rfl)
      (fun _ => Or.inl rfl) (upd_colTag _ (Or.inl rfl))
  | fixInf k pos bound v hk hc h =>
    refine Mono.trans ?_ h.mono
    refine Mono.of_upd rfl rfl (fun _ => le_refl _) (fun _ => Or.inl rfl) (upd_size _ (Or.inl rfl))
      (fun i => ?_) (upd_colTag _ (Or.inl rfl))
    show (if i ∈ liveRows s k then _ else _ : RTag).inactive = _ ∨
      (if i ∈ liveRows s k then _ else _ : RTag).inactive = _ ∨ _
    split
    · exact Or.inr (Or.inl rfl)
    · exact Or.inl rfl
  | deact i hi h =>
    refine Mono.trans ?_ h.mono
    exact Mono.of_upd rfl rfl (fun _ => le_refl _) (fun _ => Or.inl rfl) (fun _ => Or.inl rfl)
      (upd_rowTag _ (Or.inl rfl)) (fun _ => Or.inl rfl)
  | sides i t l r u d hi ht hl h =>
    refine Mono.trans ?_ h.mono
    exact Mono.of_upd rfl rfl (fun _ => le_refl _) (fun _ => Or.inl rfl) (fun _ => Or.inl rfl)
      (upd_rowTag _ (Or.inr hi)) (fun _ => Or.inl rfl)
  | sideRec i o t l r u d rc hi ho hne hcols ht hl hrec hμ h =>
    refine Mono.trans ?_ h.mono
    exact Mono.of_upd rfl rfl (fun _ => le_refl _) (fun _ => Or.inl rfl) (fun _ => Or.inl rfl)
      (upd_rowTag _ (Or.inr hi)) (fun _ => Or.inl rfl)
  | stonEq row k a val hi hk hrow hrows h =>
    refine Mono.trans ?_ h.mono
    exact Mono.of_upd rfl rfl (upd_len (by simp)) (upd_size _ (Or.inl rfl)) (fun _ => Or.inl rfl)
      (upd_rowTag _ (Or.inl rfl)) (upd_colTag _ (Or.inl rfl))
  | emptyRow i hi hA h =>
    refine Mono.trans ?_ h.mono
    exact Mono.of_upd rfl rfl (fun _ => le_refl _) (upd_size _ (Or.inl rfl)) (fun _ => Or.inl rfl)
      (upd_rowTag _ (Or.inl rfl)) (fun _ => Or.inl rfl)
  | emptyCol k v hk hT h =>
    refine Mono.trans ?_ h.mono
    exact Mono.of_upd rfl rfl (fun _ => le_refl _) (fun _ => Or.inl rfl) (upd_size _ (Or.inl rfl))
      (fun _ => Or.inl rfl) (upd_colTag _ (Or.inl rfl))
  | freeSton i k q side hi hk hT hcols h =>
    refine Mono.trans ?_ h.mono
    unfold freeColIneq
    rw [subVarInObj_eq]
    exact Mono.of_upd rfl rfl (fun _ => le_refl _) (fun _ => Or.inl rfl) (upd_size _ (Or.inl rfl))
      (upd_rowTag _ (Or.inl rfl)) (upd_colTag _ (Or.inl (CTag.inactive_subst _)))
  | half i k q b upper hi hk hT hs hcols h =>
    refine Mono.trans ?_ h.mono
    obtain ⟨l, r, u, d, h1, -, -⟩ := halfStep_eq s i k q b upper
    rw [h1]
    exact Mono.of_upd rfl rfl (upd_len (List.length_eraseP_le)) (upd_size _ (Or.inr (g.rowActive hi)))
      (upd_size _ (Or.inl rfl)) (upd_rowTag _ (Or.inr hi)) (upd_colTag _ (Or.inl (CTag.inactive_subst _)))
  | fixSton i k q v hi hk hT h =>
    refine Mono.trans ?_ h.mono
    exact Mono.of_upd rfl rfl (upd_len (List.length_eraseP_le)) (upd_size _ (Or.inr (g.rowActive hi)))
      (upd_size _ (Or.inl rfl)) (fun _ => Or.inl rfl) (upd_colTag _ (Or.inl rfl))
  | prop i num t hi hnum hrun h =>
    have h1 : Mono t (t.save (Rec.boundChangeTheRow i (t.A i) num)) :=
      ⟨rfl, rfl, fun _ => le_refl _, fun _ h => h, fun _ h => h, fun _ h => h, fun _ h => h⟩
    exact (hrun.mono.trans h1).trans h.mono
  | dton i j k aij aik b h hcols hμ => exact h.mono g
  | merge j k ratio hjk hj hk hμ hex h =>
    refine Mono.trans ?_ h.mono
    refine Mono.of_upd rfl rfl (fun _ => le_refl _) (fun _ => Or.inl rfl) (fun _ => Or.inl rfl)
      (fun _ => Or.inl rfl) (fun t => ?_)
    show (upd (upd s.ctag j (mergeTag ratio (s.ctag j) (s.ctag k))) k _ t).inactive = _ ∨
      (upd (upd s.ctag j (mergeTag ratio (s.ctag j) (s.ctag k))) k _ t).inactive = _ ∨ _
    by_cases e : t = k
    · subst e
      rw [upd_same]; exact Or.inr (Or.inl (CTag.inactive_subst _))
    · rw [upd_ne _ _ e]; exact upd_colTag _ (Or.inr hj) t
  | relax k t ht h =>
    refine Mono.trans ?_ h.mono
    refine Mono.of_upd rfl rfl (fun _ => le_refl _) (fun _ => Or.inl rfl) (fun _ => Or.inl rfl)
      (fun _ => Or.inl rfl) (fun j => ?_)
    left
    show (upd s.ctag k t j).inactive = _
    by_cases e : j = k
    · rw [e, upd_same, ht]
    · rw [upd_ne _ _ e]
  | delRows h =>
    refine Mono.trans ?_ h.mono
    have d := deleteInactiveRows_deleted g
    refine ⟨by rw [d.eq], by rw [d.eq], fun i => ?_, fun i e => ?_, fun k e => (d.colGone k).mp e,
      fun i e => by rw [d.eq]; exact e, fun i e => by rw [d.eq]; exact e⟩
    · rw [d.A]; split
      · simp
      · exact le_refl _
    · rw [d.rowSize]; split
      · rfl
      · exact e
  | delCols hd h =>
    refine Mono.trans ?_ h.mono
    have sc := deleteFixedCols_mono s
    have g1 : GI (deleteFixedCols s) := sc.gi (g.of_eq rfl rfl rfl rfl rfl (fun _ => rfl) rfl rfl rfl rfl rfl rfl rfl rfl)
    have d := deleteInactiveCols_deleted g1 (by rw [sc.rowsToDelete]; exact hd)
    have m1 : Mono s (deleteFixedCols s) := ⟨sc.m, sc.n, fun i => by rw [sc.A], fun i e => by rw [sc.rowSize]; exact e,
      fun i e => by rw [sc.colSize]; exact e, fun i e => by rw [sc.rtag]; exact e,
      fun i e => by rw [sc.ctag]; exact e⟩
    refine m1.trans ⟨by rw [d.eq], by rw [d.eq], fun i => ?_, fun i e => (d.rowGone i).mp e, fun k e => ?_,
      fun i e => by rw [d.eq]; exact e, fun i e => by rw [d.eq]; exact e⟩
    · rw [d.A]; exact List.length_filter_le _ _
    · rw [d.colSize]; split
      · rfl
      · exact e

end Verif
