import Verif.Inv.FeasOps

/-!
# Deletion of rows and columns keeps `Feas`
-/

namespace Verif

theorem shiftSides_other (v : D) (s : St) (p : Cell) {i : ℕ} (h : i ≠ p.1) :
    (shiftSides v s p).lhs i = s.lhs i ∧ (shiftSides v s p).rhs i = s.rhs i ∧
      (shiftSides v s p).act i = s.act i := by
  unfold shiftSides
  simp only
  split
  · exact ⟨rfl, rfl, rfl⟩
  · refine ⟨?_, ?_, upd_ne _ _ h⟩
    · show (if (s.rtag p.1).lhsInf then s.lhs else upd s.lhs p.1 (D.sub (s.lhs p.1) (D.smul p.2 v))) i = _
      split
      · rfl
      · exact upd_ne _ _ h
    · show (if (s.rtag p.1).rhsInf then s.rhs else upd s.rhs p.1 (D.sub (s.rhs p.1) (D.smul p.2 v))) i = _
      split
      · rfl
      · exact upd_ne _ _ h

theorem shiftSides_rtag (v : D) (s : St) (p : Cell) : (shiftSides v s p).rtag = s.rtag := by
  unfold shiftSides
  simp only
  split <;> rfl

theorem shiftSides_congr (v : D) {s t : St} {i : ℕ} (q : ℚ) (h0 : t.rtag = s.rtag) (h1 : t.lhs i = s.lhs i)
    (h2 : t.rhs i = s.rhs i) (h3 : t.act i = s.act i) :
    (shiftSides v t (i, q)).lhs i = (shiftSides v s (i, q)).lhs i ∧
    (shiftSides v t (i, q)).rhs i = (shiftSides v s (i, q)).rhs i ∧
    (shiftSides v t (i, q)).act i = (shiftSides v s (i, q)).act i := by
  unfold shiftSides
  simp only [h0]
  split
  · exact ⟨h1, h2, h3⟩
  · refine ⟨?_, ?_, ?_⟩
    · show (if (s.rtag i).lhsInf then t.lhs else upd t.lhs i (D.sub (t.lhs i) (D.smul q v))) i =
        (if (s.rtag i).lhsInf then s.lhs else upd s.lhs i (D.sub (s.lhs i) (D.smul q v))) i
      split
      · exact h1
      · simp only [upd_same, h1]
    · show (if (s.rtag i).rhsInf then t.rhs else upd t.rhs i (D.sub (t.rhs i) (D.smul q v))) i =
        (if (s.rtag i).rhsInf then s.rhs else upd s.rhs i (D.sub (s.rhs i) (D.smul q v))) i
      split
      · exact h2
      · simp only [upd_same, h2]
    · simp only [upd_same, h3]

theorem shiftFold (v : D) (cells : List Cell) (hnd : (cells.map Prod.fst).Nodup) (s : St) (i : ℕ) :
    (∀ q, (i, q) ∈ cells → (cells.foldl (shiftSides v) s).lhs i = (shiftSides v s (i, q)).lhs i ∧
      (cells.foldl (shiftSides v) s).rhs i = (shiftSides v s (i, q)).rhs i ∧
      (cells.foldl (shiftSides v) s).act i = (shiftSides v s (i, q)).act i) ∧
    ((∀ p ∈ cells, p.1 ≠ i) → (cells.foldl (shiftSides v) s).lhs i = s.lhs i ∧
      (cells.foldl (shiftSides v) s).rhs i = s.rhs i ∧ (cells.foldl (shiftSides v) s).act i = s.act i) := by
  induction cells generalizing s with
  | nil => exact ⟨fun q h => absurd h List.not_mem_nil, fun _ => ⟨rfl, rfl, rfl⟩⟩
  | cons p cells ih =>
    rw [List.map_cons, List.nodup_cons] at hnd
    rw [List.foldl_cons]
    obtain ⟨h1, h2⟩ := ih hnd.2 (shiftSides v s p)
    constructor
    · intro q hq
      rcases List.mem_cons.mp hq with rfl | hq
      · exact h2 (fun r hr e => hnd.1 (List.mem_map.mpr ⟨r, hr, e⟩))
      · have hne : i ≠ p.1 := fun e => hnd.1 (List.mem_map.mpr ⟨(i, q), hq, e⟩)
        obtain ⟨a1, a2, a3⟩ := h1 q hq
        obtain ⟨b1, b2, b3⟩ := shiftSides_other v s p hne
        obtain ⟨c1, c2, c3⟩ := shiftSides_congr v q (shiftSides_rtag v s p) b1 b2 b3
        exact ⟨a1.trans c1, a2.trans c2, a3.trans c3⟩
    · intro hne
      obtain ⟨a1, a2, a3⟩ := h2 (fun r hr => hne r (List.mem_cons_of_mem _ hr))
      obtain ⟨b1, b2, b3⟩ := shiftSides_other v s p (fun e => hne p List.mem_cons_self e.symm)
      exact ⟨a1.trans b1, a2.trans b2, a3.trans b3⟩

/-- Sides tagged infinite are not shifted. -/
structure InfKept (s t : St) : Prop where
  rtag : t.rtag = s.rtag
  rhs : ∀ i, (s.rtag i).rhsInf = true → t.rhs i = s.rhs i
  lhs : ∀ i, (s.rtag i).lhsInf = true → t.lhs i = s.lhs i

theorem InfKept.trans {s t u : St} (a : InfKept s t) (b : InfKept t u) : InfKept s u :=
  ⟨b.rtag.trans a.rtag, fun i h => (b.rhs i (by rw [a.rtag]; exact h)).trans (a.rhs i h),
    fun i h => (b.lhs i (by rw [a.rtag]; exact h)).trans (a.lhs i h)⟩

theorem shiftSides_inf (v : D) (s : St) (p : Cell) : InfKept s (shiftSides v s p) := by
  refine ⟨shiftSides_rtag v s p, fun i h => ?_, fun i h => ?_⟩
  · by_cases e : i = p.1
    · subst e
      unfold shiftSides
      simp only [h, if_true]
      split <;> rfl
    · exact (shiftSides_other v s p e).2.1
  · by_cases e : i = p.1
    · subst e
      unfold shiftSides
      simp only [h, if_true]
      split <;> rfl
    · exact (shiftSides_other v s p e).1

theorem shiftFold_inf (v : D) (cells : List Cell) (s : St) : InfKept s (cells.foldl (shiftSides v) s) := by
  induction cells generalizing s with
  | nil => exact ⟨rfl, fun _ _ => rfl, fun _ _ => rfl⟩
  | cons p cells ih => rw [List.foldl_cons]; exact (shiftSides_inf v s p).trans (ih _)

theorem delFixedCol_inf (s : St) (k : ℕ) : InfKept s (delFixedCol s k) := by
  unfold delFixedCol
  simp only
  split
  · exact ⟨rfl, fun _ _ => rfl, fun _ _ => rfl⟩
  · have h := shiftFold_inf (s.ub k) (s.AT k)
      (((s.check (s.ctag k).fixed).check (!D.isInf (s.ub k))).check (D.eqb (s.lb k) (s.ub k)))
    exact ⟨h.rtag, h.rhs, h.lhs⟩

theorem deleteFixedCols_inf (s : St) : InfKept s (deleteFixedCols s) := by
  have : ∀ (L : List ℕ) (s : St), InfKept s (L.foldl delFixedCol s) := by
    intro L
    induction L with
    | nil => exact fun s => ⟨rfl, fun _ _ => rfl, fun _ _ => rfl⟩
    | cons k L ih => exact fun s => (delFixedCol_inf s k).trans (ih _)
  exact this _ s

/-- Contribution of the columns of `D` to row `i`. -/
def moved (s : St) (D : List ℕ) (i : ℕ) : ℚ :=
  (((s.A i).filter (fun p => decide (p.1 ∈ D))).map (fun p => p.2 * (s.lb p.1).toQ)).sum

/-- Row `i` of `t` is row `i` of `s` with the columns of `D` moved to the sides. -/
structure Shifted (s t : St) (D : List ℕ) (i : ℕ) : Prop where
  act : Recomputed (t.act i) (effTags s) s.lb s.ub (offCols D (s.A i))
  rhs : (s.rtag i).rhsInf = false → ∀ r, s.rhs i = .fin r → t.rhs i = .fin (r - moved s D i)
  lhs : (s.rtag i).lhsInf = false → ∀ r, s.lhs i = .fin r → t.lhs i = .fin (r - moved s D i)

theorem offCols_snoc (D : List ℕ) (k : ℕ) (l : List Cell) :
    offCols (D ++ [k]) l = (offCols D l).filter (fun p => decide (p.1 ≠ k)) := by
  unfold offCols
  rw [List.filter_filter]
  refine List.filter_congr (fun p _ => ?_)
  simp only [List.mem_append, List.mem_singleton, not_or]
  by_cases h1 : p.1 ∈ D <;> by_cases h2 : p.1 = k <;> simp [h1, h2]

theorem moved_snoc {D : List ℕ} {k : ℕ} (hk : k ∉ D) (l : List Cell) (w : Cell → ℚ) :
    ((l.filter (fun p => decide (p.1 ∈ D ++ [k]))).map w).sum =
      ((l.filter (fun p => decide (p.1 ∈ D))).map w).sum + ((mids k l).map w).sum := by
  induction l with
  | nil => simp [mids]
  | cons p l ih =>
    unfold mids at *
    by_cases h1 : p.1 = k
    · have h2 : p.1 ∉ D := by rw [h1]; exact hk
      rw [List.filter_cons_of_pos (by simp [h1]), List.filter_cons_of_neg (by simp [h2]),
        List.filter_cons_of_pos (by simp [h1]), List.map_cons, List.map_cons, List.sum_cons, List.sum_cons, ih]
      ring
    · by_cases h2 : p.1 ∈ D
      · rw [List.filter_cons_of_pos (by simp [h2]), List.filter_cons_of_pos (by simp [h2]),
          List.filter_cons_of_neg (by simp [h1]), List.map_cons, List.map_cons, List.sum_cons, List.sum_cons, ih]
        ring
      · rw [List.filter_cons_of_neg (by simp [h1, h2]), List.filter_cons_of_neg (by simp [h2]),
          List.filter_cons_of_neg (by simp [h1]), ih]

theorem recomputed_zero_col {a : Act} {ctag : ℕ → CTag} {lb ub : ℕ → D} {l1 l2 : List Cell} {k : ℕ} {q : ℚ}
    (hlb : lb k = .fin 0) (hub : ub k = .fin 0) (htag : (ctag k).lbInf = false ∧ (ctag k).ubInf = false)
    (hok : ColsOK ctag lb ub (l1 ++ (k, q) :: l2)) (ha : Recomputed a ctag lb ub (l1 ++ (k, q) :: l2)) :
    Recomputed a ctag lb ub (l1 ++ l2) := by
  have hok' : ColsOK ctag lb ub (l1 ++ l2) := by
    intro p hp; apply hok; simp at hp ⊢; tauto
  rw [recomputed_iff hok] at ha
  rw [recomputed_iff hok']
  have hu1 : unbMin ctag (k, q) = false := by unfold unbMin; split <;> simp [htag]
  have hu2 : unbMax ctag (k, q) = false := by unfold unbMax; split <;> simp [htag]
  have ht1 : minTerm lb ub (k, q) = 0 := by unfold minTerm; split <;> simp [hlb, hub]
  have ht2 : maxTerm lb ub (k, q) = 0 := by unfold maxTerm; split <;> simp [hlb, hub]
  have n1 := ha.nmin; have n2 := ha.nmax; have m1 := ha.min; have m2 := ha.max
  simp only [List.countP_append, List.countP_cons, hu1, hu2, Bool.false_eq_true, if_false, add_zero,
    List.map_append, List.map_cons, List.sum_append, List.sum_cons, ht1, ht2, zero_add] at n1 n2 m1 m2
  refine ⟨?_, ?_, ?_, ?_⟩ <;> simp only [List.countP_append, List.map_append, List.sum_append]
  · exact n1
  · exact n2
  · exact m1
  · exact m2

section
variable {P : LP} {s t : St} {i k : ℕ}

/-- One column of the list. -/
theorem Shifted.step (h : Feas P s) (g : GI s) (hi : (s.rtag i).inactive = false) {K : List ℕ}
    (hkD : k ∉ K) (hk : k < P.n) (hf : (s.ctag k).fixed = true) (hcs : s.colSize k ≠ -1)
    (e : ∃ l r a o b, t = { s with lhs := l, rhs := r, act := a, off := o, asrt := b })
    (hs : Shifted s t K i) : Shifted s (delFixedCol t k) (K ++ [k]) i := by
  obtain ⟨v, -, hv⟩ := (h.col k hk).old hf
  obtain ⟨hl, hu⟩ := hv hcs
  have htag : (effTags s k).lbInf = false ∧ (effTags s k).ubInf = false := by
    unfold effTags effTag; rw [hf]; exact ⟨rfl, rfl⟩
  have etag : t.rtag = s.rtag := by obtain ⟨l, r, a, o, b, rfl⟩ := e; rfl
  have eAT : t.AT = s.AT := by obtain ⟨l, r, a, o, b, rfl⟩ := e; rfl
  have eub : t.ub = s.ub := by obtain ⟨l, r, a, o, b, rfl⟩ := e; rfl
  have hok : ColsOK (effTags s) s.lb s.ub (offCols K (s.A i)) :=
    fun p hp => h.colsOK g hi p (List.mem_filter.mp hp).1
  unfold delFixedCol
  simp only
  have hu2 : (((t.check (t.ctag k).fixed).check (!D.isInf (t.ub k))).check (D.eqb (t.lb k) (t.ub k))).ub k =
      .fin v := (congrFun eub k).trans hu
  have hus : Shifted s (((t.check (t.ctag k).fixed).check (!D.isInf (t.ub k))).check
      (D.eqb (t.lb k) (t.ub k))) K i := ⟨hs.act, hs.rhs, hs.lhs⟩
  have urt : (((t.check (t.ctag k).fixed).check (!D.isInf (t.ub k))).check (D.eqb (t.lb k) (t.ub k))).rtag =
      s.rtag := etag
  have uAT : (((t.check (t.ctag k).fixed).check (!D.isInf (t.ub k))).check (D.eqb (t.lb k) (t.ub k))).AT =
      s.AT := eAT
  generalize (((t.check (t.ctag k).fixed).check (!D.isInf (t.ub k))).check (D.eqb (t.lb k) (t.ub k))) = u
    at hu2 hus urt uAT ⊢
  rw [hu2]
  -- what the two branches do to the row
  rcases g.cellCases hi hcs with ⟨q, hq1, hq2, -⟩ | ⟨hn1, hn2⟩
  · -- the row has a cell in the column
    have hqD : (k, q) ∈ offCols K (s.A i) := List.mem_filter.mpr ⟨hq2, by simpa using hkD⟩
    have hnd : ((offCols K (s.A i)).map Prod.fst).Nodup :=
      (g.rowSorted i).nodup.sublist (List.filter_sublist.map _)
    obtain ⟨l1, l2, hsp, hn1, hn2⟩ := split_col hnd hqD
    have hnew : offCols (K ++ [k]) (s.A i) = l1 ++ l2 := by
      rw [offCols_snoc, hsp, List.filter_append, List.filter_cons_of_neg (by simp),
        List.filter_eq_self.mpr (fun p hp => by simpa using hn1 p hp),
        List.filter_eq_self.mpr (fun p hp => by simpa using hn2 p hp)]
    have hmv : moved s (K ++ [k]) i = moved s K i + q * v := by
      unfold moved
      rw [moved_snoc hkD, mids_of_mem (g.rowSorted i) hq2]
      simp only [List.map_cons, List.map_nil, List.sum_cons, List.sum_nil, hl, D.toQ_fin, add_zero]
    have hact := hus.act
    rw [hsp] at hact hok
    by_cases hv0 : v = 0
    · subst hv0
      rw [if_pos (by simp [D.eqb])]
      refine ⟨?_, ?_, ?_⟩
      · rw [hnew]; exact recomputed_zero_col hl hu htag hok hact
      · intro h1 r h2; rw [hmv, hus.rhs h1 r h2]; simp
      · intro h1 r h2; rw [hmv, hus.lhs h1 r h2]; simp
    · rw [if_neg (by simp [D.eqb, hv0]), uAT]
      obtain ⟨f1, f2, f3⟩ := (shiftFold (.fin v) (s.AT k) (g.colSorted k).nodup u i).1 q hq1
      have c := C22_delete_fixed (effTags s) s.lb s.ub l1 l2 i k q v u (by rw [urt]; exact hi) hl hu htag hok hact
      refine ⟨?_, ?_, ?_⟩
      · unfold fixVarInObj
        rw [hnew]; simp only; rw [f3]; exact c
      · intro h1 r h2
        unfold fixVarInObj
        simp only; rw [f2]
        unfold shiftSides
        simp only [urt, hi, h1, Bool.false_eq_true, if_false, upd_same]
        rw [hus.rhs h1 r h2, D.smul_fin, D.sub_fin, hmv]
        congr 1; ring
      · intro h1 r h2
        unfold fixVarInObj
        simp only; rw [f1]
        unfold shiftSides
        simp only [urt, hi, h1, Bool.false_eq_true, if_false, upd_same]
        rw [hus.lhs h1 r h2, D.smul_fin, D.sub_fin, hmv]
        congr 1; ring
  · -- it has none
    have hnew : offCols (K ++ [k]) (s.A i) = offCols K (s.A i) := by
      rw [offCols_snoc]
      exact List.filter_eq_self.mpr (fun p hp => by simpa using hn2 p (List.mem_filter.mp hp).1)
    have hmv : moved s (K ++ [k]) i = moved s K i := by
      unfold moved
      rw [moved_snoc hkD]
      have : mids k (s.A i) = [] := List.filter_eq_nil_iff.mpr (fun p hp => by simpa using hn2 p hp)
      rw [this]; simp
    split
    · exact ⟨by rw [hnew]; exact hus.act, by rw [hmv]; exact hus.rhs, by rw [hmv]; exact hus.lhs⟩
    · rw [uAT]
      obtain ⟨f1, f2, f3⟩ := (shiftFold (.fin v) (s.AT k) (g.colSorted k).nodup u i).2 hn1
      unfold fixVarInObj
      refine ⟨?_, ?_, ?_⟩
      · rw [hnew]; simp only; rw [f3]; exact hus.act
      · simp only; rw [hmv, f2]; exact hus.rhs
      · simp only; rw [hmv, f1]; exact hus.lhs

end

theorem delFixedCol_eq (s : St) (k : ℕ) :
    ∃ l r a o b, delFixedCol s k = { s with lhs := l, rhs := r, act := a, off := o, asrt := b } := by
  have h1 : ∀ (v : D) (p : Cell) (s : St), ∃ l r a, shiftSides v s p =
      { s with lhs := l, rhs := r, act := a } := by
    intro v p s
    unfold shiftSides
    split
    · exact ⟨_, _, _, rfl⟩
    · exact ⟨_, _, _, rfl⟩
  have h2 : ∀ (v : D) (L : List Cell) (s : St), ∃ l r a, L.foldl (shiftSides v) s =
      { s with lhs := l, rhs := r, act := a } := by
    intro v L
    induction L with
    | nil => intro s; exact ⟨_, _, _, rfl⟩
    | cons p L ih =>
      intro s
      rw [List.foldl_cons]
      obtain ⟨l, r, a, e⟩ := h1 v p s
      obtain ⟨l', r', a', e'⟩ := ih (shiftSides v s p)
      exact ⟨l', r', a', by rw [e', e]⟩
  unfold delFixedCol
  simp only
  split
  · exact ⟨_, _, _, _, _, rfl⟩
  · obtain ⟨l, r, a, e⟩ := h2 ((((s.check (s.ctag k).fixed).check (!D.isInf (s.ub k))).check
      (D.eqb (s.lb k) (s.ub k))).ub k) ((((s.check (s.ctag k).fixed).check (!D.isInf (s.ub k))).check
      (D.eqb (s.lb k) (s.ub k))).AT k) (((s.check (s.ctag k).fixed).check (!D.isInf (s.ub k))).check
      (D.eqb (s.lb k) (s.ub k)))
    rw [e]
    exact ⟨_, _, _, _, _, rfl⟩

section
variable {P : LP} {s : St}

theorem delFixedFold (h : Feas P s) (g : GI s) {i : ℕ} (him : i < P.m) (hi : (s.rtag i).inactive = false)
    (K : List ℕ) (hnd : K.Nodup)
    (hK : ∀ k ∈ K, k < P.n ∧ (s.ctag k).fixed = true ∧ s.colSize k ≠ -1) :
    (∃ l r a o b, K.foldl delFixedCol s = { s with lhs := l, rhs := r, act := a, off := o, asrt := b }) ∧
      Shifted s (K.foldl delFixedCol s) K i := by
  induction K using List.reverseRecOn with
  | nil =>
    refine ⟨⟨_, _, _, _, _, rfl⟩, ?_, ?_, ?_⟩
    · have : offCols [] (s.A i) = s.A i := by unfold offCols; simp
      rw [this]; exact h.act i him hi
    · intro _ r hr; simpa [moved] using hr
    · intro _ r hr; simpa [moved] using hr
  | append_singleton K k ih =>
    rw [List.nodup_append] at hnd
    obtain ⟨e, hs⟩ := ih hnd.1 (fun j hj => hK j (List.mem_append_left _ hj))
    obtain ⟨h1, h2, h3⟩ := hK k (by simp)
    rw [List.foldl_append, List.foldl_cons, List.foldl_nil]
    refine ⟨?_, hs.step h g hi (fun hk => hnd.2.2 k hk k (by simp) rfl) h1 h2 h3 e⟩
    obtain ⟨l, r, a, o, b, e⟩ := e
    obtain ⟨l', r', a', o', b', e'⟩ := delFixedCol_eq (K.foldl delFixedCol s) k
    exact ⟨l', r', a', o', b', by rw [e', e]⟩

/-- Deletion of the fixed columns. -/
theorem Feas.delCols (h : Feas P s) (g : GI s) (hr : NoRows s) :
    Feas P (deleteInactiveCols (deleteFixedCols s)) := by
  have hn : ∀ k ∈ s.fixedCols, k < P.n :=
    fun k hk => h.crng k (g.colsDel k (List.mem_append_left _ hk)).2
  have hK : ∀ k ∈ s.fixedCols, k < P.n ∧ (s.ctag k).fixed = true ∧ s.colSize k ≠ -1 := by
    intro k hk
    obtain ⟨h1, h2⟩ := g.colsDel k (List.mem_append_left _ hk)
    refine ⟨hn k hk, ?_, h2⟩
    unfold CTag.inactive at h1
    rwa [(h.col k (hn k hk)).sub, Bool.or_false] at h1
  have hnd : s.fixedCols.Nodup := by
    have := g.colsNodup
    rw [h.subs, List.append_nil] at this; exact this
  have hsh : ∀ i < P.m, (s.rtag i).inactive = false → Shifted s (deleteFixedCols s) s.fixedCols i :=
    fun i him hi => (delFixedFold h g him hi s.fixedCols hnd hK).2
  have hik := deleteFixedCols_inf s
  obtain ⟨l, r, a, o, b, e⟩ := deleteFixedCols_eq s
  have g1 : GI (deleteFixedCols s) := by
    rw [e]
    exact g.of_eq rfl rfl rfl rfl rfl (fun _ => rfl) rfl rfl rfl rfl rfl rfl rfl rfl
  have d := deleteInactiveCols_deleted g1 (by rw [e]; exact hr)
  generalize hu : deleteFixedCols s = u at *
  generalize deleteInactiveCols u = t at *
  have eF : u.fixedCols ++ u.subCols = s.fixedCols := by rw [e]; simp [h.subs]
  have eA : u.A = s.A := by rw [e]
  have tA : ∀ i, t.A i = offCols s.fixedCols (s.A i) := fun i => by rw [d.A, eF, eA]
  have tcs : ∀ k, t.colSize k = if k ∈ s.fixedCols then -1 else s.colSize k := fun k => by
    rw [d.colSize, eF]; rw [e]
  have tlb : t.lb = s.lb := by rw [d.eq, e]
  have tub : t.ub = s.ub := by rw [d.eq, e]
  have tct : t.ctag = s.ctag := by rw [d.eq, e]
  have trt : t.rtag = s.rtag := by rw [d.eq, e]
  have tlg : t.log = s.log := by rw [d.eq, e]
  have tm : t.m = s.m := by rw [d.eq, e]
  have tn : t.n = s.n := by rw [d.eq, e]
  have tr : t.rhs = u.rhs := by rw [d.eq]
  have tl : t.lhs = u.lhs := by rw [d.eq]
  have ta : t.act = u.act := by rw [d.eq]
  have T : ∀ k, Tight s t k := fun k => .of_eq (by rw [tlg]) (by rw [tlb]) (by rw [tub])
  refine ⟨h.valid, tm.trans h.m, tn.trans h.n, by rw [d.eq], fun k hk => ?_,
    by rw [trt]; exact h.rrng, fun k hk => ?_, fun i hi => ?_, fun i hi => ?_⟩
  · rw [tcs] at hk
    split at hk
    · exact absurd rfl hk
    · exact h.crng k hk
  · refine (h.col k hk).frame (by rw [tct]) (fun hx => ?_) (by rw [tlb]) (by rw [tub]) (by rw [tlg])
    rw [tcs] at hx
    split at hx
    · exact absurd rfl hx
    · exact hx
  · have hR := h.row i hi
    have hgone : (s.rtag i).inactive = false → gone P t i = gone P s i + moved s s.fixedCols i := by
      intro ha
      unfold gone moved
      rw [sum_filter_split _ (fun p => decide (s.colSize p.1 = -1)) (fun p => p.2 * (curLb t p.1).toQ),
        List.filter_filter, List.filter_filter, hR.cells ha, List.filter_filter]
      have ec : curLb t = curLb s := by funext k; unfold curLb; rw [tlg, tlb]
      rw [ec]
      congr 1
      · congr 2
        refine List.filter_congr (fun p hp => ?_)
        rw [tcs]
        by_cases h1 : s.colSize p.1 = -1 <;> by_cases h2 : p.1 ∈ s.fixedCols <;> simp [h1, h2]
      · have e2 : (P.A i).filter (fun p => (!decide (s.colSize p.1 = -1)) && decide (t.colSize p.1 = -1)) =
            (P.A i).filter (fun p => decide (p.1 ∈ s.fixedCols) && decide (s.colSize p.1 ≠ -1)) := by
          refine List.filter_congr (fun p hp => ?_)
          rw [tcs]
          by_cases h1 : s.colSize p.1 = -1 <;> by_cases h2 : p.1 ∈ s.fixedCols <;> simp [h1, h2]
        rw [e2]
        congr 1
        refine List.map_congr_left (fun p hp => ?_)
        obtain ⟨hp1, hp2⟩ := List.mem_filter.mp hp
        simp only [Bool.and_eq_true, decide_eq_true_eq] at hp2
        rw [(h.cur (hn p.1 hp2.1) hp2.2).1]
    refine ⟨?_, ?_, ?_, ?_, ?_, ?_, ?_, ?_⟩
    · rw [trt]; intro ha
      rw [tA, hR.cells ha]
      unfold offCols
      rw [List.filter_filter]
      refine List.filter_congr (fun p hp => ?_)
      rw [tcs]
      by_cases h1 : s.colSize p.1 = -1 <;> by_cases h2 : p.1 ∈ s.fixedCols <;> simp [h1, h2]
    · rw [trt]; exact hR.eq
    · rw [trt]; intro ha hb
      obtain ⟨B, h1, h2⟩ := hR.rhs ha hb
      refine ⟨B, h1, ?_⟩
      rw [tr, (hsh i hi ha).rhs hb _ h2, hgone ha]
      congr 1; ring
    · rw [trt]; exact fun hd B hB => (hR.rhsD hd B hB).tight (fun p _ => T p.1)
    · rw [trt]; intro ha hb
      obtain ⟨B, h1, h2⟩ := hR.lhs ha hb
      refine ⟨B, h1, ?_⟩
      rw [tl, (hsh i hi ha).lhs hb _ h2, hgone ha]
      congr 1; ring
    · rw [trt]; exact fun hd B hB => (hR.lhsD hd B hB).tight (fun p _ => T p.1)
    · rw [trt, tr]; exact fun ha hb => (hik.rhs i hb).trans (hR.rhsT ha hb)
    · rw [trt, tl]; exact fun ha hb => (hik.lhs i hb).trans (hR.lhsT ha hb)
  · intro ha
    rw [trt] at ha
    have e' : effTags t = effTags s := by unfold effTags; rw [tct]
    rw [ta, e', tlb, tub, tA]
    exact (hsh i hi ha).act

/-- Deletion of the inactive rows. -/
theorem Feas.delRows (h : Feas P s) (g : GI s) : Feas P (deleteInactiveRows s) := by
  have d := deleteInactiveRows_deleted g
  generalize deleteInactiveRows s = t at *
  have tlb : t.lb = s.lb := by rw [d.eq]
  have tub : t.ub = s.ub := by rw [d.eq]
  have tct : t.ctag = s.ctag := by rw [d.eq]
  have trt : t.rtag = s.rtag := by rw [d.eq]
  have tlg : t.log = s.log := by rw [d.eq]
  have tA : ∀ i, (s.rtag i).inactive = false → t.A i = s.A i := by
    intro i hi
    rw [d.A, if_neg]
    intro hx
    have := (g.rowsDel i hx).1
    rw [hi] at this; cases this
  refine ⟨h.valid, (by rw [d.eq] : t.m = s.m).trans h.m, (by rw [d.eq] : t.n = s.n).trans h.n,
    (by rw [d.eq] : t.subCols = s.subCols).trans h.subs,
    fun k hk => h.crng k (fun he => hk ((d.colGone k).mp he)), by rw [trt]; exact h.rrng,
    fun k hk => ?_, fun i hi => ?_, fun i hi => ?_⟩
  · exact (h.col k hk).frame (by rw [tct]) (fun hx he => hx ((d.colGone k).mp he)) (by rw [tlb]) (by rw [tub])
      (by rw [tlg])
  · exact (h.row i hi).frame (by rw [trt]) (tA i) (fun _ p _ => (d.colGone p.1).symm)
      (fun _ p _ _ => by unfold curLb; rw [tlg, tlb]) (by rw [d.eq]) (by rw [d.eq])
      (fun p _ => .of_eq (by rw [tlg]) (by rw [tlb]) (by rw [tub]))
  · intro ha
    rw [trt] at ha
    have e' : effTags t = effTags s := by unfold effTags; rw [tct]
    have ta : t.act = s.act := by rw [d.eq]
    rw [ta, e', tlb, tub, tA i ha]
    exact h.act i hi ha

end

end Verif
