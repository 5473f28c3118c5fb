import Verif.Inv.ParRowsGood

/-!
# Parallel columns as elementary steps
-/

namespace Verif

theorem fixCol_goodJ (μ : Mode) (I J : St → Prop) (s : St) (k : ℕ) (val : D) (hN : I s → NoRows s)
    (hc : ∀ t, SameCore s t → I s → J t)
    (hf : ∀ t, SameCore (fixStep s k val (s.c k)) t → (s.ctag k).inactive = false → I s → J t) :
    Good μ I J s (fixCol s k val (s.c k)).1 := by
  refine .of (fun o => (fixCol_le μ s k val _ o).1) (fun o i hi => ?_)
  rcases fixCol_eq s k val (s.c k) with ⟨b, e, hb⟩ | ⟨b, a, u, e, hb⟩
  · rw [e]
    have h : SameCore s { s with asrt := b } := by constructor <;> rfl
    exact ⟨.of_same h rfl rfl rfl, hc _ h hi⟩
  · rw [e] at o ⊢
    obtain ⟨h1, h2, h3⟩ := hb o.1
    have h : SameCore (fixStep s k val (s.c k))
      { fixStep s k val (s.c k) with act := a, updActs := u, asrt := b } := by constructor <;> rfl
    exact ⟨.of_raw (.fix k val h2 (fun p hp => i.gi.rowsActive (hN hi) h2 _ hp) h) i.gi rfl rfl rfl,
      hf _ h h2 hi⟩

/-- No rows are pending and the listed columns have cells. -/
def ColsReady (cols : List ℕ) (s : St) : Prop := NoRows s ∧ ∀ k ∈ cols, s.AT k ≠ []

/-- The same, and column `j` is active with cost `cj`. -/
def JReady (j : ℕ) (cj : ℚ) (cols : List ℕ) (s : St) : Prop :=
  ColsReady cols s ∧ (s.ctag j).inactive = false ∧ s.c j = cj

theorem mergeCols_good (μ : Mode) (hμ : μ.merge = true) (j k : ℕ) (cj : ℚ) (cols : List ℕ) (hjk : j ≠ k) (s : St)
    (hk : (s.ctag k).inactive = false) (ratio : ℚ) :
    Good μ (JReady j cj cols) (JReady j cj cols) s (mergeCols s j k ratio) := by
  have hle : Ok μ (mergeCols s j k ratio) → Ok μ s := by
    rintro ⟨h1, h2, h3⟩
    refine ⟨?_, fun hr => (Bool.or_eq_false_iff.mp (h2 hr)).1, h3⟩
    unfold mergeCols setColToSubstituted St.check St.save at h1
    simp only [Bool.and_eq_true] at h1
    first
      | exact h1
      | exact h1.1
      | exact h1.1.1
  have hex : Ok μ (mergeCols s j k ratio) → μ.round = true ∨ (s.c k = ratio * s.c j ∧
      s.AT k = (s.AT j).map (fun p => (p.1, ratio * p.2))) := by
    rintro ⟨_, h2, _⟩
    cases hr : μ.round with
    | true => exact .inl rfl
    | false =>
      have := (Bool.or_eq_false_iff.mp (h2 hr)).2
      unfold mergeInexact at this
      rw [Bool.or_eq_false_iff, decide_eq_false_iff_not, decide_eq_false_iff_not, not_not, not_not] at this
      exact .inr this
  refine .of hle (fun o inv hi => ⟨.of_raw (.merge j k ratio hjk hi.2.1 hk hμ (hex o) (.refl _)) inv.gi rfl rfl rfl, hi.1, ?_, hi.2.2⟩)
  have : (mergeCols s j k ratio).ctag j = mergeTag ratio (s.ctag j) (s.ctag k) := by
    unfold mergeCols setColToSubstituted St.check St.save
    simp only
    rw [upd_ne _ _ hjk, upd_same]
  rw [this, mergeTag_inactive]
  exact hi.2.1

theorem parColInner_good (μ : Mode) (hμ : μ.merge = true) (j : ℕ) (cj aj0 : ℚ) (cols L : List ℕ) (hL : ∀ k ∈ L, k ≠ j)
    (s : St) (rec : Bool) :
    Good μ (JReady j cj cols) (ColsReady cols) s (parColInner j cj aj0 L s rec).1 := by
  have hend : ∀ t, Good μ (JReady j cj cols) (ColsReady cols) t t := fun t =>
    (Good.refl μ (JReady j cj cols) t).weaken (fun _ h => h) (fun _ h => h.1)
  induction L generalizing s rec with
  | nil => exact hend s
  | cons k rest ih =>
    have ih := ih (fun i hi => hL i (List.mem_cons_of_mem _ hi))
    have hkj := hL k List.mem_cons_self
    unfold parColInner
    split
    · exact ih s rec
    · rename_i hk
      have hk : (s.ctag k).inactive = false := by simpa using hk
      simp only
      have g1 : Good μ (JReady j cj cols) (JReady j cj cols) s (s.check (decide (firstCoef (s.AT k) / aj0 ≠ 0))) :=
        .check s _ (fun _ h => h)
      split
      · exact g1.trans ((mergeCols_good μ hμ j k cj cols hkj.symm (s.check (decide (firstCoef (s.AT k) / aj0 ≠ 0))) hk _).trans (ih _ _))
      · generalize hs2 : (s.check (decide (firstCoef (s.AT k) / aj0 ≠ 0))).check
          (!((s.check (decide (firstCoef (s.AT k) / aj0 ≠ 0))).ctag j).inactive &&
            decide (s.c k ≠ firstCoef (s.AT k) / aj0 * cj)) = s2
        have g2 : Good μ (JReady j cj cols) (JReady j cj cols) s s2 := by
          rw [← hs2]; exact g1.trans (.check _ _ (fun _ h => h))
        have hc2 : s.c = s2.c := by rw [← hs2]; rfl
        have gk : ∀ val, Good μ (JReady j cj cols) (JReady j cj cols) s2 (fixCol s2 k val (s.c k)).1 := by
          intro val
          rw [hc2]
          refine fixCol_goodJ μ _ _ s2 k val (fun h => h.1.1) (fun t e h => ?_) (fun t e _ h => ?_)
          · exact ⟨⟨e.rowsToDelete.trans h.1.1, fun i hi => by rw [e.AT]; exact h.1.2 i hi⟩,
              by rw [e.ctag]; exact h.2.1, by rw [e.c]; exact h.2.2⟩
          · refine ⟨⟨e.rowsToDelete.trans h.1.1, fun i hi => by rw [e.AT]; exact h.1.2 i hi⟩,
              ?_, by rw [e.c]; exact h.2.2⟩
            rw [e.ctag]
            show (upd s2.ctag k _ j).inactive = false
            rw [upd_ne _ _ hkj.symm]; exact h.2.1
        have gj : ∀ val, Good μ (JReady j cj cols) (ColsReady cols) s2 (fixCol s2 j val cj).1 := by
          intro val
          intro o
          refine ⟨(fixCol_le μ s2 j val _ o).1, fun inv h => ?_⟩
          have hcj := h.2.2
          have := fixCol_goodJ μ (JReady j cj cols) (ColsReady cols) s2 j val (fun h => h.1.1)
            (fun t e h => ⟨e.rowsToDelete.trans h.1.1, fun i hi => by rw [e.AT]; exact h.1.2 i hi⟩)
            (fun t e _ h => ⟨e.rowsToDelete.trans h.1.1, fun i hi => by rw [e.AT]; exact h.1.2 i hi⟩)
          rw [hcj] at this
          exact (this o).2 inv h
        split
        · exact g2.trans (ih _ _)
        · split
          · exact g2.trans (hend _)
          · exact g2.trans ((gk _).trans (ih _ _))
        · split
          · exact g2.trans (hend _)
          · exact g2.trans ((gk _).trans (ih _ _))
        · split
          · exact g2.trans (hend _)
          · exact g2.trans (gj _)
        · split
          · exact g2.trans (hend _)
          · exact g2.trans (gj _)

theorem recountRows_eq (s : St) (cells : List Cell) : ∃ a, recountRows s cells = { s with act := a } := by
  unfold recountRows
  induction cells generalizing s with
  | nil => exact ⟨s.act, rfl⟩
  | cons p L ih =>
    rw [List.foldl_cons]
    obtain ⟨a, e⟩ := ih { s with act := upd s.act p.1 (recomputeNInfs s.ctag (s.act p.1) (s.A p.1)) }
    exact ⟨a, e⟩

theorem parColsBin_good (μ : Mode) (hμ : μ.merge = true) (cols L : List ℕ) (hnd : L.Nodup) (hL : ∀ k ∈ L, k ∈ cols)
    (s : St) : Good μ (ColsReady cols) (ColsReady cols) s (parColsBin L s).1 := by
  induction L generalizing s with
  | nil => exact .refl μ _ s
  | cons j rest ih =>
    have ih := ih (List.nodup_cons.mp hnd).2 (fun k hk => hL k (List.mem_cons_of_mem _ hk))
    unfold parColsBin
    split
    · exact .refl μ _ s
    · split
      · exact ih s
      · rename_i hj
        have hj : (s.ctag j).inactive = false := by simpa using hj
        simp only
        generalize hs1 : s.flag ((j :: rest).any (fun i => !(s.ctag i).inactive && decide (s.AT i = []))) = s1
        have g0 : Good μ (ColsReady cols) (JReady j (s1.c j) cols) s s1 := by
          rw [← hs1]
          refine .of (fun o => o) (fun _ inv h => ⟨.of_same (by constructor <;> rfl) rfl rfl ?_, h, hj, rfl⟩)
          show (s.undef || _) = s.undef
          have : (j :: rest).any (fun i => !(s.ctag i).inactive && decide (s.AT i = [])) = false := by
            rw [List.any_eq_false]
            intro i hi
            have := h.2 i (hL i hi)
            simp [this]
          rw [this, Bool.or_false]
        have g1 := g0.trans (parColInner_good μ hμ j (s1.c j) (firstCoef (s1.AT j)) cols rest
          (fun k hk e => (List.nodup_cons.mp hnd).1 (e ▸ hk)) s1 false)
        generalize parColInner j (s1.c j) (firstCoef (s1.AT j)) rest s1 false = r at *
        split
        · exact g1
        · refine Good.trans (J := ColsReady cols) ?_ (ih _)
          split
          · refine g1.trans ?_
            obtain ⟨a, e⟩ := recountRows_eq r.1 (r.1.AT j)
            rw [e]
            exact .same (by constructor <;> rfl) rfl rfl rfl (fun o => o) (fun _ h => h)
          · exact g1

theorem parColsBins_good (μ : Mode) (hμ : μ.merge = true) (cols : List ℕ) (groups : List (List ℕ)) (hnd : groups.flatten.Nodup)
    (hL : ∀ k ∈ groups.flatten, k ∈ cols) (s : St) :
    Good μ (ColsReady cols) (ColsReady cols) s (parColsBins groups s).1 := by
  unfold parColsBins
  suffices ∀ (acc : St × Status), Good μ (ColsReady cols) (ColsReady cols) acc.1
      (groups.foldl (fun acc bin => let r := parColsBin bin acc.1; (r.1, acc.2 ||| r.2)) acc).1 from this (s, UNCHANGED)
  induction groups with
  | nil => exact fun acc => .refl μ _ _
  | cons bin rest ih =>
    intro acc
    rw [List.flatten_cons] at hnd hL
    rw [List.foldl_cons]
    refine Good.trans (J := ColsReady cols) ?_ (ih (List.nodup_append.mp hnd).2.1
      (fun k hk => hL k (List.mem_append_right _ hk)) _)
    exact parColsBin_good μ hμ cols bin (List.nodup_append.mp hnd).1 (fun k hk => hL k (List.mem_append_left _ hk)) _

theorem removeParallelCols_good (μ : Mode) (hμ : μ.merge = true) (env : Env) (hs : env.SortOK) (s : St) :
    Good μ CE Clean s (removeParallelCols env s).1 := by
  unfold removeParallelCols
  simp only
  generalize hs1 : ((s.check (decide (s.stonRows = []))).check (decide (s.emptyRows = []))).check
    (decide (s.emptyCols = [])) = s1
  have g1 : Good μ CE (fun t => CE t ∧ t.emptyRows = [] ∧ t.emptyCols = []) s s1 := by
    rw [← hs1]
    refine .trans (J := CE) (.check s _ (fun _ h => h)) (.trans (J := fun t => CE t ∧ t.emptyRows = []) (.check _ _ (fun h h' => ⟨h', of_decide_eq_true h⟩))
      (.check _ _ (fun h h' => ⟨h'.1, h'.2, of_decide_eq_true h⟩)))
  refine g1.trans ?_
  clear hs1 g1
  have hg : (CE s1 ∧ s1.emptyRows = [] ∧ s1.emptyCols = []) →
      ColsReady (findParallel env s1.tick s1.AT (fun i => (s1.ctag i).inactive) s1.n).flatten s1 := by
    intro h
    have hc := groups_cells hs (tick := s1.tick) (M := s1.AT) (inactive := fun i => (s1.ctag i).inactive) (n := s1.n)
      (fun i hi ha hA => by
        have := h.1.2.2 i hi ha hA
        rw [h.2.2] at this; cases this)
    exact ⟨h.1.1.1, fun i hi => (hc.2 i hi).2⟩
  have hnd := (findGroups_sound (rowKey env s1.tick s1.AT (fun i => (s1.ctag i).inactive))
    (fun i => (s1.ctag i).inactive) s1.AT
    (env.sort s1.tick (rowKey env s1.tick s1.AT (fun i => (s1.ctag i).inactive)) (List.range s1.n))
    ((hs.perm _ _ _).nodup_iff.mpr List.nodup_range)).1
  have gt : Good μ (fun t => CE t ∧ t.emptyRows = [] ∧ t.emptyCols = [])
      (ColsReady (findParallel env s1.tick s1.AT (fun i => (s1.ctag i).inactive) s1.n).flatten) s1
      { s1 with tick := s1.tick + 1 } := by
    refine .of (fun o => o) (fun _ inv h => ⟨.of_same (by constructor <;> rfl) rfl rfl rfl, hg h⟩)
  refine (gt.trans (parColsBins_good μ hμ _ _ hnd (fun _ h => h) _)).trans
    (delCols_good μ _ _ _ (fun h => h.1) (fun _ _ d => ⟨d.noRows, d.noFixed, d.noSub⟩))

end Verif
