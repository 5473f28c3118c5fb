import Verif.Inv.StonRowsGood
import Verif.Lemmas.Sides

/-!
# Activities, empty rows and columns, close bounds and dual fixing as elementary steps
-/

namespace Verif

/-- Changing one side of an active row, as an elementary step. -/
theorem sides_raw (μ : Mode) {s t : St} {i : ℕ} {tag : RTag} {l r : D} (g : GI s)
    (hi : (s.rtag i).inactive = false) (ht : tag.inactive = false)
    (hl : LockShift (s.A i) (s.rtag i) tag s.up s.down t.up t.down)
    (h : t = { s with rtag := upd s.rtag i tag, lhs := upd s.lhs i l, rhs := upd s.rhs i r,
                      up := t.up, down := t.down, act := t.act, asrt := t.asrt, updActs := t.updActs
                      stonRows := t.stonRows, dtonRows := t.dtonRows, tick := t.tick }) :
    Raw μ s t := by
  refine .sides i tag l r t.up t.down hi ht hl ?_
  generalize t.up = u at h hl
  generalize t.down = d at h hl
  generalize t.act = a at h
  generalize t.asrt = b at h
  generalize t.updActs = x at h
  generalize t.stonRows = y at h
  generalize t.dtonRows = z at h
  generalize t.tick = w at h
  subst h
  constructor <;> rfl

/-- The state after one row has been checked, when a side is dropped. -/
theorem dropSide_good (μ : Mode) (I : St → Prop) (s : St) (row : ℕ) (lower : Bool)
    (hi : I s → (s.rtag row).inactive = false ∧ (s.rtag row).lhsInf = false ∧ (s.rtag row).rhsInf = false)
    (hN : I s → NoCols s) :
    Good μ I NoCols s
      (if lower then
        { locksEqToIneq { s with rtag := upd s.rtag row { lhsInf := true } } (s.A row) true with
          lhs := upd (locksEqToIneq { s with rtag := upd s.rtag row { lhsInf := true } } (s.A row) true).lhs
            row .ninf }
       else
        { locksEqToIneq { s with rtag := upd s.rtag row { rhsInf := true } } (s.A row) false with
          rhs := upd (locksEqToIneq { s with rtag := upd s.rtag row { rhsInf := true } } (s.A row) false).rhs
            row .pinf }) := by
  have ho := locksEqToIneq_only
  cases lower
  · rw [if_neg Bool.false_ne_true]
    have e := ho { s with rtag := upd s.rtag row { rhsInf := true } } (s.A row) false
    unfold OnlyLocks at e
    refine .of (fun o => ?_) (fun _ i h => ?_)
    · rw [e] at o; exact o
    · have hl := locksEqToIneq_shift { s with rtag := upd s.rtag row { rhsInf := true } } (s.A row)
        (i.gi.rowSorted row) false (s.rtag row) { rhsInf := true } (hi h).2.1 (hi h).2.2 rfl rfl
      generalize locksEqToIneq { s with rtag := upd s.rtag row { rhsInf := true } } (s.A row) false = x at *
      generalize hu : x.up = u at *
      generalize hd : x.down = d at *
      subst e
      refine ⟨.of_raw (sides_raw μ (tag := { rhsInf := true }) (l := s.lhs row) (r := .pinf) i.gi (hi h).1 rfl hl ?_)
        i.gi rfl rfl rfl, hN h⟩
      rw [upd_self]
  · rw [if_pos rfl]
    have e := ho { s with rtag := upd s.rtag row { lhsInf := true } } (s.A row) true
    unfold OnlyLocks at e
    refine .of (fun o => ?_) (fun _ i h => ?_)
    · rw [e] at o; exact o
    · have hl := locksEqToIneq_shift { s with rtag := upd s.rtag row { lhsInf := true } } (s.A row)
        (i.gi.rowSorted row) true (s.rtag row) { lhsInf := true } (hi h).2.1 (hi h).2.2 rfl rfl
      generalize locksEqToIneq { s with rtag := upd s.rtag row { lhsInf := true } } (s.A row) true = x at *
      generalize hu : x.up = u at *
      generalize hd : x.down = d at *
      subst e
      refine ⟨.of_raw (sides_raw μ (tag := { lhsInf := true }) (l := .ninf) (r := s.rhs row) i.gi (hi h).1 rfl hl ?_)
        i.gi rfl rfl rfl, hN h⟩
      rw [upd_self]

theorem checkActivity_lhsRed {a : Act} {l r : D} {t : RTag} (h : (checkActivity a l r t).lhsRed = true) :
    t.lhsInf = false := by
  unfold checkActivity at h
  split at h
  · cases h
  · simp only at h
    split at h
    · cases h
    · simp only [Bool.and_eq_true, Bool.not_eq_true'] at h
      exact h.1.1

theorem checkActivity_rhsRed {a : Act} {l r : D} {t : RTag} (h : (checkActivity a l r t).rhsRed = true) :
    t.rhsInf = false := by
  unfold checkActivity at h
  split at h
  · cases h
  · simp only at h
    split at h
    · cases h
    · simp only [Bool.and_eq_true, Bool.not_eq_true'] at h
      exact h.1.1

theorem checkActRow_good (μ : Mode) (s : St) (row : ℕ) : Good μ NoCols NoCols s (checkActRow s row).1 := by
  unfold checkActRow
  split
  · exact .refl μ _ s
  · rename_i hc
    have hact : (s.rtag row).inactive = false := by
      cases h : (s.rtag row).inactive
      · rfl
      · rw [h] at hc; simp at hc
    simp only
    generalize hs1 : s.check (decide ((s.act row).nInfMin = 0 ∨ (s.act row).nInfMax = 0)) = s1
    have g1 : Good μ NoCols (fun t => NoCols t) s s1 := by rw [← hs1]; exact .check s _ (fun _ h => h)
    have hr1 : s1.rtag = s.rtag := by rw [← hs1]; rfl
    have hact1 : (s1.rtag row).inactive = false := by rw [hr1]; exact hact
    generalize ht : checkActivity (s1.act row) (s1.lhs row) (s1.rhs row) (s1.rtag row) = t
    split
    · exact g1.trans (setRowToInactive_good μ _ _ _ _ (fun h => h))
    · rename_i hb
      split
      · rename_i hl
        have hl1 : (s1.rtag row).lhsInf = false := checkActivity_lhsRed (by rw [ht]; exact hl)
        have hr : (s1.rtag row).rhsInf = false := by
          rw [hl, hl1] at hb
          cases h : (s1.rtag row).rhsInf
          · rfl
          · rw [h] at hb; simp at hb
        have := dropSide_good μ NoCols s1 row true (fun _ => ⟨hact1, hl1, hr⟩) (fun h => h)
        rw [if_pos rfl] at this
        refine g1.trans ?_
        exact this
      · split
        · rename_i hl
          have hr1 : (s1.rtag row).rhsInf = false := checkActivity_rhsRed (by rw [ht]; exact hl)
          have hl1 : (s1.rtag row).lhsInf = false := by
            rw [hl, hr1] at hb
            cases h : (s1.rtag row).lhsInf
            · rfl
            · rw [h] at hb; simp at hb
          have := dropSide_good μ NoCols s1 row false (fun _ => ⟨hact1, hl1, hr1⟩) (fun h => h)
          rw [if_neg Bool.false_ne_true] at this
          refine g1.trans ?_
          exact this
        · exact g1

theorem checkActLoop_good (μ : Mode) (L : List ℕ) (s : St) : Good μ NoCols NoCols s (checkActLoop L s).1 := by
  induction L generalizing s with
  | nil => exact .refl μ _ s
  | cons row rest ih =>
    unfold checkActLoop
    simp only
    split
    · exact checkActRow_good μ s row
    · exact (checkActRow_good μ s row).trans (ih _)

theorem checkActivities_good (μ : Mode) (s : St) : GoodX μ Clean Clean s (checkActivities s) := by
  unfold checkActivities
  simp only
  have g := (checkActLoop_good μ s.updActs s).weaken (I' := Clean) (J' := NoCols) (fun _ h => h.2) (fun _ h => h)
  split
  · rename_i h
    exact g.weaken (fun _ h => h) (fun _ _ hf => absurd (h ▸ hf) not_fine_infeasible)
  · refine .of_good (g.trans (delRows_good μ _ _ _ (fun _ hi d => ⟨d.noRows, ?_, ?_⟩)))
    · rw [d.fixedCols]; exact hi.1
    · rw [d.subCols]; exact hi.2

theorem clean_struct : Struct Clean := fun s t h e =>
  ⟨h.rowsToDelete.trans e.1, h.fixedCols.trans e.2.1, h.subCols.trans e.2.2⟩

/-- Nothing is pending, and the listed empty rows are gone or among `L`. -/
def RowsLeft (L : List ℕ) (s : St) : Prop :=
  Clean s ∧ ∀ i ∈ s.emptyRows, i ∈ L ∨ (s.rtag i).inactive = true

theorem emptyRowLoop_good (μ : Mode) (L : List ℕ) (s : St) :
    Good μ (RowsLeft L) (fun t => Clean t ∧ ((emptyRowLoop L s).2 ≠ INFEASIBLE → RowsLeft [] t)) s
      (emptyRowLoop L s).1 := by
  induction L generalizing s with
  | nil => exact (Good.refl μ _ s).weaken (fun _ h => h) (fun _ h => ⟨h.1, fun _ => h⟩)
  | cons row rest ih =>
    unfold emptyRowLoop
    simp only
    split
    · exact .check s _ (fun _ h => ⟨h.1, fun h' => absurd rfl h'⟩)
    · refine Good.trans (J := RowsLeft rest) ?_ (ih _)
      refine .of (fun o => (Ok.check (s := s) ⟨o.1, o.2⟩).1) (fun o i hi => ?_)
      have hz : decide (s.rowSize row = 0) = true := (Ok.check (μ := μ) (s := s) ⟨o.1, o.2⟩).2
      rw [decide_eq_true_eq] at hz
      have hact : (s.rtag row).inactive = false := by
        cases h : (s.rtag row).inactive
        · rfl
        · have := i.gi.rowPend row h (by rw [hz]; decide)
          rw [hi.1.1] at this; cases this
      have hA : s.A row = [] := by
        have := i.gi.rowSz row (by rw [hz]; decide)
        rw [hz] at this
        exact List.eq_nil_of_length_eq_zero (by omega)
      refine ⟨.of_raw (.emptyRow row hact hA (by constructor <;> rfl)) i.gi rfl rfl rfl, hi.1, fun r hr => ?_⟩
      show r ∈ rest ∨ (upd s.rtag row _ r).inactive = true
      by_cases e : r = row
      · right; rw [e, upd_same]
      · rw [upd_ne _ _ e]
        exact (hi.2 r hr).imp_left (fun h => (List.mem_cons.mp h).resolve_left e)

theorem removeEmptyRows_good (μ : Mode) (s : St) : Good μ Clean Clean s (removeEmptyRows s).1 := by
  unfold removeEmptyRows
  simp only
  have g := (emptyRowLoop_good μ s.emptyRows s).weaken (I' := Clean)
    (J' := fun t => Clean t ∧ ((emptyRowLoop s.emptyRows s).2 ≠ INFEASIBLE → RowsLeft [] t))
    (fun _ h => ⟨h, fun _ hr => .inl hr⟩) (fun _ h => h)
  split
  · exact g.weaken (fun _ h => h) (fun _ h => h.1)
  · rename_i hst
    refine g.trans ?_
    refine .of (fun o => o) (fun _ i h => ⟨⟨.single (.same (by constructor <;> rfl)), fun _ h => Or.inl h,
      fun _ h => Or.inl h, rfl, fun e => ⟨fun j hj ha hA => ?_, e.2⟩⟩, h.1⟩)
    rcases (h.2 hst).2 j (e.1 j hj ha hA) with h | h
    · cases h
    · exact absurd (ha.symm.trans h) (by simp)

/-- Nothing is pending, and the listed empty columns are gone or among `L`. -/
def ColsLeft (L : List ℕ) (s : St) : Prop :=
  Clean s ∧ ∀ k ∈ s.emptyCols, k ∈ L ∨ (s.ctag k).inactive = true

theorem emptyColLoop_good (μ : Mode) (L : List ℕ) (s : St) :
    Good μ (ColsLeft L) (fun t => Clean t ∧ ((emptyColLoop L s).2 ≠ UNBNDORINFEAS → ColsLeft [] t)) s
      (emptyColLoop L s).1 := by
  induction L generalizing s with
  | nil => exact (Good.refl μ _ s).weaken (fun _ h => h) (fun _ h => ⟨h.1, fun _ => h⟩)
  | cons k rest ih =>
    unfold emptyColLoop
    simp only
    split
    · exact .check s _ (fun _ h => ⟨h.1, fun h' => absurd rfl h'⟩)
    · rename_i v hv
      refine Good.trans (J := ColsLeft rest) ?_ (ih _)
      refine .of (fun o => (Ok.check (s := s) ⟨o.1, o.2⟩).1) (fun o i hi => ?_)
      have hz : (decide (s.colSize k = 0) && !(s.ctag k).inactive) = true :=
        (Ok.check (μ := μ) (s := s) ⟨o.1, o.2⟩).2
      rw [Bool.and_eq_true, decide_eq_true_eq, Bool.not_eq_true'] at hz
      have hT : s.AT k = [] := by
        have := i.gi.colSz k hz.2
        rw [hz.1] at this
        exact List.eq_nil_of_length_eq_zero (by omega)
      refine ⟨.of_raw (.emptyCol k v hz.2 hT (by constructor <;> rfl)) i.gi rfl rfl rfl, hi.1, fun r hr => ?_⟩
      show r ∈ rest ∨ (upd s.ctag k _ r).inactive = true
      by_cases e : r = k
      · right; rw [e, upd_same]; rfl
      · rw [upd_ne _ _ e]
        exact (hi.2 r hr).imp_left (fun h => (List.mem_cons.mp h).resolve_left e)

theorem removeEmptyCols_good (μ : Mode) (s : St) : Good μ Clean Clean s (removeEmptyCols s).1 := by
  unfold removeEmptyCols
  simp only
  have g := (emptyColLoop_good μ s.emptyCols s).weaken (I' := Clean)
    (J' := fun t => Clean t ∧ ((emptyColLoop s.emptyCols s).2 ≠ UNBNDORINFEAS → ColsLeft [] t))
    (fun _ h => ⟨h, fun _ hr => .inl hr⟩) (fun _ h => h)
  split
  · exact g.weaken (fun _ h => h) (fun _ h => h.1)
  · rename_i hst
    refine g.trans ?_
    refine .of (fun o => o) (fun _ i h => ⟨⟨.single (.same (by constructor <;> rfl)), fun _ h => Or.inl h,
      fun _ h => Or.inl h, rfl, fun e => ⟨e.1, fun j hj ha hA => ?_⟩⟩, h.1⟩)
    rcases (h.2 hst).2 j (e.2 j hj ha hA) with h | h
    · cases h
    · exact absurd (ha.symm.trans h) (by simp)

theorem closeBoundsLoop_good (μ : Mode) (L : List ℕ) (s : St) : Good μ NoRows NoRows s (closeBoundsLoop L s).1 := by
  induction L generalizing s with
  | nil => exact .refl μ _ s
  | cons k rest ih =>
    unfold closeBoundsLoop
    split
    · exact ih s
    · simp only
      have g1 : Good μ NoRows NoRows s (s.check (!(s.ctag k).inactive)) := .check s _ (fun _ h => h)
      split
      · have g2 : Good μ NoRows NoRows (s.check (!(s.ctag k).inactive))
            ((s.check (!(s.ctag k).inactive)).fuzz (!D.eqb (s.lb k) (s.ub k))) := .fuzz _ _ (fun h => h)
        exact ((g1.trans g2).trans (fixCol_good μ _ noRows_fixStable (fun _ h => h) _ k _)).trans (ih _)
      · split
        · exact g1
        · exact g1.trans (ih _)

theorem closeBounds_good (μ : Mode) (s : St) : GoodX μ Clean Clean s (closeBounds s) := by
  unfold closeBounds
  simp only
  have g := (closeBoundsLoop_good μ (List.range s.n) s).weaken (I' := Clean) (J' := NoRows) (fun _ h => h.1) (fun _ h => h)
  split
  · rename_i h
    exact g.weaken (fun _ h => h) (fun _ _ hf => absurd (h ▸ hf) not_fine_infeasible)
  · exact .of_good (g.trans (delCols_good μ _ _ _ id (fun _ _ d => ⟨d.noRows, d.noFixed, d.noSub⟩)))

end Verif
