import Verif.Inv.Del

/-!
# Simple reductions as elementary steps
-/

namespace Verif

/-- Neither `INFEASIBLE` nor `UNBNDORINFEAS`. -/
def fine (st : Status) : Prop := hasStatus st UNBNDORINFEAS = false

/-- `Good` for a function with a status: elementary steps in any case, the postcondition unless the
problem was found infeasible or unbounded. -/
def GoodX (μ : Mode) (I J : St → Prop) (s : St) (r : St × Status) : Prop :=
  Good μ I (fun t => fine r.2 → J t) s r.1

instance (st : Status) : Decidable (fine st) := by unfold fine; infer_instance

theorem fine_unchanged : fine UNCHANGED := by decide
theorem fine_reduced : fine REDUCED := by decide
theorem not_fine_infeasible : ¬ fine INFEASIBLE := by decide
theorem not_fine_unbnd : ¬ fine UNBNDORINFEAS := by decide

section
variable {μ : Mode} {I J K : St → Prop} {a b c : St}

/-- A property that elementary steps preserve goes along. -/
theorem Good.keep {P : St → Prop} (h : Good μ I J a b) (hP : Mono a b → P a → P b) :
    Good μ (fun s => I s ∧ P s) (fun s => J s ∧ P s) a b := by
  intro o
  obtain ⟨o', k⟩ := h o
  refine ⟨o', fun i hi => ?_⟩
  obtain ⟨r, hj⟩ := k i hi.1
  exact ⟨r, hj, hP (r.mono i) hi.2⟩

theorem GoodX.of_good {st : Status} (h : Good μ I J a b) : GoodX μ I J a (b, st) :=
  h.weaken (fun _ => id) (fun _ hj _ => hj)

theorem GoodX.to_good {r : St × Status} (h : GoodX μ I J a r) (hf : fine r.2) : Good μ I J a r.1 :=
  h.weaken (fun _ => id) (fun _ hj => hj hf)

end

theorem not_and_true {a b : Bool} (h : (!a && !b) = true) : a = false ∧ b = false := by
  cases a <;> cases b <;> simp_all

theorem CTag.inactive_false {t : CTag} : t.inactive = false ↔ t.fixed = false ∧ t.subst = false := by
  unfold CTag.inactive; cases t.fixed <;> cases t.subst <;> simp

/-- Removal of an equality row with at most one cell. -/
theorem removeStonRow_eq_good (μ : Mode) (s : St) (row : ℕ) (heq : (s.rtag row).eq = true) :
    Good μ (fun s => NoRows s ∧ (s.A row).length ≤ 1) NoRows s (removeStonRow s row).1 := by
  unfold removeStonRow
  split
  · exact ((Good.refl μ NoRows s).weaken (fun _ h => h.1) (fun _ h => h))
  · rename_i k aik rest hA
    simp only
    generalize hs1 : s.check (!(s.rtag row).inactive && !(s.ctag k).subst) = s1
    have hc1 : s1.ctag = s.ctag := by rw [← hs1]; rfl
    have hr1 : s1.rtag = s.rtag := by rw [← hs1]; rfl
    rw [hc1]
    by_cases hf : (s.ctag k).fixed = true
    · rw [if_pos hf]
      rw [← hs1]
      exact (Good.check s _ (fun _ h => h.1))
    · rw [if_neg hf]
      have heq2 : ((s1.check (!(s.ctag k).inactive)).rtag row).eq = true := by
        show (s1.rtag row).eq = true
        rw [hr1]; exact heq
      rw [if_pos heq2]
      have hs2 : ∃ b, (s1.check (!(s.ctag k).inactive)).check (D.eqb (s.lhs row) (s.rhs row)) =
          { s with asrt := b } ∧ (b = true → s.asrt = true ∧ (s.rtag row).inactive = false ∧
            (s.ctag k).inactive = false) := by
        refine ⟨s.asrt && (!(s.rtag row).inactive && !(s.ctag k).subst) && (!(s.ctag k).inactive) &&
          D.eqb (s.lhs row) (s.rhs row), by rw [← hs1]; rfl, fun h => ?_⟩
        simp only [Bool.and_eq_true] at h
        obtain ⟨⟨⟨h1, h2, -⟩, h3⟩, -⟩ := h
        exact ⟨h1, by simpa using h2, by simpa using h3⟩
      obtain ⟨b, hs2, hb⟩ := hs2
      rw [hs2]
      rcases fixCol_eq { s with asrt := b } k (D.divq (s.rhs row) aik) (s.c k) with
        ⟨b', e, hb'⟩ | ⟨b', a, u, e, hb'⟩
      · rw [e]
        rw [if_pos rfl]
        refine (Good.same ?_ rfl rfl rfl (fun o => ?_) (fun _ h => h.1))
        · constructor <;> rfl
        · exact ⟨(hb (hb' o.1).1).1, o.2⟩
      · rw [e]
        rw [if_neg (show ¬ REDUCED = INFEASIBLE by decide)]
        have hok : ∀ x : St, x.asrt = b' → x.asrt = true → s.asrt = true ∧ (s.rtag row).inactive = false ∧
            (s.ctag k).inactive = false := fun x hx hx' => hb (hb' (hx.symm.trans hx')).1
        refine (Good.of (fun o => ⟨(hok _ rfl o.1).1, o.2⟩) (fun o i hi => ?_))
        obtain ⟨h1, h2, h3⟩ := hok _ rfl o.1
        have hrow : s.A row = [(k, aik)] := by
          have := hi.2
          rw [hA] at this ⊢
          cases rest with
          | nil => rfl
          | cons => simp at this
        refine ⟨.of_raw (.stonEq row k aik (D.divq (s.rhs row) aik) h2 h3 hrow
          (i.gi.rowsActive hi.1 h3) ?_) i.gi rfl rfl rfl (hA := fun j => ?_), hi.1⟩
        · constructor <;> rfl
        · by_cases ej : j = row
          · left
            show (upd s.rtag row _ j).inactive = true
            rw [ej, upd_same]
          · right
            exact upd_ne _ _ ej

/-- A predicate about the rows waiting for deletion survives bound changes. -/
theorem noRows_boundStable : BoundStable NoRows :=
  ⟨noRows_fixStable.core, fun _ _ _ _ _ _ _ _ _ _ _ _ _ h => h⟩

/-- The cell and the tag of a row survive bound changes. -/
theorem cell_boundStable (row k : ℕ) :
    BoundStable (fun s => (s.rtag row).inactive = false ∧ ∃ v, (k, v) ∈ s.A row) :=
  ⟨fun s t h e => by rw [h.rtag, h.A]; exact e, fun _ _ _ _ _ _ _ _ _ _ _ _ _ h => h⟩

theorem ston_bounds_good (μ : Mode) (s : St) (row k : ℕ) (f g : St → St × Status)
    (hf : ∀ s, Good μ (fun s => (s.rtag row).inactive = false ∧ ∃ v, (k, v) ∈ s.A row)
      (fun s => (s.rtag row).inactive = false ∧ ∃ v, (k, v) ∈ s.A row) s (f s).1)
    (hg : ∀ s, Good μ (fun s => (s.rtag row).inactive = false ∧ ∃ v, (k, v) ∈ s.A row)
      (fun s => (s.rtag row).inactive = false ∧ ∃ v, (k, v) ∈ s.A row) s (g s).1) :
    GoodX μ (fun s => (s.rtag row).inactive = false ∧ ∃ v, (k, v) ∈ s.A row) (fun _ => True) s
      (if (f s).2 = INFEASIBLE then ((f s).1, INFEASIBLE)
       else if (g (f s).1).2 = INFEASIBLE then ((g (f s).1).1, INFEASIBLE)
       else (setRowToInactive (g (f s).1).1 row 0, REDUCED)) := by
  split
  · exact .of_good ((hf s).weaken (fun _ => id) (fun _ _ => trivial))
  · split
    · exact .of_good (((hf s).trans (hg _)).weaken (fun _ => id) (fun _ _ => trivial))
    · exact .of_good (((hf s).trans (hg _)).trans (setRowToInactive_good μ _ _ _ _ (fun _ => trivial)))

/-- Removal of an inequality row with at most one cell. -/
theorem removeStonRow_ineq_good (μ : Mode) (s : St) (row : ℕ) (heq : (s.rtag row).eq = false) :
    GoodX μ (fun _ => True) (fun _ => True) s (removeStonRow s row) := by
  unfold removeStonRow
  split
  · exact .of_good (.refl μ _ s)
  · rename_i k aik rest hA
    simp only
    generalize hs1 : s.check (!(s.rtag row).inactive && !(s.ctag k).subst) = s1
    have hc1 : s1.ctag = s.ctag := by rw [← hs1]; rfl
    have hr1 : s1.rtag = s.rtag := by rw [← hs1]; rfl
    rw [hc1]
    have g1 : Good μ (fun _ => True) (fun s => (s.rtag row).inactive = false ∧ ∃ v, (k, v) ∈ s.A row) s s1 := by
      rw [← hs1]
      refine .check s _ (fun h _ => ⟨(not_and_true h).1, aik, ?_⟩)
      show (k, aik) ∈ s.A row
      rw [hA]; exact List.mem_cons_self
    by_cases hf : (s.ctag k).fixed = true
    · rw [if_pos hf]
      exact .of_good (g1.weaken (fun _ => id) (fun _ _ => trivial))
    · rw [if_neg hf]
      generalize hs2 : s1.check (!(s.ctag k).inactive) = s2
      have hr2 : s2.rtag = s.rtag := by rw [← hs2]; exact hr1
      have g2 : Good μ (fun _ => True) (fun s => (s.rtag row).inactive = false ∧ ∃ v, (k, v) ∈ s.A row) s s2 := by
        refine g1.trans ?_
        rw [← hs2]
        exact .check s1 _ (fun _ h => h)
      rw [hr2, heq, if_neg Bool.false_ne_true]
      have hl : ∀ v s, Good μ (fun s => (s.rtag row).inactive = false ∧ ∃ v, (k, v) ∈ s.A row)
          (fun s => (s.rtag row).inactive = false ∧ ∃ v, (k, v) ∈ s.A row) s (updateLb s k v row).1 :=
        fun v s => updateLb_good μ _ (cell_boundStable row k) s k v row (fun _ h => h)
      have hu : ∀ v s, Good μ (fun s => (s.rtag row).inactive = false ∧ ∃ v, (k, v) ∈ s.A row)
          (fun s => (s.rtag row).inactive = false ∧ ∃ v, (k, v) ∈ s.A row) s (updateUb s k v row).1 :=
        fun v s => updateUb_good μ _ (cell_boundStable row k) s k v row (fun _ h => h)
      have hc : ∀ (b : Bool) (f : St → St × Status),
          (∀ s, Good μ (fun s => (s.rtag row).inactive = false ∧ ∃ v, (k, v) ∈ s.A row)
            (fun s => (s.rtag row).inactive = false ∧ ∃ v, (k, v) ∈ s.A row) s (f s).1) →
          ∀ s, Good μ (fun s => (s.rtag row).inactive = false ∧ ∃ v, (k, v) ∈ s.A row)
            (fun s => (s.rtag row).inactive = false ∧ ∃ v, (k, v) ∈ s.A row) s
            (if b then (s, UNCHANGED) else f s).1 := by
        intro b f hf s
        cases b
        · exact hf s
        · exact .refl μ _ s
      split
      · exact g2.trans (ston_bounds_good μ s2 row k
          (fun t => if (s.rtag row).rhsInf then (t, UNCHANGED) else updateUb t k (D.divq (s.rhs row) aik) row)
          (fun t => if (s.rtag row).lhsInf then (t, UNCHANGED) else updateLb t k (D.divq (s.lhs row) aik) row)
          (hc _ _ (hu _)) (hc _ _ (hl _)))
      · exact g2.trans (ston_bounds_good μ s2 row k
          (fun t => if (s.rtag row).rhsInf then (t, UNCHANGED) else updateLb t k (D.divq (s.rhs row) aik) row)
          (fun t => if (s.rtag row).lhsInf then (t, UNCHANGED) else updateUb t k (D.divq (s.lhs row) aik) row)
          (hc _ _ (hl _)) (hc _ _ (hu _)))

end Verif
