import Verif.Inv.SimpleGood
import Verif.Model.Driver

/-!
# Singleton rows as elementary steps
-/

namespace Verif

/-- The rows of a list have at most one cell. -/
def Short (L : List ℕ) (s : St) : Prop := ∀ i ∈ L, (s.A i).length ≤ 1

theorem Short.mono {L : List ℕ} {s t : St} (m : Mono s t) (h : Short L s) : Short L t :=
  fun i hi => (m.len i).trans (h i hi)

theorem stonEqLoop_good (μ : Mode) (L : List ℕ) (s : St) :
    Good μ (fun s => NoRows s ∧ Short L s) NoRows s (stonEqLoop L s).1 := by
  induction L generalizing s with
  | nil => exact (Good.refl μ _ s).weaken (fun _ h => h.1) (fun _ h => h)
  | cons row rest ih =>
    unfold stonEqLoop
    split
    · exact (ih s).weaken (fun _ h => ⟨h.1, fun i hi => h.2 i (List.mem_cons_of_mem _ hi)⟩) (fun _ => id)
    · rename_i hc
      have heq : (s.rtag row).eq = true := by
        cases h : (s.rtag row).eq
        · rw [h] at hc; simp at hc
        · rfl
      simp only
      have g := removeStonRow_eq_good μ s row heq
      split
      · exact g.weaken (fun _ h => ⟨h.1, h.2 row List.mem_cons_self⟩) (fun _ h => h)
      · have g2 := g.keep (P := Short rest) Short.mono
        refine (g2.weaken (I' := fun s => NoRows s ∧ Short (row :: rest) s)
          (J' := fun s => NoRows s ∧ Short rest s) (fun _ h => ?_) (fun _ h => h)).trans (ih _)
        exact ⟨⟨h.1, h.2 row List.mem_cons_self⟩, fun i hi => h.2 i (List.mem_cons_of_mem _ hi)⟩

theorem stonIneqLoop_good (μ : Mode) (L : List ℕ) (s : St) :
    GoodX μ (fun _ => True) (fun _ => True) s (stonIneqLoop L s) := by
  induction L generalizing s with
  | nil => exact .of_good (.refl μ _ s)
  | cons row rest ih =>
    unfold stonIneqLoop
    split
    · exact ih s
    · rename_i hc
      have heq : (s.rtag row).eq = false := by
        cases h : (s.rtag row).eq
        · rfl
        · rw [h] at hc; simp at hc
      simp only
      have g : Good μ (fun _ => True) (fun _ => True) s (removeStonRow s row).1 :=
        Good.weaken (removeStonRow_ineq_good μ s row heq) (fun _ => id) (fun _ _ => trivial)
      split
      · exact .of_good g
      · exact g.trans (ih _)

/-- Number of rows with at least two cells. -/
def long (s : St) : ℕ := ((List.range s.m).filter (fun i => decide (2 ≤ (s.A i).length))).length

theorem long_le (s : St) : long s ≤ s.m := by
  refine (List.length_filter_le _ _).trans ?_
  rw [List.length_range]

theorem filter_length_le_of_imp {α : Type} (l : List α) (p q : α → Bool) (h : ∀ a ∈ l, p a = true → q a = true) :
    (l.filter p).length ≤ (l.filter q).length := by
  induction l with
  | nil => exact le_refl _
  | cons a l ih =>
    have ih := ih (fun b hb => h b (List.mem_cons_of_mem _ hb))
    rw [List.filter_cons, List.filter_cons]
    by_cases hp : p a = true
    · rw [if_pos hp, if_pos (h a List.mem_cons_self hp)]; simpa using ih
    · rw [if_neg hp]
      split
      · rw [List.length_cons]; omega
      · exact ih

theorem filter_length_lt_of_imp {α : Type} (l : List α) (p q : α → Bool) (h : ∀ a ∈ l, p a = true → q a = true)
    {x : α} (hx : x ∈ l) (h1 : p x = false) (h2 : q x = true) :
    (l.filter p).length < (l.filter q).length := by
  induction l with
  | nil => cases hx
  | cons a l ih =>
    have hl := filter_length_le_of_imp l p q (fun b hb => h b (List.mem_cons_of_mem _ hb))
    rw [List.filter_cons, List.filter_cons]
    rcases List.mem_cons.mp hx with e | e
    · subst e
      rw [if_neg (by rw [h1]; simp), if_pos h2, List.length_cons]; omega
    · have ih := ih (fun b hb => h b (List.mem_cons_of_mem _ hb)) e
      by_cases hp : p a = true
      · rw [if_pos hp, if_pos (h a List.mem_cons_self hp)]; simpa using ih
      · rw [if_neg hp]
        split
        · rw [List.length_cons]; omega
        · exact ih

theorem long_mono {s t : St} (m : Mono s t) : long t ≤ long s := by
  unfold long
  rw [m.m]
  refine filter_length_le_of_imp _ _ _ (fun i _ h => ?_)
  rw [decide_eq_true_eq] at h ⊢
  exact h.trans (m.len i)

theorem long_lt {s t : St} (m : Mono s t) {i : ℕ} (hi : i < s.m) (h1 : 2 ≤ (s.A i).length)
    (h2 : (t.A i).length ≤ 1) : long t < long s := by
  unfold long
  rw [m.m]
  refine filter_length_lt_of_imp _ _ _ (fun i _ h => ?_) (List.mem_range.mpr hi) ?_ (by simpa using h1)
  · rw [decide_eq_true_eq] at h ⊢
    exact h.trans (m.len i)
  · simp; omega

/-- `s'` has no singleton rows left or fewer long rows than a number. -/
def StonLess (N : ℕ) (s : St) : Prop := s.stonRows = [] ∨ long s < N

theorem delStep_good (μ : Mode) (N : ℕ) (s : St) :
    Good μ (fun s => s.stonRows = [] ∧ long s ≤ N) (fun s => Clean s ∧ StonLess N s) s
      (deleteInactiveCols (deleteFixedCols (deleteInactiveRows s))) := by
  have g1 : Good μ (fun s => s.stonRows = [] ∧ long s ≤ N) (fun s => NoRows s ∧ s.stonRows = [] ∧ long s ≤ N) s
      (deleteInactiveRows s) := by
    refine delRows_good μ _ _ s (fun i hi d => ⟨d.noRows, ?_, ?_⟩)
    · rw [d.eq]; exact hi.1
    · have m := Raw.mono (.delRows (.refl _) : Raw μ s (deleteInactiveRows s)) i.gi
      exact (long_mono m).trans hi.2
  refine g1.trans (delCols_good μ _ _ _ (fun h => h.1) (fun i hi d => ⟨⟨d.noRows, d.noFixed, d.noSub⟩, ?_⟩))
  have m := Raw.mono (.delCols hi.1 (.refl _) : Raw μ _ _) i.gi
  by_cases he : (deleteInactiveCols (deleteFixedCols (deleteInactiveRows s))).stonRows = []
  · exact Or.inl he
  · right
    obtain ⟨j, hj⟩ := List.exists_mem_of_ne_nil _ he
    rcases d.ston j hj with h | ⟨-, h2, h3⟩
    · rw [hi.2.1] at h; cases h
    · have hjm : j < (deleteInactiveRows s).m := by
        obtain ⟨p, hp⟩ := List.exists_mem_of_ne_nil ((deleteInactiveRows s).A j) (by
          intro e; rw [e] at h3; simp at h3)
        exact (i.gi.rowRange j p hp).1
      exact lt_of_lt_of_le (long_lt m hjm h3 h2.le) hi.2.2

theorem removeStonRows_good (μ : Mode) (N : ℕ) (s : St) :
    GoodX μ (fun s => Clean s ∧ long s ≤ N) (fun s => Clean s ∧ StonLess N s) s (removeStonRows s) := by
  unfold removeStonRows
  split
  · rename_i h
    exact .of_good ((Good.refl μ Clean s).weaken (fun _ h => h.1) (fun _ hj => ⟨hj, Or.inl h⟩))
  · simp only
    have g1 : Good μ (fun s => Clean s ∧ long s ≤ N) (fun t => NoRows t ∧ long t ≤ N)
        s (stonEqLoop s.stonRows s).1 := by
      refine .assume (fun _ i hi => ?_) (fun o => (stonEqLoop_good μ s.stonRows s o).1)
      refine (Good.keep (stonEqLoop_good μ s.stonRows s) (P := fun t => long t ≤ N)
        (fun m h => (long_mono m).trans h)).weaken (fun i h => ⟨⟨h.1.1, i.ston⟩, h.2⟩) (fun _ h => h)
    split
    · rename_i h
      exact g1.weaken (fun _ => id) (fun _ _ hf => absurd (h ▸ hf) not_fine_infeasible)
    · have g2 : Good μ (fun t => NoRows t ∧ long t ≤ N) (fun t => long t ≤ N)
          (stonEqLoop s.stonRows s).1 (stonIneqLoop s.stonRows (stonEqLoop s.stonRows s).1).1 := by
        refine (Good.keep (stonIneqLoop_good μ s.stonRows _) (P := fun t => long t ≤ N)
          (fun m h => (long_mono m).trans h)).weaken (fun _ h => ⟨trivial, h.2⟩) (fun _ h => h.2)
      split
      · rename_i h
        exact (g1.trans g2).weaken (fun _ => id) (fun _ _ hf => absurd (h ▸ hf) not_fine_infeasible)
      · refine .of_good ((g1.trans g2).trans ?_)
        generalize (stonIneqLoop s.stonRows (stonEqLoop s.stonRows s).1).1 = t
        have g3 : Good μ (fun t => long t ≤ N) (fun s => s.stonRows = [] ∧ long s ≤ N) t
            { t with stonRows := [] } := by
          refine .of (fun o => o) (fun _ i hi => ⟨⟨.single (.same (by constructor <;> rfl)), ?_, fun _ h => Or.inl h, rfl, id⟩, rfl, hi⟩)
          intro _ h; cases h
        exact g3.trans (delStep_good μ N _)

theorem stonRowsLoop_good (μ : Mode) (fuel : ℕ) (s : St) :
    GoodX μ (fun s => Clean s ∧ ((s.stonRows = [] ∧ 1 ≤ fuel) ∨ long s + 2 ≤ fuel)) Clean s
      (stonRowsLoop fuel s) := by
  induction fuel generalizing s with
  | zero =>
    refine .of (fun o => ⟨o.1, o.2⟩) (fun _ _ hi => ?_)
    obtain ⟨-, h | h⟩ := hi <;> omega
  | succ fuel ih =>
    unfold stonRowsLoop
    simp only
    have g : ∀ N, GoodX μ (fun s => Clean s ∧ long s ≤ N) (fun s => Clean s ∧ StonLess N s) s (removeStonRows s) :=
      fun N => removeStonRows_good μ N s
    split
    · exact (g (long s)).weaken (fun _ h => ⟨h.1, le_refl _⟩) (fun _ h hf => (h hf).1)
    · split
      · rename_i h2
        have hf : fine (removeStonRows s).2 := by rw [h2]; exact fine_reduced
        have hne : s.stonRows ≠ [] := by
          intro e
          unfold removeStonRows at h2
          rw [if_pos e] at h2
          cases h2
        refine .assume (fun _ _ hi => ?_) (fun o => (g (long s) (ih _ o).1).1)
        have hl : long s + 2 ≤ fuel + 1 := by
          obtain ⟨-, h | h⟩ := hi
          · exact absurd h.1 hne
          · exact h
        refine ((GoodX.to_good (g (long s)) hf).weaken (fun _ h => ⟨h.1, le_refl _⟩) (fun _ h => ?_)).trans (ih _)
        refine ⟨h.1, ?_⟩
        rcases h.2 with e | e
        · exact Or.inl ⟨e, by omega⟩
        · exact Or.inr (by omega)
      · exact (g (long s)).weaken (fun _ h => ⟨h.1, le_refl _⟩) (fun _ h hf => (h hf).1)

end Verif
