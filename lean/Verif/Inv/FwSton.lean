import Verif.Inv.FwOps
import Verif.Inv.LiveSton

/-!
# Points and rays across singleton rows

A singleton row becomes a bound of its column.  The feasible points stay the same up to the tolerance below which a
better bound is ignored, and a ray does not notice that tolerance.
-/

namespace Verif

section
variable {μ : Mode} {s t : St} {row k : ℕ} {a : ℚ}

theorem updateUb_pend (s : St) (k : ℕ) (v : D) (row : ℕ) : (updateUb s k v row).1.fixedCols = s.fixedCols := by
  rcases updateUb_eq s k v row with ⟨st, e⟩ | ⟨x, y, e⟩ <;> rw [e] <;> rfl

theorem updateLb_pend (s : St) (k : ℕ) (v : D) (row : ℕ) : (updateLb s k v row).1.fixedCols = s.fixedCols := by
  rcases updateLb_eq s k v row with ⟨st, e⟩ | ⟨x, y, e⟩ <;> rw [e] <;> rfl

/-- Column `k` is the only one that may have been added to those that wait for deletion, with equal bounds. -/
def Pend (s : St) (k : ℕ) (t : St) : Prop :=
  t.fixedCols = s.fixedCols ∨ (t.fixedCols = s.fixedCols ++ [k] ∧ ∃ q, t.lb k = .fin q ∧ t.ub k = .fin q)

/-- Which columns wait for deletion after a singleton row has been removed. -/
theorem removeStonRow_pend (hA : s.A row = [(k, a)]) (hq : a ≠ 0)
    (heq : (s.rtag row).eq = true → ∃ b, s.rhs row = .fin b) :
    Pend s k (removeStonRow s row).1 := by
  unfold removeStonRow
  rw [hA]
  simp only
  generalize hs1 : s.check (!(s.rtag row).inactive && !(s.ctag k).subst) = s1
  have hr1 : s1.rtag = s.rtag := by rw [← hs1]; rfl
  have hp1 : s1.fixedCols = s.fixedCols := by rw [← hs1]; rfl
  split
  · exact .inl hp1
  · generalize hs2 : s1.check (!(s1.ctag k).inactive) = s2
    have hr2 : s2.rtag = s.rtag := by rw [← hs2]; exact hr1
    have hp2 : s2.fixedCols = s.fixedCols := by rw [← hs2]; exact hp1
    split
    · rename_i h
      rw [hr2] at h
      obtain ⟨b, hb⟩ := heq h
      rw [hb, D.divq_fin hq]
      generalize hs3 : s2.check (D.eqb (s.lhs row) (.fin b)) = s3
      have hp3 : s3.fixedCols = s.fixedCols := by rw [← hs3]; exact hp2
      rcases fixCol_eq s3 k (.fin (b / a)) (s3.c k) with ⟨b', e, -⟩ | ⟨b', ac, u, e, -⟩
      · rw [e, if_pos rfl]; exact .inl hp3
      · rw [e, if_neg (show ¬ REDUCED = INFEASIBLE by decide)]
        refine .inr ⟨?_, b / a, ?_, ?_⟩
        · show s3.fixedCols ++ [k] = _
          rw [hp3]
        · exact upd_same _ _ _
        · exact upd_same _ _ _
    · left
      split
      · have e1 : ∀ c v, ((if c = true then (s2, UNCHANGED) else updateUb s2 k v row).1).fixedCols = s.fixedCols := by
          intro c v; split
          · exact hp2
          · rw [updateUb_pend]; exact hp2
        generalize hx : (if (s2.rtag row).rhsInf = true then (s2, UNCHANGED) else
          updateUb s2 k (D.divq (s.rhs row) a) row) = x
        have ex : x.1.fixedCols = s.fixedCols := by rw [← hx]; exact e1 _ _
        split
        · exact ex
        · generalize hy : (if (s2.rtag row).lhsInf = true then (x.1, UNCHANGED) else
            updateLb x.1 k (D.divq (s.lhs row) a) row) = y
          have ey : y.1.fixedCols = s.fixedCols := by
            rw [← hy]; split
            · exact ex
            · rw [updateLb_pend]; exact ex
          split
          · exact ey
          · exact ey
      · have e1 : ∀ c v, ((if c = true then (s2, UNCHANGED) else updateLb s2 k v row).1).fixedCols = s.fixedCols := by
          intro c v; split
          · exact hp2
          · rw [updateLb_pend]; exact hp2
        generalize hx : (if (s2.rtag row).rhsInf = true then (s2, UNCHANGED) else
          updateLb s2 k (D.divq (s.rhs row) a) row) = x
        have ex : x.1.fixedCols = s.fixedCols := by rw [← hx]; exact e1 _ _
        split
        · exact ex
        · generalize hy : (if (s2.rtag row).lhsInf = true then (x.1, UNCHANGED) else
            updateUb x.1 k (D.divq (s.lhs row) a) row) = y
          have ey : y.1.fixedCols = s.fixedCols := by
            rw [← hy]; split
            · exact ex
            · rw [updateUb_pend]; exact ex
          split
          · exact ey
          · exact ey

theorem removeStonRow_Fwd (c : Bs s) (e : Ef s) (hlen : (s.A row).length ≤ 1) (o : Ok μ (removeStonRow s row).1)
    (hw : ∃ w, FeasPt s w) : fine (removeStonRow s row).2 ∧ Fwd s (removeStonRow s row).1 := by
  obtain ⟨w, hw⟩ := hw
  cases hA : s.A row with
  | nil =>
    have e' : removeStonRow s row = (s, UNCHANGED) := by
      unfold removeStonRow; rw [hA]
    rw [e']; exact ⟨fine_unchanged, .refl e⟩
  | cons p rest =>
    obtain ⟨k, a⟩ := p
    have hrest : rest = [] := by
      rw [hA] at hlen
      cases rest with
      | nil => rfl
      | cons => simp at hlen
    subst hrest
    cases hf : (s.ctag k).fixed with
    | true =>
      rw [removeStonRow_fixed hA hf]
      exact ⟨fine_unchanged, .core e (sameCore_check _ _)⟩
    | false =>
      obtain ⟨h1, h2, h3⟩ := removeStonRow_facts hA hf o
      have g := c.inv.gi
      have hq : a ≠ 0 := (g.rowRange row (k, a) (by rw [hA]; exact List.mem_cons_self)).2.2
      have fl : FinIf (s.rtag row).lhsInf (s.lhs row) := fun h => c.num.lhs row h1 h
      have fr : FinIf (s.rtag row).rhsInf (s.rhs row) := fun h => c.num.rhs row h1 h
      have heq : (s.rtag row).eq = true →
          s.lhs row = s.rhs row ∧ (s.rtag row).lhsInf = false ∧ (s.rtag row).rhsInf = false := by
        intro he
        obtain ⟨h4, h5⟩ := c.num.eq row h1 he
        refine ⟨?_, h4, h5⟩
        obtain ⟨l, el⟩ := fl h4
        obtain ⟨u, eu⟩ := fr h5
        have := h3 he
        rw [el, eu] at this
        rw [el, eu]
        exact (D.eqb_fin_iff.mp this).symm
      have C := C26_feasible_points s row k a hA hq (c.rowLt h1) (c.colLt h2) (g.colActive h2) h1 h2
        (c.colFin h2) fl fr heq
      have M := C26_singleton_row s row k a hA hq h2 (c.colFin h2) fl fr heq
      have Pd := removeStonRow_pend hA hq (fun h => fr (heq h).2.2)
      simp only at C M
      generalize removeStonRow s row = r at C M Pd ⊢
      obtain ⟨C1, C2, C3⟩ := C
      have hne : r.2 ≠ INFEASIBLE := fun h => C1 h w hw
      rcases M with ⟨h, -⟩ | ⟨h, S⟩
      · exact absurd h hne
      refine ⟨by rw [h]; exact fine_reduced, ⟨⟨?_, ?_⟩, fun w hw => ⟨w, C2 hne w hw, le_of_eq ?_⟩, ?_⟩⟩
      · rw [S.cost.2]; exact e.off
      · have old : ∀ j ∈ s.fixedCols, (∃ q, r.1.lb j = .fin q ∧ r.1.ub j = .fin q) ∧ (r.1.ctag j).subst = false := by
          intro j hj
          have hjk : j ≠ k := by
            rintro rfl
            have := (g.colsDel j (List.mem_append_left _ hj)).1
            rw [h2] at this; cases this
          obtain ⟨o1, o2, o3⟩ := S.otherCols j hjk
          rw [o1, o2, o3]; exact e.fix j hj
        rcases Pd with Pd | ⟨Pd, q, q1, q2⟩
        · rw [Pd]; exact old
        · intro j hj
          rw [Pd, List.mem_append, List.mem_singleton] at hj
          rcases hj with hj | rfl
          · exact old j hj
          · exact ⟨⟨q, q1, q2⟩, by rw [S.subst]; exact (CTag.inactive_false.mp h2).2⟩
      · unfold costAt objP
        rw [S.cost.1, S.cost.2, S.colSize, S.dims.2]
      · rintro ⟨d, hd⟩
        refine ⟨d, RayAt.of_near (x := w) (ε := max FEAS_TOL (|a| * FEAS_TOL)) g c.rng (fun τ hτ => ?_)
          (fun j hj => ?_) ?_⟩
        · obtain ⟨D1, D2, D3, D4⟩ := C3 hne _ ((C2 hne w hw).along hd hτ)
          have hε : 0 ≤ max FEAS_TOL (|a| * FEAS_TOL) := le_max_of_le_left FEAS_TOL_pos.le
          refine ⟨fun i hi ha => ?_, fun j hj hs hb => ?_⟩
          · by_cases hir : i = row
            · subst hir
              exact ⟨D4.1.mono (by have := le_max_right FEAS_TOL (|a| * FEAS_TOL); linarith),
                D4.2.mono (by have := le_max_right FEAS_TOL (|a| * FEAS_TOL); linarith)⟩
            · have := D1 i hi hir ha
              exact ⟨this.1.mono (by linarith), this.2.mono (by linarith)⟩
          · by_cases hjk : j = k
            · subst hjk
              exact ⟨D3.1.mono (by have := le_max_left FEAS_TOL (|a| * FEAS_TOL); linarith),
                D3.2.mono (by have := le_max_left FEAS_TOL (|a| * FEAS_TOL); linarith)⟩
            · have := D2 j hj hjk hs hb
              exact ⟨this.1.mono (by linarith), this.2.mono (by linarith)⟩
        · have hjk : j ≠ k := by rintro rfl; rw [h2] at hj; cases hj
          exact hd.off j (by rw [(S.otherCols j hjk).2.2]; exact hj)
        · have := hd.cost
          unfold objective at *
          rw [S.cost.1, S.dims.2] at this
          exact this

/-! ### All singleton rows -/

theorem stonEqLoop_F (μ : Mode) (L : List ℕ) (s : St) :
    KeepsF μ (fun s => NoRows s ∧ Short L s) NoRows s (stonEqLoop L s) := by
  refine .run' (stonEqLoop_P μ L s) ?_
  induction L generalizing s with
  | nil => exact fun _ _ e _ _ => ⟨.fine fine_unchanged, fun _ => .refl e⟩
  | cons row rest ih =>
    unfold stonEqLoop
    split
    · exact fun o c e hi => ih s o c e ⟨hi.1, fun i h => hi.2 i (List.mem_cons_of_mem _ h)⟩
    · rename_i hc
      have heq : (s.rtag row).eq = true := by
        cases h : (s.rtag row).eq
        · rw [h] at hc; simp at hc
        · rfl
      simp only
      have g := (removeStonRow_eq_good μ s row heq).keep (P := Short rest) Short.mono
      split
      · rename_i h
        intro o c e hi hw
        have := (removeStonRow_Fwd c e (hi.2 row List.mem_cons_self) o hw).1
        rw [h] at this
        exact absurd this not_fine_infeasible
      · intro o c e hi hw
        have o1 := (stonEqLoop_good μ rest _ o).1
        obtain ⟨hn, -⟩ := removeStonRow_eq_pt heq c hi.1 (hi.2 row List.mem_cons_self) o1
        have W := (removeStonRow_Fwd c e (hi.2 row List.mem_cons_self) o1 hw).2
        obtain ⟨c', j⟩ := c.next g o1
          ⟨⟨hi.1, hi.2 row List.mem_cons_self⟩, fun i h => hi.2 i (List.mem_cons_of_mem _ h)⟩ hn
        obtain ⟨f1, f2⟩ := ih _ o c' W.ef j (W.some hw)
        exact ⟨f1.back W, fun f => W.trans (f2 f)⟩

theorem stonIneqLoop_F (μ : Mode) (L : List ℕ) (s : St) :
    KeepsF μ (Short L) (fun _ => True) s (stonIneqLoop L s) := by
  refine .run' (stonIneqLoop_P μ L s) ?_
  induction L generalizing s with
  | nil => exact fun _ _ e _ _ => ⟨.fine fine_unchanged, fun _ => .refl e⟩
  | cons row rest ih =>
    have hs : ∀ t, Short (row :: rest) t → Short rest t := fun t h i hi => h i (List.mem_cons_of_mem _ hi)
    unfold stonIneqLoop
    split
    · exact fun o c e hi => ih s o c e (hs _ hi)
    · rename_i hc
      have heq : (s.rtag row).eq = false := by
        cases h : (s.rtag row).eq
        · rfl
        · rw [h] at hc; simp at hc
      simp only
      have g : Good μ (Short (row :: rest)) (Short rest) s (removeStonRow s row).1 := by
        have g0 : Good μ (fun _ => True) (fun _ => True) s (removeStonRow s row).1 :=
          Good.weaken (removeStonRow_ineq_good μ s row heq) (fun _ => id) (fun _ _ => trivial)
        exact (g0.keep (P := Short (row :: rest)) Short.mono).weaken (fun _ h => ⟨trivial, h⟩) (fun _ h => hs _ h.2)
      split
      · rename_i h
        intro o c e hi hw
        have := (removeStonRow_Fwd c e (hi row List.mem_cons_self) o hw).1
        rw [h] at this
        exact absurd this not_fine_infeasible
      · intro o c e hi hw
        have o1 := (stonIneqLoop_good μ rest _ o).1
        obtain ⟨hn, -⟩ := removeStonRow_ineq_pt heq c (hi row List.mem_cons_self) o1
        have W := (removeStonRow_Fwd c e (hi row List.mem_cons_self) o1 hw).2
        obtain ⟨c', j⟩ := c.next g o1 hi hn
        obtain ⟨f1, f2⟩ := ih _ o c' W.ef j (W.some hw)
        exact ⟨f1.back W, fun f => W.trans (f2 f)⟩

theorem removeStonRows_F (μ : Mode) (N : ℕ) (s : St) :
    KeepsF μ (fun s => Clean s ∧ long s ≤ N) (fun s => Clean s ∧ StonLess N s) s (removeStonRows s) := by
  refine .run' (removeStonRows_P μ N s) ?_
  unfold removeStonRows
  split
  · exact fun _ _ e _ _ => ⟨.fine fine_unchanged, fun _ => .refl e⟩
  · simp only
    have g1 : KeepsF μ (fun s => Clean s ∧ long s ≤ N) (fun t => Short s.stonRows t ∧ long t ≤ N)
        s (stonEqLoop s.stonRows s) := by
      have g := KeepsF.keep (stonEqLoop_F μ s.stonRows s) (F := fun t => Short s.stonRows t ∧ long t ≤ N)
        (fun m h => ⟨Short.mono m h.1, (long_mono m).trans h.2⟩)
      exact g.weakenI (fun i h => ⟨⟨h.1.1, i.ston⟩, i.ston, h.2⟩) (fun h => h.2)
    split
    · exact g1.run
    · rename_i h
      have hf := fine_of_two (stonEqLoop_st _ _) h
      have g2 : KeepsF μ (fun t => Short s.stonRows t ∧ long t ≤ N) (fun t => long t ≤ N)
          (stonEqLoop s.stonRows s).1 (stonIneqLoop s.stonRows (stonEqLoop s.stonRows s).1) :=
        (KeepsF.keep (stonIneqLoop_F μ s.stonRows _) (F := fun t => long t ≤ N)
          (fun m h => (long_mono m).trans h)).weaken (fun h => h) (fun h => h.2)
      split
      · exact (KeepsF.then g1 hf g2).run
      · rename_i h2
        have hf2 := fine_of_two (stonIneqLoop_st _ _) h2
        refine (KeepsF.then (KeepsF.then g1 hf g2) hf2 (K := Clean) ?_).run
        generalize (stonIneqLoop s.stonRows (stonEqLoop s.stonRows s).1).1 = t
        have g3 : KeepsF μ (fun t => long t ≤ N) (fun s => s.stonRows = [] ∧ long s ≤ N) t
            ({ t with stonRows := [] }, UNCHANGED) := by
          have sc : SameCore t { t with stonRows := [] } := by constructor <;> rfl
          refine .core sc (.of (fun o => o) (fun _ i hi =>
            ⟨⟨.single (.same sc), ?_, fun _ h => Or.inl h, rfl, id⟩, rfl, hi⟩)) fine_unchanged
          intro _ h; cases h
        exact g3.next (delBoth_F μ _ _ fine_reduced)

theorem stonRowsLoop_F (μ : Mode) (fuel : ℕ) (s : St) :
    KeepsF μ (fun s => Clean s ∧ ((s.stonRows = [] ∧ 1 ≤ fuel) ∨ long s + 2 ≤ fuel)) Clean s
      (stonRowsLoop fuel s) := by
  refine .run' (stonRowsLoop_P μ fuel s) ?_
  induction fuel generalizing s with
  | zero =>
    intro _ _ _ hi
    obtain ⟨-, h | h⟩ := hi <;> omega
  | succ fuel ih =>
    unfold stonRowsLoop
    simp only
    have k := removeStonRows_F μ (long s) s
    intro o c e hi hw
    split at o
    · rename_i h
      rw [if_pos h]
      exact k.run o c e ⟨hi.1, le_refl _⟩ hw
    · rename_i h
      rw [if_neg h]
      split at o
      · rename_i h2
        rw [if_pos h2]
        have hf : fine (removeStonRows s).2 := by rw [h2]; exact fine_reduced
        have hne : s.stonRows ≠ [] := by
          intro e
          unfold removeStonRows at h2
          rw [if_pos e] at h2
          cases h2
        have hl : long s + 2 ≤ fuel + 1 := by
          rcases hi.2 with h | h
          · exact absurd h.1 hne
          · exact h
        have o1 := (stonRowsLoop_good μ fuel _ o).1
        obtain ⟨c', j⟩ := k.pts.base hf o1 c ⟨hi.1, le_refl _⟩
        have W := (k.run o1 c e ⟨hi.1, le_refl _⟩ hw).2 hf
        obtain ⟨h3, h4⟩ := ih _ o c' W.ef ⟨j.1, by
          rcases j.2 with e | e
          · exact Or.inl ⟨e, by omega⟩
          · exact Or.inr (by omega)⟩ (W.some hw)
        exact ⟨h3.back W, fun f => W.trans (h4 f)⟩
      · rename_i h2
        rw [if_neg h2]
        exact k.run o c e ⟨hi.1, le_refl _⟩ hw

/-! ### The trivial explorers -/

theorem check3_F (μ : Mode) (s : St) (x y z : Bool) :
    KeepsF μ Clean Clean s (((s.check x).check y).check z, UNCHANGED) := by
  have h1 : KeepsF μ Clean Clean s (s.check x, UNCHANGED) := KeepsF.check s x (fun h => h)
  have h2 : KeepsF μ Clean Clean (s.check x) ((s.check x).check y, UNCHANGED) := KeepsF.check _ y (fun h => h)
  have h3 : KeepsF μ Clean Clean ((s.check x).check y) (((s.check x).check y).check z, UNCHANGED) :=
    KeepsF.check _ z (fun h => h)
  exact (h1.next h2).next h3

theorem runTrivial_F (hμ : μ.near = false) (stgs : Settings) (s : St) :
    KeepsF μ Clean Clean s (runTrivial stgs s) := by
  refine .run' (runTrivial_P hμ stgs s) ?_
  unfold runTrivial
  simp only
  have g := trivialHead_F hμ stgs s
  split
  · exact g.run
  · rename_i h1
    split
    · exact g.run
    · rename_i h2
      have hf : fine (trivialHead stgs s).2 := trivialHead_st stgs s h1 h2
      have g2 : KeepsF μ Clean Clean s (stonRowsLoop ((trivialHead stgs s).1.m + 2) (trivialHead stgs s).1) := by
        refine KeepsF.then g hf ?_
        generalize (trivialHead stgs s).1 = t
        exact (stonRowsLoop_F μ (t.m + 2) t).weaken
          (fun h => ⟨h, Or.inr (by have := long_le t; omega)⟩) (fun h => h)
      split
      · exact g2.run
      · rename_i h3
        have g3 := KeepsF.then g2 (fine_of_two (stonRowsLoop_st _ _) h3) (removeEmptyRows_F μ _)
        split
        · exact g3.run
        · rename_i h4
          have g4 := KeepsF.then g3 (fine_of_two (removeEmptyRows_st _) h4) (removeEmptyCols_F μ _)
          split
          · exact g4.run
          · rename_i h5
            exact (KeepsF.then g4 (fine_of_two (removeEmptyCols_st _) h5) (check3_F μ _ _ _ _)).run

end

end Verif
