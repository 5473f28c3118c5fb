import Verif.Inv.LiveTriv
import Verif.Props.C23_Redundant

/-!
# Live points, singleton rows and redundant rows
-/

namespace Verif

section
variable {μ : Mode} {P : LP} {v : ℚ} {I J K : St → Prop} {s t a : St} {r : St × Status} {w : ℕ → ℚ} {i k : ℕ}
  {st : Status}

theorem KeepsPt.st_eq (h : KeepsPt μ P v I J a r) (e : r.2 = st) : KeepsPt μ P v I J a (r.1, st) := by
  subst e; exact h

/-! ### One singleton row -/

theorem updateLb_grow (s : St) (k : ℕ) (b : D) (row : ℕ) : Grow s (updateLb s k b row).1 := by
  rcases updateLb_eq s k b row with ⟨st, e⟩ | ⟨a, u, e⟩
  · rw [e]; exact .same rfl rfl
  · rw [e]
    exact ⟨⟨[.boundChangeTheRow row (s.A row) 1, .boundChangeNoRow k b (s.ub k) false], rfl,
      by intro r hr; simp only [List.mem_cons, List.not_mem_nil, or_false] at hr; rcases hr with rfl | rfl <;> rfl⟩, rfl⟩

theorem updateUb_grow (s : St) (k : ℕ) (b : D) (row : ℕ) : Grow s (updateUb s k b row).1 := by
  rcases updateUb_eq s k b row with ⟨st, e⟩ | ⟨a, u, e⟩
  · rw [e]; exact .same rfl rfl
  · rw [e]
    exact ⟨⟨[.boundChangeTheRow row (s.A row) 1, .boundChangeNoRow k b (s.lb k) true], rfl,
      by intro r hr; simp only [List.mem_cons, List.not_mem_nil, or_false] at hr; rcases hr with rfl | rfl <;> rfl⟩, rfl⟩

theorem check_grow (s : St) (b : Bool) : Grow s (s.check b) := .same rfl rfl

theorem deact_grow (s : St) (i : ℕ) (q : ℚ) : Grow s (setRowToInactive s i q) :=
  .one (r := .deletedRow i q) rfl rfl rfl

theorem removeStonRow_grow (s : St) (row : ℕ) : Grow s (removeStonRow s row).1 := by
  unfold removeStonRow
  split
  · exact .refl s
  · rename_i k a rest hA
    simp only
    generalize hs1 : s.check (!(s.rtag row).inactive && !(s.ctag k).subst) = s1
    have g1 : Grow s s1 := by rw [← hs1]; exact check_grow _ _
    split
    · exact g1
    · generalize hs2 : s1.check (!(s1.ctag k).inactive) = s2
      have g2 : Grow s s2 := by rw [← hs2]; exact g1.trans (check_grow _ _)
      split
      · have g3 : Grow s (fixCol (s2.check (D.eqb (s.lhs row) (s.rhs row))) k (D.divq (s.rhs row) a) (s2.c k)).1 :=
          (g2.trans (check_grow _ _)).trans (fixCol_grow _ _ _ _)
        have g3 : Grow s (fixCol (s2.check (D.eqb (s.lhs row) (s.rhs row))) k (D.divq (s.rhs row) a)
          ((s2.check (D.eqb (s.lhs row) (s.rhs row))).c k)).1 := g3
        split
        · exact g3
        · refine g3.trans ?_
          generalize (fixCol (s2.check (D.eqb (s.lhs row) (s.rhs row))) k (D.divq (s.rhs row) a)
            ((s2.check (D.eqb (s.lhs row) (s.rhs row))).c k)).1 = x
          exact ⟨⟨[.deletedRow row (x.c k / a), .addedRows row (x.AT k) a], rfl,
            by intro r hr; simp only [List.mem_cons, List.not_mem_nil, or_false] at hr; rcases hr with rfl | rfl <;> rfl⟩,
            rfl⟩
      · have hL : ∀ (x : St) (c : Bool) (d : D), Grow s x →
            Grow s (if c then (x, UNCHANGED) else updateLb x k d row).1 := by
          intro x c d g; split
          · exact g
          · exact g.trans (updateLb_grow _ _ _ _)
        have hU : ∀ (x : St) (c : Bool) (d : D), Grow s x →
            Grow s (if c then (x, UNCHANGED) else updateUb x k d row).1 := by
          intro x c d g; split
          · exact g
          · exact g.trans (updateUb_grow _ _ _ _)
        split
        · have g3 := hU s2 (s2.rtag row).rhsInf (D.divq (s.rhs row) a) g2
          generalize (if (s2.rtag row).rhsInf then (s2, UNCHANGED) else updateUb s2 k (D.divq (s.rhs row) a) row) = x at g3 ⊢
          split
          · exact g3
          · have g4 := hL x.1 (s2.rtag row).lhsInf (D.divq (s.lhs row) a) g3
            generalize (if (s2.rtag row).lhsInf then (x.1, UNCHANGED) else updateLb x.1 k (D.divq (s.lhs row) a) row) = y
              at g4 ⊢
            split
            · exact g4
            · exact g4.trans (deact_grow _ _ _)
        · have g3 := hL s2 (s2.rtag row).rhsInf (D.divq (s.rhs row) a) g2
          generalize (if (s2.rtag row).rhsInf then (s2, UNCHANGED) else updateLb s2 k (D.divq (s.rhs row) a) row) = x at g3 ⊢
          split
          · exact g3
          · have g4 := hU x.1 (s2.rtag row).lhsInf (D.divq (s.lhs row) a) g3
            generalize (if (s2.rtag row).lhsInf then (x.1, UNCHANGED) else updateUb x.1 k (D.divq (s.lhs row) a) row) = y
              at g4 ⊢
            split
            · exact g4
            · exact g4.trans (deact_grow _ _ _)

theorem removeStonRow_st (s : St) (row : ℕ) : (removeStonRow s row).2 = UNCHANGED ∨
    (removeStonRow s row).2 = REDUCED ∨ (removeStonRow s row).2 = INFEASIBLE := by
  unfold removeStonRow
  split
  · exact .inl rfl
  · simp only
    split_ifs <;> simp

/-- The column of a singleton row is fixed already. -/
theorem removeStonRow_fixed {row k : ℕ} {a : ℚ} {rest : List Cell} (hA : s.A row = (k, a) :: rest)
    (hf : (s.ctag k).fixed = true) :
    removeStonRow s row = (s.check (!(s.rtag row).inactive && !(s.ctag k).subst), UNCHANGED) := by
  unfold removeStonRow
  rw [hA]
  simp only
  rw [if_pos]
  exact hf

theorem removeStonRow_facts {row k : ℕ} {a : ℚ} {rest : List Cell} (hA : s.A row = (k, a) :: rest)
    (hf : (s.ctag k).fixed = false) (o : Ok μ (removeStonRow s row).1) :
    (s.rtag row).inactive = false ∧ (s.ctag k).inactive = false ∧
      ((s.rtag row).eq = true → D.eqb (s.lhs row) (s.rhs row) = true) := by
  have key : ∀ x : St, ((s.check (!(s.rtag row).inactive && !(s.ctag k).subst)).check (!(s.ctag k).inactive)) = x →
      x.asrt = true → (s.rtag row).inactive = false ∧ (s.ctag k).inactive = false := by
    rintro x rfl h
    have h : (s.asrt && (!(s.rtag row).inactive && !(s.ctag k).subst) && !(s.ctag k).inactive) = true := h
    simp only [Bool.and_eq_true, Bool.not_eq_true'] at h
    exact ⟨h.1.2.1, h.2⟩
  unfold removeStonRow at o
  rw [hA] at o
  simp only at o
  have hf' : ¬ (((s.check (!(s.rtag row).inactive && !(s.ctag k).subst)).ctag k).fixed = true) := by
    show ¬ (s.ctag k).fixed = true
    rw [hf]; simp
  rw [if_neg hf'] at o
  have hL : ∀ (x : St) (c : Bool) (d : D), (if c then (x, UNCHANGED) else updateLb x k d row).1.asrt = true →
      x.asrt = true := by
    intro x c d h; split at h
    · exact h
    · exact updateLb_asrt h
  have hU : ∀ (x : St) (c : Bool) (d : D), (if c then (x, UNCHANGED) else updateUb x k d row).1.asrt = true →
      x.asrt = true := by
    intro x c d h; split at h
    · exact h
    · exact updateUb_asrt h
  have hD : ∀ (x : St) (i : ℕ) (q : ℚ), (setRowToInactive x i q).asrt = true → x.asrt = true := by
    intro x i q h
    exact (Bool.and_eq_true_iff.mp h).1
  have e0 : (s.check (!(s.rtag row).inactive && !(s.ctag k).subst)).ctag k = s.ctag k := rfl
  rw [e0] at o
  generalize hs2 : ((s.check (!(s.rtag row).inactive && !(s.ctag k).subst)).check (!(s.ctag k).inactive)) = s2 at o
  have k2 := key s2 hs2
  have e1 : s2.rtag = s.rtag := by rw [← hs2]; rfl
  rw [e1] at o
  split at o
  · have o1 : Ok μ (fixCol (s2.check (D.eqb (s.lhs row) (s.rhs row))) k (D.divq (s.rhs row) a)
        ((s2.check (D.eqb (s.lhs row) (s.rhs row))).c k)).1 := by
      split at o
      · exact o
      · exact ⟨o.1, o.2⟩
    have o2 := (fixCol_le μ _ k _ _ o1).1
    obtain ⟨o3, h4⟩ := Ok.check o2
    exact ⟨(k2 o3.1).1, (k2 o3.1).2, fun _ => h4⟩
  · rename_i hne
    have hk : s2.asrt = true := by
      split at o
      · generalize hx : (if (s.rtag row).rhsInf then (s2, UNCHANGED) else updateUb s2 k (D.divq (s.rhs row) a) row) = x at o
        have hx1 : x.1.asrt = true → s2.asrt = true := by rw [← hx]; exact hU _ _ _
        split at o
        · exact hx1 o.1
        · generalize hy : (if (s.rtag row).lhsInf then (x.1, UNCHANGED) else updateLb x.1 k (D.divq (s.lhs row) a) row) = y at o
          have hy1 : y.1.asrt = true → x.1.asrt = true := by rw [← hy]; exact hL _ _ _
          split at o
          · exact hx1 (hy1 o.1)
          · exact hx1 (hy1 (hD _ _ _ o.1))
      · generalize hx : (if (s.rtag row).rhsInf then (s2, UNCHANGED) else updateLb s2 k (D.divq (s.rhs row) a) row) = x at o
        have hx1 : x.1.asrt = true → s2.asrt = true := by rw [← hx]; exact hL _ _ _
        split at o
        · exact hx1 o.1
        · generalize hy : (if (s.rtag row).lhsInf then (x.1, UNCHANGED) else updateUb x.1 k (D.divq (s.lhs row) a) row) = y at o
          have hy1 : y.1.asrt = true → x.1.asrt = true := by rw [← hy]; exact hU _ _ _
          split at o
          · exact hx1 (hy1 o.1)
          · exact hx1 (hy1 (hD _ _ _ o.1))
    exact ⟨(k2 hk).1, (k2 hk).2, fun h => absurd h hne⟩

theorem removeStonRow_live {row : ℕ} (c : Cur P v s) (hlen : (s.A row).length ≤ 1) (o : Ok μ (removeStonRow s row).1) :
    fine (removeStonRow s row).2 ∧ PlainLog (removeStonRow s row).1 ∧ Live P v (removeStonRow s row).1 := by
  have gr := removeStonRow_grow s row
  obtain ⟨w, hw, hv⟩ := c.live
  have key : fine (removeStonRow s row).2 ∧ FeasPt (removeStonRow s row).1 w := by
    cases hA : s.A row with
    | nil =>
      have e : removeStonRow s row = (s, UNCHANGED) := by
        unfold removeStonRow; rw [hA]
      rw [e]; exact ⟨fine_unchanged, hw.pt⟩
    | cons p rest =>
      obtain ⟨k, a⟩ := p
      have hrest : rest = [] := by
        rw [hA] at hlen
        cases rest with
        | nil => rfl
        | cons => simp at hlen
      subst hrest
      cases hf : (s.ctag k).fixed with
      | true =>
        rw [removeStonRow_fixed hA hf]
        exact ⟨fine_unchanged, hw.pt.core (sameCore_check _ _)⟩
      | false =>
        obtain ⟨h1, h2, h3⟩ := removeStonRow_facts hA hf o
        have hq : a ≠ 0 := (c.inv.gi.rowRange row (k, a) (by rw [hA]; exact List.mem_cons_self)).2.2
        obtain ⟨fl, fr⟩ := c.finRow h1
        have hrow := c.feas.row row (c.feas.rrng row h1)
        have C := C26_feasible_points s row k a hA hq (c.rowLt h1) (c.colLt h2) (c.inv.gi.colActive h2) h1 h2
          (c.colFin h2) fl fr (fun he => by
            obtain ⟨h4, h5⟩ := hrow.eq h1 he
            refine ⟨?_, h4, h5⟩
            obtain ⟨l, el⟩ := fl h4
            obtain ⟨u, eu⟩ := fr h5
            have := h3 he
            rw [el, eu] at this
            rw [el, eu]
            exact (D.eqb_fin_iff.mp this).symm)
        obtain ⟨C1, C2, -⟩ := C
        have hne : (removeStonRow s row).2 ≠ INFEASIBLE := fun h => C1 h w hw.pt
        refine ⟨?_, C2 hne w hw.pt⟩
        rcases removeStonRow_st s row with e | e | e
        · rw [e]; exact fine_unchanged
        · rw [e]; exact fine_reduced
        · exact absurd e hne
  exact ⟨key.1, gr.plain c.plain, w, hw.grow gr key.2, hv⟩

/-! ### All singleton rows -/

theorem stonEqLoop_keeps (μ : Mode) (P : LP) (v : ℚ) (L : List ℕ) (s : St) :
    KeepsPt μ P v (fun s => NoRows s ∧ Short L s) NoRows s (stonEqLoop L s) := by
  refine ⟨(stonEqLoop_goodF μ P L s).toR, ?_⟩
  induction L generalizing s with
  | nil => exact fun _ c _ => ⟨.inl fine_unchanged, fun _ => ⟨c.plain, c.live⟩⟩
  | cons row rest ih =>
    unfold stonEqLoop
    split
    · exact fun o c hi => ih s o c ⟨hi.1, fun i h => hi.2 i (List.mem_cons_of_mem _ h)⟩
    · rename_i hc
      have heq : (s.rtag row).eq = true := by
        cases h : (s.rtag row).eq
        · rw [h] at hc; simp at hc
        · rfl
      simp only
      have g := removeStonRow_eq_good μ s row heq
      have g2 := (g.keep (P := Short rest) Short.mono).withF
          (fun o i hi _ h => removeStonRow_eq_feas (P := P) heq hi.1.2 i.gi h o)
      split
      · rename_i h
        intro o c hi
        have := (removeStonRow_live c (hi.2 row List.mem_cons_self) o).1
        rw [h] at this
        exact absurd this not_fine_infeasible
      · intro o c hi
        have o1 := (stonEqLoop_goodF μ P rest _ o).1
        obtain ⟨-, h2, h3⟩ := removeStonRow_live c (hi.2 row List.mem_cons_self) o1
        obtain ⟨c', j⟩ := c.next g2 o1
          ⟨⟨hi.1, hi.2 row List.mem_cons_self⟩, fun i h => hi.2 i (List.mem_cons_of_mem _ h)⟩ h2 h3
        exact ih _ o c' j

theorem stonIneqLoop_keeps (μ : Mode) (P : LP) (v : ℚ) (L : List ℕ) (s : St) :
    KeepsPt μ P v (Short L) (fun _ => True) s (stonIneqLoop L s) := by
  refine ⟨(stonIneqLoop_goodF μ P L s).toR, ?_⟩
  induction L generalizing s with
  | nil => exact fun _ c _ => ⟨.inl fine_unchanged, fun _ => ⟨c.plain, c.live⟩⟩
  | cons row rest ih =>
    have hs : ∀ t, Short (row :: rest) t → Short rest t := fun t h i hi => h i (List.mem_cons_of_mem _ hi)
    unfold stonIneqLoop
    split
    · exact fun o c hi => ih s o c (hs _ hi)
    · rename_i hc
      have heq : (s.rtag row).eq = false := by
        cases h : (s.rtag row).eq
        · rfl
        · rw [h] at hc; simp at hc
      simp only
      have g : Good μ (Short (row :: rest)) (Short rest) s (removeStonRow s row).1 := by
        have g0 : Good μ (fun _ => True) (fun _ => True) s (removeStonRow s row).1 :=
          Good.weaken (removeStonRow_ineq_good μ s row heq) (fun _ => id) (fun _ _ => trivial)
        exact (g0.keep (P := Short (row :: rest)) Short.mono).weaken (fun _ h => ⟨trivial, h⟩) (fun _ h => hs _ h.2)
      have g2 := g.withF (fun o i hi _ h =>
        removeStonRow_ineq_feas (P := P) heq (hi row List.mem_cons_self) i.gi h o)
      split
      · rename_i h
        intro o c hi
        have := (removeStonRow_live c (hi row List.mem_cons_self) o).1
        rw [h] at this
        exact absurd this not_fine_infeasible
      · intro o c hi
        have o1 := (stonIneqLoop_goodF μ P rest _ o).1
        obtain ⟨-, h2, h3⟩ := removeStonRow_live c (hi row List.mem_cons_self) o1
        obtain ⟨c', j⟩ := c.next g2 o1 hi h2 h3
        exact ih _ o c' j

theorem stonEqLoop_st (L : List ℕ) (s : St) : (stonEqLoop L s).2 = UNCHANGED ∨ (stonEqLoop L s).2 = INFEASIBLE := by
  induction L generalizing s with
  | nil => exact .inl rfl
  | cons k L ih =>
    unfold stonEqLoop
    simp only
    split
    · exact ih _
    · split
      · exact .inr rfl
      · exact ih _

theorem stonIneqLoop_st (L : List ℕ) (s : St) : (stonIneqLoop L s).2 = UNCHANGED ∨ (stonIneqLoop L s).2 = INFEASIBLE := by
  induction L generalizing s with
  | nil => exact .inl rfl
  | cons k L ih =>
    unfold stonIneqLoop
    simp only
    split
    · exact ih _
    · split
      · exact .inr rfl
      · exact ih _

theorem removeStonRows_keeps (μ : Mode) (P : LP) (v : ℚ) (N : ℕ) (s : St) :
    KeepsPt μ P v (fun s => Clean s ∧ long s ≤ N) (fun s => Clean s ∧ StonLess N s) s (removeStonRows s) := by
  refine ⟨(removeStonRows_goodF μ P N s).toR, ?_⟩
  unfold removeStonRows
  split
  · exact fun _ c _ => ⟨.inl fine_unchanged, fun _ => ⟨c.plain, c.live⟩⟩
  · simp only
    have g1 : KeepsPt μ P v (fun s => Clean s ∧ long s ≤ N) (fun t => Short s.stonRows t ∧ long t ≤ N)
        s (stonEqLoop s.stonRows s) := by
      have g := KeepsPt.keep (stonEqLoop_keeps μ P v s.stonRows s) (F := fun t => Short s.stonRows t ∧ long t ≤ N)
        (fun m h => ⟨Short.mono m h.1, (long_mono m).trans h.2⟩)
      exact g.weaken (fun i h => ⟨⟨h.1.1, i.ston⟩, i.ston, h.2⟩) (fun i h => h.2)
    split
    · exact g1.live
    · rename_i h
      have hf := fine_of_two (stonEqLoop_st _ _) h
      have g2 : KeepsPt μ P v (fun t => Short s.stonRows t ∧ long t ≤ N) (fun t => long t ≤ N)
          (stonEqLoop s.stonRows s).1 (stonIneqLoop s.stonRows (stonEqLoop s.stonRows s).1) :=
        (KeepsPt.keep (stonIneqLoop_keeps μ P v s.stonRows _) (F := fun t => long t ≤ N)
          (fun m h => (long_mono m).trans h)).weaken (fun _ h => h) (fun _ h => h.2)
      split
      · exact (KeepsPt.then g1 hf g2).live
      · rename_i h2
        have hf2 := fine_of_two (stonIneqLoop_st _ _) h2
        refine (KeepsPt.then (KeepsPt.then g1 hf g2) hf2 (K := Clean) ?_).live
        generalize (stonIneqLoop s.stonRows (stonEqLoop s.stonRows s).1).1 = t
        have g3 : KeepsPt μ P v (fun t => long t ≤ N) (fun s => s.stonRows = [] ∧ long s ≤ N) t
            ({ t with stonRows := [] }, UNCHANGED) := by
          have sc : SameCore t { t with stonRows := [] } := by constructor <;> rfl
          refine .core sc (Good.withF (.of (fun o => o) (fun _ i hi =>
            ⟨⟨.single (.same sc), ?_, fun _ h => Or.inl h, rfl, id⟩, rfl, hi⟩))
            (fun _ _ _ _ h => h.core sc (fun _ => .refl _))) fine_unchanged
          intro _ h; cases h
        exact g3.next (delBoth_keeps μ P v _ _ fine_reduced)

theorem stonRowsLoop_keeps (μ : Mode) (P : LP) (v : ℚ) (fuel : ℕ) (s : St) :
    KeepsPt μ P v (fun s => Clean s ∧ ((s.stonRows = [] ∧ 1 ≤ fuel) ∨ long s + 2 ≤ fuel)) Clean s
      (stonRowsLoop fuel s) := by
  refine ⟨(stonRowsLoop_goodF μ P fuel s).toR, ?_⟩
  induction fuel generalizing s with
  | zero =>
    intro _ _ hi
    obtain ⟨-, h | h⟩ := hi <;> omega
  | succ fuel ih =>
    unfold stonRowsLoop
    simp only
    have k := removeStonRows_keeps μ P v (long s) s
    intro o c hi
    split at o
    · rename_i h
      rw [if_pos h]
      exact k.live o c ⟨hi.1, le_refl _⟩
    · rename_i h
      rw [if_neg h]
      split at o
      · rename_i h2
        rw [if_pos h2]
        have hf : fine (removeStonRows s).2 := by rw [h2]; exact fine_reduced
        have hne : s.stonRows ≠ [] := by
          intro e
          unfold removeStonRows at h2
          rw [if_pos e] at h2
          cases h2
        have hl : long s + 2 ≤ fuel + 1 := by
          rcases hi.2 with h | h
          · exact absurd h.1 hne
          · exact h
        have o1 := (stonRowsLoop_goodF μ P fuel _ o).1
        obtain ⟨c', j⟩ := (k.cur o1 c ⟨hi.1, le_refl _⟩).2 hf
        refine ih _ o c' ⟨j.1, ?_⟩
        rcases j.2 with e | e
        · exact Or.inl ⟨e, by omega⟩
        · exact Or.inr (by omega)
      · rename_i h2
        rw [if_neg h2]
        exact k.live o c ⟨hi.1, le_refl _⟩

/-! ### Redundant rows -/

theorem locksEqToIneq_grow (s : St) (cells : List Cell) (up : Bool) : Grow s (locksEqToIneq s cells up) := by
  have e := locksEqToIneq_only s cells up
  unfold OnlyLocks at e
  rw [e]
  exact .same rfl rfl

theorem checkActRow_grow (s : St) (row : ℕ) : Grow s (checkActRow s row).1 := by
  unfold checkActRow
  split
  · exact .refl s
  · simp only
    split
    · exact (check_grow _ _).trans (deact_grow _ _ _)
    · split
      · exact .same (s := s) (locksEqToIneq_same St.log (fun _ _ _ _ => rfl) _ _ _)
          (locksEqToIneq_same St.colSize (fun _ _ _ _ => rfl) _ _ _)
      · split
        · exact .same (s := s) (locksEqToIneq_same St.log (fun _ _ _ _ => rfl) _ _ _)
            (locksEqToIneq_same St.colSize (fun _ _ _ _ => rfl) _ _ _)
        · exact check_grow _ _

theorem checkActRow_dims (s : St) (row : ℕ) : (checkActRow s row).1.m = s.m ∧ (checkActRow s row).1.n = s.n := by
  unfold checkActRow
  split
  · exact ⟨rfl, rfl⟩
  · simp only
    split
    · exact ⟨rfl, rfl⟩
    · split
      · exact ⟨locksEqToIneq_same St.m (fun _ _ _ _ => rfl) _ _ _, locksEqToIneq_same St.n (fun _ _ _ _ => rfl) _ _ _⟩
      · split
        · exact ⟨locksEqToIneq_same St.m (fun _ _ _ _ => rfl) _ _ _, locksEqToIneq_same St.n (fun _ _ _ _ => rfl) _ _ _⟩
        · exact ⟨rfl, rfl⟩

/-- Bounds of the cells of an active row at a feasible point. -/
theorem Cur.rowBox (c : Cur P v s) (hw : FeasPt s w) (ha : (s.rtag i).inactive = false) :
    ∀ p ∈ s.A i, InCol (effTags s) s.lb s.ub w p.1 := by
  intro p hp
  have hk := (c.inv.gi.rowRange i p hp).2.1
  exact hw.2 p.1 hk (c.inv.gi.rowIn i ha p hp) (c.feas.col p.1 (by rw [← c.feas.n]; exact hk)).sub

theorem checkActRow_live (c : Cur P v s) (row : ℕ) (hw : FeasPt s w) :
    (checkActRow s row).2 = false ∧ FeasPt (checkActRow s row).1 w := by
  cases ha : (s.rtag row).inactive with
  | true =>
    have e : checkActRow s row = (s, false) := by
      unfold checkActRow; rw [ha]; simp
    rw [e]; exact ⟨rfl, hw⟩
  | false =>
    obtain ⟨hA, hlb, hub, hct, hc⟩ := checkActRow_cases s row
    obtain ⟨hm, hn⟩ := checkActRow_dims s row
    have hcs := (checkActRow_grow s row).colSize
    obtain ⟨fl, fr⟩ := c.finRow ha
    have key := C23_check_activity (s.act row) (s.lhs row) (s.rhs row) (s.rtag row) (effTags s) s.lb s.ub
      (s.A row) ((c.feas.act row (c.feas.rrng row ha) ha).valid (c.feas.colsOK c.inv.gi ha)) fl fr w (c.rowBox hw ha)
    have hrow := hw.1 row (c.rowLt ha) ha
    have cols : ∀ k < (checkActRow s row).1.n, (checkActRow s row).1.colSize k ≠ -1 →
        ((checkActRow s row).1.ctag k).subst = false → ColIn (checkActRow s row).1 k (w k) := by
      intro k hk hs hb
      rw [hn] at hk; rw [hcs] at hs; rw [hct] at hb
      have := hw.2 k hk hs hb
      unfold ColIn at *
      rw [hct, hlb, hub]; exact this
    have other : ∀ i, i ≠ row → (checkActRow s row).1.rtag i = s.rtag i → (checkActRow s row).1.lhs i = s.lhs i →
        (checkActRow s row).1.rhs i = s.rhs i → i < s.m → (s.rtag i).inactive = false → RowOK (checkActRow s row).1 i w := by
      intro i _ e1 e2 e3 hi ha
      have := hw.1 i hi ha
      unfold RowOK at *
      rw [e1, e2, e3, hA]; exact this
    unfold RowOK at hrow
    rcases hc with ⟨h1, h2, h3, h4⟩ | ⟨h0, h1, h2, h3, -, -⟩ | ⟨h0, -, h5, h1, h2, h3⟩ | ⟨h0, -, h5, h1, h2, h3⟩
    · have hf : (checkActRow s row).2 = false := by
        cases hx : (checkActRow s row).2 with
        | false => rfl
        | true => exact absurd hrow (key.2.2 (h4 hx))
      refine ⟨hf, fun i hi hai => ?_, cols⟩
      rw [hm] at hi; rw [h1] at hai
      have := hw.1 i hi hai
      unfold RowOK at *
      rw [h1, h2, h3, hA]; exact this
    · refine ⟨h0, fun i hi hai => ?_, cols⟩
      have hne : i ≠ row := by
        rintro rfl; rw [h1, upd_same] at hai; cases hai
      rw [hm] at hi; rw [h1, upd_ne _ _ hne] at hai
      exact other i hne (by rw [h1, upd_ne _ _ hne]) (by rw [h2]) (by rw [h3]) hi hai
    · refine ⟨h0, fun i hi hai => ?_, cols⟩
      rw [hm] at hi
      by_cases hne : i = row
      · subst hne
        unfold RowOK
        rw [h1, h2, h3, hA, upd_same, upd_same]
        have := hrow.2
        rw [h5] at this
        exact ⟨.inl rfl, this⟩
      · rw [h1, upd_ne _ _ hne] at hai
        exact other i hne (by rw [h1, upd_ne _ _ hne]) (by rw [h2, upd_ne _ _ hne]) (by rw [h3]) hi hai
    · refine ⟨h0, fun i hi hai => ?_, cols⟩
      rw [hm] at hi
      by_cases hne : i = row
      · subst hne
        unfold RowOK
        rw [h1, h2, h3, hA, upd_same, upd_same]
        have := hrow.1
        rw [h5] at this
        exact ⟨this, .inl rfl⟩
      · rw [h1, upd_ne _ _ hne] at hai
        exact other i hne (by rw [h1, upd_ne _ _ hne]) (by rw [h3]) (by rw [h2, upd_ne _ _ hne]) hi hai

theorem checkActLoop_keeps (μ : Mode) (P : LP) (v : ℚ) (L : List ℕ) (s : St) :
    KeepsPt μ P v NoCols NoCols s (checkActLoop L s) := by
  refine ⟨Good.toR ((checkActLoop_good μ L s).withF (P := P) (fun o i hi _ h => checkActLoop_feas L h i hi o)), ?_⟩
  induction L generalizing s with
  | nil => exact fun _ c _ => ⟨.inl fine_unchanged, fun _ => ⟨c.plain, c.live⟩⟩
  | cons row rest ih =>
    unfold checkActLoop
    simp only
    intro o c hi
    obtain ⟨w, hw, hv⟩ := c.live
    obtain ⟨h1, h2⟩ := checkActRow_live c row hw.pt
    split at o
    · rename_i h
      rw [h1] at h; cases h
    · rename_i h
      rw [if_neg h]
      have o1 := (checkActLoop_good μ rest _).ok o
      have g := (checkActRow_good μ s row).withF (P := P) (fun _ i _ _ h => checkActRow_feas h i.gi row)
      have gr := checkActRow_grow s row
      obtain ⟨c', j⟩ := c.next g o1 hi (gr.plain c.plain) ⟨w, hw.grow gr h2, hv⟩
      exact ih _ o c' j

theorem checkActLoop_st (L : List ℕ) (s : St) : (checkActLoop L s).2 = UNCHANGED ∨ (checkActLoop L s).2 = INFEASIBLE := by
  induction L generalizing s with
  | nil => exact .inl rfl
  | cons k L ih =>
    unfold checkActLoop
    simp only
    split
    · exact .inr rfl
    · exact ih _

theorem checkActivities_keeps (μ : Mode) (P : LP) (v : ℚ) (s : St) : KeepsPt μ P v Clean Clean s (checkActivities s) := by
  refine ⟨(checkActivities_goodF μ P s).toR, ?_⟩
  unfold checkActivities
  simp only
  have g := (checkActLoop_keeps μ P v s.updActs s).weaken (I' := Clean) (J' := NoCols) (fun _ h => h.2) (fun _ h => h)
  split
  · exact g.live
  · rename_i h
    refine (KeepsPt.then g (fine_of_two (checkActLoop_st _ _) h)
      (delRows_keeps μ P v NoCols Clean _ (fun _ hi d => ⟨d.noRows, ?_, ?_⟩) fine_unchanged)).live
    · rw [d.fixedCols]; exact hi.1
    · rw [d.subCols]; exact hi.2

/-! ### The trivial explorers -/

theorem check3_keeps (μ : Mode) (P : LP) (v : ℚ) (s : St) (x y z : Bool) :
    KeepsPt μ P v Clean Clean s (((s.check x).check y).check z, UNCHANGED) := by
  have h1 : KeepsPt μ P v Clean Clean s (s.check x, UNCHANGED) := KeepsPt.check s x (fun _ h => h)
  have h2 : KeepsPt μ P v Clean Clean (s.check x) ((s.check x).check y, UNCHANGED) := KeepsPt.check _ y (fun _ h => h)
  have h3 : KeepsPt μ P v Clean Clean ((s.check x).check y) (((s.check x).check y).check z, UNCHANGED) :=
    KeepsPt.check _ z (fun _ h => h)
  exact (h1.next h2).next h3

theorem runTrivial_keeps (hμ : μ.near = false) (P : LP) (v : ℚ) (stgs : Settings) (s : St) :
    KeepsPt μ P v Clean Clean s (runTrivial stgs s) := by
  refine ⟨(runTrivial_goodF μ P stgs s).toR, ?_⟩
  unfold runTrivial
  simp only
  have g := trivialHead_keeps hμ P v stgs s
  split
  · exact g.live
  · rename_i h1
    split
    · exact g.live
    · rename_i h2
      have hf : fine (trivialHead stgs s).2 := trivialHead_st stgs s h1 h2
      have g2 : KeepsPt μ P v Clean Clean s (stonRowsLoop ((trivialHead stgs s).1.m + 2) (trivialHead stgs s).1) := by
        refine KeepsPt.then g hf ?_
        generalize (trivialHead stgs s).1 = t
        exact (stonRowsLoop_keeps μ P v (t.m + 2) t).weaken
          (fun _ h => ⟨h, Or.inr (by have := long_le t; omega)⟩) (fun _ h => h)
      split
      · exact g2.live
      · rename_i h3
        have g3 := KeepsPt.then g2 (fine_of_two (stonRowsLoop_st _ _) h3) (removeEmptyRows_keeps μ P v _)
        split
        · exact g3.live
        · rename_i h4
          have g4 := KeepsPt.then g3 (fine_of_two (removeEmptyRows_st _) h4) (removeEmptyCols_keeps μ P v _)
          split
          · exact g4.live
          · rename_i h5
            exact (KeepsPt.then g4 (fine_of_two (removeEmptyCols_st _) h5) (check3_keeps μ P v _ _ _ _)).live

end

end Verif
