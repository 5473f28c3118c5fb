import Verif.Inv.CompProp
import Verif.Inv.LiveMain

/-!
# Complementarity: primal propagation and redundant sides
-/

namespace Verif

section
variable {μ : Mode} {P : LP} {β : Bool} {X : ℕ → D} {s t : St} {σ : Sol} {i k : ℕ} {w : ℕ → ℚ}

/-! ### Feasible points -/

theorem feasPt_of (F : Feas P s) (g : GI s) (hf : P.Feasible (fun k => (X k).toQ)) (hA : Agrees X s) (hB : Boxed X s) :
    FeasPt s (fun k => (X k).toQ) := by
  refine ⟨fun i hi ha => ⟨?_, ?_⟩, fun k hk hs hb => ?_⟩
  · cases h : (s.rtag i).lhsInf with
    | true => exact .inl rfl
    | false => exact .inr (F.rowLhs g hf hA ha h)
  · cases h : (s.rtag i).rhsInf with
    | true => exact .inl rfl
    | false => exact .inr (F.rowRhs g hf hA ha h)
  · cases h : (s.ctag k).inactive with
    | false =>
      unfold ColIn
      rw [effTag_active h]
      exact hB k h
    | true =>
      have hkn : k < P.n := by rw [← F.n]; exact hk
      have hC := F.col k hkn
      have hfx : (s.ctag k).fixed = true := by
        cases hx' : (s.ctag k).fixed with
        | true => rfl
        | false =>
          have := CTag.inactive_false.mpr ⟨hx', hC.sub⟩
          rw [h] at this; cases this
      obtain ⟨v, e, he⟩ := hC.old hfx
      obtain ⟨e1, e2⟩ := he hs
      have := hA k _ e
      refine ⟨.inr ⟨v, e1, ?_⟩, .inr ⟨v, e2, ?_⟩⟩
      · show v ≤ (X k).toQ
        rw [this]; exact le_refl v
      · show (X k).toQ ≤ v
        rw [this]; exact le_refl v

theorem FeasPt.boxed (h : FeasPt s (fun k => (X k).toQ)) (F : Feas P s) (g : GI s) : Boxed X s := by
  intro k hk
  have hn := F.rng g hk
  have := h.2 k (by rw [F.n]; exact hn) (g.colActive hk) (F.col k hn).sub
  unfold ColIn at this
  rw [effTag_active hk] at this
  exact this

/-! ### One row -/

theorem propRow_kkt (hμ : μ.near = false) (fbt : Bool) (o : Ok μ (propRow fbt s i).1) (c : Base P s)
    (hN : NoRows s) (hA : s.A i ≠ []) :
    Grow s (propRow fbt s i).1 ∧ Back P true s (propRow fbt s i).1 := by
  have hF := propRow_feas fbt o c.inv hN hA c.feas
  unfold propRow at *
  simp only at *
  generalize hb : (!(s.rtag i).inactive) = b at *
  have h0 : ∀ X : ℕ → D, PK μ P X i (s.check b) (fun _ => True) (s.check b, UNCHANGED, 0) := fun X =>
    ⟨⟨⟨⟨rfl, fun o => ⟨o, fun _ _ _ => ⟨.nil, rfl, rfl, rfl, rfl, rfl, le_refl _, le_refl _⟩⟩⟩, rfl,
      fun _ _ _ _ _ hf => ⟨hf, trivial⟩⟩, fun _ _ _ _ _ _ hw =>
      ⟨(by show hasStatus UNCHANGED INFEASIBLE = false; decide), hw⟩⟩, fun _ _ _ _ _ _ _ _ => .refl _⟩
  have h := fun X => propLhs_pk hμ fbt (propRhs_pk hμ fbt (h0 X))
  generalize propLhs fbt i (propRhs fbt i (s.check b, UNCHANGED, 0)) = acc at *
  have o' : Ok μ acc.1 := by
    split at o
    · exact o
    · exact o
  obtain ⟨o1, hG⟩ := (h (fun _ => .nan)).pl.pf.pg.good o'
  have hr : (s.rtag i).inactive = false := by
    have := o1.check.2
    rw [← hb] at this
    simpa using this
  have sc := sameCore_check s b
  have inv' : Inv (s.check b) := ⟨sc.gi c.inv.gi, c.inv.ston, c.inv.dton⟩
  have G := hG inv' hN hA
  have g1 : Grow s acc.1 := (check_grow s b).trans G.run.grow
  have hpt : ∀ X : ℕ → D, P.Feasible (fun k => (X k).toQ) → Agrees X s → Boxed X s →
      FeasPt acc.1 (fun k => (X k).toQ) := fun X hf ha hB =>
    ((h X).pl.live o' inv' hN hA hr (c.feas.check b) ((feasPt_of c.feas c.inv.gi hf ha hB).core sc)).2
  have hgb : ∀ X : ℕ → D, P.Feasible (fun k => (X k).toQ) → Agrees X s → Boxed X s →
      GroupBack P X i (s.A i) (s.check b, UNCHANGED, 0) acc := fun X hf ha hB =>
    (h X).gb o' inv' hN hA hr (c.feas.check b) c.rng ((feasPt_of c.feas c.inv.gi hf ha hB).core sc)
  obtain ⟨l, hl, -⟩ := g1.log
  have gA : acc.1.A = s.A := (h (fun _ => .nan)).pl.pf.pg.A
  have hfeas : Feas P acc.1 := ((h (fun _ => .nan)).pl.pf.feas o' inv' hN hA hr (c.feas.check b)).1
  have hgi : GI acc.1 := G.run.gi inv'.gi
  split
  · refine ⟨g1.trans (.one (r := .boundChangeTheRow i (acc.1.A i) acc.2.2) rfl rfl rfl),
      ⟨.boundChangeTheRow i (acc.1.A i) acc.2.2 :: l, ?_⟩, ?_, ?_⟩
    · show _ :: acc.1.log = _
      rw [hl]; rfl
    · intro X hf ha hB
      have ha' : Agrees X s := Agrees.suffix (t := acc.1.save (.boundChangeTheRow i (acc.1.A i) acc.2.2)) ha
        ⟨.boundChangeTheRow i (acc.1.A i) acc.2.2 :: l, by
        show _ :: acc.1.log = _
        rw [hl]; rfl⟩
      exact (hpt X hf ha' hB).boxed hfeas hgi
    · intro X σ hX hc
      have hc' : Comp P X acc.1 σ := ⟨hc.stat.frame rfl rfl rfl (fun _ _ => rfl) rfl (fun _ => rfl) (fun _ => rfl), hc.here, hc.num, hc.old, hc.lhs, hc.rhs, hc.lb, hc.ub⟩
      have ha' : Agrees X s := hc'.oldSuffix hl
      obtain ⟨σ1, e1, c1⟩ := hgb X (hX rfl).1 ha' (hX rfl).2 σ 0 hc'
      refine ⟨σ1, ?_, c1.core sc⟩
      show replay (Group.next i (acc.1.A i) acc.2.2) acc.1.log σ = _
      rw [gA]
      rw [Nat.zero_add] at e1
      exact e1
  · rename_i hz
    have hz : acc.2.2 = 0 := by omega
    refine ⟨g1, ⟨l, hl⟩, ?_, ?_⟩
    · intro X hf ha hB
      exact (hpt X hf (Agrees.suffix ha ⟨l, hl⟩) hB).boxed hfeas hgi
    · intro X σ hX hc
      have ha' : Agrees X s := hc.oldSuffix hl
      obtain ⟨σ1, e1, c1⟩ := hgb X (hX rfl).1 ha' (hX rfl).2 σ 0 hc
      refine ⟨σ1, ?_, c1.core sc⟩
      rw [hz] at e1
      exact e1

theorem propLoop_kkt (hμ : μ.near = false) (P : LP) (fbt : Bool) (N : ℕ) (fuel ii : ℕ) (s : St)
    (hf : N < fuel + ii) : KeepsKkt μ P true (PropReady N ii) (PropReady N 0) s (propLoop fbt fuel ii s) := by
  refine ⟨Good.toR (propLoop_goodF μ P fbt N fuel ii s hf), ?_⟩
  induction fuel generalizing ii s with
  | zero =>
    intro _ _ _ hi
    exfalso
    obtain ⟨-, -, h1, h2⟩ := hi
    unfold wt at h1
    omega
  | succ fuel ih =>
    unfold propLoop
    split
    · exact fun _ _ c _ => ⟨c.plain, .refl _ _ _⟩
    · rename_i i hi
      have hlen : ii < s.updActs.length := by
        by_contra hc
        rw [List.getElem?_eq_none (by omega)] at hi
        cases hi
      split
      · exact fun f o c h => ih (ii + 1) s (by omega) f o c ⟨h.1, h.2.1, h.2.2.1, hlen⟩
      · rename_i hs
        have hs : propSkip s i = false := by simpa using hs
        unfold propSkip at hs
        simp only [Bool.or_eq_false_iff, decide_eq_false_iff_not, not_le, not_not] at hs
        have g1 : Good μ (Fz P (PropReady N ii)) (Fz P (fun t => PropReady N (ii + 1) t ∧ t.A i ≠ [])) s
            { s with act := upd s.act i { s.act i with status := .propagatedThisRound } } := by
          refine Good.withF (.of (fun o => o) (fun _ inv h =>
            ⟨.of_same (by constructor <;> rfl) rfl rfl rfl, ⟨h.1, h.2.1, ?_, hlen⟩, ?_⟩)) (fun _ _ _ _ h => ?_)
          · rw [wt_upd_same s i _ (by rw [hs.1.2]; rfl)]
            exact h.2.2.1
          · intro hA
            have hA : s.A i = [] := hA
            have := inv.gi.rowSz i (by omega)
            rw [hA] at this
            simp only [List.length_nil, Nat.cast_zero] at this
            omega
          · refine h.core (by constructor <;> rfl) (fun j => ?_)
            show ActEq (upd s.act i _ j) (s.act j)
            by_cases e : j = i
            · subst e
              rw [upd_same]
              exact ⟨rfl, rfl, rfl, rfl⟩
            · rw [upd_ne _ _ e]; exact .refl _
        have sc : SameCore s { s with act := upd s.act i { s.act i with status := .propagatedThisRound } } := by
          constructor <;> rfl
        have k1 : KeepsKkt μ P true (PropReady N ii) (fun t => PropReady N (ii + 1) t ∧ t.A i ≠ []) s
            ({ s with act := upd s.act i { s.act i with status := .propagatedThisRound } }, UNCHANGED) :=
          .core sc g1
        simp only
        generalize ({ s with act := upd s.act i { s.act i with status := .propagatedThisRound } } : St) = s1 at *
        have g2 := (propRow_good μ fbt N (ii + 1) s1 i).withF (P := P)
          (fun o inv h _ hF => propRow_feas fbt o inv h.1.1 h.2 hF)
        have k2 : KeepsKkt μ P true (fun t => PropReady N (ii + 1) t ∧ t.A i ≠ []) (PropReady N (ii + 1)) s1
            ((propRow fbt s1 i).1, UNCHANGED) :=
          .of g2 (fun o c hi => by
            obtain ⟨p1, p2⟩ := propRow_kkt hμ fbt o c hi.1.1 hi.2
            exact ⟨p1.plain c.plain, p2⟩)
        split
        · exact fun f => absurd f not_fine_infeasible
        · intro f o c h
          have o1 := (propLoop_goodF μ P fbt N fuel (ii + 1) _ (by omega) o).1
          have k3 := k1.next k2
          obtain ⟨c2, j2⟩ := k3.base fine_unchanged o1 c h
          obtain ⟨q1, q2⟩ := ih (ii + 1) _ (by omega) f o c2 j2
          exact ⟨q1, (k3.back fine_unchanged o1 c h).2.trans q2⟩

theorem propReset_kkt (μ : Mode) (P : LP) (N : ℕ) (s : St) :
    KeepsKkt μ P β (PropReady N 0) NoRows s (propReset s, UNCHANGED) := by
  have sc : SameCore s (propReset s) := by unfold propReset; constructor <;> rfl
  refine .core sc ?_
  refine Good.withF ?_ (fun _ _ _ _ h => ?_)
  · unfold propReset
    exact .same (by constructor <;> rfl) rfl rfl rfl (fun o => o) (fun _ h => h.1)
  · refine h.core sc (fun j => ?_)
    unfold propReset
    simp only
    split
    · exact ⟨rfl, rfl, rfl, rfl⟩
    · split
      · exact ⟨rfl, rfl, rfl, rfl⟩
      · exact .refl _

theorem propagatePrimal_kkt (hμ : μ.near = false) (P : LP) (fbt : Bool) (s : St) :
    KeepsKkt μ P true Clean Clean s (propagatePrimal fbt s) := by
  refine ⟨(propagatePrimal_goodF μ P fbt s).toR, ?_⟩
  unfold propagatePrimal
  simp only
  generalize hs1 : (s.check (decide (s.stonRows = []))).check (decide (s.emptyRows = [])) = s1
  have g1 : KeepsKkt μ P true Clean Clean s (s1, UNCHANGED) := by
    rw [← hs1]
    have h1 : KeepsKkt μ P true Clean Clean s (s.check (decide (s.stonRows = [])), UNCHANGED) :=
      KeepsKkt.check _ _ (fun _ h => h)
    exact h1.next (KeepsKkt.check _ _ (fun _ h => h))
  have g2 : KeepsKkt μ P true Clean (PropReady (s1.updActs.length + 2 * s1.m) 0) s1
      (propLoop fbt (s1.updActs.length + 2 * s1.m + 1) 0 s1) :=
    (propLoop_kkt hμ P fbt (s1.updActs.length + 2 * s1.m) _ 0 s1 (by omega)).weaken
      (fun _ h => ⟨h.1, h.2.2, wt_le s1, Nat.zero_le _⟩) (fun _ h => h)
  have g3 := g1.next g2
  have hst := propLoop_st fbt (s1.updActs.length + 2 * s1.m + 1) 0 s1
  generalize propLoop fbt (s1.updActs.length + 2 * s1.m + 1) 0 s1 = r at *
  split
  · exact g3.back
  · rename_i hr
    have g4 := KeepsKkt.then g3 (fine_of_two hst hr) (propReset_kkt μ P _ r.1)
    have g5 := g4.next (delCols_kkt (st := UNCHANGED) μ P NoRows Clean (propReset r.1) (fun h => h)
      (fun _ _ d => ⟨d.noRows, d.noFixed, d.noSub⟩))
    generalize deleteInactiveCols (deleteFixedCols (propReset r.1)) = s2 at *
    have g6 : KeepsKkt μ P true Clean Clean s2 (s2.check (decide (s2.rowsToDelete = [])), UNCHANGED) :=
      KeepsKkt.check _ _ (fun _ h => h)
    exact ((g5.next g6).next (removeEmptyRows_kkt μ P _)).back

/-! ### Redundant rows and sides -/

theorem Back.drop (hm : t.m = s.m) (hA : t.A = s.A) (hc : t.c = s.c) (hct : t.ctag = s.ctag) (hlb : t.lb = s.lb)
    (hub : t.ub = s.ub) (hl : t.log = s.log) (hi : ∀ i, (t.rtag i).inactive = (s.rtag i).inactive)
    (hL : ∀ i, (t.rtag i).lhsInf = false → (s.rtag i).lhsInf = false)
    (hR : ∀ i, (t.rtag i).rhsInf = false → (s.rtag i).rhsInf = false) : Back P β s t := by
  refine ⟨⟨[], hl⟩, fun _ _ _ h => (SameBox.eq hct hlb hub).boxed h, fun X σ _ h => ⟨σ, by rw [hl], ?_⟩⟩
  refine ⟨h.stat.frame rfl rfl hm (fun i _ => by rw [hA]) hc hi (fun _ => by rw [hct]),
    by rw [← hct]; exact h.here, h.num, by rw [← hl]; exact h.old, fun i ha hp => ?_, fun i ha hp => ?_,
    by rw [← hct, ← hlb]; exact h.lb, by rw [← hct, ← hub]; exact h.ub⟩
  · obtain ⟨h1, h2⟩ := h.lhs i (by rw [hi]; exact ha) hp
    exact ⟨hL i h1, h2⟩
  · obtain ⟨h1, h2⟩ := h.rhs i (by rw [hi]; exact ha) hp
    exact ⟨hR i h1, h2⟩

theorem checkActRow_back (s : St) (row : ℕ) : Back P β s (checkActRow s row).1 := by
  unfold checkActRow
  split
  · exact .refl _ _ _
  · rename_i hg
    simp only [Bool.or_eq_true, not_or, Bool.not_eq_true] at hg
    simp only
    generalize decide ((s.act row).nInfMin = 0 ∨ (s.act row).nInfMax = 0) = b
    have hc : Back P β s (s.check b) := .core (sameCore_check s b)
    split
    · exact hc.trans (.deact _ _)
    · rename_i hb
      simp only [Bool.and_eq_true, Bool.or_eq_true, not_and, not_or, Bool.not_eq_true] at hb
      split
      · rename_i hl
        have hb' := hb (.inl hl)
        refine .drop (locksEqToIneq_same St.m (fun _ _ _ _ => rfl) _ _ _) (locksEqToIneq_same St.A (fun _ _ _ _ => rfl) _ _ _)
          (locksEqToIneq_same St.c (fun _ _ _ _ => rfl) _ _ _) (locksEqToIneq_same St.ctag (fun _ _ _ _ => rfl) _ _ _)
          (locksEqToIneq_same St.lb (fun _ _ _ _ => rfl) _ _ _) (locksEqToIneq_same St.ub (fun _ _ _ _ => rfl) _ _ _)
          (locksEqToIneq_same St.log (fun _ _ _ _ => rfl) _ _ _) (fun i => ?_) (fun i => ?_) (fun i => ?_)
        all_goals
          rw [show (_ : St).rtag = upd s.rtag row { lhsInf := true } from locksEqToIneq_same St.rtag (fun _ _ _ _ => rfl) _ _ _]
          by_cases e : i = row
          · subst e; rw [upd_same]; first | exact hg.1.1.symm | exact fun _ => hb'.2 | (intro h; exact absurd (show true = false from h) (by decide))
          · rw [upd_ne _ _ e]; first | done | exact id
      · split
        · rename_i hl hr
          refine .drop (locksEqToIneq_same St.m (fun _ _ _ _ => rfl) _ _ _) (locksEqToIneq_same St.A (fun _ _ _ _ => rfl) _ _ _)
            (locksEqToIneq_same St.c (fun _ _ _ _ => rfl) _ _ _) (locksEqToIneq_same St.ctag (fun _ _ _ _ => rfl) _ _ _)
            (locksEqToIneq_same St.lb (fun _ _ _ _ => rfl) _ _ _) (locksEqToIneq_same St.ub (fun _ _ _ _ => rfl) _ _ _)
            (locksEqToIneq_same St.log (fun _ _ _ _ => rfl) _ _ _) (fun i => ?_) (fun i => ?_) (fun i => ?_)
          all_goals
            rw [show (_ : St).rtag = upd s.rtag row { rhsInf := true } from locksEqToIneq_same St.rtag (fun _ _ _ _ => rfl) _ _ _]
            by_cases e : i = row
            · subst e; rw [upd_same]
              first
                | exact hg.1.1.symm
                | (intro h; exact absurd (show true = false from h) (by decide))
                | (intro _
                   by_contra hx
                   have hx : (s.rtag i).lhsInf = true := by simpa using hx
                   have := (hb (.inr hx)).1
                   rw [this] at hr; cases hr)
            · rw [upd_ne _ _ e]; first | done | exact id
        · exact hc

theorem checkActLoop_back (L : List ℕ) (s : St) : Grow s (checkActLoop L s).1 ∧ Back P β s (checkActLoop L s).1 := by
  induction L generalizing s with
  | nil => exact ⟨.refl s, .refl _ _ _⟩
  | cons row rest ih =>
    unfold checkActLoop
    simp only
    split
    · exact ⟨checkActRow_grow s row, checkActRow_back s row⟩
    · obtain ⟨h1, h2⟩ := ih (checkActRow s row).1
      exact ⟨(checkActRow_grow s row).trans h1, (checkActRow_back s row).trans h2⟩

theorem checkActLoop_kkt (μ : Mode) (P : LP) (L : List ℕ) (s : St) :
    KeepsKkt μ P β NoCols NoCols s (checkActLoop L s) := by
  refine ⟨Good.toR ((checkActLoop_good μ L s).withF (P := P) (fun o i hi _ h => checkActLoop_feas L h i hi o)),
    fun _ _ c _ => ?_⟩
  obtain ⟨h1, h2⟩ := checkActLoop_back (P := P) (β := β) L s
  exact ⟨h1.plain c.plain, h2⟩

theorem checkActivities_kkt (μ : Mode) (P : LP) (s : St) : KeepsKkt μ P β Clean Clean s (checkActivities s) := by
  refine ⟨(checkActivities_goodF μ P s).toR, ?_⟩
  unfold checkActivities
  simp only
  have g := (checkActLoop_kkt (β := β) μ P s.updActs s).weaken (I' := Clean) (J' := NoCols) (fun _ h => h.2) (fun _ h => h)
  split
  · exact g.back
  · rename_i h
    refine (KeepsKkt.then g (fine_of_two (checkActLoop_st _ _) h)
      (delRows_kkt μ P NoCols Clean _ (fun _ hi d => ⟨d.noRows, ?_, ?_⟩))).back
    · rw [d.fixedCols]; exact hi.1
    · rw [d.subCols]; exact hi.2

/-- The medium explorers without parallel rows and columns. -/
theorem runMedium_kkt (hμ : μ.near = false) (P : LP) (env : Env) (stgs : Settings)
    (hr : stgs.parallelRows = false) (hc : stgs.parallelCols = false) (s : St) :
    KeepsKkt μ P true Clean Clean s (runMedium env stgs s) := by
  unfold runMedium
  simp only
  have h1 : KeepsKkt μ P true Clean Clean s (if stgs.primalPropagation then
      ((runTrivial stgs (propagatePrimal stgs.finiteBoundTightening (checkActivities s).1).1).1,
        (checkActivities s).2 ||| (propagatePrimal stgs.finiteBoundTightening (checkActivities s).1).2 |||
        (runTrivial stgs (propagatePrimal stgs.finiteBoundTightening (checkActivities s).1).1).2)
      else (s, UNCHANGED)) := by
    split
    · have g1 := checkActivities_kkt (β := true) μ P s
      generalize checkActivities s = a at g1 ⊢
      have g2 := propagatePrimal_kkt hμ P stgs.finiteBoundTightening a.1
      generalize propagatePrimal stgs.finiteBoundTightening a.1 = b at g2 ⊢
      have g3 := runTrivial_kkt (β := true) hμ P stgs b.1
      generalize runTrivial stgs b.1 = d at g3 ⊢
      exact (g1.trans g2).trans g3
    · exact .refl _ _ _ _ _
  generalize (if stgs.primalPropagation then
      ((runTrivial stgs (propagatePrimal stgs.finiteBoundTightening (checkActivities s).1).1).1,
        (checkActivities s).2 ||| (propagatePrimal stgs.finiteBoundTightening (checkActivities s).1).2 |||
        (runTrivial stgs (propagatePrimal stgs.finiteBoundTightening (checkActivities s).1).1).2)
      else (s, UNCHANGED)) = r at h1
  rw [hr, hc]
  simp only [Bool.false_eq_true, if_false]
  rw [ite_self, ite_self]
  exact h1

end

end Verif
