import Verif.Inv.LiveSton
import Verif.Props.C24_Propagation

/-!
# Live points and primal propagation
-/

namespace Verif

section
variable {μ : Mode} {P : LP} {v : ℚ} {i k : ℕ} {s t : St} {X : St → Prop} {acc r : PropAcc} {w : ℕ → ℚ}

theorem PropRun.grow {num : ℕ} (h : PropRun i s num t) : Grow s t := by
  refine ⟨?_, h.frame.colSize⟩
  induction h with
  | nil => exact ⟨[], rfl, fun _ h => by cases h⟩
  | same h e ih => rw [e.log]; exact ih
  | bound j lb ub tag im o low h hj hcell htag e ih =>
    obtain ⟨l, h1, h2⟩ := ih
    refine ⟨.boundChangeNoRow j im o low :: l, ?_, ?_⟩
    · rw [e.log, List.cons_append, ← h1]; rfl
    · intro r hr
      rcases List.mem_cons.mp hr with rfl | hr
      · rfl
      · exact h2 r hr
  | fix k val h hk hrows e ih =>
    obtain ⟨l, h1, h2⟩ := ih
    refine ⟨_ :: l, by rw [e.log, List.cons_append, ← h1]; rfl, ?_⟩
    intro r hr
    rcases List.mem_cons.mp hr with rfl | hr
    · rfl
    · exact h2 r hr

/-- A kept point stays feasible. -/
theorem KeepsCol.feasPt (h : KeepsCol s t k w) (hn : t.near = false) (hw : FeasPt s w) : FeasPt t w := by
  obtain ⟨w', h1, -, h3⟩ := h.here
  have e : w' = w k := h3 (.inr hn)
  refine ⟨fun i hi ha => ?_, fun j hj hs hb => ?_⟩
  · rw [h.rows.m] at hi; rw [h.rows.rtag] at ha
    have := hw.1 i hi ha
    unfold RowOK at *
    rw [h.rows.rtag, h.rows.lhs, h.rows.rhs, h.rows.A]; exact this
  · by_cases ej : j = k
    · subst ej
      unfold InCol effTags at h1
      rw [upd_same, e] at h1
      exact h1
    · obtain ⟨a, b, c⟩ := h.others j ej
      rw [h.rows.n] at hj; rw [h.rows.colSize] at hs; rw [c] at hb
      have := hw.2 j hj hs hb
      unfold ColIn at *
      rw [a, b, c]; exact this

/-- What is needed of a row for the statements about one bound change. -/
theorem Feas.ready (h : Feas P s) (g : GI s) (hw : FeasPt s w) (ha : (s.rtag i).inactive = false) : RowReady s i w where
  nodup := (g.rowSorted i).nodup
  nz := fun p hp => (g.rowRange i p hp).2.2
  cols := h.colsOK g ha
  act := h.act i (h.rrng i ha) ha
  box := by
    intro p hp
    have hk := (g.rowRange i p hp).2.1
    exact hw.2 p.1 hk (g.rowIn i ha p hp) (h.col p.1 (by rw [← h.n]; exact hk)).sub

theorem propTryUb_ok (fbt : Bool) (acc : PropAcc) (k : ℕ) (b : D) (o : Ok μ (propTryUb fbt acc k b).1) : Ok μ acc.1 := by
  unfold propTryUb at o
  simp only at o
  split at o
  · exact ((propUb_form fbt acc.1 k b).ok o).1
  · exact o

theorem propTryLb_ok (fbt : Bool) (acc : PropAcc) (k : ℕ) (b : D) (o : Ok μ (propTryLb fbt acc k b).1) : Ok μ acc.1 := by
  unfold propTryLb at o
  simp only at o
  split at o
  · exact ((propLb_form fbt acc.1 k b).ok o).1
  · exact o

theorem propRhsCell_ok (fbt : Bool) (i : ℕ) (acc : PropAcc) (p : Cell) (o : Ok μ (propRhsCell fbt i acc p).1) :
    Ok μ acc.1 := by
  unfold propRhsCell at o
  simp only at o
  split at o
  · exact o
  · split at o
    · exact propTryUb_ok _ _ _ _ o
    · exact propTryLb_ok _ _ _ _ o

theorem propLhsCell_ok (fbt : Bool) (i : ℕ) (acc : PropAcc) (p : Cell) (o : Ok μ (propLhsCell fbt i acc p).1) :
    Ok μ acc.1 := by
  unfold propLhsCell at o
  simp only at o
  split at o
  · exact o
  · split at o
    · exact propTryLb_ok _ _ _ _ o
    · exact propTryUb_ok _ _ _ _ o

theorem propFold_ok (f : PropAcc → Cell → PropAcc) (hf : ∀ acc p, Ok μ (f acc p).1 → Ok μ acc.1) (L : List Cell)
    (acc : PropAcc) (o : Ok μ (L.foldl f acc).1) : Ok μ acc.1 := by
  induction L generalizing acc with
  | nil => exact o
  | cons p L ih => exact hf _ _ (ih _ o)

theorem propRhs_ok (fbt : Bool) (i : ℕ) (acc : PropAcc) (o : Ok μ (propRhs fbt i acc).1) : Ok μ acc.1 := by
  unfold propRhs at o
  simp only at o
  split at o
  · exact propFold_ok _ (fun acc p => propRhsCell_ok fbt i acc p) _ _ o
  · split at o
    · split at o
      · exact o
      · split at o
        · exact (propTryUb_ok _ _ _ _ o).check.1
        · exact (propTryLb_ok _ _ _ _ o).check.1
    · exact o

theorem propLhs_ok (fbt : Bool) (i : ℕ) (acc : PropAcc) (o : Ok μ (propLhs fbt i acc).1) : Ok μ acc.1 := by
  unfold propLhs at o
  simp only at o
  split at o
  · exact propFold_ok _ (fun acc p => propLhsCell_ok fbt i acc p) _ _ o
  · split at o
    · split at o
      · exact o
      · split at o
        · exact (propTryLb_ok _ _ _ _ o).check.1
        · exact (propTryUb_ok _ _ _ _ o).check.1
    · exact o

/-- The live point while row `i` is propagated. -/
structure PL (μ : Mode) (P : LP) (i : ℕ) (s : St) (w : ℕ → ℚ) (X : St → Prop) (acc : PropAcc) : Prop where
  pf : PF μ P i s X acc
  live : Ok μ acc.1 → Inv s → NoRows s → s.A i ≠ [] → (s.rtag i).inactive = false → Feas P s → FeasPt s w →
    hasStatus acc.2.1 INFEASIBLE = false ∧ FeasPt acc.1 w

theorem PL.step (hμ : μ.near = false) (h : PL μ P i s w X acc) (hpf : PF μ P i s X r) (hle : Ok μ r.1 → Ok μ acc.1)
    (key : GI acc.1 → Feas P acc.1 → X acc.1 → FeasPt acc.1 w → (acc.1.rtag i).inactive = false →
      ∃ k, PropKeeps acc r k w) : PL μ P i s w X r := by
  refine ⟨hpf, fun o inv hN hA hr hf hw => ?_⟩
  have o' := hle o
  obtain ⟨h1, h2⟩ := h.live o' inv hN hA hr hf hw
  obtain ⟨hf', hX⟩ := h.pf.feas o' inv hN hA hr hf
  obtain ⟨k, k1, k2⟩ := key (((h.pf.pg.good o').2 inv hN hA).run.gi inv.gi) hf' hX h2 (by rw [h.pf.rtag]; exact hr)
  exact ⟨k1.trans h1, k2.feasPt (o.2.2 hμ) h2⟩

theorem PL.fold (f : PropAcc → Cell → PropAcc)
    (hf : ∀ acc p, p ∈ s.A i → PL μ P i s w X acc → PL μ P i s w X (f acc p)) (L : List Cell)
    (hL : ∀ p ∈ L, p ∈ s.A i) (h : PL μ P i s w X acc) : PL μ P i s w X (L.foldl f acc) := by
  induction L generalizing acc with
  | nil => exact h
  | cons p L ih =>
    exact ih (fun q hq => hL q (List.mem_cons_of_mem _ hq)) (hf acc p (hL p List.mem_cons_self) h)

theorem PL.weaken (h : PL μ P i s w X acc) {Y : St → Prop} (hY : X acc.1 → Y acc.1) : PL μ P i s w Y acc :=
  ⟨h.pf.weaken hY, h.live⟩

theorem propRhsCell_pl (hμ : μ.near = false) (fbt : Bool) (hR : (s.rtag i).rhsInf = false)
    (h : PL μ P i s w (FinMin i) acc) {p : Cell} (hp : p ∈ s.A i) : PL μ P i s w (FinMin i) (propRhsCell fbt i acc p) := by
  refine h.step hμ (propRhsCell_pf fbt hR h.pf hp) (propRhsCell_ok fbt i acc p) (fun g hf hX hw ha => ⟨p.1, ?_⟩)
  have hR' : (acc.1.rtag i).rhsInf = false := by rw [h.pf.rtag]; exact hR
  obtain ⟨B, -, hB⟩ := (hf.row i (hf.rrng i ha)).rhs ha hR'
  have hrow := (hw.1 i (by rw [hf.m]; exact hf.rrng i ha) ha).2
  rw [hR', hB, Hi_fin] at hrow
  refine C24_rhs_cell fbt i acc p w (by rw [h.pf.pg.A]; exact hp) (hf.ready g hw ha) ⟨_, hB, hrow⟩ ?_
  rw [(hf.actOK g ha).nmin]
  exact_mod_cast List.countP_eq_zero.mpr (fun p hp => by rw [hX p hp]; simp)

theorem propLhsCell_pl (hμ : μ.near = false) (fbt : Bool) (hR : (s.rtag i).lhsInf = false)
    (h : PL μ P i s w (FinMax i) acc) {p : Cell} (hp : p ∈ s.A i) : PL μ P i s w (FinMax i) (propLhsCell fbt i acc p) := by
  refine h.step hμ (propLhsCell_pf fbt hR h.pf hp) (propLhsCell_ok fbt i acc p) (fun g hf hX hw ha => ⟨p.1, ?_⟩)
  have hR' : (acc.1.rtag i).lhsInf = false := by rw [h.pf.rtag]; exact hR
  obtain ⟨B, -, hB⟩ := (hf.row i (hf.rrng i ha)).lhs ha hR'
  have hrow := (hw.1 i (by rw [hf.m]; exact hf.rrng i ha) ha).1
  rw [hR', hB, Lo_fin] at hrow
  refine C24_lhs_cell fbt i acc p w (by rw [h.pf.pg.A]; exact hp) (hf.ready g hw ha) ⟨_, hB, hrow⟩ ?_
  rw [(hf.actOK g ha).nmax]
  exact_mod_cast List.countP_eq_zero.mpr (fun p hp => by rw [hX p hp]; simp)

theorem propRhs_pl (hμ : μ.near = false) (fbt : Bool) (h : PL μ P i s w (fun _ => True) acc) :
    PL μ P i s w (fun _ => True) (propRhs fbt i acc) := by
  by_cases h0 : (acc.1.rtag i).rhsInf = false ∧ (acc.1.act i).nInfMin = 0
  · have e : propRhs fbt i acc = (acc.1.A i).foldl (propRhsCell fbt i) acc := by
      unfold propRhs
      simp only
      rw [if_pos]
      rw [h0.1, h0.2]; rfl
    rw [e]
    have hR : (s.rtag i).rhsInf = false := by rw [← h.pf.rtag]; exact h0.1
    have h' : PL μ P i s w (FinMin i) acc := ⟨⟨h.pf.pg, h.pf.rtag, fun o inv hN hA hr hf => by
      have hf' := (h.pf.feas o inv hN hA hr hf).1
      exact ⟨hf', hf'.finMin (((h.pf.pg.good o).2 inv hN hA).run.gi inv.gi) (by rw [h.pf.rtag]; exact hr) h0.2⟩⟩,
      h.live⟩
    exact (h'.fold _ (fun acc p hp h => propRhsCell_pl hμ fbt hR h hp) _
      (fun p hp => by rw [h.pf.pg.A] at hp; exact hp)).weaken (fun _ => trivial)
  · by_cases h1 : (acc.1.act i).nInfMin = 1
    · refine h.step hμ (propRhs_pf fbt h.pf) (propRhs_ok fbt i acc) (fun g hf _ hw ha => ?_)
      have hr := hf.row i (hf.rrng i ha)
      refine C24_rhs_one_infinite fbt i acc w (hf.ready g hw ha) (fun h => ?_) ?_ (fun p hp hin => ?_) h1
      · obtain ⟨B, -, e⟩ := hr.rhs ha h; exact ⟨_, e⟩
      · exact (hw.1 i (by rw [hf.m]; exact hf.rrng i ha) ha).2
      · have hs := (hf.col p.1 (by rw [← hf.n]; exact (g.rowRange i p hp).2.1)).sub
        cases hx : (acc.1.ctag p.1).fixed with
        | true => rfl
        | false =>
          exfalso
          have := CTag.inactive_false.mpr ⟨hx, hs⟩
          rw [hin] at this; cases this
    · have e : propRhs fbt i acc = acc := by
        unfold propRhs
        simp only
        rw [if_neg, if_neg]
        · intro hc
          simp only [Bool.and_eq_true, decide_eq_true_eq] at hc
          exact h1 hc.2
        · intro hc
          simp only [Bool.and_eq_true, Bool.not_eq_true', decide_eq_true_eq] at hc
          exact h0 hc
      rw [e]; exact h

theorem propLhs_pl (hμ : μ.near = false) (fbt : Bool) (h : PL μ P i s w (fun _ => True) acc) :
    PL μ P i s w (fun _ => True) (propLhs fbt i acc) := by
  by_cases h0 : (acc.1.rtag i).lhsInf = false ∧ (acc.1.act i).nInfMax = 0
  · have e : propLhs fbt i acc = (acc.1.A i).foldl (propLhsCell fbt i) acc := by
      unfold propLhs
      simp only
      rw [if_pos]
      rw [h0.1, h0.2]; rfl
    rw [e]
    have hR : (s.rtag i).lhsInf = false := by rw [← h.pf.rtag]; exact h0.1
    have h' : PL μ P i s w (FinMax i) acc := ⟨⟨h.pf.pg, h.pf.rtag, fun o inv hN hA hr hf => by
      have hf' := (h.pf.feas o inv hN hA hr hf).1
      exact ⟨hf', hf'.finMax (((h.pf.pg.good o).2 inv hN hA).run.gi inv.gi) (by rw [h.pf.rtag]; exact hr) h0.2⟩⟩,
      h.live⟩
    exact (h'.fold _ (fun acc p hp h => propLhsCell_pl hμ fbt hR h hp) _
      (fun p hp => by rw [h.pf.pg.A] at hp; exact hp)).weaken (fun _ => trivial)
  · by_cases h1 : (acc.1.act i).nInfMax = 1
    · refine h.step hμ (propLhs_pf fbt h.pf) (propLhs_ok fbt i acc) (fun g hf _ hw ha => ?_)
      have hr := hf.row i (hf.rrng i ha)
      refine C24_lhs_one_infinite fbt i acc w (hf.ready g hw ha) (fun h => ?_) ?_ (fun p hp hin => ?_) h1
      · obtain ⟨B, -, e⟩ := hr.lhs ha h; exact ⟨_, e⟩
      · exact (hw.1 i (by rw [hf.m]; exact hf.rrng i ha) ha).1
      · have hs := (hf.col p.1 (by rw [← hf.n]; exact (g.rowRange i p hp).2.1)).sub
        cases hx : (acc.1.ctag p.1).fixed with
        | true => rfl
        | false =>
          exfalso
          have := CTag.inactive_false.mpr ⟨hx, hs⟩
          rw [hin] at this; cases this
    · have e : propLhs fbt i acc = acc := by
        unfold propLhs
        simp only
        rw [if_neg, if_neg]
        · intro hc
          simp only [Bool.and_eq_true, decide_eq_true_eq] at hc
          exact h1 hc.2
        · intro hc
          simp only [Bool.and_eq_true, Bool.not_eq_true', decide_eq_true_eq] at hc
          exact h0 hc
      rw [e]; exact h

/-- One row: no infeasibility is reported and the point stays. -/
theorem propRow_live (hμ : μ.near = false) (fbt : Bool) (o : Ok μ (propRow fbt s i).1) (c : Cur P v s)
    (hN : NoRows s) (hA : s.A i ≠ []) (hw : FeasPt s w) :
    hasStatus (propRow fbt s i).2 INFEASIBLE = false ∧ FeasPt (propRow fbt s i).1 w ∧ Grow s (propRow fbt s i).1 := by
  unfold propRow at *
  simp only at *
  generalize hb : (!(s.rtag i).inactive) = b at *
  have h0 : PL μ P i (s.check b) w (fun _ => True) (s.check b, UNCHANGED, 0) :=
    ⟨⟨⟨rfl, fun o => ⟨o, fun _ _ _ => ⟨.nil, rfl, rfl, rfl, rfl, rfl, le_refl _, le_refl _⟩⟩⟩, rfl,
      fun _ _ _ _ _ hf => ⟨hf, trivial⟩⟩, fun _ _ _ _ _ _ hw =>
      ⟨(by show hasStatus UNCHANGED INFEASIBLE = false; decide), hw⟩⟩
  have h := propLhs_pl hμ fbt (propRhs_pl hμ fbt h0)
  generalize propLhs fbt i (propRhs fbt i (s.check b, UNCHANGED, 0)) = acc at *
  have o' : Ok μ acc.1 := by
    split at o
    · exact o
    · exact o
  obtain ⟨o1, hG⟩ := h.pf.pg.good o'
  have hr : (s.rtag i).inactive = false := by
    have := o1.check.2
    rw [← hb] at this
    simpa using this
  have inv' : Inv (s.check b) := ⟨(sameCore_check s b).gi c.inv.gi, c.inv.ston, c.inv.dton⟩
  obtain ⟨h1, h2⟩ := h.live o' inv' hN hA hr (c.feas.check b) (hw.core (sameCore_check s b))
  have g1 : Grow s acc.1 := (check_grow s b).trans (hG inv' hN hA).run.grow
  refine ⟨h1, ?_, ?_⟩
  · split
    · exact h2
    · exact h2
  · split
    · exact g1.trans (.one (r := .boundChangeTheRow i (acc.1.A i) acc.2.2) rfl rfl rfl)
    · exact g1

theorem propLoop_st (fbt : Bool) (fuel ii : ℕ) (s : St) :
    (propLoop fbt fuel ii s).2 = UNCHANGED ∨ (propLoop fbt fuel ii s).2 = INFEASIBLE := by
  induction fuel generalizing ii s with
  | zero => exact .inl rfl
  | succ fuel ih =>
    unfold propLoop
    split
    · exact .inl rfl
    · split
      · exact ih _ _
      · simp only
        split
        · exact .inr rfl
        · exact ih _ _

theorem propLoop_keeps (hμ : μ.near = false) (P : LP) (v : ℚ) (fbt : Bool) (N : ℕ) (fuel ii : ℕ) (s : St)
    (hf : N < fuel + ii) : KeepsPt μ P v (PropReady N ii) (PropReady N 0) s (propLoop fbt fuel ii s) := by
  refine ⟨Good.toR (propLoop_goodF μ P fbt N fuel ii s hf), ?_⟩
  induction fuel generalizing ii s with
  | zero =>
    intro _ _ hi
    exfalso
    obtain ⟨-, -, h1, h2⟩ := hi
    unfold wt at h1
    omega
  | succ fuel ih =>
    unfold propLoop
    split
    · exact fun _ c _ => ⟨.inl fine_unchanged, fun _ => ⟨c.plain, c.live⟩⟩
    · rename_i i hi
      have hlen : ii < s.updActs.length := by
        by_contra hc
        rw [List.getElem?_eq_none (by omega)] at hi
        cases hi
      split
      · exact fun o c h => ih (ii + 1) s (by omega) o c ⟨h.1, h.2.1, h.2.2.1, hlen⟩
      · rename_i hs
        have hs : propSkip s i = false := by simpa using hs
        unfold propSkip at hs
        simp only [Bool.or_eq_false_iff, decide_eq_false_iff_not, not_le, not_not] at hs
        have g1 : Good μ (Fz P (PropReady N ii)) (Fz P (fun t => PropReady N (ii + 1) t ∧ t.A i ≠ [])) s
            { s with act := upd s.act i { s.act i with status := .propagatedThisRound } } := by
          refine Good.withF (.of (fun o => o) (fun _ inv h =>
            ⟨.of_same (by constructor <;> rfl) rfl rfl rfl, ⟨h.1, h.2.1, ?_, hlen⟩, ?_⟩)) (fun _ _ _ _ h => ?_)
          · rw [wt_upd_same s i _ (by rw [hs.1.2]; rfl)]
            exact h.2.2.1
          · intro hA
            have hA : s.A i = [] := hA
            have := inv.gi.rowSz i (by omega)
            rw [hA] at this
            simp only [List.length_nil, Nat.cast_zero] at this
            omega
          · refine h.core (by constructor <;> rfl) (fun j => ?_)
            show ActEq (upd s.act i _ j) (s.act j)
            by_cases e : j = i
            · subst e
              rw [upd_same]
              exact ⟨rfl, rfl, rfl, rfl⟩
            · rw [upd_ne _ _ e]; exact .refl _
        have sc : SameCore s { s with act := upd s.act i { s.act i with status := .propagatedThisRound } } := by
          constructor <;> rfl
        have k1 : KeepsPt μ P v (PropReady N ii) (fun t => PropReady N (ii + 1) t ∧ t.A i ≠ []) s
            ({ s with act := upd s.act i { s.act i with status := .propagatedThisRound } }, UNCHANGED) :=
          .core sc g1 fine_unchanged
        simp only
        generalize ({ s with act := upd s.act i { s.act i with status := .propagatedThisRound } } : St) = s1 at *
        have g2 := (propRow_good μ fbt N (ii + 1) s1 i).withF (P := P)
          (fun o inv h _ hF => propRow_feas fbt o inv h.1.1 h.2 hF)
        split
        · rename_i hst
          intro o c h
          exfalso
          obtain ⟨c1, j1⟩ := (k1.cur (g2 o).1 c h).2 fine_unchanged
          obtain ⟨w, hw, -⟩ := c1.live
          have := (propRow_live hμ fbt o c1 j1.1.1 j1.2 hw.pt).1
          rw [hst] at this; cases this
        · intro o c h
          have o1 := (propLoop_goodF μ P fbt N fuel (ii + 1) _ (by omega) o).1
          obtain ⟨c1, j1⟩ := (k1.cur (g2 o1).1 c h).2 fine_unchanged
          obtain ⟨w, hw, hv⟩ := c1.live
          obtain ⟨-, h2, h3⟩ := propRow_live hμ fbt o1 c1 j1.1.1 j1.2 hw.pt
          obtain ⟨c2, j2⟩ := c1.next g2 o1 j1 (h3.plain c1.plain) ⟨w, hw.grow h3 h2, hv⟩
          exact ih (ii + 1) _ (by omega) o c2 j2

theorem propReset_keeps (μ : Mode) (P : LP) (v : ℚ) (N : ℕ) (s : St) :
    KeepsPt μ P v (PropReady N 0) NoRows s (propReset s, UNCHANGED) := by
  have sc : SameCore s (propReset s) := by unfold propReset; constructor <;> rfl
  refine .core sc ?_ fine_unchanged
  refine Good.withF ?_ (fun _ _ _ _ h => ?_)
  · unfold propReset
    exact .same (by constructor <;> rfl) rfl rfl rfl (fun o => o) (fun _ h => h.1)
  · refine h.core sc (fun j => ?_)
    unfold propReset
    simp only
    split
    · exact ⟨rfl, rfl, rfl, rfl⟩
    · split
      · exact ⟨rfl, rfl, rfl, rfl⟩
      · exact .refl _

end

end Verif
