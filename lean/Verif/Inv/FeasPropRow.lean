import Verif.Inv.FeasProp

/-!
# Propagation of one row keeps `Feas`
-/

namespace Verif

theorem propUb_rtag (fbt : Bool) (s : St) (k : ℕ) (b : D) : (propUb fbt s k b).1.rtag = s.rtag := by
  obtain ⟨-, -, -, ⟨b, e, _⟩ | ⟨lb, ub, im, o, low, t, b, a, u, nr, _, _, e⟩ |
    ⟨lb, ub, im, o, low, t, b, a, u, v, nr, _, _, e⟩⟩ := propUb_form fbt s k b <;>
    simp only [e, boundStep, fixStep]

theorem propLb_rtag (fbt : Bool) (s : St) (k : ℕ) (b : D) : (propLb fbt s k b).1.rtag = s.rtag := by
  obtain ⟨-, -, -, ⟨b, e, _⟩ | ⟨lb, ub, im, o, low, t, b, a, u, nr, _, _, e⟩ |
    ⟨lb, ub, im, o, low, t, b, a, u, v, nr, _, _, e⟩⟩ := propLb_form fbt s k b <;>
    simp only [e, boundStep, fixStep]

theorem BoundForm.ok {μ : Mode} {s : St} {k : ℕ} {r : St × Status} (f : BoundForm s k r) (h : Ok μ r.1) :
    Ok μ s ∧ (s.ctag k).inactive = false := by
  obtain ⟨f1, -, -, f3⟩ := f
  refine ⟨⟨(f1 h.1).1, fun hr => ?_, fun hr => ?_⟩, (f1 h.1).2⟩
  · have := h.2.1 hr
    rcases f3 with ⟨b, e, _⟩ | ⟨lb, ub, im, o, low, t, b, a, u, nr, _, _, e⟩ | ⟨lb, ub, im, o, low, t, b, a, u, v, nr, _, _, e⟩ <;>
      (rw [e] at this; exact this)
  · have := h.2.2 hr
    rcases f3 with ⟨b, e, _⟩ | ⟨lb, ub, im, o, low, t, b, a, u, nr, _, _, e⟩ | ⟨lb, ub, im, o, low, t, b, a, u, v, nr, _, _, e⟩
    · rw [e] at this; exact this
    · rw [e] at this; exact (Bool.or_eq_false_iff.mp this).1
    · rw [e] at this; exact (Bool.or_eq_false_iff.mp this).1

/-- A condition on the state that bound changes do not destroy. -/
def Stable (X : St → Prop) : Prop := ∀ s t, t.A = s.A → Tag s t → X s → X t

/-- No cell of row `i` has an infinite smallest contribution. -/
def FinMin (i : ℕ) (s : St) : Prop := ∀ p ∈ s.A i, unbMin (effTags s) p = false

/-- No cell of row `i` has an infinite largest contribution. -/
def FinMax (i : ℕ) (s : St) : Prop := ∀ p ∈ s.A i, unbMax (effTags s) p = false

theorem finMin_stable (i : ℕ) : Stable (FinMin i) := by
  intro s t hA hT h p hp
  rw [hA] at hp
  have := h p hp
  unfold unbMin at this ⊢
  split
  · rename_i h0
    rw [if_pos h0] at this
    by_contra hc
    have := (hT p.1).1 (by simpa using hc)
    simp_all
  · rename_i h0
    rw [if_neg h0] at this
    by_contra hc
    have := (hT p.1).2 (by simpa using hc)
    simp_all

theorem finMax_stable (i : ℕ) : Stable (FinMax i) := by
  intro s t hA hT h p hp
  rw [hA] at hp
  have := h p hp
  unfold unbMax at this ⊢
  split
  · rename_i h0
    rw [if_pos h0] at this
    by_contra hc
    have := (hT p.1).2 (by simpa using hc)
    simp_all
  · rename_i h0
    rw [if_neg h0] at this
    by_contra hc
    have := (hT p.1).1 (by simpa using hc)
    simp_all

/-- The state while row `i` is propagated. -/
structure PF (μ : Mode) (P : LP) (i : ℕ) (s : St) (X : St → Prop) (acc : PropAcc) : Prop where
  pg : PG μ i s acc
  rtag : acc.1.rtag = s.rtag
  feas : Ok μ acc.1 → Inv s → NoRows s → s.A i ≠ [] → (s.rtag i).inactive = false → Feas P s →
    Feas P acc.1 ∧ X acc.1

section
variable {μ : Mode} {P : LP} {i : ℕ} {s : St} {X : St → Prop} {acc : PropAcc}

theorem PF.weaken (h : PF μ P i s X acc) {Y : St → Prop} (hY : X acc.1 → Y acc.1) : PF μ P i s Y acc :=
  ⟨h.pg, h.rtag, fun o inv hN hA hr hf => ⟨(h.feas o inv hN hA hr hf).1, hY (h.feas o inv hN hA hr hf).2⟩⟩

theorem PF.tryUb (h : PF μ P i s X acc) (hX : Stable X) (fbt : Bool) (k : ℕ) (b : D) (hc : ∃ v, (k, v) ∈ s.A i)
    (hb : acc.1.asrt = true → GI acc.1 → Feas P acc.1 → X acc.1 → (acc.1.rtag i).inactive = false →
      (acc.1.ctag k).inactive = false → ∃ q, b = .fin q) : PF μ P i s X (propTryUb fbt acc k b) := by
  refine ⟨h.pg.tryUb fbt k b hc, ?_, ?_⟩
  · unfold propTryUb
    simp only
    split
    · exact (propUb_rtag fbt acc.1 k b).trans h.rtag
    · exact h.rtag
  · unfold propTryUb
    simp only
    split
    · intro o inv hN hA hr hf
      have o : Ok μ (propUb fbt acc.1 k b).1 := o
      show Feas P (propUb fbt acc.1 k b).1 ∧ X (propUb fbt acc.1 k b).1
      have form := propUb_form fbt acc.1 k b
      obtain ⟨o', hact⟩ := form.ok o
      obtain ⟨hf', hX'⟩ := h.feas o' inv hN hA hr hf
      have gi := ((h.pg.good o').2 inv hN hA).run.gi inv.gi
      obtain ⟨q, rfl⟩ := hb o'.1 gi hf' hX' (by rw [h.rtag]; exact hr) hact
      refine ⟨propUb_feas fbt hf' gi hact q, hX _ _ ?_ (propUb_tag fbt acc.1 k q) hX'⟩
      exact (h.pg.bound form hc).A.trans h.pg.A.symm
    · exact h.feas

theorem PF.tryLb (h : PF μ P i s X acc) (hX : Stable X) (fbt : Bool) (k : ℕ) (b : D) (hc : ∃ v, (k, v) ∈ s.A i)
    (hb : acc.1.asrt = true → GI acc.1 → Feas P acc.1 → X acc.1 → (acc.1.rtag i).inactive = false →
      (acc.1.ctag k).inactive = false → ∃ q, b = .fin q) : PF μ P i s X (propTryLb fbt acc k b) := by
  refine ⟨h.pg.tryLb fbt k b hc, ?_, ?_⟩
  · unfold propTryLb
    simp only
    split
    · exact (propLb_rtag fbt acc.1 k b).trans h.rtag
    · exact h.rtag
  · unfold propTryLb
    simp only
    split
    · intro o inv hN hA hr hf
      have o : Ok μ (propLb fbt acc.1 k b).1 := o
      show Feas P (propLb fbt acc.1 k b).1 ∧ X (propLb fbt acc.1 k b).1
      have form := propLb_form fbt acc.1 k b
      obtain ⟨o', hact⟩ := form.ok o
      obtain ⟨hf', hX'⟩ := h.feas o' inv hN hA hr hf
      have gi := ((h.pg.good o').2 inv hN hA).run.gi inv.gi
      obtain ⟨q, rfl⟩ := hb o'.1 gi hf' hX' (by rw [h.rtag]; exact hr) hact
      refine ⟨propLb_feas fbt hf' gi hact q, hX _ _ ?_ (propLb_tag fbt acc.1 k q) hX'⟩
      exact (h.pg.bound form hc).A.trans h.pg.A.symm
    · exact h.feas

theorem PF.check {t : St} {st : Status × ℕ} (h : PF μ P i s X (t, st)) (hX : Stable X) (b : Bool) :
    PF μ P i s (fun u => X u ∧ b = true) (t.check b, st) := by
  refine ⟨h.pg.check b, h.rtag, fun o inv hN hA hr hf => ?_⟩
  have o : Ok μ (t.check b) := o
  obtain ⟨h1, h2⟩ := h.feas o.check.1 inv hN hA hr hf
  exact ⟨h1.check b, hX t _ rfl (.of_eq rfl) h2, o.check.2⟩

theorem PF.fold (f : PropAcc → Cell → PropAcc)
    (hf : ∀ acc p, p ∈ s.A i → PF μ P i s X acc → PF μ P i s X (f acc p)) (L : List Cell)
    (hL : ∀ p ∈ L, p ∈ s.A i) (h : PF μ P i s X acc) : PF μ P i s X (L.foldl f acc) := by
  induction L generalizing acc with
  | nil => exact h
  | cons p L ih =>
    exact ih (fun q hq => hL q (List.mem_cons_of_mem _ hq)) (hf acc p (hL p List.mem_cons_self) h)

end

section
variable {P : LP} {s : St} {i : ℕ}

theorem Feas.actOK (h : Feas P s) (g : GI s) (ha : (s.rtag i).inactive = false) :
    ActOK (s.act i) (effTags s) s.lb s.ub (s.A i) :=
  (recomputed_iff (h.colsOK g ha)).mp (h.act i (h.rrng i ha) ha)

theorem Feas.minFin (h : Feas P s) (g : GI s) (ha : (s.rtag i).inactive = false) (hf : FinMin i s) :
    (s.act i).min = .fin (((s.A i).map (minTerm s.lb s.ub)).sum) := by
  have hr := h.actOK g ha
  refine hr.min ?_
  rw [hr.nmin, List.countP_eq_zero.mpr (fun p hp => by rw [hf p hp]; simp)]
  rfl

theorem Feas.maxFin (h : Feas P s) (g : GI s) (ha : (s.rtag i).inactive = false) (hf : FinMax i s) :
    (s.act i).max = .fin (((s.A i).map (maxTerm s.lb s.ub)).sum) := by
  have hr := h.actOK g ha
  refine hr.max ?_
  rw [hr.nmax, List.countP_eq_zero.mpr (fun p hp => by rw [hf p hp]; simp)]
  rfl

theorem Feas.finMin (h : Feas P s) (g : GI s) (ha : (s.rtag i).inactive = false) (h0 : (s.act i).nInfMin = 0) :
    FinMin i s := countP_zero_all ((h.actOK g ha).nmin.symm.trans h0)

theorem Feas.finMax (h : Feas P s) (g : GI s) (ha : (s.rtag i).inactive = false) (h0 : (s.act i).nInfMax = 0) :
    FinMax i s := countP_zero_all ((h.actOK g ha).nmax.symm.trans h0)

/-- The rest of a row with one infinite smallest contribution. -/
theorem Feas.oneMin (h : Feas P s) (g : GI s) (ha : (s.rtag i).inactive = false) (h1 : (s.act i).nInfMin = 1)
    {p : Cell} (hp : p ∈ s.A i) (hu : unbMin (effTags s) p = true) :
    ∃ v, minActOneTag s.lb s.ub (s.A i) p.1 = .fin v := by
  obtain ⟨k, q⟩ := p
  have hok := h.colsOK g ha
  obtain ⟨l1, l2, e, n1, n2⟩ := split_col (g.rowSorted i).nodup hp
  have hc := (h.actOK g ha).nmin.symm.trans h1
  rw [e] at hc hok ⊢
  exact ⟨_, minActOneTag_eq n1 n2 hok (others_bounded hc hu)⟩

theorem Feas.oneMax (h : Feas P s) (g : GI s) (ha : (s.rtag i).inactive = false) (h1 : (s.act i).nInfMax = 1)
    {p : Cell} (hp : p ∈ s.A i) (hu : unbMax (effTags s) p = true) :
    ∃ v, maxActOneTag s.lb s.ub (s.A i) p.1 = .fin v := by
  obtain ⟨k, q⟩ := p
  have hok := h.colsOK g ha
  obtain ⟨l1, l2, e, n1, n2⟩ := split_col (g.rowSorted i).nodup hp
  have hc := (h.actOK g ha).nmax.symm.trans h1
  rw [e] at hc hok ⊢
  exact ⟨_, maxActOneTag_eq n1 n2 hok (others_bounded hc hu)⟩

end

section
variable {μ : Mode} {P : LP} {i : ℕ} {s : St} {acc : PropAcc}

theorem propRhsCell_pf (fbt : Bool) (hR : (s.rtag i).rhsInf = false) (h : PF μ P i s (FinMin i) acc) {p : Cell}
    (hp : p ∈ s.A i) : PF μ P i s (FinMin i) (propRhsCell fbt i acc p) := by
  unfold propRhsCell
  simp only
  have hfin : GI acc.1 → Feas P acc.1 → FinMin i acc.1 → (acc.1.rtag i).inactive = false →
      ∃ q, D.divq (D.sub (acc.1.rhs i) (acc.1.act i).min) p.2 = .fin q := by
    intro g hf hm ha
    obtain ⟨B, -, hB⟩ := (hf.row i (hf.rrng i ha)).rhs ha (by rw [h.rtag]; exact hR)
    have hq := (g.rowRange i p (by rw [h.pg.A]; exact hp)).2.2
    rw [hB, hf.minFin g ha hm, D.sub_fin, D.divq_fin hq]
    exact ⟨_, rfl⟩
  have hmem : p ∈ acc.1.A i := by rw [h.pg.A]; exact hp
  split
  · exact h
  · split
    · rename_i h0
      refine h.tryUb (finMin_stable i) fbt _ _ ⟨p.2, hp⟩ (fun _ g hf hm ha hact => ?_)
      obtain ⟨q, e⟩ := hfin g hf hm ha
      have hu := hm p hmem
      have hc := hf.colsOK g ha p hmem
      unfold unbMin at hu
      rw [if_pos h0] at hu
      obtain ⟨l, el⟩ := hc.1 hu
      rw [e, el, D.add_fin]
      exact ⟨_, rfl⟩
    · rename_i h0
      refine h.tryLb (finMin_stable i) fbt _ _ ⟨p.2, hp⟩ (fun _ g hf hm ha hact => ?_)
      obtain ⟨q, e⟩ := hfin g hf hm ha
      have hu := hm p hmem
      have hc := hf.colsOK g ha p hmem
      unfold unbMin at hu
      rw [if_neg h0] at hu
      obtain ⟨l, el⟩ := hc.2 hu
      rw [e, el, D.add_fin]
      exact ⟨_, rfl⟩

theorem propLhsCell_pf (fbt : Bool) (hR : (s.rtag i).lhsInf = false) (h : PF μ P i s (FinMax i) acc) {p : Cell}
    (hp : p ∈ s.A i) : PF μ P i s (FinMax i) (propLhsCell fbt i acc p) := by
  unfold propLhsCell
  simp only
  have hfin : GI acc.1 → Feas P acc.1 → FinMax i acc.1 → (acc.1.rtag i).inactive = false →
      ∃ q, D.divq (D.sub (acc.1.lhs i) (acc.1.act i).max) p.2 = .fin q := by
    intro g hf hm ha
    obtain ⟨B, -, hB⟩ := (hf.row i (hf.rrng i ha)).lhs ha (by rw [h.rtag]; exact hR)
    have hq := (g.rowRange i p (by rw [h.pg.A]; exact hp)).2.2
    rw [hB, hf.maxFin g ha hm, D.sub_fin, D.divq_fin hq]
    exact ⟨_, rfl⟩
  have hmem : p ∈ acc.1.A i := by rw [h.pg.A]; exact hp
  split
  · exact h
  · split
    · rename_i h0
      refine h.tryLb (finMax_stable i) fbt _ _ ⟨p.2, hp⟩ (fun _ g hf hm ha hact => ?_)
      obtain ⟨q, e⟩ := hfin g hf hm ha
      have hu := hm p hmem
      have hc := hf.colsOK g ha p hmem
      unfold unbMax at hu
      rw [if_pos h0] at hu
      obtain ⟨l, el⟩ := hc.2 hu
      rw [e, el, D.add_fin]
      exact ⟨_, rfl⟩
    · rename_i h0
      refine h.tryUb (finMax_stable i) fbt _ _ ⟨p.2, hp⟩ (fun _ g hf hm ha hact => ?_)
      obtain ⟨q, e⟩ := hfin g hf hm ha
      have hu := hm p hmem
      have hc := hf.colsOK g ha p hmem
      unfold unbMax at hu
      rw [if_neg h0] at hu
      obtain ⟨l, el⟩ := hc.1 hu
      rw [e, el, D.add_fin]
      exact ⟨_, rfl⟩

theorem trueStable : Stable (fun _ => True) := fun _ _ _ _ _ => trivial

theorem propRhs_pf (fbt : Bool) (h : PF μ P i s (fun _ => True) acc) :
    PF μ P i s (fun _ => True) (propRhs fbt i acc) := by
  unfold propRhs
  simp only
  split
  · rename_i h0
    simp only [Bool.and_eq_true, Bool.not_eq_true', decide_eq_true_eq] at h0
    have hR : (s.rtag i).rhsInf = false := by rw [← h.rtag]; exact h0.1
    have h' : PF μ P i s (FinMin i) acc := ⟨h.pg, h.rtag, fun o inv hN hA hr hf => by
      have hf' := (h.feas o inv hN hA hr hf).1
      exact ⟨hf', hf'.finMin (((h.pg.good o).2 inv hN hA).run.gi inv.gi) (by rw [h.rtag]; exact hr) h0.2⟩⟩
    exact (h'.fold _ (fun acc p hp h => propRhsCell_pf fbt hR h hp) _
      (fun p hp => by rw [h.pg.A] at hp; exact hp)).weaken (fun _ => trivial)
  · split
    · rename_i h1
      simp only [Bool.and_eq_true, Bool.or_eq_true, Bool.not_eq_true', decide_eq_true_eq] at h1
      have hpg := propRhs_pg fbt h.pg
      split
      · rename_i hn
        refine ⟨⟨h.pg.A, fun o => ⟨(h.pg.good o).1, fun _ _ hne => absurd ((congrFun h.pg.A i).symm.trans (propFind_none hn)) hne⟩⟩,
          h.rtag, fun _ _ _ hne _ _ => absurd ((congrFun h.pg.A i).symm.trans (propFind_none hn)) hne⟩
      · rename_i p hp
        have hm := propFind_mem hp
        have hm' := hm
        rw [h.pg.A] at hm
        have hc := PF.check (t := acc.1) (st := acc.2) h trueStable
        have key : ∀ b : Bool, b = ((decide (0 < p.2) && (acc.1.ctag p.1).lbInf || decide (p.2 < 0) && (acc.1.ctag p.1).ubInf) &&
            !(acc.1.ctag p.1).inactive) → GI (acc.1.check b) → Feas P (acc.1.check b) → b = true →
            ((acc.1.check b).rtag i).inactive = false → ∃ q, D.divq (D.sub (if (acc.1.rtag i).rhsInf = true then (acc.1.act i).max else acc.1.rhs i)
              (minActOneTag acc.1.lb acc.1.ub (acc.1.A i) p.1)) p.2 = .fin q := by
          intro b eb g hf hb ha
          rw [hb] at eb
          replace eb := eb.symm
          simp only [Bool.and_eq_true, Bool.or_eq_true, Bool.not_eq_true', decide_eq_true_eq] at eb
          have g : GI acc.1 := (SameCore.gi (s := acc.1.check b) (t := acc.1) (by constructor <;> rfl) g)
          have hf : Feas P acc.1 := hf.core (by constructor <;> rfl) (fun _ => .refl _)
          have ha : (acc.1.rtag i).inactive = false := ha
          have hu : unbMin (effTags acc.1) p = true := by
            unfold unbMin effTags
            rw [effTag_active eb.2]
            rcases eb.1 with e | e
            · rw [if_pos e.1]; exact e.2
            · rw [if_neg (not_lt.mpr e.1.le)]; exact e.2
          obtain ⟨v, ev⟩ := hf.oneMin g ha h1.2 hm' hu
          rw [ev]
          have hq := (g.rowRange i p hm').2.2
          cases hR : (acc.1.rtag i).rhsInf with
          | false =>
            obtain ⟨B, -, hB⟩ := (hf.row i (hf.rrng i ha)).rhs ha hR
            rw [if_neg (by simp), hB, D.sub_fin, D.divq_fin hq]
            exact ⟨_, rfl⟩
          | true =>
            rw [hR] at h1
            have h0 : (acc.1.act i).nInfMax = 0 := by simpa using h1.1
            rw [if_pos rfl, hf.maxFin g ha (hf.finMax g ha h0), D.sub_fin, D.divq_fin hq]
            exact ⟨_, rfl⟩
        split
        · refine PF.weaken ((hc _).tryUb (fun s t hA hT hX => ⟨trivial, hX.2⟩) fbt _ _ ⟨p.2, hm⟩ (fun _ g hf hX ha _ => ?_)) (fun _ => trivial)
          exact key _ rfl g hf hX.2 ha
        · refine PF.weaken ((hc _).tryLb (fun s t hA hT hX => ⟨trivial, hX.2⟩) fbt _ _ ⟨p.2, hm⟩ (fun _ g hf hX ha _ => ?_)) (fun _ => trivial)
          exact key _ rfl g hf hX.2 ha
    · exact h

theorem propLhs_pf (fbt : Bool) (h : PF μ P i s (fun _ => True) acc) :
    PF μ P i s (fun _ => True) (propLhs fbt i acc) := by
  unfold propLhs
  simp only
  split
  · rename_i h0
    simp only [Bool.and_eq_true, Bool.not_eq_true', decide_eq_true_eq] at h0
    have hR : (s.rtag i).lhsInf = false := by rw [← h.rtag]; exact h0.1
    have h' : PF μ P i s (FinMax i) acc := ⟨h.pg, h.rtag, fun o inv hN hA hr hf => by
      have hf' := (h.feas o inv hN hA hr hf).1
      exact ⟨hf', hf'.finMax (((h.pg.good o).2 inv hN hA).run.gi inv.gi) (by rw [h.rtag]; exact hr) h0.2⟩⟩
    exact (h'.fold _ (fun acc p hp h => propLhsCell_pf fbt hR h hp) _
      (fun p hp => by rw [h.pg.A] at hp; exact hp)).weaken (fun _ => trivial)
  · split
    · rename_i h1
      simp only [Bool.and_eq_true, Bool.or_eq_true, Bool.not_eq_true', decide_eq_true_eq] at h1
      split
      · rename_i hn
        refine ⟨⟨h.pg.A, fun o => ⟨(h.pg.good o).1, fun _ _ hne => absurd ((congrFun h.pg.A i).symm.trans (propFind_none hn)) hne⟩⟩,
          h.rtag, fun _ _ _ hne _ _ => absurd ((congrFun h.pg.A i).symm.trans (propFind_none hn)) hne⟩
      · rename_i p hp
        have hm := propFind_mem hp
        have hm' := hm
        rw [h.pg.A] at hm
        have hc := PF.check (t := acc.1) (st := acc.2) h trueStable
        have key : ∀ b : Bool, b = ((decide (0 < p.2) && (acc.1.ctag p.1).ubInf || decide (p.2 < 0) && (acc.1.ctag p.1).lbInf) &&
            !(acc.1.ctag p.1).inactive) → GI (acc.1.check b) → Feas P (acc.1.check b) → b = true →
            ((acc.1.check b).rtag i).inactive = false → ∃ q, D.divq (D.sub (if (acc.1.rtag i).lhsInf = true then (acc.1.act i).min else acc.1.lhs i)
              (maxActOneTag acc.1.lb acc.1.ub (acc.1.A i) p.1)) p.2 = .fin q := by
          intro b eb g hf hb ha
          rw [hb] at eb
          replace eb := eb.symm
          simp only [Bool.and_eq_true, Bool.or_eq_true, Bool.not_eq_true', decide_eq_true_eq] at eb
          have g : GI acc.1 := (SameCore.gi (s := acc.1.check b) (t := acc.1) (by constructor <;> rfl) g)
          have hf : Feas P acc.1 := hf.core (by constructor <;> rfl) (fun _ => .refl _)
          have ha : (acc.1.rtag i).inactive = false := ha
          have hu : unbMax (effTags acc.1) p = true := by
            unfold unbMax effTags
            rw [effTag_active eb.2]
            rcases eb.1 with e | e
            · rw [if_pos e.1]; exact e.2
            · rw [if_neg (not_lt.mpr e.1.le)]; exact e.2
          obtain ⟨v, ev⟩ := hf.oneMax g ha h1.2 hm' hu
          rw [ev]
          have hq := (g.rowRange i p hm').2.2
          cases hR : (acc.1.rtag i).lhsInf with
          | false =>
            obtain ⟨B, -, hB⟩ := (hf.row i (hf.rrng i ha)).lhs ha hR
            rw [if_neg (by simp), hB, D.sub_fin, D.divq_fin hq]
            exact ⟨_, rfl⟩
          | true =>
            rw [hR] at h1
            have h0 : (acc.1.act i).nInfMin = 0 := by simpa using h1.1
            rw [if_pos rfl, hf.minFin g ha (hf.finMin g ha h0), D.sub_fin, D.divq_fin hq]
            exact ⟨_, rfl⟩
        split
        · refine PF.weaken ((hc _).tryLb (fun s t hA hT hX => ⟨trivial, hX.2⟩) fbt _ _ ⟨p.2, hm⟩ (fun _ g hf hX ha _ => ?_)) (fun _ => trivial)
          exact key _ rfl g hf hX.2 ha
        · refine PF.weaken ((hc _).tryUb (fun s t hA hT hX => ⟨trivial, hX.2⟩) fbt _ _ ⟨p.2, hm⟩ (fun _ g hf hX ha _ => ?_)) (fun _ => trivial)
          exact key _ rfl g hf hX.2 ha
    · exact h

end

/-- One row. -/
theorem propRow_feas {μ : Mode} {P : LP} (fbt : Bool) {s : St} {i : ℕ} (o : Ok μ (propRow fbt s i).1) (inv : Inv s)
    (hN : NoRows s) (hA : s.A i ≠ []) (hf : Feas P s) : Feas P (propRow fbt s i).1 := by
  unfold propRow at *
  simp only at *
  generalize hb : (!(s.rtag i).inactive) = b at *
  have h0 : PF μ P i (s.check b) (fun _ => True) (s.check b, UNCHANGED, 0) :=
    ⟨⟨rfl, fun o => ⟨o, fun _ _ _ => ⟨.nil, rfl, rfl, rfl, rfl, rfl, le_refl _, le_refl _⟩⟩⟩, rfl,
      fun _ _ _ _ _ hf => ⟨hf, trivial⟩⟩
  have h := propLhs_pf fbt (propRhs_pf fbt h0)
  generalize propLhs fbt i (propRhs fbt i (s.check b, UNCHANGED, 0)) = acc at *
  have o' : Ok μ acc.1 := by
    split at o
    · exact o
    · exact o
  have o1 := (h.pg.good o').1
  have hr : (s.rtag i).inactive = false := by
    have := o1.check.2
    rw [← hb] at this
    simpa using this
  have inv' : Inv (s.check b) := ⟨(sameCore_check s b).gi inv.gi, inv.ston, inv.dton⟩
  have := (h.feas o' inv' hN hA hr (hf.check b)).1
  split
  · exact this.saveB _ (fun _ _ => rfl)
  · exact this

end Verif
