import Verif.Inv.CompSton
import Verif.Inv.LiveProp

/-!
# Complementarity and primal propagation: one row

The records of the bound changes that one row implies are taken back together (`replay` in a group).  A bound
change moves a dual only if the final point is at the recorded bound.  Since the final point satisfies the row, the
row is tight there and all other columns of the row are at the bounds that the implied bound was computed from.
-/

namespace Verif

theorem sum_eq_all {α : Type} {f g : α → ℚ} {l : List α} (h : ∀ p ∈ l, f p ≤ g p)
    (e : (l.map f).sum = (l.map g).sum) : ∀ p ∈ l, f p = g p := by
  induction l with
  | nil => intro p hp; cases hp
  | cons a l ih =>
    have h1 := h a List.mem_cons_self
    have h2 : (l.map f).sum ≤ (l.map g).sum :=
      List.sum_le_sum (fun p hp => h p (List.mem_cons_of_mem _ hp))
    simp only [List.map_cons, List.sum_cons] at e
    intro p hp
    rcases List.mem_cons.mp hp with rfl | hp
    · linarith
    · exact ih (fun p hp => h p (List.mem_cons_of_mem _ hp)) (by linarith) p hp

section
variable {μ : Mode} {P : LP} {X : ℕ → D} {s t : St} {σ : Sol} {k i : ℕ} {a : ℚ} {acc r q : PropAcc} {C : List Cell}

/-- Postsolve inside the group of row `i` takes the optimality conditions back. -/
def GroupBack (P : LP) (X : ℕ → D) (i : ℕ) (C : List Cell) (acc r : PropAcc) : Prop :=
  ∀ σ n, Comp P X r.1 σ → ∃ σ1, replay (Group.next i C (n + r.2.2)) r.1.log σ =
    replay (Group.next i C (n + acc.2.2)) acc.1.log σ1 ∧ Comp P X acc.1 σ1

theorem GroupBack.refl (acc : PropAcc) : GroupBack P X i C acc acc := fun σ _ h => ⟨σ, rfl, h⟩

theorem GroupBack.trans (h : GroupBack P X i C acc r) (h' : GroupBack P X i C r q) : GroupBack P X i C acc q := by
  intro σ n hc
  obtain ⟨σ1, e1, c1⟩ := h' σ n hc
  obtain ⟨σ2, e2, c2⟩ := h σ1 n c1
  exact ⟨σ2, e1.trans e2, c2⟩

theorem GroupBack.core (c : SameCore acc.1 r.1) (hn : r.2.2 = acc.2.2) : GroupBack P X i C acc r :=
  fun σ _ h => ⟨σ, by rw [c.log, hn], h.core c⟩

theorem Comp.congr (h : Comp P X t σ) (hm : t.m = s.m) (hA : t.A = s.A) (hc : t.c = s.c) (hr : t.rtag = s.rtag)
    (hct : ∀ j, (t.ctag j).inactive = (s.ctag j).inactive) (hlb : t.lb = s.lb) (hub : t.ub = s.ub)
    (hl : t.log = s.log) : Comp P X s σ := by
  refine ⟨h.stat.frame rfl rfl hm (fun i _ => by rw [hA]) hc (fun i => by rw [hr]) hct,
    fun k hk => h.here k (by rw [hct]; exact hk), h.num, ?_, ?_, ?_, fun k hk hp => ?_, fun k hk hp => ?_⟩
  · rw [← hl]; exact h.old
  · rw [← hr]; exact h.lhs
  · rw [← hr]; exact h.rhs
  · rw [← hlb]; exact h.lb k (by rw [hct]; exact hk) hp
  · rw [← hub]; exact h.ub k (by rw [hct]; exact hk) hp

/-! ### One bound change -/

/-- What is known while row `i` is propagated. -/
structure InRow (P : LP) (X : ℕ → D) (i : ℕ) (s : St) : Prop where
  feas : Feas P s
  gi : GI s
  rng : InRng s
  act : (s.rtag i).inactive = false
  rows : NoRows s
  pt : FeasPt s (fun k => (X k).toQ)

theorem InRow.core (h : InRow P X i s) (c : SameCore s t) (hf : Feas P t) : InRow P X i t where
  feas := hf
  gi := c.gi h.gi
  rng := by
    have := h.rng
    unfold InRng at *
    rw [c.rowSize, c.colSize, c.m, c.n]; exact this
  act := by rw [c.rtag]; exact h.act
  rows := by
    have := h.rows
    unfold NoRows at *
    rw [c.rowsToDelete]; exact this
  pt := h.pt.core c

theorem InRow.box (h : InRow P X i s) (hk : (s.ctag k).inactive = false) :
    Lo (s.ctag k).lbInf (s.lb k) (X k).toQ ∧ Hi (s.ctag k).ubInf (s.ub k) (X k).toQ := by
  have hn := h.feas.rng h.gi hk
  have := h.pt.2 k (by rw [h.feas.n]; exact hn) (h.gi.colActive hk) (h.feas.col k hn).sub
  unfold ColIn at this
  rw [effTag_active hk] at this
  exact this

theorem InRow.new (h : InRow P X i s) (hk : (s.ctag k).inactive = false) : logVal s.log k = none :=
  (h.feas.col k (h.feas.rng h.gi hk)).new (CTag.inactive_false.mp hk).1

theorem InRow.fin (h : InRow P X i s) (hk : (s.ctag k).inactive = false) :
    FinIf (s.ctag k).lbInf (s.lb k) ∧ FinIf (s.ctag k).ubInf (s.ub k) := by
  have hC := h.feas.col k (h.feas.rng h.gi hk)
  have hf := (CTag.inactive_false.mp hk).1
  exact ⟨hC.lbF hf, hC.ubF hf⟩

/-- A recorded bound. -/
theorem groupBack_bound {st : Status} (h : InRow P X i s) (hk : (s.ctag k).inactive = false) (hcell : (k, a) ∈ s.A i)
    {implied other : D} {low : Bool} {tag : CTag} {lb ub : D} {n : ℕ}
    (e : ∃ ac u b nr, t = { boundStep s k lb ub tag implied other low with act := ac, updActs := u, asrt := b, near := nr })
    (ht : tag.inactive = false)
    (hlow : if low then ub = implied ∧ lb = s.lb k ∧ s.lb k = other else lb = implied ∧ ub = s.ub k ∧ s.ub k = other)
    (hT : Agrees X s → (∀ k < P.n, ∃ q, X k = .fin q) → X k = implied → RowStop P X s i (decide (0 < a) == low) k) :
    GroupBack P X i (s.A i) (s, st, n) (t, st ||| REDUCED, n + 1) := by
  obtain ⟨ac, u, b, nr, rfl⟩ := e
  intro σ N hc
  have hA : Agrees X s := Agrees.suffix (fun k v => hc.old k v) ⟨[_], rfl⟩
  have hT := hT hA hc.num
  refine ⟨retBoundChange σ i (s.A i) k implied other low, rfl, ?_⟩
  refine hc.bound (a := a) h.feas h.gi h.rng h.act hk hcell rfl rfl rfl rfl (fun j => ?_) (fun j hj => upd_ne _ _ hj)
      (fun j hj => upd_ne _ _ hj) ?_ (l := [_]) rfl hT
  · show (upd s.ctag k tag j).inactive = _
    by_cases e : j = k
    · subst e; rw [upd_same, ht, hk]
    · rw [upd_ne _ _ e]
  · show if low then upd s.ub k ub k = implied ∧ upd s.lb k lb k = s.lb k ∧ _ else
      upd s.lb k lb k = implied ∧ upd s.ub k ub k = s.ub k ∧ _
    rw [upd_same, upd_same]; exact hlow

/-- A recorded bound that meets the opposite one, and the fixed column. -/
theorem groupBack_fix {st : Status} (h : InRow P X i s) (hk : (s.ctag k).inactive = false) (hcell : (k, a) ∈ s.A i)
    {v : D} {low : Bool} {n : ℕ}
    (e : ∃ ac u b nr, t = { fixStep (boundStep s k (s.lb k) (s.ub k) (s.ctag k) v v low) k v (s.c k) with
      act := ac, updActs := u, asrt := b, near := nr })
    (hlow : if low then s.lb k = v else s.ub k = v)
    (hT : Agrees X s → (∀ k < P.n, ∃ q, X k = .fin q) → X k = v → RowStop P X s i (decide (0 < a) == low) k) :
    GroupBack P X i (s.A i) (s, st, n) (t, st ||| REDUCED, n + 1) := by
  obtain ⟨ac, u, b, nr, rfl⟩ := e
  intro σ N hc
  have gu : GI (boundStep s k v v (s.ctag k) v v low) := boundStep_gi h.gi hk hk
  have ku : ((boundStep s k v v (s.ctag k) v v low).ctag k).inactive = false := by
    show (upd s.ctag k _ k).inactive = false
    rw [upd_same]; exact hk
  have c1 : Comp P X (fixStep (boundStep s k v v (s.ctag k) v v low) k v ((boundStep s k v v (s.ctag k) v v low).c k)) σ := by
    refine hc.congr rfl rfl rfl rfl (fun j => rfl) ?_ ?_ rfl
    · funext j
      show upd (upd s.lb k (s.lb k)) k v j = upd (upd s.lb k v) k v j
      by_cases e : j = k
      · subst e; rw [upd_same, upd_same]
      · rw [upd_ne _ _ e, upd_ne _ _ e, upd_ne _ _ e, upd_ne _ _ e]
    · funext j
      show upd (upd s.ub k (s.ub k)) k v j = upd (upd s.ub k v) k v j
      by_cases e : j = k
      · subst e; rw [upd_same, upd_same]
      · rw [upd_ne _ _ e, upd_ne _ _ e, upd_ne _ _ e, upd_ne _ _ e]
  have c2 := c1.fix gu ku h.rows (by
      exact h.new hk) (fun Y _ _ => ⟨fun _ => upd_same _ _ _, fun _ => upd_same _ _ _⟩)
  obtain ⟨σ1, e1, h1⟩ := groupBack_bound (t := boundStep s k v v (s.ctag k) v v low) (st := st) (n := n) (implied := v)
    (other := v) (low := low) h hk hcell ⟨_, _, _, _, rfl⟩ hk (by
      cases low with
      | true => exact ⟨rfl, hlow.symm, hlow⟩
      | false => exact ⟨rfl, hlow.symm, hlow⟩) hT _ N c2
  exact ⟨σ1, e1, h1⟩

theorem propUb_back (fbt : Bool) {st : Status} {n : ℕ} (h : InRow P X i s) (hk : (s.ctag k).inactive = false)
    (hcell : (k, a) ∈ s.A i) (b : ℚ) (hn : (propUb fbt s k (.fin b)).1.near = false) (hb : (X k).toQ ≤ b)
    (hT : Agrees X s → (∀ k < P.n, ∃ q, X k = .fin q) → X k = .fin b → RowStop P X s i (decide (0 < a)) k) :
    GroupBack P X i (s.A i) (s, st, n) (propPut (s, st, n) (propUb fbt s k (.fin b))) := by
  obtain ⟨hbl, hbu⟩ := h.box hk
  obtain ⟨fl, fu⟩ := h.fin hk
  have hkn := h.feas.rng h.gi hk
  have eb : (decide (0 < a) == true) = decide (0 < a) := by cases decide (0 < a) <;> rfl
  obtain ⟨b', hb', s', x, es', t, et, e⟩ := propUb_eq fbt s k b
  have hbb : b ≤ b' := by
    rcases hb' with h | h
    · rw [h]
    · have h2 : 0 ≤ BOUND_MARGINAL := by norm_num [BOUND_MARGINAL, FEAS_TOL]
      have := mul_nonneg h2 (abs_nonneg b); linarith
  have sc : SameCore s s' := by rw [es']; constructor <;> rfl
  rw [e] at hn ⊢
  split
  · exact .core sc rfl
  · rename_i hinf
    rw [if_neg hinf] at hn
    split
    · rename_i hfix
      rw [if_pos hfix] at hn
      simp only [Bool.and_eq_true, Bool.not_eq_true'] at hfix
      obtain ⟨l, el⟩ := fl hfix.1
      have hl : l ≤ (X k).toQ := by have := hbl.le hfix.1; rwa [el] at this
      have hbl' : b ≤ l := by
        have := (fixCol_near _ _ _ _).symm.trans hn
        have h2 : (s'.near || !D.le (.fin b) (s.lb k)) = false := this
        simp only [Bool.or_eq_false_iff, Bool.not_eq_false'] at h2
        rw [el, D.le_fin] at h2
        simpa using h2.2
      have e1 : b = l := by linarith
      have e2 : (X k).toQ = b := by linarith
      subst e1
      rw [el]
      have hself : (s'.save (.boundChangeNoRow k (.fin b) (.fin b) true)).fuzz (!D.le (.fin b) (.fin b)) =
          { boundStep s k (s.lb k) (s.ub k) (s.ctag k) (.fin b) (.fin b) true with
            asrt := x, near := s.near || !D.le (.fin b) (.fin b) } := by
        rw [es']
        unfold boundStep St.save St.fuzz
        simp only [upd_self]
      have hno : ((fixCol ((s'.save (.boundChangeNoRow k (.fin b) (.fin b) true)).fuzz (!D.le (.fin b) (.fin b))) k
          (.fin b) (s.c k))).2 = REDUCED := by
        rcases (fixCol_cases ((s'.save (.boundChangeNoRow k (.fin b) (.fin b) true)).fuzz (!D.le (.fin b) (.fin b))) k
          (.fin b) (s.c k)).2 with ⟨-, -, -, -, -, -, -, hc⟩ | ⟨hc, -⟩
        · exfalso
          rw [hself] at hc
          change ((!(upd s.ctag k (s.ctag k) k).ubInf && D.le (D.add (upd s.ub k (s.ub k) k) (.fin FEAS_TOL)) (.fin b)) ||
            (!(upd s.ctag k (s.ctag k) k).lbInf && D.le (.fin b) (D.sub (upd s.lb k (s.lb k) k) (.fin FEAS_TOL)))) = true at hc
          rw [upd_same, upd_same, upd_same, hfix.1, el] at hc
          have ft : (0 : ℚ) < FEAS_TOL := by norm_num [FEAS_TOL]
          simp only [Bool.or_eq_true, Bool.and_eq_true, Bool.not_eq_true', D.sub_fin, D.le_fin, decide_eq_true_eq] at hc
          rcases hc with ⟨h1, h2⟩ | ⟨-, h2⟩
          · obtain ⟨u, eu⟩ := fu h1
            have := hbu.le h1
            rw [eu] at this h2
            have this : (X k).toQ ≤ u := this
            rw [D.add_fin, D.le_fin, decide_eq_true_eq] at h2
            linarith
          · linarith
        · exact hc
      rcases fixCol_eq ((s'.save (.boundChangeNoRow k (.fin b) (.fin b) true)).fuzz (!D.le (.fin b) (.fin b))) k
          (.fin b) (s.c k) with ⟨c, ef, -⟩ | ⟨c, ac, u, ef, -⟩
      · rw [ef] at hno; exact absurd hno not_red_inf
      · rw [ef]
        refine groupBack_fix (v := .fin b) (low := true) h hk hcell
          ⟨ac, u, c, s.near || !D.le (.fin b) (.fin b), ?_⟩ el ?_
        · rw [hself]; rfl
        · rw [eb]; exact hT
    · split
      · obtain ⟨ac, u, eo⟩ := updActsBoundChange_only { s' with
          ctag := upd s.ctag k { s.ctag k with ubInf := false }, ub := upd s.ub k (.fin b') } (s.AT k)
            (s.ub k) (.fin b') (!(s.ctag k).ubInf) false
        rw [← et] at eo
        refine groupBack_bound (implied := .fin b') (other := s.lb k) (low := true) (lb := s.lb k) (ub := .fin b')
          (tag := { s.ctag k with ubInf := false }) h hk hcell ⟨ac, u, x, s.near, ?_⟩ hk ⟨rfl, rfl, rfl⟩ ?_
        · rw [eo, es']
          unfold boundStep St.save
          simp only [upd_self]
        · intro hA hnum hXk
          rw [eb]
          refine hT hA hnum ?_
          have : (X k).toQ = b' := by rw [hXk]; rfl
          have e3 : b' = b := by linarith
          rw [← e3]; exact hXk
      · exact .core sc rfl

theorem propLb_back (fbt : Bool) {st : Status} {n : ℕ} (h : InRow P X i s) (hk : (s.ctag k).inactive = false)
    (hcell : (k, a) ∈ s.A i) (b : ℚ) (hn : (propLb fbt s k (.fin b)).1.near = false) (hb : b ≤ (X k).toQ)
    (hT : Agrees X s → (∀ k < P.n, ∃ q, X k = .fin q) → X k = .fin b → RowStop P X s i (!decide (0 < a)) k) :
    GroupBack P X i (s.A i) (s, st, n) (propPut (s, st, n) (propLb fbt s k (.fin b))) := by
  obtain ⟨hbl, hbu⟩ := h.box hk
  obtain ⟨fl, fu⟩ := h.fin hk
  have hkn := h.feas.rng h.gi hk
  have eb : (decide (0 < a) == false) = !decide (0 < a) := by cases decide (0 < a) <;> rfl
  obtain ⟨b', hb', s', x, es', t, et, e⟩ := propLb_eq fbt s k b
  have hbb : b' ≤ b := by
    rcases hb' with h | h
    · rw [h]
    · have h2 : 0 ≤ BOUND_MARGINAL := by norm_num [BOUND_MARGINAL, FEAS_TOL]
      have := mul_nonneg h2 (abs_nonneg b); linarith
  have sc : SameCore s s' := by rw [es']; constructor <;> rfl
  rw [e] at hn ⊢
  split
  · exact .core sc rfl
  · rename_i hinf
    rw [if_neg hinf] at hn
    split
    · rename_i hfix
      rw [if_pos hfix] at hn
      simp only [Bool.and_eq_true, Bool.not_eq_true'] at hfix
      obtain ⟨l, el⟩ := fu hfix.1
      have hl : (X k).toQ ≤ l := by have := hbu.le hfix.1; rwa [el] at this
      have hbl' : l ≤ b := by
        have := (fixCol_near _ _ _ _).symm.trans hn
        have h2 : (s'.near || !D.le (s.ub k) (.fin b)) = false := this
        simp only [Bool.or_eq_false_iff, Bool.not_eq_false'] at h2
        rw [el, D.le_fin] at h2
        simpa using h2.2
      have e1 : b = l := by linarith
      have e2 : (X k).toQ = b := by linarith
      subst e1
      rw [el]
      have hself : (s'.save (.boundChangeNoRow k (.fin b) (.fin b) false)).fuzz (!D.le (.fin b) (.fin b)) =
          { boundStep s k (s.lb k) (s.ub k) (s.ctag k) (.fin b) (.fin b) false with
            asrt := x, near := s.near || !D.le (.fin b) (.fin b) } := by
        rw [es']
        unfold boundStep St.save St.fuzz
        simp only [upd_self]
      have hno : ((fixCol ((s'.save (.boundChangeNoRow k (.fin b) (.fin b) false)).fuzz (!D.le (.fin b) (.fin b))) k
          (.fin b) (s.c k))).2 = REDUCED := by
        rcases (fixCol_cases ((s'.save (.boundChangeNoRow k (.fin b) (.fin b) false)).fuzz (!D.le (.fin b) (.fin b))) k
          (.fin b) (s.c k)).2 with ⟨-, -, -, -, -, -, -, hc⟩ | ⟨hc, -⟩
        · exfalso
          rw [hself] at hc
          change ((!(upd s.ctag k (s.ctag k) k).ubInf && D.le (D.add (upd s.ub k (s.ub k) k) (.fin FEAS_TOL)) (.fin b)) ||
            (!(upd s.ctag k (s.ctag k) k).lbInf && D.le (.fin b) (D.sub (upd s.lb k (s.lb k) k) (.fin FEAS_TOL)))) = true at hc
          rw [upd_same, upd_same, upd_same, hfix.1, el] at hc
          have ft : (0 : ℚ) < FEAS_TOL := by norm_num [FEAS_TOL]
          simp only [Bool.or_eq_true, Bool.and_eq_true, Bool.not_eq_true', D.add_fin, D.le_fin, decide_eq_true_eq] at hc
          rcases hc with ⟨-, h2⟩ | ⟨h1, h2⟩
          · linarith
          · obtain ⟨u, eu⟩ := fl h1
            have := hbl.le h1
            rw [eu] at this h2
            have this : u ≤ (X k).toQ := this
            rw [D.sub_fin, D.le_fin, decide_eq_true_eq] at h2
            linarith
        · exact hc
      rcases fixCol_eq ((s'.save (.boundChangeNoRow k (.fin b) (.fin b) false)).fuzz (!D.le (.fin b) (.fin b))) k
          (.fin b) (s.c k) with ⟨c, ef, -⟩ | ⟨c, ac, u, ef, -⟩
      · rw [ef] at hno; exact absurd hno not_red_inf
      · rw [ef]
        refine groupBack_fix (v := .fin b) (low := false) h hk hcell
          ⟨ac, u, c, s.near || !D.le (.fin b) (.fin b), ?_⟩ el ?_
        · rw [hself]; rfl
        · rw [eb]; exact hT
    · split
      · obtain ⟨ac, u, eo⟩ := updActsBoundChange_only { s' with
          ctag := upd s.ctag k { s.ctag k with lbInf := false }, lb := upd s.lb k (.fin b') } (s.AT k)
            (s.lb k) (.fin b') (!(s.ctag k).lbInf) true
        rw [← et] at eo
        refine groupBack_bound (implied := .fin b') (other := s.ub k) (low := false) (lb := .fin b') (ub := s.ub k)
          (tag := { s.ctag k with lbInf := false }) h hk hcell ⟨ac, u, x, s.near, ?_⟩ hk ⟨rfl, rfl, rfl⟩ ?_
        · rw [eo, es']
          unfold boundStep St.save
          simp only [upd_self]
        · intro hA hnum hXk
          rw [eb]
          refine hT hA hnum ?_
          have : (X k).toQ = b' := by rw [hXk]; rfl
          have e3 : b' = b := by linarith
          rw [← e3]; exact hXk
      · exact .core sc rfl

theorem propTryUb_back (fbt : Bool) (acc : PropAcc) (h : InRow P X i acc.1) (hk : (acc.1.ctag k).inactive = false)
    (hcell : (k, a) ∈ acc.1.A i) (b : ℚ) (hn : (propTryUb fbt acc k (.fin b)).1.near = false) (hb : (X k).toQ ≤ b)
    (hT : Agrees X acc.1 → (∀ k < P.n, ∃ q, X k = .fin q) → X k = .fin b → RowStop P X acc.1 i (decide (0 < a)) k) :
    GroupBack P X i (acc.1.A i) acc (propTryUb fbt acc k (.fin b)) := by
  obtain ⟨s, st, n⟩ := acc
  unfold propTryUb at *
  simp only at *
  split
  · rename_i hc
    rw [if_pos hc] at hn
    exact propUb_back fbt h hk hcell b hn hb hT
  · exact .refl _

theorem propTryLb_back (fbt : Bool) (acc : PropAcc) (h : InRow P X i acc.1) (hk : (acc.1.ctag k).inactive = false)
    (hcell : (k, a) ∈ acc.1.A i) (b : ℚ) (hn : (propTryLb fbt acc k (.fin b)).1.near = false) (hb : b ≤ (X k).toQ)
    (hT : Agrees X acc.1 → (∀ k < P.n, ∃ q, X k = .fin q) → X k = .fin b → RowStop P X acc.1 i (!decide (0 < a)) k) :
    GroupBack P X i (acc.1.A i) acc (propTryLb fbt acc k (.fin b)) := by
  obtain ⟨s, st, n⟩ := acc
  unfold propTryLb at *
  simp only at *
  split
  · rename_i hc
    rw [if_pos hc] at hn
    exact propLb_back fbt h hk hcell b hn hb hT
  · exact .refl _

theorem propTryUb_noop (fbt : Bool) (acc : PropAcc) {u b : ℚ} (h : (acc.1.ctag k).ubInf = false)
    (hu : acc.1.ub k = .fin u) (hb : u ≤ b) : propTryUb fbt acc k (.fin b) = acc := by
  unfold propTryUb
  simp only
  rw [if_neg]
  rw [h, hu]
  simp [D.lt, hb]

theorem propTryLb_noop (fbt : Bool) (acc : PropAcc) {u b : ℚ} (h : (acc.1.ctag k).lbInf = false)
    (hu : acc.1.lb k = .fin u) (hb : b ≤ u) : propTryLb fbt acc k (.fin b) = acc := by
  unfold propTryLb
  simp only
  rw [if_neg]
  rw [h, hu]
  simp [D.lt, hb]

/-! ### When a row stops a column -/

theorem dot_split {l1 l2 : List Cell} {k : ℕ} {q : ℚ} {w : ℕ → ℚ} :
    dot (l1 ++ (k, q) :: l2) w = ((l1 ++ l2).map (fun p => p.2 * w p.1)).sum + q * w k := by
  have : ((l1 ++ l2).map (fun p => p.2 * w p.1)).sum = dot (l1 ++ l2) w := rfl
  rw [this, dot_append, dot_append, dot_cons]
  ring

theorem InRow.stopRhs (h : InRow P X i s) (hR : (s.rtag i).rhsInf = false) {l1 l2 : List Cell} {q : ℚ}
    (e : s.A i = l1 ++ (k, q) :: l2) (hu : ∀ p ∈ l1 ++ l2, unbMin (effTags s) p = false) :
    ∃ R, s.rhs i = .fin R ∧ ((l1 ++ l2).map (minTerm s.lb s.ub)).sum + q * (X k).toQ ≤ R ∧
      (Agrees X s → (∀ k < P.n, ∃ q, X k = .fin q) →
        ((l1 ++ l2).map (minTerm s.lb s.ub)).sum + q * (X k).toQ = R → RowStop P X s i true k) := by
  have rd := h.feas.ready h.gi h.pt h.act
  obtain ⟨B, hB, hB'⟩ := (h.feas.row i (h.feas.rrng i h.act)).rhs h.act hR
  have hrow := (h.pt.1 i (by rw [h.feas.m]; exact h.feas.rrng i h.act) h.act).2
  rw [hR, hB', Hi_fin] at hrow
  have hmem : ∀ p ∈ l1 ++ l2, p ∈ s.A i := fun p hp => by rw [e]; simp at hp ⊢; tauto
  have hterm : ∀ p ∈ l1 ++ l2, minTerm s.lb s.ub p ≤ p.2 * (X p.1).toQ :=
    fun p hp => minTerm_le (x := fun k => (X k).toQ) (rd.box p (hmem p hp)) (hu p hp)
  have hsum := List.sum_le_sum hterm
  have hd : dot (s.A i) (fun k => (X k).toQ) = ((l1 ++ l2).map (fun p => p.2 * (X p.1).toQ)).sum + q * (X k).toQ := by
    rw [e]; exact dot_split
  refine ⟨_, hB', by linarith, fun hA hnum he => ⟨?_, fun p hp hpk hact => ?_⟩⟩
  · rw [if_pos rfl]
    refine ⟨hR, ?_⟩
    rw [hB, h.feas.dotX h.gi hA h.act]
    congr 1
    linarith
  · have hp' : p ∈ l1 ++ l2 := by
      rw [e] at hp
      simp only [List.mem_append, List.mem_cons] at hp ⊢
      rcases hp with hp | hp | hp
      · exact .inl hp
      · rw [hp] at hpk; exact absurd rfl hpk
      · exact .inr hp
    have heq := sum_eq_all hterm (by linarith) p hp'
    have hz := rd.nz p (hmem p hp')
    have hup := hu p hp'
    have hc := rd.cols p (hmem p hp')
    obtain ⟨x, hx⟩ := hnum p.1 (by rw [← h.feas.n]; exact (h.gi.rowRange i p (hmem p hp')).2.1)
    unfold unbMin at hup
    unfold minTerm at heq
    by_cases h0 : 0 < p.2
    · rw [if_pos h0] at hup heq
      rw [if_pos (by simp [h0])]
      obtain ⟨l, el⟩ := hc.1 hup
      rw [el, hx] at heq ⊢
      exact congrArg D.fin (mul_left_cancel₀ hz heq)
    · rw [if_neg h0] at hup heq
      rw [if_neg (by simp [h0])]
      obtain ⟨l, el⟩ := hc.2 hup
      rw [el, hx] at heq ⊢
      exact congrArg D.fin (mul_left_cancel₀ hz heq)

theorem InRow.stopLhs (h : InRow P X i s) (hR : (s.rtag i).lhsInf = false) {l1 l2 : List Cell} {q : ℚ}
    (e : s.A i = l1 ++ (k, q) :: l2) (hu : ∀ p ∈ l1 ++ l2, unbMax (effTags s) p = false) :
    ∃ R, s.lhs i = .fin R ∧ R ≤ ((l1 ++ l2).map (maxTerm s.lb s.ub)).sum + q * (X k).toQ ∧
      (Agrees X s → (∀ k < P.n, ∃ q, X k = .fin q) →
        ((l1 ++ l2).map (maxTerm s.lb s.ub)).sum + q * (X k).toQ = R → RowStop P X s i false k) := by
  have rd := h.feas.ready h.gi h.pt h.act
  obtain ⟨B, hB, hB'⟩ := (h.feas.row i (h.feas.rrng i h.act)).lhs h.act hR
  have hrow := (h.pt.1 i (by rw [h.feas.m]; exact h.feas.rrng i h.act) h.act).1
  rw [hR, hB', Lo_fin] at hrow
  have hmem : ∀ p ∈ l1 ++ l2, p ∈ s.A i := fun p hp => by rw [e]; simp at hp ⊢; tauto
  have hterm : ∀ p ∈ l1 ++ l2, p.2 * (X p.1).toQ ≤ maxTerm s.lb s.ub p :=
    fun p hp => le_maxTerm (x := fun k => (X k).toQ) (rd.box p (hmem p hp)) (hu p hp)
  have hsum := List.sum_le_sum hterm
  have hd : dot (s.A i) (fun k => (X k).toQ) = ((l1 ++ l2).map (fun p => p.2 * (X p.1).toQ)).sum + q * (X k).toQ := by
    rw [e]; exact dot_split
  refine ⟨_, hB', by linarith, fun hA hnum he => ⟨?_, fun p hp hpk hact => ?_⟩⟩
  · rw [if_neg (by simp)]
    refine ⟨hR, ?_⟩
    rw [hB, h.feas.dotX h.gi hA h.act]
    congr 1
    linarith
  · have hp' : p ∈ l1 ++ l2 := by
      rw [e] at hp
      simp only [List.mem_append, List.mem_cons] at hp ⊢
      rcases hp with hp | hp | hp
      · exact .inl hp
      · rw [hp] at hpk; exact absurd rfl hpk
      · exact .inr hp
    have heq := sum_eq_all hterm (by linarith) p hp'
    have hz := rd.nz p (hmem p hp')
    have hup := hu p hp'
    have hc := rd.cols p (hmem p hp')
    obtain ⟨x, hx⟩ := hnum p.1 (by rw [← h.feas.n]; exact (h.gi.rowRange i p (hmem p hp')).2.1)
    unfold unbMax at hup
    unfold maxTerm at heq
    by_cases h0 : 0 < p.2
    · rw [if_pos h0] at hup heq
      rw [if_neg (by simp [h0])]
      obtain ⟨l, el⟩ := hc.2 hup
      rw [el, hx] at heq ⊢
      exact congrArg D.fin (mul_left_cancel₀ hz heq).symm
    · rw [if_neg h0] at hup heq
      rw [if_pos (by simp [h0])]
      obtain ⟨l, el⟩ := hc.1 hup
      rw [el, hx] at heq ⊢
      exact congrArg D.fin (mul_left_cancel₀ hz heq).symm

theorem fin_toQ {d : D} {b : ℚ} (h : d = .fin b) : d.toQ = b := by rw [h]; rfl

theorem propRhsCell_back (fbt : Bool) (acc : PropAcc) {p : Cell} (h : InRow P X i acc.1)
    (hR : (acc.1.rtag i).rhsInf = false) (hm : FinMin i acc.1) (hp : p ∈ acc.1.A i)
    (hn : (propRhsCell fbt i acc p).1.near = false) :
    GroupBack P X i (acc.1.A i) acc (propRhsCell fbt i acc p) := by
  obtain ⟨k, q⟩ := p
  have rd := h.feas.ready h.gi h.pt h.act
  obtain ⟨l1, l2, e, n1, n2⟩ := split_col rd.nodup hp
  have hmin := h.feas.minFin h.gi h.act hm
  obtain ⟨R, eR, hle, hT⟩ := h.stopRhs hR e (fun p hp => hm p (by rw [e]; simp at hp ⊢; tauto))
  have hq : q ≠ 0 := rd.nz _ hp
  have hsum : ((acc.1.A i).map (minTerm acc.1.lb acc.1.ub)).sum =
      ((l1 ++ l2).map (minTerm acc.1.lb acc.1.ub)).sum + minTerm acc.1.lb acc.1.ub (k, q) := by
    rw [e]; simp; ring
  unfold propRhsCell at *
  simp only at *
  split
  · exact .refl _
  rename_i hact
  rw [if_neg hact] at hn
  have hact : (acc.1.ctag k).inactive = false := by simpa using hact
  have et : effTags acc.1 k = acc.1.ctag k := effTag_active hact
  have hc : FinIf (acc.1.ctag k).lbInf (acc.1.lb k) ∧ FinIf (acc.1.ctag k).ubInf (acc.1.ub k) := h.fin hact
  have hu := hm _ hp
  rw [hmin, eR, D.sub_fin, D.divq_fin hq] at hn ⊢
  unfold unbMin at hu
  simp only at hu
  by_cases hpos : 0 < q
  · rw [if_pos hpos] at hn hu ⊢
    rw [et] at hu
    obtain ⟨l, el⟩ := hc.1 hu
    have ht : minTerm acc.1.lb acc.1.ub (k, q) = q * l := by simp [minTerm, hpos, el]
    have ev : l + (R - (((l1 ++ l2).map (minTerm acc.1.lb acc.1.ub)).sum + q * l)) / q =
        (R - ((l1 ++ l2).map (minTerm acc.1.lb acc.1.ub)).sum) / q := by field_simp; ring
    rw [el, D.add_fin, hsum, ht, ev] at hn ⊢
    refine propTryUb_back fbt acc h hact hp _ hn (by rw [le_div_iff₀ hpos]; linarith) (fun hA hnum hX => ?_)
    have hd : decide (0 < q) = true := by simp [hpos]
    rw [hd]
    refine hT hA hnum ?_
    rw [fin_toQ hX]; field_simp; ring
  · rw [if_neg hpos] at hn hu ⊢
    have hneg : q < 0 := lt_of_le_of_ne (not_lt.mp hpos) hq
    rw [et] at hu
    obtain ⟨l, el⟩ := hc.2 hu
    have ht : minTerm acc.1.lb acc.1.ub (k, q) = q * l := by simp [minTerm, hpos, el]
    have ev : l + (R - (((l1 ++ l2).map (minTerm acc.1.lb acc.1.ub)).sum + q * l)) / q =
        (R - ((l1 ++ l2).map (minTerm acc.1.lb acc.1.ub)).sum) / q := by field_simp; ring
    rw [el, D.add_fin, hsum, ht, ev] at hn ⊢
    refine propTryLb_back fbt acc h hact hp _ hn (by rw [div_le_iff_of_neg hneg]; linarith) (fun hA hnum hX => ?_)
    have hd : (!decide (0 < q)) = true := by simp [hpos]
    rw [hd]
    refine hT hA hnum ?_
    rw [fin_toQ hX]; field_simp; ring

theorem propLhsCell_back (fbt : Bool) (acc : PropAcc) {p : Cell} (h : InRow P X i acc.1)
    (hR : (acc.1.rtag i).lhsInf = false) (hm : FinMax i acc.1) (hp : p ∈ acc.1.A i)
    (hn : (propLhsCell fbt i acc p).1.near = false) :
    GroupBack P X i (acc.1.A i) acc (propLhsCell fbt i acc p) := by
  obtain ⟨k, q⟩ := p
  have rd := h.feas.ready h.gi h.pt h.act
  obtain ⟨l1, l2, e, n1, n2⟩ := split_col rd.nodup hp
  have hmin := h.feas.maxFin h.gi h.act hm
  obtain ⟨R, eR, hle, hT⟩ := h.stopLhs hR e (fun p hp => hm p (by rw [e]; simp at hp ⊢; tauto))
  have hq : q ≠ 0 := rd.nz _ hp
  have hsum : ((acc.1.A i).map (maxTerm acc.1.lb acc.1.ub)).sum =
      ((l1 ++ l2).map (maxTerm acc.1.lb acc.1.ub)).sum + maxTerm acc.1.lb acc.1.ub (k, q) := by
    rw [e]; simp; ring
  unfold propLhsCell at *
  simp only at *
  split
  · exact .refl _
  rename_i hact
  rw [if_neg hact] at hn
  have hact : (acc.1.ctag k).inactive = false := by simpa using hact
  have et : effTags acc.1 k = acc.1.ctag k := effTag_active hact
  have hc : FinIf (acc.1.ctag k).lbInf (acc.1.lb k) ∧ FinIf (acc.1.ctag k).ubInf (acc.1.ub k) := h.fin hact
  have hu := hm _ hp
  rw [hmin, eR, D.sub_fin, D.divq_fin hq] at hn ⊢
  unfold unbMax at hu
  simp only at hu
  by_cases hpos : 0 < q
  · rw [if_pos hpos] at hn hu ⊢
    rw [et] at hu
    obtain ⟨l, el⟩ := hc.2 hu
    have ht : maxTerm acc.1.lb acc.1.ub (k, q) = q * l := by simp [maxTerm, hpos, el]
    have ev : l + (R - (((l1 ++ l2).map (maxTerm acc.1.lb acc.1.ub)).sum + q * l)) / q =
        (R - ((l1 ++ l2).map (maxTerm acc.1.lb acc.1.ub)).sum) / q := by field_simp; ring
    rw [el, D.add_fin, hsum, ht, ev] at hn ⊢
    refine propTryLb_back fbt acc h hact hp _ hn (by rw [div_le_iff₀ hpos]; linarith) (fun hA hnum hX => ?_)
    have hd : (!decide (0 < q)) = false := by simp [hpos]
    rw [hd]
    refine hT hA hnum ?_
    rw [fin_toQ hX]; field_simp; ring
  · rw [if_neg hpos] at hn hu ⊢
    have hneg : q < 0 := lt_of_le_of_ne (not_lt.mp hpos) hq
    rw [et] at hu
    obtain ⟨l, el⟩ := hc.1 hu
    have ht : maxTerm acc.1.lb acc.1.ub (k, q) = q * l := by simp [maxTerm, hpos, el]
    have ev : l + (R - (((l1 ++ l2).map (maxTerm acc.1.lb acc.1.ub)).sum + q * l)) / q =
        (R - ((l1 ++ l2).map (maxTerm acc.1.lb acc.1.ub)).sum) / q := by field_simp; ring
    rw [el, D.add_fin, hsum, ht, ev] at hn ⊢
    refine propTryUb_back fbt acc h hact hp _ hn (by rw [le_div_iff_of_neg hneg]; linarith) (fun hA hnum hX => ?_)
    have hd : decide (0 < q) = false := by simp [hpos]
    rw [hd]
    refine hT hA hnum ?_
    rw [fin_toQ hX]; field_simp; ring

/-! ### One row -/

theorem GroupBack.congr {C' : List Cell} (h : GroupBack P X i C acc r) (e : C = C') : GroupBack P X i C' acc r := e ▸ h

/-- The point and the records while row `i` is propagated. -/
structure PK (μ : Mode) (P : LP) (X : ℕ → D) (i : ℕ) (s : St) (Y : St → Prop) (acc : PropAcc) : Prop where
  pl : PL μ P i s (fun k => (X k).toQ) Y acc
  gb : Ok μ acc.1 → Inv s → NoRows s → s.A i ≠ [] → (s.rtag i).inactive = false → Feas P s → InRng s →
    FeasPt s (fun k => (X k).toQ) → GroupBack P X i (s.A i) (s, UNCHANGED, 0) acc

variable {Y : St → Prop}

theorem PK.step (h : PK μ P X i s Y acc) (hpl : PL μ P i s (fun k => (X k).toQ) Y r) (hle : Ok μ r.1 → Ok μ acc.1)
    (key : Ok μ r.1 → acc.1.A i ≠ [] → InRow P X i acc.1 → Y acc.1 → GroupBack P X i (acc.1.A i) acc r) : PK μ P X i s Y r := by
  refine ⟨hpl, fun o inv hN hA hr hf hrng hw => ?_⟩
  have o' := hle o
  obtain ⟨hf', hY⟩ := h.pl.pf.feas o' inv hN hA hr hf
  have hG := (h.pl.pf.pg.good o').2 inv hN hA
  have fr := hG.run.frame
  refine (h.gb o' inv hN hA hr hf hrng hw).trans ((key o (by rw [h.pl.pf.pg.A]; exact hA) ⟨hf', hG.run.gi inv.gi, ?_, ?_, ?_,
    (h.pl.live o' inv hN hA hr hf hw).2⟩ hY).congr (by rw [h.pl.pf.pg.A]))
  · unfold InRng at *
    rw [fr.rowSize, fr.colSize, fr.m, fr.n]; exact hrng
  · rw [h.pl.pf.rtag]; exact hr
  · unfold NoRows at *
    rw [fr.rowsToDelete]; exact hN

theorem PK.fold (f : PropAcc → Cell → PropAcc)
    (hf : ∀ acc p, p ∈ s.A i → PK μ P X i s Y acc → PK μ P X i s Y (f acc p)) (L : List Cell)
    (hL : ∀ p ∈ L, p ∈ s.A i) (h : PK μ P X i s Y acc) : PK μ P X i s Y (L.foldl f acc) := by
  induction L generalizing acc with
  | nil => exact h
  | cons p L ih =>
    exact ih (fun q hq => hL q (List.mem_cons_of_mem _ hq)) (hf acc p (hL p List.mem_cons_self) h)

theorem propRhs_one_back (hμ : μ.near = false) (fbt : Bool) (acc : PropAcc) (h : InRow P X i acc.1)
    (h1 : (acc.1.act i).nInfMin = 1) (o : Ok μ (propRhs fbt i acc).1) :
    GroupBack P X i (acc.1.A i) acc (propRhs fbt i acc) := by
  have rd := h.feas.ready h.gi h.pt h.act
  unfold propRhs at *
  simp only at *
  rw [if_neg (by rw [h1]; simp)] at o ⊢
  split
  swap
  · exact .refl _
  rename_i hg
  rw [if_pos hg] at o
  simp only [Bool.and_eq_true, Bool.or_eq_true, Bool.not_eq_true', decide_eq_true_eq] at hg
  split
  · exact .core (by constructor <;> rfl) rfl
  · rename_i p hp
    rw [hp] at o
    simp only at o
    have hp := propFind_mem hp
    obtain ⟨k, q⟩ := p
    have hq : q ≠ 0 := rd.nz _ hp
    obtain ⟨l1, l2, e, n1, n2⟩ := split_col rd.nodup hp
    have hcnt := (h.feas.actOK h.gi h.act).nmin.symm.trans h1
    simp only at o ⊢
    have hun : ((decide (0 < q) && (acc.1.ctag k).lbInf || decide (q < 0) && (acc.1.ctag k).ubInf) &&
        !(acc.1.ctag k).inactive) = true → unbMin (effTags acc.1) (k, q) = true := by
      intro eb
      simp only [Bool.and_eq_true, Bool.or_eq_true, Bool.not_eq_true', decide_eq_true_eq] at eb
      unfold unbMin effTags
      rw [effTag_active eb.2]
      rcases eb.1 with e | e
      · rw [if_pos e.1]; exact e.2
      · rw [if_neg (not_lt.mpr e.1.le)]; exact e.2
    have hone : unbMin (effTags acc.1) (k, q) = true → ∃ M, minActOneTag acc.1.lb acc.1.ub (acc.1.A i) k = .fin M ∧
        ((acc.1.rtag i).rhsInf = false → ∃ R, acc.1.rhs i = .fin R ∧ M + q * (X k).toQ ≤ R ∧
          (Agrees X acc.1 → (∀ k < P.n, ∃ q, X k = .fin q) → M + q * (X k).toQ = R → RowStop P X acc.1 i true k)) := by
      intro hu
      have hoth := others_bounded (l1 := l1) (l2 := l2) (c := (k, q)) (by rw [← e]; exact hcnt) hu
      refine ⟨_, ?_, fun hR => h.stopRhs hR e hoth⟩
      have := minActOneTag_eq (ctag := effTags acc.1) n1 n2 (q := q) (by rw [← e]; exact rd.cols) hoth
      rwa [← e] at this
    have hfm : (acc.1.rtag i).rhsInf = true → FinMax i acc.1 := fun hR => by
      rw [hR] at hg
      exact h.feas.finMax h.gi h.act (by simpa using hg.1)
    have hmx : ∀ {M : ℚ}, (acc.1.rtag i).rhsInf = true → unbMin (effTags acc.1) (k, q) = true →
        minActOneTag acc.1.lb acc.1.ub (acc.1.A i) k = .fin M →
        ∃ V, (acc.1.act i).max = .fin V ∧ M + maxTerm acc.1.lb acc.1.ub (k, q) ≤ V := by
      intro M hR hu eM
      have hoth := others_bounded (l1 := l1) (l2 := l2) (c := (k, q)) (by rw [← e]; exact hcnt) hu
      have := minActOneTag_eq (ctag := effTags acc.1) n1 n2 (q := q) (by rw [← e]; exact rd.cols) hoth
      rw [← e, eM] at this
      have eM' := D.fin.inj this
      refine ⟨_, h.feas.maxFin h.gi h.act (hfm hR), ?_⟩
      have hmem : ∀ p ∈ l1 ++ l2, p ∈ acc.1.A i := fun p hp => by rw [e]; simp at hp ⊢; tauto
      have h2 := List.sum_le_sum (fun p hp => (minTerm_le (x := fun k => (X k).toQ) (rd.box p (hmem p hp)) (hoth p hp)).trans
        (le_maxTerm (x := fun k => (X k).toQ) (rd.box p (hmem p hp)) (hfm hR p (hmem p hp))))
      have h3 : ((acc.1.A i).map (maxTerm acc.1.lb acc.1.ub)).sum =
          ((l1 ++ l2).map (maxTerm acc.1.lb acc.1.ub)).sum + maxTerm acc.1.lb acc.1.ub (k, q) := by
        rw [e]; simp; ring
      rw [h3, eM']
      linarith
    by_cases hpos : 0 < q
    · rw [if_pos hpos] at o ⊢
      have hn := o.2.2 hμ
      have hok := (propTryUb_ok _ _ _ _ o).check.2
      have hact : (acc.1.ctag k).inactive = false := by
        simp only [Bool.and_eq_true, Bool.not_eq_true'] at hok; exact hok.2
      have hu := hun hok
      obtain ⟨M, eM, hM⟩ := hone hu
      rw [eM] at o hn ⊢
      generalize ((decide (0 < q) && (acc.1.ctag k).lbInf || decide (q < 0) && (acc.1.ctag k).ubInf) &&
        !(acc.1.ctag k).inactive) = x at *
      have h' : InRow P X i (acc.1.check x) := h.core (sameCore_check _ _) (h.feas.check x)
      refine GroupBack.trans (.core (r := (acc.1.check x, acc.2)) (sameCore_check _ _) rfl) ?_
      cases hR : (acc.1.rtag i).rhsInf with
      | false =>
        rw [hR, if_neg (by simp)] at hn
        rw [if_neg (by simp)]
        obtain ⟨R, eR, hle, hT⟩ := hM hR
        rw [eR, D.sub_fin, D.divq_fin hq] at hn ⊢
        refine propTryUb_back fbt (acc.1.check x, acc.2) h' hact hp _ hn (by rw [le_div_iff₀ hpos]; linarith) (fun hA hnum hX => ?_)
        have hd : decide (0 < q) = true := by simp [hpos]
        rw [hd]
        have := hT hA hnum (by rw [fin_toQ hX]; field_simp; ring)
        exact ⟨this.side, this.others⟩
      | true =>
        rw [if_pos rfl]
        obtain ⟨V, eV, hV⟩ := hmx hR hu eM
        rw [eV, D.sub_fin, D.divq_fin hq]
        have hfx := hfm hR _ hp
        unfold unbMax at hfx
        simp only at hfx
        rw [if_pos hpos, effTags, effTag_active hact] at hfx
        obtain ⟨l, el⟩ := (h.fin hact).2 hfx
        rw [propTryUb_noop fbt (acc.1.check x, acc.2) hfx el]
        · exact .refl _
        · have ht : maxTerm acc.1.lb acc.1.ub (k, q) = q * l := by simp [maxTerm, hpos, el]
          rw [ht] at hV
          rw [le_div_iff₀ hpos]; linarith
    · have hneg : q < 0 := lt_of_le_of_ne (not_lt.mp hpos) hq
      rw [if_neg hpos] at o ⊢
      have hn := o.2.2 hμ
      have hok := (propTryLb_ok _ _ _ _ o).check.2
      have hact : (acc.1.ctag k).inactive = false := by
        simp only [Bool.and_eq_true, Bool.not_eq_true'] at hok; exact hok.2
      have hu := hun hok
      obtain ⟨M, eM, hM⟩ := hone hu
      rw [eM] at o hn ⊢
      generalize ((decide (0 < q) && (acc.1.ctag k).lbInf || decide (q < 0) && (acc.1.ctag k).ubInf) &&
        !(acc.1.ctag k).inactive) = x at *
      have h' : InRow P X i (acc.1.check x) := h.core (sameCore_check _ _) (h.feas.check x)
      refine GroupBack.trans (.core (r := (acc.1.check x, acc.2)) (sameCore_check _ _) rfl) ?_
      cases hR : (acc.1.rtag i).rhsInf with
      | false =>
        rw [hR, if_neg (by simp)] at hn
        rw [if_neg (by simp)]
        obtain ⟨R, eR, hle, hT⟩ := hM hR
        rw [eR, D.sub_fin, D.divq_fin hq] at hn ⊢
        refine propTryLb_back fbt (acc.1.check x, acc.2) h' hact hp _ hn (by rw [div_le_iff_of_neg hneg]; linarith) (fun hA hnum hX => ?_)
        have hd : (!decide (0 < q)) = true := by simp [hpos]
        rw [hd]
        have := hT hA hnum (by rw [fin_toQ hX]; field_simp; ring)
        exact ⟨this.side, this.others⟩
      | true =>
        rw [if_pos rfl]
        obtain ⟨V, eV, hV⟩ := hmx hR hu eM
        rw [eV, D.sub_fin, D.divq_fin hq]
        have hfx := hfm hR _ hp
        unfold unbMax at hfx
        simp only at hfx
        rw [if_neg hpos, effTags, effTag_active hact] at hfx
        obtain ⟨l, el⟩ := (h.fin hact).1 hfx
        rw [propTryLb_noop fbt (acc.1.check x, acc.2) hfx el]
        · exact .refl _
        · have ht : maxTerm acc.1.lb acc.1.ub (k, q) = q * l := by simp [maxTerm, hpos, el]
          rw [ht] at hV
          rw [div_le_iff_of_neg hneg]; linarith

theorem propRhs_pk (hμ : μ.near = false) (fbt : Bool) (h : PK μ P X i s (fun _ => True) acc) :
    PK μ P X i s (fun _ => True) (propRhs fbt i acc) := by
  by_cases h0 : (acc.1.rtag i).rhsInf = false ∧ (acc.1.act i).nInfMin = 0
  · have e : propRhs fbt i acc = (acc.1.A i).foldl (propRhsCell fbt i) acc := by
      unfold propRhs
      simp only
      rw [if_pos]
      rw [h0.1, h0.2]; rfl
    rw [e]
    have hR : (s.rtag i).rhsInf = false := by rw [← h.pl.pf.rtag]; exact h0.1
    have h' : PK μ P X i s (FinMin i) acc := ⟨⟨⟨h.pl.pf.pg, h.pl.pf.rtag, fun o inv hN hA hr hf => by
      have hf' := (h.pl.pf.feas o inv hN hA hr hf).1
      exact ⟨hf', hf'.finMin (((h.pl.pf.pg.good o).2 inv hN hA).run.gi inv.gi) (by rw [h.pl.pf.rtag]; exact hr) h0.2⟩⟩,
      h.pl.live⟩, h.gb⟩
    have h2 := h'.fold (propRhsCell fbt i) (fun acc p hp h => h.step (propRhsCell_pl hμ fbt hR h.pl hp)
      (propRhsCell_ok fbt i acc p) (fun o _ hI hm => propRhsCell_back fbt acc hI (by rw [h.pl.pf.rtag]; exact hR) hm
        (by rw [h.pl.pf.pg.A]; exact hp) (o.2.2 hμ))) (acc.1.A i) (fun p hp => by rw [h.pl.pf.pg.A] at hp; exact hp)
    exact ⟨h2.pl.weaken (fun _ => trivial), h2.gb⟩
  · refine h.step (propRhs_pl hμ fbt h.pl) (propRhs_ok fbt i acc) (fun o _ hI _ => ?_)
    by_cases h1 : (acc.1.act i).nInfMin = 1
    · exact propRhs_one_back hμ fbt acc hI h1 o
    · have e : propRhs fbt i acc = acc := by
        unfold propRhs
        simp only
        rw [if_neg, if_neg]
        · intro hc
          simp only [Bool.and_eq_true, decide_eq_true_eq] at hc
          exact h1 hc.2
        · intro hc
          simp only [Bool.and_eq_true, Bool.not_eq_true', decide_eq_true_eq] at hc
          exact h0 hc
      rw [e]; exact .refl _

theorem propLhs_one_back (hμ : μ.near = false) (fbt : Bool) (acc : PropAcc) (h : InRow P X i acc.1)
    (h1 : (acc.1.act i).nInfMax = 1) (o : Ok μ (propLhs fbt i acc).1) :
    GroupBack P X i (acc.1.A i) acc (propLhs fbt i acc) := by
  have rd := h.feas.ready h.gi h.pt h.act
  unfold propLhs at *
  simp only at *
  rw [if_neg (by rw [h1]; simp)] at o ⊢
  split
  swap
  · exact .refl _
  rename_i hg
  rw [if_pos hg] at o
  simp only [Bool.and_eq_true, Bool.or_eq_true, Bool.not_eq_true', decide_eq_true_eq] at hg
  split
  · exact .core (by constructor <;> rfl) rfl
  · rename_i p hp
    rw [hp] at o
    simp only at o
    have hp := propFind_mem hp
    obtain ⟨k, q⟩ := p
    have hq : q ≠ 0 := rd.nz _ hp
    obtain ⟨l1, l2, e, n1, n2⟩ := split_col rd.nodup hp
    have hcnt := (h.feas.actOK h.gi h.act).nmax.symm.trans h1
    simp only at o ⊢
    have hun : ((decide (0 < q) && (acc.1.ctag k).ubInf || decide (q < 0) && (acc.1.ctag k).lbInf) &&
        !(acc.1.ctag k).inactive) = true → unbMax (effTags acc.1) (k, q) = true := by
      intro eb
      simp only [Bool.and_eq_true, Bool.or_eq_true, Bool.not_eq_true', decide_eq_true_eq] at eb
      unfold unbMax effTags
      rw [effTag_active eb.2]
      rcases eb.1 with e | e
      · rw [if_pos e.1]; exact e.2
      · rw [if_neg (not_lt.mpr e.1.le)]; exact e.2
    have hone : unbMax (effTags acc.1) (k, q) = true → ∃ M, maxActOneTag acc.1.lb acc.1.ub (acc.1.A i) k = .fin M ∧
        ((acc.1.rtag i).lhsInf = false → ∃ R, acc.1.lhs i = .fin R ∧ R ≤ M + q * (X k).toQ ∧
          (Agrees X acc.1 → (∀ k < P.n, ∃ q, X k = .fin q) → M + q * (X k).toQ = R → RowStop P X acc.1 i false k)) := by
      intro hu
      have hoth := others_bounded (l1 := l1) (l2 := l2) (c := (k, q)) (by rw [← e]; exact hcnt) hu
      refine ⟨_, ?_, fun hR => h.stopLhs hR e hoth⟩
      have := maxActOneTag_eq (ctag := effTags acc.1) n1 n2 (q := q) (by rw [← e]; exact rd.cols) hoth
      rwa [← e] at this
    have hfm : (acc.1.rtag i).lhsInf = true → FinMin i acc.1 := fun hR => by
      rw [hR] at hg
      exact h.feas.finMin h.gi h.act (by simpa using hg.1)
    have hmx : ∀ {M : ℚ}, (acc.1.rtag i).lhsInf = true → unbMax (effTags acc.1) (k, q) = true →
        maxActOneTag acc.1.lb acc.1.ub (acc.1.A i) k = .fin M →
        ∃ V, (acc.1.act i).min = .fin V ∧ V ≤ M + minTerm acc.1.lb acc.1.ub (k, q) := by
      intro M hR hu eM
      have hoth := others_bounded (l1 := l1) (l2 := l2) (c := (k, q)) (by rw [← e]; exact hcnt) hu
      have := maxActOneTag_eq (ctag := effTags acc.1) n1 n2 (q := q) (by rw [← e]; exact rd.cols) hoth
      rw [← e, eM] at this
      have eM' := D.fin.inj this
      refine ⟨_, h.feas.minFin h.gi h.act (hfm hR), ?_⟩
      have hmem : ∀ p ∈ l1 ++ l2, p ∈ acc.1.A i := fun p hp => by rw [e]; simp at hp ⊢; tauto
      have h2 := List.sum_le_sum (fun p hp => (minTerm_le (x := fun k => (X k).toQ) (rd.box p (hmem p hp)) (hfm hR p (hmem p hp))).trans
        (le_maxTerm (x := fun k => (X k).toQ) (rd.box p (hmem p hp)) (hoth p hp)))
      have h3 : ((acc.1.A i).map (minTerm acc.1.lb acc.1.ub)).sum =
          ((l1 ++ l2).map (minTerm acc.1.lb acc.1.ub)).sum + minTerm acc.1.lb acc.1.ub (k, q) := by
        rw [e]; simp; ring
      rw [h3, eM']
      linarith
    by_cases hpos : 0 < q
    · rw [if_pos hpos] at o ⊢
      have hn := o.2.2 hμ
      have hok := (propTryLb_ok _ _ _ _ o).check.2
      have hact : (acc.1.ctag k).inactive = false := by
        simp only [Bool.and_eq_true, Bool.not_eq_true'] at hok; exact hok.2
      have hu := hun hok
      obtain ⟨M, eM, hM⟩ := hone hu
      rw [eM] at o hn ⊢
      generalize ((decide (0 < q) && (acc.1.ctag k).ubInf || decide (q < 0) && (acc.1.ctag k).lbInf) &&
        !(acc.1.ctag k).inactive) = x at *
      have h' : InRow P X i (acc.1.check x) := h.core (sameCore_check _ _) (h.feas.check x)
      refine GroupBack.trans (.core (r := (acc.1.check x, acc.2)) (sameCore_check _ _) rfl) ?_
      cases hR : (acc.1.rtag i).lhsInf with
      | false =>
        rw [hR, if_neg (by simp)] at hn
        rw [if_neg (by simp)]
        obtain ⟨R, eR, hle, hT⟩ := hM hR
        rw [eR, D.sub_fin, D.divq_fin hq] at hn ⊢
        refine propTryLb_back fbt (acc.1.check x, acc.2) h' hact hp _ hn (by rw [div_le_iff₀ hpos]; linarith) (fun hA hnum hX => ?_)
        have hd : (!decide (0 < q)) = false := by simp [hpos]
        rw [hd]
        have := hT hA hnum (by rw [fin_toQ hX]; field_simp; ring)
        exact ⟨this.side, this.others⟩
      | true =>
        rw [if_pos rfl]
        obtain ⟨V, eV, hV⟩ := hmx hR hu eM
        rw [eV, D.sub_fin, D.divq_fin hq]
        have hfx := hfm hR _ hp
        unfold unbMin at hfx
        simp only at hfx
        rw [if_pos hpos, effTags, effTag_active hact] at hfx
        obtain ⟨l, el⟩ := (h.fin hact).1 hfx
        rw [propTryLb_noop fbt (acc.1.check x, acc.2) hfx el]
        · exact .refl _
        · have ht : minTerm acc.1.lb acc.1.ub (k, q) = q * l := by simp [minTerm, hpos, el]
          rw [ht] at hV
          rw [div_le_iff₀ hpos]; linarith
    · have hneg : q < 0 := lt_of_le_of_ne (not_lt.mp hpos) hq
      rw [if_neg hpos] at o ⊢
      have hn := o.2.2 hμ
      have hok := (propTryUb_ok _ _ _ _ o).check.2
      have hact : (acc.1.ctag k).inactive = false := by
        simp only [Bool.and_eq_true, Bool.not_eq_true'] at hok; exact hok.2
      have hu := hun hok
      obtain ⟨M, eM, hM⟩ := hone hu
      rw [eM] at o hn ⊢
      generalize ((decide (0 < q) && (acc.1.ctag k).ubInf || decide (q < 0) && (acc.1.ctag k).lbInf) &&
        !(acc.1.ctag k).inactive) = x at *
      have h' : InRow P X i (acc.1.check x) := h.core (sameCore_check _ _) (h.feas.check x)
      refine GroupBack.trans (.core (r := (acc.1.check x, acc.2)) (sameCore_check _ _) rfl) ?_
      cases hR : (acc.1.rtag i).lhsInf with
      | false =>
        rw [hR, if_neg (by simp)] at hn
        rw [if_neg (by simp)]
        obtain ⟨R, eR, hle, hT⟩ := hM hR
        rw [eR, D.sub_fin, D.divq_fin hq] at hn ⊢
        refine propTryUb_back fbt (acc.1.check x, acc.2) h' hact hp _ hn (by rw [le_div_iff_of_neg hneg]; linarith) (fun hA hnum hX => ?_)
        have hd : decide (0 < q) = false := by simp [hpos]
        rw [hd]
        have := hT hA hnum (by rw [fin_toQ hX]; field_simp; ring)
        exact ⟨this.side, this.others⟩
      | true =>
        rw [if_pos rfl]
        obtain ⟨V, eV, hV⟩ := hmx hR hu eM
        rw [eV, D.sub_fin, D.divq_fin hq]
        have hfx := hfm hR _ hp
        unfold unbMin at hfx
        simp only at hfx
        rw [if_neg hpos, effTags, effTag_active hact] at hfx
        obtain ⟨l, el⟩ := (h.fin hact).2 hfx
        rw [propTryUb_noop fbt (acc.1.check x, acc.2) hfx el]
        · exact .refl _
        · have ht : minTerm acc.1.lb acc.1.ub (k, q) = q * l := by simp [minTerm, hpos, el]
          rw [ht] at hV
          rw [le_div_iff_of_neg hneg]; linarith

theorem propLhs_pk (hμ : μ.near = false) (fbt : Bool) (h : PK μ P X i s (fun _ => True) acc) :
    PK μ P X i s (fun _ => True) (propLhs fbt i acc) := by
  by_cases h0 : (acc.1.rtag i).lhsInf = false ∧ (acc.1.act i).nInfMax = 0
  · have e : propLhs fbt i acc = (acc.1.A i).foldl (propLhsCell fbt i) acc := by
      unfold propLhs
      simp only
      rw [if_pos]
      rw [h0.1, h0.2]; rfl
    rw [e]
    have hR : (s.rtag i).lhsInf = false := by rw [← h.pl.pf.rtag]; exact h0.1
    have h' : PK μ P X i s (FinMax i) acc := ⟨⟨⟨h.pl.pf.pg, h.pl.pf.rtag, fun o inv hN hA hr hf => by
      have hf' := (h.pl.pf.feas o inv hN hA hr hf).1
      exact ⟨hf', hf'.finMax (((h.pl.pf.pg.good o).2 inv hN hA).run.gi inv.gi) (by rw [h.pl.pf.rtag]; exact hr) h0.2⟩⟩,
      h.pl.live⟩, h.gb⟩
    have h2 := h'.fold (propLhsCell fbt i) (fun acc p hp h => h.step (propLhsCell_pl hμ fbt hR h.pl hp)
      (propLhsCell_ok fbt i acc p) (fun o _ hI hm => propLhsCell_back fbt acc hI (by rw [h.pl.pf.rtag]; exact hR) hm
        (by rw [h.pl.pf.pg.A]; exact hp) (o.2.2 hμ))) (acc.1.A i) (fun p hp => by rw [h.pl.pf.pg.A] at hp; exact hp)
    exact ⟨h2.pl.weaken (fun _ => trivial), h2.gb⟩
  · refine h.step (propLhs_pl hμ fbt h.pl) (propLhs_ok fbt i acc) (fun o _ hI _ => ?_)
    by_cases h1 : (acc.1.act i).nInfMax = 1
    · exact propLhs_one_back hμ fbt acc hI h1 o
    · have e : propLhs fbt i acc = acc := by
        unfold propLhs
        simp only
        rw [if_neg, if_neg]
        · intro hc
          simp only [Bool.and_eq_true, decide_eq_true_eq] at hc
          exact h1 hc.2
        · intro hc
          simp only [Bool.and_eq_true, Bool.not_eq_true', decide_eq_true_eq] at hc
          exact h0 hc
      rw [e]; exact .refl _

end

end Verif
