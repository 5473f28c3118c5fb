import Verif.Inv.ParColsGood
import Verif.Model.PrimProp
import Verif.Inv.RunTrivialGood

/-!
# Primal propagation and relaxation of bounds as elementary steps
-/

namespace Verif

/-! ## How often a row can still be put on the list of updated activities -/

/-- How often a row can still be listed. -/
def pot : ActStatus → ℕ
  | .notAdded => 2
  | .added => 1
  | .propagatedThisRound => 1
  | .propagateNextRound => 0

/-- Length of the list of updated activities plus the entries that may still come. -/
def wt (s : St) : ℕ := s.updActs.length + ∑ i ∈ Finset.range s.m, pot (s.act i).status

theorem wt_le (s : St) : wt s ≤ s.updActs.length + 2 * s.m := by
  unfold wt
  have : ∑ i ∈ Finset.range s.m, pot (s.act i).status ≤ ∑ i ∈ Finset.range s.m, 2 :=
    Finset.sum_le_sum (fun i _ => by unfold pot; split <;> omega)
  rw [Finset.sum_const, Finset.card_range] at this
  have e : s.m • 2 = 2 * s.m := by rw [nsmul_eq_mul, Nat.mul_comm]; rfl
  omega

theorem wt_upd (s : St) (i : ℕ) (a : Act) (l : List ℕ) (hi : i < s.m)
    (h : l.length + pot a.status ≤ pot (s.act i).status) :
    wt { s with act := upd s.act i a, updActs := s.updActs ++ l } ≤ wt s := by
  unfold wt
  have h1 := Finset.sum_erase_add (Finset.range s.m) (fun j => pot (upd s.act i a j).status) (Finset.mem_range.mpr hi)
  have h2 := Finset.sum_erase_add (Finset.range s.m) (fun j => pot (s.act j).status) (Finset.mem_range.mpr hi)
  have h3 : ∑ j ∈ (Finset.range s.m).erase i, pot (upd s.act i a j).status =
      ∑ j ∈ (Finset.range s.m).erase i, pot (s.act j).status := by
    refine Finset.sum_congr rfl (fun j hj => ?_)
    rw [upd_ne _ _ (Finset.ne_of_mem_erase hj)]
  simp only [upd_same] at h1
  simp only [List.length_append]
  show s.updActs.length + l.length + ∑ j ∈ Finset.range s.m, pot (upd s.act i a j).status ≤ _
  omega

theorem wt_upd_same (s : St) (i : ℕ) (a : Act) (h : pot a.status = pot (s.act i).status) :
    wt { s with act := upd s.act i a } = wt s := by
  unfold wt
  show _ + ∑ j ∈ Finset.range s.m, pot (upd s.act i a j).status = _
  congr 1
  refine Finset.sum_congr rfl (fun j _ => ?_)
  by_cases e : j = i
  · rw [e, upd_same, h]
  · rw [upd_ne _ _ e]

theorem noteAltered_wt (s : St) (i : ℕ) (alt : Altered) (hi : i < s.m) : wt (noteAltered s i alt) ≤ wt s := by
  unfold noteAltered
  simp only
  split
  · split
    · rename_i h
      exact wt_upd s i _ [i] hi (by rw [h]; simp [pot])
    · rename_i h
      exact wt_upd s i _ [i] hi (by rw [h]; simp [pot])
    · exact le_refl _
  · exact le_refl _

theorem updActBoundChange_status (a : Act) (q : ℚ) (o n : D) (f l : Bool) (lb ub : ℕ → D) (cells : List Cell) :
    (updActBoundChange a q o n f l lb ub cells).1.status = a.status := by
  unfold updActBoundChange bumpMin bumpMax
  simp only
  split_ifs <;> rfl

theorem foldl_wt {α : Type} (f : St → α → St) (m : ℕ) (P : α → Prop)
    (h : ∀ s p, P p → s.m = m → wt (f s p) ≤ wt s ∧ (f s p).m = m) (l : List α)
    (hl : ∀ p ∈ l, P p) (s : St) (hs : s.m = m) : wt (l.foldl f s) ≤ wt s := by
  induction l generalizing s with
  | nil => exact le_refl _
  | cons p l ih =>
    obtain ⟨h1, h2⟩ := h s p (hl p List.mem_cons_self) hs
    exact Nat.le_trans (ih (fun q hq => hl q (List.mem_cons_of_mem _ hq)) _ h2) h1

theorem ActOnly.m {s t : St} (h : ActOnly s t) : t.m = s.m := by
  obtain ⟨a, u, rfl⟩ := h; rfl

theorem updActsBoundChange_wt (s : St) (cells : List Cell) (o n : D) (f l : Bool) (h : ∀ p ∈ cells, p.1 < s.m) :
    wt (updActsBoundChange s cells o n f l) ≤ wt s := by
  refine foldl_wt _ s.m (fun p => p.1 < s.m) (fun t p hp ht => ⟨?_, ?_⟩) cells h s rfl
  · refine Nat.le_trans (noteAltered_wt _ _ _ (by show p.1 < t.m; rw [ht]; exact hp)) (le_of_eq ?_)
    exact wt_upd_same t p.1 _ (congrArg pot (updActBoundChange_status _ _ _ _ _ _ _ _ _))
  · exact ((noteAltered_only _ _ _).m).trans ht

theorem updActsFixedCol_wt (s : St) (cells : List Cell) (ou ol v : D) (a b c d : Bool) (h : ∀ p ∈ cells, p.1 < s.m) :
    wt (updActsFixedCol s cells ou ol v a b c d) ≤ wt s := by
  refine foldl_wt _ s.m (fun p => p.1 < s.m) (fun t p hp ht => ⟨?_, ?_⟩) cells h s rfl
  · unfold updActsFixedColStep
    simp only
    refine Nat.le_trans (noteAltered_wt _ _ _ (by show p.1 < t.m; rw [ht]; exact hp)) (le_of_eq ?_)
    refine wt_upd_same t p.1 _ (congrArg pot ?_)
    split_ifs <;> simp only [updActBoundChange_status]
  · unfold updActsFixedColStep
    exact ((noteAltered_only _ _ _).m).trans ht

theorem wt_congr {s t : St} (hm : t.m = s.m) (ha : t.act = s.act) (hu : t.updActs = s.updActs) : wt t = wt s := by
  unfold wt; rw [hm, ha, hu]

/-- The state in which the activities are updated after a column has been fixed. -/
theorem fixCol_act (s : St) (k : ℕ) (val : D) (ck : ℚ) :
    ((fixCol s k val ck).1.m = s.m ∧ (fixCol s k val ck).1.act = s.act ∧ (fixCol s k val ck).1.updActs = s.updActs) ∨
    ∃ t a b c d, (fixCol s k val ck).1 = updActsFixedCol t (s.AT k) (s.ub k) (s.lb k) val a b c d ∧
      t.m = s.m ∧ t.act = s.act ∧ t.updActs = s.updActs := by
  unfold fixCol
  simp only
  split
  · exact .inl ⟨rfl, rfl, rfl⟩
  · right
    have hs : setColToFixed ((s.check (decide (0 < s.colSize k))).check (!(s.ctag k).inactive)) k =
        { s with ctag := upd s.ctag k { s.ctag k with fixed := true }
                 fixedCols := s.fixedCols ++ [k]
                 asrt := s.asrt && decide (0 < s.colSize k) && !(s.ctag k).inactive && !(s.ctag k).inactive } := rfl
    rw [hs]
    generalize (s.asrt && decide (0 < s.colSize k) && !(s.ctag k).inactive && !(s.ctag k).inactive) = b
    refine ⟨{ fixStep s k val ck with asrt := b }, ((s.ctag k).ubInf || !D.eqb val (s.ub k)),
      ((s.ctag k).lbInf || !D.eqb val (s.lb k)), (s.ctag k).ubInf, (s.ctag k).lbInf, ?_, rfl, rfl, rfl⟩
    rfl

theorem fixCol_wt (s : St) (k : ℕ) (val : D) (ck : ℚ) (h : ∀ p ∈ s.AT k, p.1 < s.m) :
    wt (fixCol s k val ck).1 ≤ wt s := by
  rcases fixCol_act s k val ck with ⟨h1, h2, h3⟩ | ⟨t, a, b, c, d, e, h1, h2, h3⟩
  · exact le_of_eq (wt_congr h1 h2 h3)
  · rw [e, ← wt_congr h1 h2 h3]
    exact updActsFixedCol_wt _ _ _ _ _ _ _ _ _ (by rw [h1]; exact h)

theorem noteAltered_len (s : St) (i : ℕ) (alt : Altered) : s.updActs.length ≤ (noteAltered s i alt).updActs.length := by
  unfold noteAltered
  simp only
  split
  · split
    · simp
    · simp
    · exact le_refl _
  · exact le_refl _

theorem noteAltered_len' (s : St) (a : ℕ → Act) (i : ℕ) (alt : Altered) :
    s.updActs.length ≤ (noteAltered { s with act := a } i alt).updActs.length :=
  noteAltered_len { s with act := a } i alt

theorem foldl_len {α : Type} (f : St → α → St) (h : ∀ s p, s.updActs.length ≤ (f s p).updActs.length) (l : List α) (s : St) :
    s.updActs.length ≤ (l.foldl f s).updActs.length := by
  induction l generalizing s with
  | nil => exact le_refl _
  | cons p l ih => exact Nat.le_trans (h s p) (ih _)

theorem updActsBoundChange_len (s : St) (cells : List Cell) (o n : D) (f l : Bool) :
    s.updActs.length ≤ (updActsBoundChange s cells o n f l).updActs.length :=
  by
  refine foldl_len _ (fun t p => ?_) cells s
  simp only
  exact noteAltered_len' t _ _ _

theorem updActsFixedCol_len (s : St) (cells : List Cell) (ou ol v : D) (a b c d : Bool) :
    s.updActs.length ≤ (updActsFixedCol s cells ou ol v a b c d).updActs.length :=
  by
  refine foldl_len _ (fun t p => ?_) cells s
  unfold updActsFixedColStep
  simp only
  exact noteAltered_len' t _ _ _

theorem fixCol_len (s : St) (k : ℕ) (val : D) (ck : ℚ) : s.updActs.length ≤ (fixCol s k val ck).1.updActs.length := by
  rcases fixCol_act s k val ck with ⟨h1, h2, h3⟩ | ⟨t, a, b, c, d, e, h1, h2, h3⟩
  · rw [h3]
  · rw [e, ← h3]
    exact updActsFixedCol_len _ _ _ _ _ _ _ _ _

/-! ## One bound change -/

/-- What a bound update during propagation may do to column `k`. -/
def BoundForm (s : St) (k : ℕ) (r : St × Status) : Prop :=
  (r.1.asrt = true → s.asrt = true ∧ (s.ctag k).inactive = false) ∧
  ((∀ p ∈ s.AT k, p.1 < s.m) → wt r.1 ≤ wt s) ∧ s.updActs.length ≤ r.1.updActs.length ∧
  ((∃ b, r.1 = { s with asrt := b } ∧ r.2 ≠ REDUCED) ∨
   (∃ lb ub im o low t b a u nr, t.inactive = (s.ctag k).inactive ∧ r.2 = REDUCED ∧
      r.1 = { boundStep s k lb ub t im o low with act := a, updActs := u, asrt := b, near := s.near || nr }) ∨
   (∃ lb ub im o low t b a u v nr, t.inactive = (s.ctag k).inactive ∧ r.2 = REDUCED ∧
      r.1 = { fixStep (boundStep s k lb ub t im o low) k v (s.c k) with
        act := a, updActs := u, asrt := b, near := s.near || nr }))

theorem boundFix_form (s : St) (k : ℕ) (v im o : D) (low : Bool) (x y : Bool)
    (hx : x = true → s.asrt = true ∧ (s.ctag k).inactive = false) :
    BoundForm s k ((fixCol ((({ s with asrt := x } : St).save (.boundChangeNoRow k im o low)).fuzz y) k v (s.c k)).1, REDUCED) := by
  have hself : (({ s with asrt := x } : St).save (.boundChangeNoRow k im o low)).fuzz y =
      { boundStep s k (s.lb k) (s.ub k) (s.ctag k) im o low with asrt := x, near := s.near || y } := by
    unfold boundStep St.save St.fuzz
    simp only [upd_self]
  refine ⟨fun h => ?_, fun h => fixCol_wt _ k v _ h, fixCol_len ((({ s with asrt := x } : St).save (.boundChangeNoRow k im o low)).fuzz y) k v _, ?_⟩
  · rcases fixCol_eq ((({ s with asrt := x } : St).save (.boundChangeNoRow k im o low)).fuzz y) k v (s.c k) with ⟨b, e, hb⟩ | ⟨b, a, u, e, hb⟩
    · rw [e] at h
      exact hx (hb h).1
    · rw [e] at h
      exact hx (hb h).1
  · rcases fixCol_eq ((({ s with asrt := x } : St).save (.boundChangeNoRow k im o low)).fuzz y) k v (s.c k) with ⟨b, e, hb⟩ | ⟨b, a, u, e, hb⟩
    · right; left
      refine ⟨s.lb k, s.ub k, im, o, low, s.ctag k, b, s.act, s.updActs, y, rfl, rfl, ?_⟩
      rw [e, hself]; rfl
    · right; right
      refine ⟨s.lb k, s.ub k, im, o, low, s.ctag k, b, a, u, v, y, rfl, rfl, ?_⟩
      rw [e, hself]; rfl

theorem not_red_inf : INFEASIBLE ≠ REDUCED := by decide
theorem not_red_unch : UNCHANGED ≠ REDUCED := by decide

theorem propUb_form (fbt : Bool) (s : St) (k : ℕ) (nb : D) : BoundForm s k (propUb fbt s k nb) := by
  unfold propUb
  simp only
  generalize hx : (s.asrt && (!D.isInf nb && !(s.ctag k).inactive) && (((s.ctag k).ubInf || D.le nb (s.ub k)) && !isHuge nb)) = x
  have hx' : x = true → s.asrt = true ∧ (s.ctag k).inactive = false := by
    intro h
    rw [← hx] at h
    simp only [Bool.and_eq_true, Bool.not_eq_true'] at h
    exact ⟨h.1.1, h.1.2.2⟩
  have hs : (s.check (!D.isInf nb && !(s.ctag k).inactive)).check (((s.ctag k).ubInf || D.le nb (s.ub k)) && !isHuge nb) =
      { s with asrt := x } := by rw [← hx]; rfl
  rw [hs]
  split
  · exact ⟨hx', fun _ => le_refl _, le_refl _, .inl ⟨x, rfl, not_red_inf⟩⟩
  · split
    · exact boundFix_form s k _ _ _ _ x _ hx'
    · split
      · generalize (if isIntegral nb = true then nb else D.add nb (D.smul BOUND_MARGINAL (D.abs nb))) = nb'
        obtain ⟨a, u, e⟩ := updActsBoundChange_only
          { ({ s with asrt := x } : St) with
            ctag := upd s.ctag k { s.ctag k with ubInf := false }, ub := upd s.ub k nb' } (s.AT k) (s.ub k) nb'
            (!(s.ctag k).ubInf) false
        have hw := updActsBoundChange_wt
          { ({ s with asrt := x } : St) with
            ctag := upd s.ctag k { s.ctag k with ubInf := false }, ub := upd s.ub k nb' } (s.AT k) (s.ub k) nb'
            (!(s.ctag k).ubInf) false
        have hl := updActsBoundChange_len
          { ({ s with asrt := x } : St) with
            ctag := upd s.ctag k { s.ctag k with ubInf := false }, ub := upd s.ub k nb' } (s.AT k) (s.ub k) nb'
            (!(s.ctag k).ubInf) false
        rw [e] at hw hl ⊢
        refine ⟨hx', fun h => Nat.le_trans (hw h) (le_refl _), hl, .inr (.inl ⟨s.lb k, nb', nb', s.lb k, true,
          { s.ctag k with ubInf := false }, x, a, u, false, rfl, rfl, ?_⟩)⟩
        unfold boundStep St.save
        simp only [upd_self, Bool.or_false]
      · exact ⟨hx', fun _ => le_refl _, le_refl _, .inl ⟨x, rfl, not_red_unch⟩⟩

theorem propLb_form (fbt : Bool) (s : St) (k : ℕ) (nb : D) : BoundForm s k (propLb fbt s k nb) := by
  unfold propLb
  simp only
  generalize hx : (s.asrt && (!D.isInf nb && !(s.ctag k).inactive) && (((s.ctag k).lbInf || D.le (s.lb k) nb) && !isHuge nb)) = x
  have hx' : x = true → s.asrt = true ∧ (s.ctag k).inactive = false := by
    intro h
    rw [← hx] at h
    simp only [Bool.and_eq_true, Bool.not_eq_true'] at h
    exact ⟨h.1.1, h.1.2.2⟩
  have hs : (s.check (!D.isInf nb && !(s.ctag k).inactive)).check (((s.ctag k).lbInf || D.le (s.lb k) nb) && !isHuge nb) =
      { s with asrt := x } := by rw [← hx]; rfl
  rw [hs]
  split
  · exact ⟨hx', fun _ => le_refl _, le_refl _, .inl ⟨x, rfl, not_red_inf⟩⟩
  · split
    · exact boundFix_form s k _ _ _ _ x _ hx'
    · split
      · generalize (if isIntegral nb = true then nb else D.sub nb (D.smul BOUND_MARGINAL (D.abs nb))) = nb'
        obtain ⟨a, u, e⟩ := updActsBoundChange_only
          { ({ s with asrt := x } : St) with
            ctag := upd s.ctag k { s.ctag k with lbInf := false }, lb := upd s.lb k nb' } (s.AT k) (s.lb k) nb'
            (!(s.ctag k).lbInf) true
        have hw := updActsBoundChange_wt
          { ({ s with asrt := x } : St) with
            ctag := upd s.ctag k { s.ctag k with lbInf := false }, lb := upd s.lb k nb' } (s.AT k) (s.lb k) nb'
            (!(s.ctag k).lbInf) true
        have hl := updActsBoundChange_len
          { ({ s with asrt := x } : St) with
            ctag := upd s.ctag k { s.ctag k with lbInf := false }, lb := upd s.lb k nb' } (s.AT k) (s.lb k) nb'
            (!(s.ctag k).lbInf) true
        rw [e] at hw hl ⊢
        refine ⟨hx', fun h => Nat.le_trans (hw h) (le_refl _), hl, .inr (.inl ⟨nb', s.ub k, nb', s.ub k, false,
          { s.ctag k with lbInf := false }, x, a, u, false, rfl, rfl, ?_⟩)⟩
        unfold boundStep St.save
        simp only [upd_self, Bool.or_false]
      · exact ⟨hx', fun _ => le_refl _, le_refl _, .inl ⟨x, rfl, not_red_unch⟩⟩

/-! ## One row -/

/-- Bound changes implied by row `i`; the lists of rows and columns stay. -/
structure PropG (i : ℕ) (s : St) (num : ℕ) (t : St) : Prop where
  run : PropRun i s num t
  ston : t.stonRows = s.stonRows
  dton : t.dtonRows = s.dtonRows
  undef : t.undef = s.undef
  emptyRows : t.emptyRows = s.emptyRows
  emptyCols : t.emptyCols = s.emptyCols
  wt : wt t ≤ wt s
  len : s.updActs.length ≤ t.updActs.length

structure PG (μ : Mode) (i : ℕ) (s : St) (acc : PropAcc) : Prop where
  A : acc.1.A = s.A
  good : Ok μ acc.1 → Ok μ s ∧ (Inv s → NoRows s → s.A i ≠ [] → PropG i s acc.2.2 acc.1)

theorem PG.bound {μ : Mode} {i : ℕ} {s : St} {acc : PropAcc} (h : PG μ i s acc) {k : ℕ} {r : St × Status}
    (f : BoundForm acc.1 k r) (hc : ∃ v, (k, v) ∈ s.A i) : PG μ i s (propPut acc r) := by
  obtain ⟨f1, f2, f4, f3⟩ := f
  have htiny : Ok μ r.1 → Ok μ acc.1 := by
    rintro ⟨h1, h2, h3⟩
    refine ⟨(f1 h1).1, fun hr => ?_, fun hr => ?_⟩
    · have := h2 hr
      rcases f3 with ⟨b, e, _⟩ | ⟨lb, ub, im, o, low, t, b, a, u, nr, _, _, e⟩ | ⟨lb, ub, im, o, low, t, b, a, u, v, nr, _, _, e⟩ <;>
        (rw [e] at this; exact this)
    · have := h3 hr
      rcases f3 with ⟨b, e, _⟩ | ⟨lb, ub, im, o, low, t, b, a, u, nr, _, _, e⟩ | ⟨lb, ub, im, o, low, t, b, a, u, v, nr, _, _, e⟩
      · rw [e] at this; exact this
      · rw [e] at this; exact (Bool.or_eq_false_iff.mp this).1
      · rw [e] at this; exact (Bool.or_eq_false_iff.mp this).1
  refine ⟨?_, fun o => ?_⟩
  · show r.1.A = s.A
    rw [← h.A]
    rcases f3 with ⟨b, e, _⟩ | ⟨lb, ub, im, o, low, t, b, a, u, nr, _, _, e⟩ | ⟨lb, ub, im, o, low, t, b, a, u, v, nr, _, _, e⟩ <;>
      simp only [e, boundStep, fixStep]
  · have o : Ok μ r.1 := o
    obtain ⟨o1, k1⟩ := h.good (htiny o)
    refine ⟨o1, fun inv hN hne => ?_⟩
    have g := k1 inv hN hne
    have gi := g.run.gi inv.gi
    have hact := (f1 o.1).2
    have hw := f2 (fun p hp => (gi.colRange k p hp).2.1)
    have hA : ∃ v, (k, v) ∈ acc.1.A i := by rw [h.A]; exact hc
    rcases f3 with ⟨b, e, hr⟩ | ⟨lb, ub, im, ot, low, t, b, a, u, nr, ht, hr, e⟩ | ⟨lb, ub, im, ot, low, t, b, a, u, v, nr, ht, hr, e⟩
    · have hn : (propPut acc r).2.2 = acc.2.2 := if_neg hr
      have hp : (propPut acc r).1 = r.1 := rfl
      rw [hn, hp]
      rw [e] at hw f4 ⊢
      exact ⟨.same g.run (by constructor <;> rfl), g.ston, g.dton, g.undef, g.emptyRows, g.emptyCols, hw.trans g.wt, g.len.trans f4⟩
    · have hn : (propPut acc r).2.2 = acc.2.2 + 1 := if_pos hr
      have hp : (propPut acc r).1 = r.1 := rfl
      rw [hn, hp]
      rw [e] at hw f4 ⊢
      exact ⟨.bound k lb ub t im ot low g.run hact hA (ht.trans hact) (by constructor <;> rfl),
        g.ston, g.dton, g.undef, g.emptyRows, g.emptyCols, hw.trans g.wt, g.len.trans f4⟩
    · have hn : (propPut acc r).2.2 = acc.2.2 + 1 := if_pos hr
      have hp : (propPut acc r).1 = r.1 := rfl
      rw [hn, hp]
      rw [e] at hw f4 ⊢
      refine ⟨.fix k v (.bound k lb ub t im ot low g.run hact hA (ht.trans hact) (.refl _)) ?_ ?_ (by constructor <;> rfl),
        g.ston, g.dton, g.undef, g.emptyRows, g.emptyCols, hw.trans g.wt, g.len.trans f4⟩
      · show (upd acc.1.ctag k t k).inactive = false
        rw [upd_same, ht]; exact hact
      · intro p hp
        exact gi.rowsActive (g.run.frame.rowsToDelete.trans hN) hact p hp

theorem PG.check {μ : Mode} {i : ℕ} {s t : St} {st : Status × ℕ} (h : PG μ i s (t, st)) (b : Bool) :
    PG μ i s (t.check b, st) := by
  refine ⟨h.A, fun o => ?_⟩
  obtain ⟨o1, k⟩ := h.good o.check.1
  refine ⟨o1, fun inv hN hne => ?_⟩
  have g := k inv hN hne
  exact ⟨.same g.run (sameCore_check _ _), g.ston, g.dton, g.undef, g.emptyRows, g.emptyCols, g.wt, g.len⟩

theorem PG.tryUb {μ : Mode} {i : ℕ} {s : St} {acc : PropAcc} (h : PG μ i s acc) (fbt : Bool) (k : ℕ) (b : D)
    (hc : ∃ v, (k, v) ∈ s.A i) : PG μ i s (propTryUb fbt acc k b) := by
  unfold propTryUb
  simp only
  split
  · exact h.bound (propUb_form fbt acc.1 k b) hc
  · exact h

theorem PG.tryLb {μ : Mode} {i : ℕ} {s : St} {acc : PropAcc} (h : PG μ i s acc) (fbt : Bool) (k : ℕ) (b : D)
    (hc : ∃ v, (k, v) ∈ s.A i) : PG μ i s (propTryLb fbt acc k b) := by
  unfold propTryLb
  simp only
  split
  · exact h.bound (propLb_form fbt acc.1 k b) hc
  · exact h

theorem propFind_mem {ok : Cell → Bool} {cells : List Cell} {p : Cell} (h : propFind ok cells = some p) : p ∈ cells := by
  unfold propFind at h
  split at h
  · rename_i q hq
    cases h
    exact List.mem_of_find?_eq_some hq
  · exact List.mem_of_getLast? h

theorem propFind_none {ok : Cell → Bool} {cells : List Cell} (h : propFind ok cells = none) : cells = [] := by
  unfold propFind at h
  split at h
  · cases h
  · exact List.getLast?_eq_none_iff.mp h

theorem PG.fold {μ : Mode} {i : ℕ} {s : St} (f : PropAcc → Cell → PropAcc)
    (hf : ∀ acc p, (∃ v, (p.1, v) ∈ s.A i) → PG μ i s acc → PG μ i s (f acc p)) (L : List Cell)
    (hL : ∀ p ∈ L, p ∈ s.A i) {acc : PropAcc} (h : PG μ i s acc) : PG μ i s (L.foldl f acc) := by
  induction L generalizing acc with
  | nil => exact h
  | cons p L ih =>
    exact ih (fun q hq => hL q (List.mem_cons_of_mem _ hq)) (hf acc p ⟨p.2, hL p List.mem_cons_self⟩ h)

theorem propRhs_pg {μ : Mode} {i : ℕ} {s : St} (fbt : Bool) {acc : PropAcc} (h : PG μ i s acc) :
    PG μ i s (propRhs fbt i acc) := by
  unfold propRhs
  simp only
  split
  · refine h.fold _ (fun acc p hp h => ?_) _ (fun p hp => by rw [h.A] at hp; exact hp)
    unfold propRhsCell
    simp only
    split
    · exact h
    · split
      · exact h.tryUb _ _ _ hp
      · exact h.tryLb _ _ _ hp
  · split
    · split
      · rename_i hn
        exact ⟨h.A, fun o => ⟨(h.good o).1, fun _ _ hne => absurd ((congrFun h.A i).symm.trans (propFind_none hn)) hne⟩⟩
      · rename_i p hp
        have hm := propFind_mem hp
        rw [h.A] at hm
        have hc := PG.check (t := acc.1) (st := acc.2) h
        split
        · exact (hc _).tryUb _ _ _ ⟨p.2, hm⟩
        · exact (hc _).tryLb _ _ _ ⟨p.2, hm⟩
    · exact h

theorem propLhs_pg {μ : Mode} {i : ℕ} {s : St} (fbt : Bool) {acc : PropAcc} (h : PG μ i s acc) :
    PG μ i s (propLhs fbt i acc) := by
  unfold propLhs
  simp only
  split
  · refine h.fold _ (fun acc p hp h => ?_) _ (fun p hp => by rw [h.A] at hp; exact hp)
    unfold propLhsCell
    simp only
    split
    · exact h
    · split
      · exact h.tryLb _ _ _ hp
      · exact h.tryUb _ _ _ hp
  · split
    · split
      · rename_i hn
        exact ⟨h.A, fun o => ⟨(h.good o).1, fun _ _ hne => absurd ((congrFun h.A i).symm.trans (propFind_none hn)) hne⟩⟩
      · rename_i p hp
        have hm := propFind_mem hp
        rw [h.A] at hm
        have hc := PG.check (t := acc.1) (st := acc.2) h
        split
        · exact (hc _).tryLb _ _ _ ⟨p.2, hm⟩
        · exact (hc _).tryUb _ _ _ ⟨p.2, hm⟩
    · exact h

/-- The state while propagation runs. -/
def PropReady (w l : ℕ) (s : St) : Prop := NoRows s ∧ s.subCols = [] ∧ wt s ≤ w ∧ l ≤ s.updActs.length

theorem propRow_good (μ : Mode) (fbt : Bool) (w l : ℕ) (s : St) (i : ℕ) :
    Good μ (fun t => PropReady w l t ∧ t.A i ≠ []) (PropReady w l) s (propRow fbt s i).1 := by
  unfold propRow
  simp only
  have g0 : Good μ (fun t => PropReady w l t ∧ t.A i ≠ [])
      (fun t => PropReady w l t ∧ t.A i ≠ [] ∧ (t.rtag i).inactive = false) s (s.check (!(s.rtag i).inactive)) :=
    .check s _ (fun h h' => ⟨h'.1, h'.2, by show (s.rtag i).inactive = false; simpa using h⟩)
  refine g0.trans ?_
  generalize s.check (!(s.rtag i).inactive) = s1 at *
  have h0 : PG μ i s1 (s1, UNCHANGED, 0) :=
    ⟨rfl, fun o => ⟨o, fun _ _ _ => ⟨.nil, rfl, rfl, rfl, rfl, rfl, le_refl _, le_refl _⟩⟩⟩
  have h := propLhs_pg fbt (propRhs_pg fbt h0)
  generalize propLhs fbt i (propRhs fbt i (s1, UNCHANGED, 0)) = acc at *
  split
  · rename_i hn
    refine .of (fun o => (h.good o).1) (fun o inv hi => ?_)
    have g := (h.good o).2 inv hi.1.1 hi.2.1
    have raw : Raw μ s1 (acc.1.save (.boundChangeTheRow i (acc.1.A i) acc.2.2)) :=
      .prop i acc.2.2 acc.1 hi.2.2 hn g.run (.refl _)
    have fr := g.run.frame
    exact ⟨.of_raw raw inv.gi g.ston g.dton g.undef (fun _ => .inr (by rw [← h.A]; rfl))
      (fun _ => .inr (by rw [← fr.AT]; rfl)) (fun x hx => by show x ∈ acc.1.emptyRows; rw [g.emptyRows]; exact hx)
      (fun x hx => by show x ∈ acc.1.emptyCols; rw [g.emptyCols]; exact hx),
      fr.rowsToDelete.trans hi.1.1, fr.subCols.trans hi.1.2.1, Nat.le_trans g.wt hi.1.2.2.1,
      Nat.le_trans hi.1.2.2.2 g.len⟩
  · rename_i hn
    refine .of (fun o => (h.good o).1) (fun o inv hi => ?_)
    have g := (h.good o).2 inv hi.1.1 hi.2.1
    have h0 : acc.2.2 = 0 := by omega
    have hr := g.run
    rw [h0] at hr
    have fr := hr.frame
    exact ⟨.of_same hr.zero g.ston g.dton g.undef (fun x hx => by rw [g.emptyRows]; exact hx)
      (fun x hx => by rw [g.emptyCols]; exact hx),
      fr.rowsToDelete.trans hi.1.1, fr.subCols.trans hi.1.2.1, Nat.le_trans g.wt hi.1.2.2.1,
      Nat.le_trans hi.1.2.2.2 g.len⟩

theorem propLoop_good (μ : Mode) (fbt : Bool) (w : ℕ) (fuel ii : ℕ) (s : St) (hf : w < fuel + ii) :
    Good μ (PropReady w ii) (PropReady w 0) s (propLoop fbt fuel ii s).1 := by
  induction fuel generalizing ii s with
  | zero =>
    unfold propLoop
    refine .of (fun o => o) (fun _ _ hi => ?_)
    exfalso
    obtain ⟨-, -, h1, h2⟩ := hi
    unfold wt at h1
    omega
  | succ fuel ih =>
    unfold propLoop
    split
    · exact (Good.refl μ _ s).weaken (fun _ h => h) (fun _ h => ⟨h.1, h.2.1, h.2.2.1, Nat.zero_le _⟩)
    · rename_i i hi
      have hlen : ii < s.updActs.length := by
        by_contra hc
        rw [List.getElem?_eq_none (by omega)] at hi
        cases hi
      split
      · exact (ih (ii + 1) s (by omega)).weaken (fun _ h => ⟨h.1, h.2.1, h.2.2.1, hlen⟩) (fun _ h => h)
      · rename_i hs
        have hs : propSkip s i = false := by simpa using hs
        unfold propSkip at hs
        simp only [Bool.or_eq_false_iff, decide_eq_false_iff_not, not_le, not_not] at hs
        have g1 : Good μ (PropReady w ii) (fun t => PropReady w (ii + 1) t ∧ t.A i ≠ []) s
            { s with act := upd s.act i { s.act i with status := .propagatedThisRound } } := by
          refine .of (fun o => o) (fun _ inv h => ⟨.of_same (by constructor <;> rfl) rfl rfl rfl, ⟨h.1, h.2.1, ?_, hlen⟩, ?_⟩)
          · rw [wt_upd_same s i _ (by rw [hs.1.2]; rfl)]
            exact h.2.2.1
          · intro hA
            have hA : s.A i = [] := hA
            have := inv.gi.rowSz i (by omega)
            rw [hA] at this
            simp only [List.length_nil, Nat.cast_zero] at this
            omega
        have g2 := g1.trans (propRow_good μ fbt w (ii + 1) _ i)
        simp only
        split
        · exact g2.weaken (fun _ h => h) (fun _ h => ⟨h.1, h.2.1, h.2.2.1, Nat.zero_le _⟩)
        · exact g2.trans (ih (ii + 1) _ (by omega))

theorem propagatePrimal_good (μ : Mode) (fbt : Bool) (s : St) :
    GoodX μ Clean Clean s (propagatePrimal fbt s) := by
  unfold propagatePrimal
  simp only
  generalize hs1 : (s.check (decide (s.stonRows = []))).check (decide (s.emptyRows = [])) = s1
  have g1 : Good μ Clean Clean s s1 := by
    rw [← hs1]
    exact Good.trans (J := Clean) (.check s _ (fun _ h => h)) (.check _ _ (fun _ h => h))
  have g2 : Good μ Clean (PropReady (s1.updActs.length + 2 * s1.m) 0) s1
      (propLoop fbt (s1.updActs.length + 2 * s1.m + 1) 0 s1).1 :=
    (propLoop_good μ fbt (s1.updActs.length + 2 * s1.m) _ 0 s1 (by omega)).weaken
      (fun _ h => ⟨h.1, h.2.2, wt_le s1, Nat.zero_le _⟩) (fun _ h => h)
  have g3 := g1.trans g2
  generalize propLoop fbt (s1.updActs.length + 2 * s1.m + 1) 0 s1 = r at *
  split
  · rename_i hr
    refine g3.weaken (fun _ h => h) (fun _ _ hf => ?_)
    rw [hr] at hf
    exact absurd hf not_fine_infeasible
  · have g4 : Good μ (PropReady (s1.updActs.length + 2 * s1.m) 0) NoRows r.1 (propReset r.1) := by
      unfold propReset
      exact .same (by constructor <;> rfl) rfl rfl rfl (fun o => o) (fun _ h => h.1)
    have g5 := (g3.trans g4).trans (delCols_good μ NoRows Clean _ (fun h => h) (fun _ _ d => ⟨d.noRows, d.noFixed, d.noSub⟩))
    generalize deleteInactiveCols (deleteFixedCols (propReset r.1)) = s2 at *
    have g6 : Good μ Clean Clean s (s2.check (decide (s2.rowsToDelete = []))) :=
      g5.trans (.check _ _ (fun _ h => h))
    exact (g6.trans (removeEmptyRows_good μ _)).weaken (fun _ h => h) (fun _ h _ => h)

theorem relaxCol_good (μ : Mode) (s : St) (k : ℕ) : Good μ Clean Clean s (relaxCol s k) := by
  unfold relaxCol
  simp only
  have hr : ∀ (a : ℕ → Act) (t : CTag), t.inactive = (s.ctag k).inactive →
      Good μ Clean Clean s { s with act := a, ctag := upd s.ctag k t } := fun a t ht =>
    .of (fun o => o) (fun _ inv h => ⟨.of_raw (.relax k t ht (by constructor <;> rfl)) inv.gi rfl rfl rfl, h⟩)
  split
  · exact .refl μ _ s
  · split
    · split
      · exact hr _ _ rfl
      · exact .refl μ _ s
    · split
      · exact hr _ _ rfl
      · exact .refl μ _ s

theorem removeRedundantBounds_good (μ : Mode) (s : St) : Good μ Clean Clean s (removeRedundantBounds s) := by
  unfold removeRedundantBounds
  generalize relaxOrder s = L
  induction L generalizing s with
  | nil => exact .refl μ _ s
  | cons k L ih => exact (relaxCol_good μ s k).trans (ih _)

end Verif
