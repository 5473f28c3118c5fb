import Verif.Inv.AsrtTwice
import Verif.Inv.FeasMain

/-!
# The assertions of the primal propagation
-/

namespace Verif

/-- What the propagation of a row leaves alone. -/
structure PropFr (s t : St) : Prop where
  er : t.emptyRows = s.emptyRows
  ec : t.emptyCols = s.emptyCols
  A : t.A = s.A
  AT : t.AT = s.AT
  rtag : t.rtag = s.rtag
  sr : t.stonRows = s.stonRows
  size : t.colSize = s.colSize
  cin : ∀ k, s.AT k = [] → (t.ctag k).inactive = (s.ctag k).inactive
  back : ∀ k, (t.ctag k).inactive = false → (s.ctag k).inactive = false

theorem PropFr.refl (s : St) : PropFr s s := ⟨rfl, rfl, rfl, rfl, rfl, rfl, rfl, fun _ _ => rfl, fun _ h => h⟩

section
variable {P : LP} {s t : St}

theorem PropFr.trans {u : St} (h : PropFr s t) (h' : PropFr t u) : PropFr s u :=
  ⟨h'.er.trans h.er, h'.ec.trans h.ec, h'.A.trans h.A, h'.AT.trans h.AT, h'.rtag.trans h.rtag, h'.sr.trans h.sr,
    h'.size.trans h.size, fun k hk => (h'.cin k (by rw [h.AT]; exact hk)).trans (h.cin k hk), fun k hk => h.back k (h'.back k hk)⟩

theorem PropFr.el (h : PropFr s t) (e : ELists s) : ELists t :=
  e.of h.er h.ec (fun i _ => by rw [h.rtag, h.A]; exact ⟨rfl, rfl⟩)
    (fun k hk => by rw [h.cin k (e.col k hk).2, h.AT]; exact ⟨rfl, rfl⟩)

theorem Quiet.prop (h : Quiet s t) : PropFr s t :=
  ⟨h.er, h.ec, h.A, h.AT, h.rtag, h.sr, h.size, fun k _ => h.cin k, fun k hk => (h.cin k) ▸ hk⟩

theorem FixFr.prop {k : ℕ} (h : FixFr s k t) (hc : (s.ctag k).inactive = false) (hT : s.AT k ≠ []) : PropFr s t := by
  refine ⟨h.er, h.ec, h.A, h.AT, h.rtag, h.sr, h.size, fun j hj => ?_, fun j hj => ?_⟩
  · rw [h.ctag j (fun e => hT (e ▸ hj))]
  · by_cases e : j = k
    · rw [e]; exact hc
    · rw [← h.ctag j e]; exact hj

theorem isHuge_inf {b : D} (h : isHuge b = false) : D.isInf b = false := by
  cases b <;> first | rfl | (revert h; decide)

theorem D.le_of_lt {a b : D} (h : D.lt a b = true) : D.le a b = true := by
  cases a <;> cases b <;> simp_all [D.lt, D.le]
  exact _root_.le_of_lt h

theorem propUb_fwd (fbt : Bool) (s : St) (k : ℕ) (b : D) (hc : (s.ctag k).inactive = false) (hk : 0 < s.colSize k)
    (hT : s.AT k ≠ []) (hg : (((s.ctag k).ubInf || D.lt b (s.ub k)) && !isHuge b) = true) :
    (propUb fbt s k b).1.asrt = s.asrt ∧ PropFr s (propUb fbt s k b).1 := by
  simp only [Bool.and_eq_true, Bool.or_eq_true, Bool.not_eq_true'] at hg
  have c1 : (s.check (!D.isInf b && !(s.ctag k).inactive)).check
      (((s.ctag k).ubInf || D.le b (s.ub k)) && !isHuge b) = s := by
    have h1 : (!D.isInf b && !(s.ctag k).inactive) = true := by rw [isHuge_inf hg.2, hc]; rfl
    have h2 : (((s.ctag k).ubInf || D.le b (s.ub k)) && !isHuge b) = true := by
      rw [hg.2]
      rcases hg.1 with h | h
      · rw [h]; rfl
      · rw [D.le_of_lt h]; simp
    rw [h1, h2, check_true, check_true]
  unfold propUb
  simp only [c1]
  split
  · exact ⟨rfl, .refl s⟩
  · split
    · refine ⟨?_, ?_⟩
      · exact fixCol_asrt ((s.save (.boundChangeNoRow k b (s.lb k) true)).fuzz (!D.le b (s.lb k))) k _ _ hc hk
      · have q : PropFr s ((s.save (.boundChangeNoRow k b (s.lb k) true)).fuzz (!D.le b (s.lb k))) :=
          ⟨rfl, rfl, rfl, rfl, rfl, rfl, rfl, fun _ _ => rfl, fun _ h => h⟩
        exact q.trans ((fixCol_fr _ k _ _).prop hc hT)
    · split
      · generalize (if isIntegral b then b else D.add b (D.smul BOUND_MARGINAL (D.abs b))) = v
        have q0 : Quiet s { s with ctag := upd s.ctag k { s.ctag k with ubInf := false }, ub := upd s.ub k v } :=
          ⟨rfl, rfl, rfl, rfl, rfl, rfl, fun j => (by refine cin_upd _ k _ ?_ j; rfl), rfl, rfl⟩
        have q := q0.trans (updActsBoundChange_only _ (s.AT k) (s.ub k) v (!(s.ctag k).ubInf) false).quiet
        refine ⟨q.asrt, q.prop.trans ?_⟩
        exact ⟨rfl, rfl, rfl, rfl, rfl, rfl, rfl, fun _ _ => rfl, fun _ h => h⟩
      · exact ⟨rfl, .refl s⟩

theorem propLb_fwd (fbt : Bool) (s : St) (k : ℕ) (b : D) (hc : (s.ctag k).inactive = false) (hk : 0 < s.colSize k)
    (hT : s.AT k ≠ []) (hg : (((s.ctag k).lbInf || D.lt (s.lb k) b) && !isHuge b) = true) :
    (propLb fbt s k b).1.asrt = s.asrt ∧ PropFr s (propLb fbt s k b).1 := by
  simp only [Bool.and_eq_true, Bool.or_eq_true, Bool.not_eq_true'] at hg
  have c1 : (s.check (!D.isInf b && !(s.ctag k).inactive)).check
      (((s.ctag k).lbInf || D.le (s.lb k) b) && !isHuge b) = s := by
    have h1 : (!D.isInf b && !(s.ctag k).inactive) = true := by rw [isHuge_inf hg.2, hc]; rfl
    have h2 : (((s.ctag k).lbInf || D.le (s.lb k) b) && !isHuge b) = true := by
      rw [hg.2]
      rcases hg.1 with h | h
      · rw [h]; rfl
      · rw [D.le_of_lt h]; simp
    rw [h1, h2, check_true, check_true]
  unfold propLb
  simp only [c1]
  split
  · exact ⟨rfl, .refl s⟩
  · split
    · refine ⟨?_, ?_⟩
      · exact fixCol_asrt ((s.save (.boundChangeNoRow k b (s.ub k) false)).fuzz (!D.le (s.ub k) b)) k _ _ hc hk
      · have q : PropFr s ((s.save (.boundChangeNoRow k b (s.ub k) false)).fuzz (!D.le (s.ub k) b)) :=
          ⟨rfl, rfl, rfl, rfl, rfl, rfl, rfl, fun _ _ => rfl, fun _ h => h⟩
        exact q.trans ((fixCol_fr _ k _ _).prop hc hT)
    · split
      · generalize (if isIntegral b then b else D.sub b (D.smul BOUND_MARGINAL (D.abs b))) = v
        have q0 : Quiet s { s with ctag := upd s.ctag k { s.ctag k with lbInf := false }, lb := upd s.lb k v } :=
          ⟨rfl, rfl, rfl, rfl, rfl, rfl, fun j => (by refine cin_upd _ k _ ?_ j; rfl), rfl, rfl⟩
        have q := q0.trans (updActsBoundChange_only _ (s.AT k) (s.lb k) v (!(s.ctag k).lbInf) true).quiet
        refine ⟨q.asrt, q.prop.trans ?_⟩
        exact ⟨rfl, rfl, rfl, rfl, rfl, rfl, rfl, fun _ _ => rfl, fun _ h => h⟩
      · exact ⟨rfl, .refl s⟩

/-- No assertion has failed while row `i` is propagated. -/
structure PS (s : St) (acc : PropAcc) : Prop where
  asrt : acc.1.asrt = true
  fr : PropFr s acc.1

variable {i : ℕ} {acc : PropAcc}

theorem PS.tryUb (h : PS s acc) (w : W P s) (hact : (s.rtag i).inactive = false) (fbt : Bool) {p : Cell} (hp : p ∈ s.A i)
    (hc : (acc.1.ctag p.1).inactive = false) (b : D) : PS s (propTryUb fbt acc p.1 b) := by
  unfold propTryUb
  simp only
  split
  · rename_i hg
    have hT := (w.cell hact (k := p.1) (a := p.2) hp).2
    have h1 := propUb_fwd fbt acc.1 p.1 b hc (by rw [h.fr.size]; exact w.colPos (h.fr.back _ hc) hT) (by rw [h.fr.AT]; exact hT) hg
    exact ⟨h1.1.trans h.asrt, h.fr.trans h1.2⟩
  · exact h

theorem PS.tryLb (h : PS s acc) (w : W P s) (hact : (s.rtag i).inactive = false) (fbt : Bool) {p : Cell} (hp : p ∈ s.A i)
    (hc : (acc.1.ctag p.1).inactive = false) (b : D) : PS s (propTryLb fbt acc p.1 b) := by
  unfold propTryLb
  simp only
  split
  · rename_i hg
    have hT := (w.cell hact (k := p.1) (a := p.2) hp).2
    have h1 := propLb_fwd fbt acc.1 p.1 b hc (by rw [h.fr.size]; exact w.colPos (h.fr.back _ hc) hT) (by rw [h.fr.AT]; exact hT) hg
    exact ⟨h1.1.trans h.asrt, h.fr.trans h1.2⟩
  · exact h

theorem PS.fold (f : PropAcc → Cell → PropAcc) (L : List Cell)
    (hf : ∀ acc, ∀ p ∈ L, PS s acc → PS s (f acc p)) (h : PS s acc) : PS s (L.foldl f acc) := by
  induction L generalizing acc with
  | nil => exact h
  | cons p L ih =>
    exact ih (fun acc q hq => hf acc q (List.mem_cons_of_mem _ hq)) (hf acc p List.mem_cons_self h)

theorem exists_of_countP {f : Cell → Bool} {cells : List Cell} (h : (cells.countP f : ℤ) = 1) : ∃ p ∈ cells, f p = true := by
  have : 0 < cells.countP f := by omega
  exact List.countP_pos_iff.mp this

theorem propFind_ok {ok : Cell → Bool} {cells : List Cell} {p : Cell} (he : ∃ p ∈ cells, ok p = true)
    (h : propFind ok cells = some p) : ok p = true := by
  unfold propFind at h
  split at h
  · rename_i q hq
    cases h
    exact List.find?_some hq
  · rename_i hn
    obtain ⟨q, hq, e⟩ := he
    exact absurd e (List.find?_eq_none.mp hn q hq)

theorem Feas.okMin (h : Feas P s) (g : GI s) (ha : (s.rtag i).inactive = false) (h1 : (s.act i).nInfMin = 1) :
    ∃ p ∈ s.A i, (((decide (0 < p.2) && (s.ctag p.1).lbInf) || (decide (p.2 < 0) && (s.ctag p.1).ubInf)) &&
        !(s.ctag p.1).inactive) = true := by
  obtain ⟨p, hp, hu⟩ := exists_of_countP ((h.actOK g ha).nmin.symm.trans h1)
  refine ⟨p, hp, ?_⟩
  have hr := g.rowRange i p hp
  have hs := (h.col p.1 (by rw [← h.n]; exact hr.2.1)).sub
  unfold unbMin effTags at hu
  split at hu
  · rename_i h0
    obtain ⟨e1, e2⟩ := effTag_lbInf hu
    rw [CTag.inactive_false.mpr ⟨e1, hs⟩, e2]
    simp [h0]
  · rename_i h0
    have : p.2 < 0 := lt_of_le_of_ne (not_lt.mp h0) hr.2.2
    obtain ⟨e1, e2⟩ := effTag_ubInf hu
    rw [CTag.inactive_false.mpr ⟨e1, hs⟩, e2]
    simp [this]

theorem Feas.okMax (h : Feas P s) (g : GI s) (ha : (s.rtag i).inactive = false) (h1 : (s.act i).nInfMax = 1) :
    ∃ p ∈ s.A i, (((decide (0 < p.2) && (s.ctag p.1).ubInf) || (decide (p.2 < 0) && (s.ctag p.1).lbInf)) &&
        !(s.ctag p.1).inactive) = true := by
  obtain ⟨p, hp, hu⟩ := exists_of_countP ((h.actOK g ha).nmax.symm.trans h1)
  refine ⟨p, hp, ?_⟩
  have hr := g.rowRange i p hp
  have hs := (h.col p.1 (by rw [← h.n]; exact hr.2.1)).sub
  unfold unbMax effTags at hu
  split at hu
  · rename_i h0
    obtain ⟨e1, e2⟩ := effTag_ubInf hu
    rw [CTag.inactive_false.mpr ⟨e1, hs⟩, e2]
    simp [h0]
  · rename_i h0
    have : p.2 < 0 := lt_of_le_of_ne (not_lt.mp h0) hr.2.2
    obtain ⟨e1, e2⟩ := effTag_lbInf hu
    rw [CTag.inactive_false.mpr ⟨e1, hs⟩, e2]
    simp [this]

theorem propRhs_fwd (fbt : Bool) (h : PS s acc) (w : W P s) (hact : (s.rtag i).inactive = false)
    (hg : GI acc.1 ∧ Feas P acc.1) : PS s (propRhs fbt i acc) := by
  have hA : acc.1.A i = s.A i := by rw [h.fr.A]
  unfold propRhs
  simp only
  split
  · refine PS.fold _ _ (fun acc p hp h => ?_) h
    rw [hA] at hp
    unfold propRhsCell
    simp only
    split
    · exact h
    · rename_i hc
      have hc : (acc.1.ctag p.1).inactive = false := by simpa using hc
      split
      · exact h.tryUb w hact fbt hp hc _
      · exact h.tryLb w hact fbt hp hc _
  · split
    · rename_i h1
      simp only [Bool.and_eq_true, decide_eq_true_eq] at h1
      have he := hg.2.okMin hg.1 (i := i) (by rw [h.fr.rtag]; exact hact) h1.2
      split
      · rename_i hn
        exact ⟨h.asrt, h.fr.trans ⟨rfl, rfl, rfl, rfl, rfl, rfl, rfl, fun _ _ => rfl, fun _ h => h⟩⟩
      · rename_i p hp
        have hm := propFind_mem hp
        rw [hA] at hm
        have hok := propFind_ok he hp
        simp only [hok, check_true]
        have hc : (acc.1.ctag p.1).inactive = false := by simp only [Bool.and_eq_true, Bool.not_eq_true'] at hok; exact hok.2
        split
        · exact PS.tryUb (acc := (acc.1, acc.2)) h w hact fbt hm hc _
        · exact PS.tryLb (acc := (acc.1, acc.2)) h w hact fbt hm hc _
    · exact h

theorem propLhs_fwd (fbt : Bool) (h : PS s acc) (w : W P s) (hact : (s.rtag i).inactive = false)
    (hg : GI acc.1 ∧ Feas P acc.1) : PS s (propLhs fbt i acc) := by
  have hA : acc.1.A i = s.A i := by rw [h.fr.A]
  unfold propLhs
  simp only
  split
  · refine PS.fold _ _ (fun acc p hp h => ?_) h
    rw [hA] at hp
    unfold propLhsCell
    simp only
    split
    · exact h
    · rename_i hc
      have hc : (acc.1.ctag p.1).inactive = false := by simpa using hc
      split
      · exact h.tryLb w hact fbt hp hc _
      · exact h.tryUb w hact fbt hp hc _
  · split
    · rename_i h1
      simp only [Bool.and_eq_true, decide_eq_true_eq] at h1
      have he := hg.2.okMax hg.1 (i := i) (by rw [h.fr.rtag]; exact hact) h1.2
      split
      · rename_i hn
        exact ⟨h.asrt, h.fr.trans ⟨rfl, rfl, rfl, rfl, rfl, rfl, rfl, fun _ _ => rfl, fun _ h => h⟩⟩
      · rename_i p hp
        have hm := propFind_mem hp
        rw [hA] at hm
        have hok := propFind_ok he hp
        simp only [hok, check_true]
        have hc : (acc.1.ctag p.1).inactive = false := by simp only [Bool.and_eq_true, Bool.not_eq_true'] at hok; exact hok.2
        split
        · exact PS.tryLb (acc := (acc.1, acc.2)) h w hact fbt hm hc _
        · exact PS.tryUb (acc := (acc.1, acc.2)) h w hact fbt hm hc _
    · exact h

theorem propRow_fwd (fbt : Bool) (w : W P s) (hN : NoRows s) (hact : (s.rtag i).inactive = false) (hA : s.A i ≠ []) :
    (propRow fbt s i).1.asrt = true ∧ PropFr s (propRow fbt s i).1 := by
  unfold propRow
  have c : s.check (!(s.rtag i).inactive) = s := by rw [hact]; exact check_true s
  simp only [c]
  have h0 : PF μT P i s (fun _ => True) (s, UNCHANGED, 0) :=
    ⟨⟨rfl, fun o => ⟨o, fun _ _ _ => ⟨.nil, rfl, rfl, rfl, rfl, rfl, le_refl _, le_refl _⟩⟩⟩, rfl,
      fun _ _ _ _ _ hf => ⟨hf, trivial⟩⟩
  have p0 : PS s (s, UNCHANGED, 0) := ⟨w.asrt, .refl s⟩
  have h1 := propRhs_pf fbt h0
  have p1 := propRhs_fwd fbt p0 w hact ⟨w.inv.gi, w.feas⟩
  generalize propRhs fbt i (s, UNCHANGED, 0) = acc at *
  have o := Ok.ofT p1.asrt
  have p2 := propLhs_fwd fbt p1 w hact
    ⟨((h1.pg.good o).2 w.inv hN hA).run.gi w.inv.gi, (h1.feas o w.inv hN hA hact w.feas).1⟩
  split
  · exact ⟨p2.asrt, p2.fr.trans ⟨rfl, rfl, rfl, rfl, rfl, rfl, rfl, fun _ _ => rfl, fun _ h => h⟩⟩
  · exact ⟨p2.asrt, p2.fr⟩

theorem propLoop_safe (fbt : Bool) (w0 fuel ii : ℕ) (w : W P s) (hf : w0 < fuel + ii) (hR : PropReady w0 ii s)
    (hp : PlainLog (propLoop fbt fuel ii s).1) (hs : (propLoop fbt fuel ii s).2 ≠ INFEASIBLE) :
    W P (propLoop fbt fuel ii s).1 ∧ PropReady w0 0 (propLoop fbt fuel ii s).1 := by
  induction fuel generalizing ii s with
  | zero =>
    exfalso
    obtain ⟨-, -, h1, h2⟩ := hR
    unfold wt at h1
    omega
  | succ fuel ih =>
    unfold propLoop at hp hs ⊢
    split
    · exact ⟨w, hR.1, hR.2.1, hR.2.2.1, Nat.zero_le _⟩
    · rename_i i hi
      simp only [hi] at hp hs
      have hlen : ii < s.updActs.length := by
        by_contra hc
        rw [List.getElem?_eq_none (by omega)] at hi
        cases hi
      split
      · rename_i hk
        rw [if_pos hk] at hp hs
        exact ih (ii + 1) w (by omega) ⟨hR.1, hR.2.1, hR.2.2.1, hlen⟩ hp hs
      · rename_i hk
        rw [if_neg hk] at hp hs
        have hk : propSkip s i = false := by simpa using hk
        unfold propSkip at hk
        simp only [Bool.or_eq_false_iff, decide_eq_false_iff_not, not_le, not_not] at hk
        have hact : (s.rtag i).inactive = false := by
          by_contra hc
          have := w.inv.gi.rowPend i (by simpa using hc) (by omega)
          rw [show s.rowsToDelete = [] from hR.1] at this
          cases this
        have hA : s.A i ≠ [] := fun e => by
          have := w.inv.gi.rowSz i (by omega)
          rw [e] at this
          simp only [List.length_nil, Nat.cast_zero] at this
          omega
        have u1 : Up s { s with act := upd s.act i { s.act i with status := .propagatedThisRound } } := 
          .of (List.suffix_refl _) (fun h => h.act (fun h => h)) rfl rfl rfl rfl
        have g1 : Good μT (Fz P (PropReady w0 ii)) (Fz P (PropReady w0 (ii + 1))) s
            { s with act := upd s.act i { s.act i with status := .propagatedThisRound } } := by
          refine Good.withF (.of (fun o => o) (fun _ inv h =>
            ⟨.of_same (by constructor <;> rfl) rfl rfl rfl, ⟨h.1, h.2.1, ?_, hlen⟩⟩)) (fun _ _ _ _ h => ?_)
          · rw [wt_upd_same s i _ (by rw [hk.1.2]; rfl)]
            exact h.2.2.1
          · refine h.core (by constructor <;> rfl) (fun j => ?_)
            show ActEq (upd s.act i _ j) (s.act j)
            by_cases e : j = i
            · subst e
              rw [upd_same]
              exact ⟨rfl, rfl, rfl, rfl⟩
            · rw [upd_ne _ _ e]; exact .refl _
        have hp1 : PlainLog (propRow fbt { s with act := upd s.act i { s.act i with status := .propagatedThisRound } } i).1 := by
          split at hp
          · exact hp
          · exact (propLoop_up _ _ _ _).plain hp
        obtain ⟨w1, r1⟩ := w.step u1 ((propRow_up fbt _ i).plain hp1) g1 hR w.asrt (w.el.same rfl rfl rfl rfl rfl rfl)
        have g2 := (propRow_good μT fbt w0 (ii + 1)
          { s with act := upd s.act i { s.act i with status := .propagatedThisRound } } i).withF
          (fun o inv h _ (hF : Feas P _) => propRow_feas fbt o inv h.1.1 h.2 hF)
        obtain ⟨a2, f2⟩ := propRow_fwd (i := i) fbt w1 r1.1 hact hA
        obtain ⟨w2, r2⟩ := w1.step (propRow_up fbt _ i) hp1 g2 ⟨r1, hA⟩ a2 (f2.el w1.el)
        simp only at hp hs ⊢
        split
        · rename_i hi
          rw [if_pos hi] at hs
          exact absurd rfl hs
        · rename_i hi
          rw [if_neg hi] at hp hs
          exact ih (ii + 1) w2 (by omega) r2 hp hs

theorem propagatePrimal_safe (fbt : Bool) (w : W P s) (hC : Clean s) (hsr : s.stonRows = []) (her : s.emptyRows = [])
    (hp : PlainLog (propagatePrimal fbt s).1) (hs : (propagatePrimal fbt s).2 ≠ INFEASIBLE) :
    W P (propagatePrimal fbt s).1 ∧ Clean (propagatePrimal fbt s).1 := by
  have c1 : s.check (decide (s.stonRows = [])) = s := by rw [decide_eq_true hsr]; exact check_true s
  have c2 : s.check (decide (s.emptyRows = [])) = s := by rw [decide_eq_true her]; exact check_true s
  unfold propagatePrimal at hp hs ⊢
  simp only [c1, c2] at hp hs ⊢
  split
  · rename_i h
    rw [if_pos h] at hs
    exact absurd h hs
  · rename_i h
    rw [if_neg h] at hp hs
    have hp3 := (Up.check _ _).plain ((removeEmptyRows_up _).plain hp)
    have hp2 := (delCols_up _).plain hp3
    have hp1 := (propReset_up _).plain hp2
    obtain ⟨w1, r1⟩ := propLoop_safe fbt (s.updActs.length + 2 * s.m) (s.updActs.length + 2 * s.m + 1) 0 w (by omega)
      ⟨hC.1, hC.2.2, wt_le s, Nat.zero_le _⟩ hp1 h
    generalize propLoop fbt (s.updActs.length + 2 * s.m + 1) 0 s = r at *
    have g4 : Good μT (Fz P (PropReady (s.updActs.length + 2 * s.m) 0)) (Fz P NoRows) r.1 (propReset r.1) := by
      refine Good.withF ?_ (fun _ _ _ _ h => ?_)
      · unfold propReset
        exact .same (by constructor <;> rfl) rfl rfl rfl (fun o => o) (fun _ h => h.1)
      · refine h.core (by unfold propReset; constructor <;> rfl) (fun j => ?_)
        unfold propReset
        simp only
        split
        · exact ⟨rfl, rfl, rfl, rfl⟩
        · split
          · exact ⟨rfl, rfl, rfl, rfl⟩
          · exact .refl _
    obtain ⟨w2, n2⟩ := w1.step (propReset_up _) hp2 g4 r1 w1.asrt (w1.el.same rfl rfl rfl rfl rfl rfl)
    obtain ⟨w3, d⟩ := delCols_safe w2 n2 hp3
    generalize deleteInactiveCols (deleteFixedCols (propReset r.1)) = s2 at *
    have c3 : s2.check (decide (s2.rowsToDelete = [])) = s2 := by rw [decide_eq_true d.noRows]; exact check_true s2
    rw [c3] at hp hs ⊢
    obtain ⟨w4, h4, -⟩ := removeEmptyRows_safe w3 ⟨d.noRows, d.noFixed, d.noSub⟩ hp hs
    exact ⟨w4, h4⟩

end
end Verif
