import Verif.Inv.CompDef

/-!
# Complementarity: parts of the presolver
-/

namespace Verif

/-- What is known of a state during a run. -/
structure Base (P : LP) (s : St) : Prop where
  plain : PlainLog s
  inv : Inv s
  feas : Feas P s
  rng : InRng s

/-- Postsolve takes the optimality conditions back over a part of the presolver. -/
structure KeepsKkt (μ : Mode) (P : LP) (β : Bool) (I J : St → Prop) (a : St) (r : St × Status) : Prop where
  good : GoodR μ (Fz P I) (Fz P J) a r
  back : fine r.2 → Ok μ r.1 → Base P a → I a → PlainLog r.1 ∧ Back P β a r.1

theorem dualFixDecide_low {ck : ℚ} {up down : ℤ} {t : CTag} (h : dualFixDecide ck up down t = .atLower) :
    0 ≤ ck ∧ down = 0 := by
  unfold dualFixDecide at h
  split_ifs at h with h1 h2 h3 h4 h5 h6 h7 h8 h9
  · exact ⟨h1.1.le, h1.2⟩
  · exact ⟨le_of_eq (‹ck = 0›).symm, ‹_›⟩

theorem dualFixDecide_upp {ck : ℚ} {up down : ℤ} {t : CTag} (h : dualFixDecide ck up down t = .atUpper) :
    ck ≤ 0 ∧ up = 0 := by
  unfold dualFixDecide at h
  split_ifs at h with h1 h2 h3 h4 h5 h6 h7 h8 h9
  · exact ⟨(‹ck < 0 ∧ up = 0›).1.le, (‹ck < 0 ∧ up = 0›).2⟩
  · exact ⟨le_of_eq ‹ck = 0›, ‹_›⟩

section
variable {μ : Mode} {P : LP} {β : Bool} {I J K I' J' : St → Prop} {a b s t : St} {r q : St × Status} {st : Status} {k i : ℕ}

theorem Base.next (c : Base P s) (g : Good μ (Fz P I) (Fz P J) s t) (o : Ok μ t) (hi : I s) (hp : PlainLog t) :
    Base P t ∧ J t := by
  obtain ⟨r, j, fz⟩ := (g o).2 c.inv ⟨hi, fun _ => c.feas⟩
  exact ⟨⟨hp, r.inv c.inv, fz hp, r.steps.inRng c.inv.gi c.rng⟩, j⟩

theorem KeepsKkt.base (h : KeepsKkt μ P β I J a r) (f : fine r.2) (o : Ok μ r.1) (c : Base P a) (hi : I a) :
    Base P r.1 ∧ J r.1 := c.next (h.good.2 f) o hi (h.back f o c hi).1

/-- One part after the other, the statuses are combined. -/
theorem KeepsKkt.trans (h : KeepsKkt μ P β I J a r) (h' : KeepsKkt μ P β J K r.1 q) :
    KeepsKkt μ P β I K a (q.1, r.2 ||| q.2) := by
  refine ⟨h.good.trans' h'.good, fun f o c hi => ?_⟩
  obtain ⟨f1, f2⟩ := fine_or.mp f
  have o1 := h'.good.1 o
  obtain ⟨c', j⟩ := h.base f1 o1 c hi
  obtain ⟨hp, hb⟩ := h'.back f2 o c' j
  exact ⟨hp, (h.back f1 o1 c hi).2.trans hb⟩

/-- One part after the other, the first status is harmless. -/
theorem KeepsKkt.then (h : KeepsKkt μ P β I J a r) (f : fine r.2) (h' : KeepsKkt μ P β J K r.1 q) :
    KeepsKkt μ P β I K a q := by
  refine ⟨⟨fun o => h.good.1 (h'.good.1 o), fun f' => (h.good.2 f).trans (h'.good.2 f')⟩, fun f2 o c hi => ?_⟩
  have o1 := h'.good.1 o
  obtain ⟨c', j⟩ := h.base f o1 c hi
  obtain ⟨hp, hb⟩ := h'.back f2 o c' j
  exact ⟨hp, (h.back f o1 c hi).2.trans hb⟩

theorem KeepsKkt.next (h : KeepsKkt μ P β I J a (b, UNCHANGED)) (h' : KeepsKkt μ P β J K b q) : KeepsKkt μ P β I K a q :=
  KeepsKkt.then (r := (b, UNCHANGED)) h fine_unchanged h'

theorem KeepsKkt.weaken (h : KeepsKkt μ P β I J a r) (hI : Inv a → I' a → I a) (hJ : Inv r.1 → J r.1 → J' r.1) :
    KeepsKkt μ P β I' J' a r :=
  ⟨⟨h.good.1, fun f => (h.good.2 f).weakenF hI hJ⟩, fun f o c hi => h.back f o c (hI c.inv hi)⟩

theorem KeepsKkt.refl (μ : Mode) (P : LP) (β : Bool) (I : St → Prop) (s : St) : KeepsKkt μ P β I I s (s, UNCHANGED) :=
  ⟨Good.toR (.refl _ _ _), fun _ _ c _ => ⟨c.plain, .refl _ _ _⟩⟩

theorem KeepsKkt.bad (f : ¬ fine r.2) (ok : Ok μ r.1 → Ok μ a) : KeepsKkt μ P β I J a r :=
  ⟨⟨ok, fun f' => absurd f' f⟩, fun f' => absurd f' f⟩

theorem KeepsKkt.infeasible (ok : Ok μ b → Ok μ a) : KeepsKkt μ P β I J a (b, INFEASIBLE) :=
  .bad not_fine_infeasible ok

theorem KeepsKkt.of (g : Good μ (Fz P I) (Fz P J) s t)
    (h : Ok μ t → Base P s → I s → PlainLog t ∧ Back P β s t) : KeepsKkt μ P β I J s (t, st) :=
  ⟨g.toR, fun _ o c hi => h o c hi⟩

theorem KeepsKkt.grow (g : Good μ (Fz P I) (Fz P J) s t) (gr : Grow s t)
    (h : Ok μ t → Base P s → I s → Back P β s t) : KeepsKkt μ P β I J s (t, st) :=
  .of g (fun o c hi => ⟨gr.plain c.plain, h o c hi⟩)

theorem KeepsKkt.core (c : SameCore s t) (g : Good μ (Fz P I) (Fz P J) s t) : KeepsKkt μ P β I J s (t, st) :=
  .grow g (.same c.log c.colSize) (fun _ _ _ => .core c)

theorem KeepsKkt.check (s : St) (x : Bool) (hj : x = true → I s → J (s.check x)) :
    KeepsKkt μ P β I J s (s.check x, UNCHANGED) := .core (sameCore_check s x) (.checkF s x hj)

theorem KeepsKkt.keep {F : St → Prop} (h : KeepsKkt μ P β I J a r) (hF : Mono a r.1 → F a → F r.1) :
    KeepsKkt μ P β (fun s => I s ∧ F s) (fun s => J s ∧ F s) a r := by
  refine ⟨⟨h.good.1, fun f => ?_⟩, fun f o c hi => h.back f o c hi.1⟩
  exact ((h.good.2 f).keep hF).weaken (fun _ x => ⟨⟨x.1.1, x.2⟩, x.1.2⟩) (fun _ x => ⟨⟨x.1.1, x.2⟩, x.1.2⟩)

theorem Base.new (c : Base P s) (hc : (s.ctag k).inactive = false) : logVal s.log k = none :=
  (c.feas.col k (c.feas.rng c.inv.gi hc)).new (CTag.inactive_false.mp hc).1

theorem Base.colFin (c : Base P s) (hc : (s.ctag k).inactive = false) : ColFin s k := by
  have hC := c.feas.col k (c.feas.rng c.inv.gi hc)
  have hf := (CTag.inactive_false.mp hc).1
  exact ⟨hC.lbF hf, hC.ubF hf⟩

/-! ### Deletion and fixing -/

theorem delRows_kkt (μ : Mode) (P : LP) (I J : St → Prop) (s : St)
    (hJ : Inv s → I s → RowsDeleted s (deleteInactiveRows s) → J (deleteInactiveRows s)) :
    KeepsKkt μ P β I J s (deleteInactiveRows s, st) := by
  refine .of (delRows_goodF μ P I J s hJ) (fun o c hi => ⟨?_, .delRows c.inv.gi⟩)
  have d := deleteInactiveRows_deleted c.inv.gi
  have tlg : (deleteInactiveRows s).log = s.log := by rw [d.eq]
  unfold PlainLog
  rw [tlg]; exact c.plain

theorem delCols_kkt (μ : Mode) (P : LP) (I J : St → Prop) (s : St) (hN : I s → NoRows s)
    (hJ : Inv s → I s → ColsDel s (deleteInactiveCols (deleteFixedCols s)) →
      J (deleteInactiveCols (deleteFixedCols s))) :
    KeepsKkt μ P β I J s (deleteInactiveCols (deleteFixedCols s), st) := by
  refine .of (delCols_goodF μ P I J s hN hJ) (fun o c hi => ⟨?_, .delCols c.inv.gi (hN hi)⟩)
  obtain ⟨l, r, a, o', b, e⟩ := deleteFixedCols_eq s
  rw [e]
  have d := deleteInactiveCols_deleted
    (s := { s with lhs := l, rhs := r, act := a, off := o', asrt := b })
    (c.inv.gi.of_eq rfl rfl rfl rfl rfl (fun _ => rfl) rfl rfl rfl rfl rfl rfl rfl rfl) (hN hi)
  unfold PlainLog
  rw [d.eq]; exact c.plain

theorem delBoth_kkt (μ : Mode) (P : LP) (I : St → Prop) (s : St) :
    KeepsKkt μ P β I Clean s (deleteInactiveCols (deleteFixedCols (deleteInactiveRows s)), st) :=
  (delRows_kkt μ P I NoRows s (fun _ _ d => d.noRows)).next
    (delCols_kkt μ P NoRows Clean _ id (fun _ _ d => ⟨d.noRows, d.noFixed, d.noSub⟩))

theorem fixCol_kkt (μ : Mode) (P : LP) (I : St → Prop) (hI : FixStable I) (hN : ∀ s, I s → NoRows s) (s : St)
    (k : ℕ) (val : D) (hv : GI s → Feas P s → (s.ctag k).inactive = false → ∃ q, val = .fin q)
    (h : Ok μ s → Base P s → (s.ctag k).inactive = false → SignAt s k val) :
    KeepsKkt μ P β I I s ((fixCol s k val (s.c k)).1, st) := by
  refine .grow (fixCol_goodF μ P I hI hN s k val hv) (fixCol_grow _ _ _ _) (fun o c hi => ?_)
  obtain ⟨os, hc, -⟩ := fixCol_le μ s k val _ o
  exact .fixCol c.inv.gi hc (hN s hi) (c.new hc) (h os c hc)

/-! ### Close bounds -/

theorem closeBoundsLoop_kkt (hμ : μ.near = false) (P : LP) (L : List ℕ) (s : St) :
    KeepsKkt μ P β NoRows NoRows s (closeBoundsLoop L s) := by
  induction L generalizing s with
  | nil => exact .refl μ P β _ s
  | cons k rest ih =>
    unfold closeBoundsLoop
    split
    · exact ih s
    · rename_i hb
      simp only [Bool.or_eq_true, not_or, Bool.not_eq_true] at hb
      simp only
      have g1 : KeepsKkt μ P β NoRows NoRows s (s.check (!(s.ctag k).inactive), UNCHANGED) :=
        .check s _ (fun _ h => h)
      split
      · have g2 : KeepsKkt μ P β NoRows NoRows (s.check (!(s.ctag k).inactive))
            ((s.check (!(s.ctag k).inactive)).fuzz (!D.eqb (s.lb k) (s.ub k)), UNCHANGED) :=
          .core (by constructor <;> rfl) ((Good.fuzz _ _ (fun h => h)).withF
            (fun _ _ _ _ h => h.core (by constructor <;> rfl) (fun _ => .refl _)))
        refine ((g1.next g2).next (fixCol_kkt μ P _ noRows_fixStable (fun _ h => h) _ k _
          (fun g h hc => h.lbFin g hc hb.1.2) ?_)).next (ih _)
        intro o c hc
        have hn := o.2.2 hμ
        have he : D.eqb (s.lb k) (s.ub k) = true := by
          have := (Bool.or_eq_false_iff.mp hn).2
          simpa using this
        obtain ⟨l, hl⟩ := (c.colFin hc).1 hb.1.2
        obtain ⟨u, hu⟩ := (c.colFin hc).2 hb.2
        have hl' : s.lb k = .fin l := hl
        have hu' : s.ub k = .fin u := hu
        rw [hl', hu'] at he
        have e := D.eqb_fin_iff.mp he
        refine fun Y _ _ => ⟨fun _ => rfl, fun _ => ?_⟩
        show s.ub k = s.lb k
        rw [hl', hu', e]
      · split
        · exact .infeasible (fun o => (Ok.check o).1)
        · exact g1.next (ih _)

theorem closeBounds_kkt (hμ : μ.near = false) (P : LP) (s : St) : KeepsKkt μ P β Clean Clean s (closeBounds s) := by
  have gg := (closeBounds_keeps hμ P 0 s).good
  refine ⟨gg, ?_⟩
  unfold closeBounds
  simp only
  have g := (closeBoundsLoop_kkt (β := β) hμ P (List.range s.n) s).weaken (I' := Clean) (J' := NoRows) (fun _ h => h.1)
    (fun _ h => h)
  split
  · rename_i h
    exact fun f => absurd (h ▸ f) not_fine_infeasible
  · rename_i h
    have f : ∀ (L : List ℕ) (s : St), (closeBoundsLoop L s).2 ≠ INFEASIBLE → (closeBoundsLoop L s).2 = UNCHANGED := by
      intro L
      induction L with
      | nil => intro _ _; rfl
      | cons k L ih =>
        intro s h
        unfold closeBoundsLoop at h ⊢
        simp only at h ⊢
        split
        · rename_i h1; rw [if_pos h1] at h; exact ih _ h
        · rename_i h1
          rw [if_neg h1] at h
          split
          · rename_i h2; rw [if_pos h2] at h; exact ih _ h
          · rename_i h2
            rw [if_neg h2] at h
            split
            · rename_i h3; rw [if_pos h3] at h; exact absurd rfl h
            · rename_i h3; rw [if_neg h3] at h; exact ih _ h
    exact (KeepsKkt.then g (by rw [f _ _ h]; exact fine_unchanged)
      (delCols_kkt μ P NoRows Clean _ id (fun _ _ d => ⟨d.noRows, d.noFixed, d.noSub⟩))).back

/-! ### Empty rows -/

theorem rowOut_kkt (μ : Mode) (P : LP) (s : St) (row : ℕ) (rest : List ℕ)
    (hx : ¬ ((!(s.rtag row).lhsInf && D.le (.fin FEAS_TOL) (s.lhs row)) ||
       (!(s.rtag row).rhsInf && D.le (s.rhs row) (.fin (-FEAS_TOL)))) = true) :
    KeepsKkt μ P β (RowsLeft (row :: rest)) (RowsLeft rest) s (rowOut s row, UNCHANGED) := by
  refine .grow (rowOut_goodF μ P s row rest hx) (.one (r := .deletedRow row 0) rfl rfl rfl) (fun o c hi => ?_)
  refine .log (new := [.deletedRow row 0]) rfl (by simp [Rec.isHead]) (.eq rfl rfl rfl) (fun X σ h => ?_)
  refine h.deact (l := [_]) rfl (fun r _ => rfl) rfl rfl rfl rfl (fun r hr => ?_) ?_ rfl
  · show upd s.rtag row _ r = _
    exact upd_ne _ _ hr
  · show (upd s.rtag row _ row).inactive = true
    rw [upd_same]

theorem emptyRowLoop_kkt (μ : Mode) (P : LP) (L : List ℕ) (s : St) :
    KeepsKkt μ P β (RowsLeft L) (fun t => Clean t ∧ ((emptyRowLoop L s).2 ≠ INFEASIBLE → RowsLeft [] t)) s
      (emptyRowLoop L s) := by
  induction L generalizing s with
  | nil => exact (KeepsKkt.refl μ P β _ s).weaken (fun _ h => h) (fun _ h => ⟨h.1, fun _ => h⟩)
  | cons row rest ih =>
    unfold emptyRowLoop
    simp only
    split
    · exact .infeasible (fun o => (Ok.check o).1)
    · rename_i hx
      exact (rowOut_kkt μ P s row rest hx).next (ih _)

theorem removeEmptyRows_kkt (μ : Mode) (P : LP) (s : St) : KeepsKkt μ P β Clean Clean s (removeEmptyRows s) := by
  have gg := removeEmptyRows_goodF μ P s
  have g := emptyRowLoop_kkt (β := β) μ P s.emptyRows s
  unfold removeEmptyRows at gg ⊢
  simp only at gg ⊢
  refine ⟨gg.toR, fun f o c hi => ?_⟩
  have hi' : RowsLeft s.emptyRows s := ⟨hi, fun _ hr => .inl hr⟩
  split at o
  · rename_i h
    rw [if_pos h] at f
    exact absurd (h ▸ f) not_fine_infeasible
  · rename_i h
    rw [if_neg h]
    have hf : fine (emptyRowLoop s.emptyRows s).2 := fine_of_two (emptyRowLoop_st _ _) h
    obtain ⟨hp, hb⟩ := g.back hf ⟨o.1, o.2⟩ c hi'
    exact ⟨hp, hb.trans (.core (by constructor <;> rfl))⟩

/-! ### Empty columns -/

theorem colOut_kkt (μ : Mode) (P : LP) (s : St) (k : ℕ) (rest : List ℕ) (val : D)
    (hv : emptyColVal (s.c k) (s.lb k) (s.ub k) (s.ctag k) = some val) :
    KeepsKkt μ P β (ColsLeft (k :: rest)) (ColsLeft rest) s (colOut s k val, UNCHANGED) := by
  refine .of (colOut_goodF μ P s k rest val hv) (fun o c hi => ?_)
  obtain ⟨hc, hT⟩ := colOut_key c.inv (colOut_ok o).2
  have hlog : (colOut s k val).log = .fixedCol k val (s.c k) [] :: s.log := rfl
  have elb : ∀ j, j ≠ k → (colOut s k val).lb j = s.lb j := by
    intro j hj
    show (if s.c k < 0 then upd s.lb k (s.ub k) else s.lb) j = _
    split
    · exact upd_ne _ _ hj
    · rfl
  have eub : ∀ j, j ≠ k → (colOut s k val).ub j = s.ub j := by
    intro j hj
    show (if 0 < s.c k then upd s.ub k (s.lb k) else s.ub) j = _
    split
    · exact upd_ne _ _ hj
    · rfl
  refine ⟨fun x hx => ?_, .log (new := [.fixedCol k val (s.c k) []]) hlog (by simp [Rec.isHead])
    (.off (k := k) (by show (upd s.ctag k _ k).inactive = true; rw [upd_same]; rfl) (fun j hj => upd_ne _ _ hj) elb eub)
    (fun X σ h => ?_)⟩
  · rw [hlog] at hx
    rcases List.mem_cons.mp hx with rfl | hx
    · rfl
    · exact c.plain x hx
  · have hz : StatAt s (retFixCol σ k val (s.c k) []) := by
      refine h.stat.addCol (k := k) rfl (fun j hj => upd_ne _ _ hj) (fun hfin => ?_) rfl
        (fun _ _ _ _ => rfl) rfl (fun _ => rfl)
        (fun j hj => by show ((upd s.ctag k _) j).inactive = _; rw [upd_ne _ _ hj])
      show upd σ.z k (.fin (s.c k)) k = _
      rw [upd_same, colSum_col c.inv.gi hc (by rw [hT]; simp), hT, dot_nil, sub_zero]
    have ez : ((retFixCol σ k val (s.c k) []).z k).toQ = s.c k := by
      show (upd σ.z k (.fin (s.c k)) k).toQ = _
      rw [upd_same]; rfl
    refine h.col (k := k) (val := val) (l := [_]) hz rfl rfl (fun j hj => upd_ne _ _ hj) rfl (fun j hj => upd_ne _ _ hj)
      elb eub hlog (logVal_new (c.new hc) _ _ _) (fun hp => ?_) (fun hp => ?_)
    · have hp : 0 < ((retFixCol σ k val (s.c k) []).z k).toQ := hp
      rw [ez] at hp
      unfold emptyColVal at hv
      rw [if_neg (ne_of_gt hp), if_neg (not_lt.mpr hp.le)] at hv
      split at hv <;> simp_all
    · have hp : ((retFixCol σ k val (s.c k) []).z k).toQ < 0 := hp
      rw [ez] at hp
      unfold emptyColVal at hv
      rw [if_neg (ne_of_lt hp), if_pos hp] at hv
      split at hv <;> simp_all

theorem emptyColLoop_kkt (μ : Mode) (P : LP) (L : List ℕ) (s : St) :
    KeepsKkt μ P β (ColsLeft L) (fun t => Clean t ∧ ((emptyColLoop L s).2 ≠ UNBNDORINFEAS → ColsLeft [] t)) s
      (emptyColLoop L s) := by
  induction L generalizing s with
  | nil => exact (KeepsKkt.refl μ P β _ s).weaken (fun _ h => h) (fun _ h => ⟨h.1, fun _ => h⟩)
  | cons k rest ih =>
    unfold emptyColLoop
    simp only
    split
    · exact .bad (by show ¬ fine UNBNDORINFEAS; decide) (fun o => (Ok.check o).1)
    · rename_i val hv
      exact (colOut_kkt μ P s k rest val hv).next (ih _)

theorem removeEmptyCols_kkt (μ : Mode) (P : LP) (s : St) : KeepsKkt μ P β Clean Clean s (removeEmptyCols s) := by
  have gg := removeEmptyCols_goodF μ P s
  have g := emptyColLoop_kkt (β := β) μ P s.emptyCols s
  unfold removeEmptyCols at gg ⊢
  simp only at gg ⊢
  refine ⟨gg.toR, fun f o c hi => ?_⟩
  have hi' : ColsLeft s.emptyCols s := ⟨hi, fun _ hr => .inl hr⟩
  split at o
  · rename_i h
    rw [if_pos h] at f
    exact absurd (h ▸ f) (by show ¬ fine UNBNDORINFEAS; decide)
  · rename_i h
    rw [if_neg h]
    have hf : fine (emptyColLoop s.emptyCols s).2 := by
      rcases emptyColLoop_st s.emptyCols s with e | e
      · rw [e]; exact fine_unchanged
      · exact absurd e h
    obtain ⟨hp, hb⟩ := g.back hf ⟨o.1, o.2⟩ c hi'
    exact ⟨hp, hb.trans (.core (by constructor <;> rfl))⟩

/-! ### Dual fixing -/

theorem dot_nonpos {l : List Cell} {Y : ℕ → ℚ} (h : ∀ p ∈ l, p.2 * Y p.1 ≤ 0) : dot l Y ≤ 0 := by
  induction l with
  | nil => simp
  | cons p l ih =>
    rw [dot_cons]
    have h1 := h p List.mem_cons_self
    have h2 := ih (fun p hp => h p (List.mem_cons_of_mem _ hp))
    linarith

theorem dot_nonneg' {l : List Cell} {Y : ℕ → ℚ} (h : ∀ p ∈ l, 0 ≤ p.2 * Y p.1) : 0 ≤ dot l Y := by
  induction l with
  | nil => simp
  | cons p l ih =>
    rw [dot_cons]
    have h1 := h p List.mem_cons_self
    have h2 := ih (fun p hp => h p (List.mem_cons_of_mem _ hp))
    linarith

theorem Base.locks (c : Base P s) (hc : (s.ctag k).inactive = false) : LocksMean s k := by
  obtain ⟨h1, h2⟩ := locks_count c.inv.gi hc
  refine ⟨fun e i _ _ a ha hs => ?_, fun e i _ _ a ha hs => ?_⟩
  · rw [e] at h2; exact h2.none i ⟨a, ha, hs⟩
  · rw [e] at h1; exact h1.none i ⟨a, ha, hs⟩

theorem signAt_lower (c : Base P s) (hN : NoRows s) (hc : (s.ctag k).inactive = false) (h0 : 0 ≤ s.c k)
    (hd : s.down k = 0) : SignAt s k (s.lb k) := by
  intro Y h1 h2
  refine ⟨fun _ => rfl, fun hp => ?_⟩
  have : dot (s.AT k) Y ≤ 0 := by
    refine dot_nonpos (fun p hp => ?_)
    have ha := c.inv.gi.rowsActive hN hc p hp
    have hcell : (k, p.2) ∈ s.A p.1 :=
      (c.inv.gi.agree p.1 k p.2 (c.inv.gi.rowActive ha) (c.inv.gi.colActive hc)).mpr hp
    have hl := (c.locks hc).1 hd p.1 (by rw [c.feas.m]; exact c.feas.rrng p.1 ha) ha p.2 hcell
    have hq : p.2 ≠ 0 := (c.inv.gi.rowRange p.1 _ hcell).2.2
    unfold StopsDown at hl
    push Not at hl
    rcases lt_or_gt_of_ne hq with hneg | hpos
    · by_contra hcon
      have hy : Y p.1 < 0 := by
        by_contra hy
        push Not at hy hcon
        nlinarith
      have := h2 p.1 ha hy
      exact absurd this (by simpa using hl.2 hneg)
    · by_contra hcon
      have hy : 0 < Y p.1 := by
        by_contra hy
        push Not at hy hcon
        nlinarith
      have := h1 p.1 ha hy
      exact absurd this (by simpa using hl.1 hpos)
  linarith

theorem signAt_upper (c : Base P s) (hN : NoRows s) (hc : (s.ctag k).inactive = false) (h0 : s.c k ≤ 0)
    (hd : s.up k = 0) : SignAt s k (s.ub k) := by
  intro Y h1 h2
  refine ⟨fun hp => ?_, fun _ => rfl⟩
  have : 0 ≤ dot (s.AT k) Y := by
    refine dot_nonneg' (fun p hp => ?_)
    have ha := c.inv.gi.rowsActive hN hc p hp
    have hcell : (k, p.2) ∈ s.A p.1 :=
      (c.inv.gi.agree p.1 k p.2 (c.inv.gi.rowActive ha) (c.inv.gi.colActive hc)).mpr hp
    have hl := (c.locks hc).2 hd p.1 (by rw [c.feas.m]; exact c.feas.rrng p.1 ha) ha p.2 hcell
    have hq : p.2 ≠ 0 := (c.inv.gi.rowRange p.1 _ hcell).2.2
    unfold StopsUp at hl
    push Not at hl
    rcases lt_or_gt_of_ne hq with hneg | hpos
    · by_contra hcon
      have hy : 0 < Y p.1 := by
        by_contra hy
        push Not at hy hcon
        nlinarith
      have := h1 p.1 ha hy
      exact absurd this (by simpa using hl.2 hneg)
    · by_contra hcon
      have hy : Y p.1 < 0 := by
        by_contra hy
        push Not at hy hcon
        nlinarith
      have := h2 p.1 ha hy
      exact absurd this (by simpa using hl.1 hpos)
  linarith

theorem dualFixStep_back {q : List (ℕ × Bool)} (k : ℕ) (o : Ok μ (dualFixStep (s, q, st) k).1) (c : Base P s)
    (hi : NoRows s) : Back P β s (dualFixStep (s, q, st) k).1 := by
  unfold dualFixStep at o ⊢
  simp only at o ⊢
  split
  · exact .refl _ _ _
  · rename_i hg
    simp only [Bool.or_eq_true, not_or, Bool.not_eq_true] at hg
    have hc := hg.1
    split
    · exact .refl _ _ _
    · exact .refl _ _ _
    · rename_i hd
      have hf := dualFixDecide_low hd
      exact (Back.core (sameCore_check s _)).trans (Back.fixCol (s := s.check (!D.isInf (s.lb k)))
        (c.inv.gi.of_eq rfl rfl rfl rfl rfl (fun _ => rfl) rfl rfl rfl rfl rfl rfl rfl rfl) hc hi (c.new hc)
        (show SignAt s k (s.lb k) from signAt_lower c hi hc hf.1 hf.2))
    · rename_i hd
      have hf := dualFixDecide_upp hd
      exact (Back.core (sameCore_check s _)).trans (Back.fixCol (s := s.check (!D.isInf (s.ub k)))
        (c.inv.gi.of_eq rfl rfl rfl rfl rfl (fun _ => rfl) rfl rfl rfl rfl rfl rfl rfl rfl) hc hi (c.new hc)
        (show SignAt s k (s.ub k) from signAt_upper c hi hc hf.1 hf.2))
    · exact .refl _ _ _
    · exact .refl _ _ _

theorem dualFixFold_back (L : List ℕ) {q : List (ℕ × Bool)} (o : Ok μ (L.foldl dualFixStep (s, q, st)).1)
    (c : Base P s) (hi : NoRows s ∧ ZeroCost q s) :
    Base P (L.foldl dualFixStep (s, q, st)).1 ∧ Back P β s (L.foldl dualFixStep (s, q, st)).1 := by
  induction L generalizing s q st with
  | nil => exact ⟨c, .refl _ _ _⟩
  | cons k L ih =>
    rw [List.foldl_cons] at o ⊢
    have o1 := ((dualFixFold_goodF μ P L _ _ _) o).1
    obtain ⟨c1, h1⟩ := c.next (dualFixStep_goodF μ P s q st k) o1 hi ((dualFixStep_grow s q st k).plain c.plain)
    obtain ⟨h2, h3⟩ := ih o c1 h1
    exact ⟨h2, (dualFixStep_back k o1 c hi.1).trans h3⟩

theorem simpleDualFix_kkt (hμ : μ.near = false) (P : LP) (s : St) :
    KeepsKkt μ P β Clean Clean s (simpleDualFix s) := by
  refine ⟨(simpleDualFix_goodF μ P s).toR, fun _ o c hi => ?_⟩
  unfold simpleDualFix at o ⊢
  simp only at o ⊢
  generalize hs1 : s.check (decide (s.emptyCols = [])) = s1 at o ⊢
  have g0 : KeepsKkt μ P β Clean (fun s => NoRows s ∧ ZeroCost [] s) s (s1, UNCHANGED) := by
    rw [← hs1]
    exact .check s _ (fun _ h => ⟨h.1, fun p hp => by cases hp⟩)
  generalize hr : (List.range s1.n).foldl dualFixStep (s1, [], UNCHANGED) = r at o ⊢
  have o1 := ((delBoth_goodF μ P (fun _ => True) _) o).1
  have hn := fixInfFold_nil hμ r.2.1 r.1 o1
  rw [hn] at o o1 ⊢
  simp only [List.foldl_nil] at o o1 ⊢
  have o2 : Ok μ s1 := by
    rw [← hr] at o1
    exact ((dualFixFold_goodF μ P _ _ _ _) o1).1
  obtain ⟨c1, h1⟩ := g0.base fine_unchanged o2 c hi
  rw [← hr] at o1
  obtain ⟨c2, h2⟩ := dualFixFold_back (β := β) (List.range s1.n) o1 c1 h1
  rw [hr] at h2 c2
  obtain ⟨h3, h4⟩ := (delBoth_kkt (st := UNCHANGED) (β := β) μ P (fun _ => True) r.1).back fine_unchanged o c2 trivial
  exact ⟨h3, ((g0.back fine_unchanged o2 c hi).2.trans h2).trans h4⟩

theorem trivialHead_kkt (hμ : μ.near = false) (P : LP) (stgs : Settings) (s : St) :
    KeepsKkt μ P β Clean Clean s (trivialHead stgs s) := by
  unfold trivialHead
  simp only
  have g := closeBounds_kkt (β := β) hμ P s
  split
  · rename_i h
    exact .bad (by rw [h]; exact not_fine_infeasible) g.good.1
  · rename_i h
    split
    · exact (g.trans (removeEmptyCols_kkt μ P _)).trans (simpleDualFix_kkt hμ P _)
    · exact g

end

end Verif
