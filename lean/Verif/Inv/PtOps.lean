import Verif.Inv.PtDef

/-!
# Optimality conditions of the problem that is left: the first part of a round
-/

namespace Verif

/-- What is known of a state during a run. -/
structure Bs (s : St) : Prop where
  inv : Inv s
  rng : InRng s
  num : Num s

/-- Postsolve takes the optimality conditions back over a part of the presolver. -/
structure KeepsP (μ : Mode) (I J : St → Prop) (a : St) (r : St × Status) : Prop where
  good : GoodR μ I J a r
  back : fine r.2 → Ok μ r.1 → Bs a → I a → Num r.1 ∧ PtBack a r.1

theorem dualFixDecide_lowP {ck : ℚ} {up down : ℤ} {t : CTag} (h : dualFixDecide ck up down t = .atLower) :
    0 ≤ ck ∧ down = 0 ∧ t.lbInf = false := by
  unfold dualFixDecide at h
  split_ifs at h with h1 h2 h3 h4 h5 h6 h7 h8 h9 <;> simp_all
  exact h1.1.le

theorem dualFixDecide_uppP {ck : ℚ} {up down : ℤ} {t : CTag} (h : dualFixDecide ck up down t = .atUpper) :
    ck ≤ 0 ∧ up = 0 ∧ t.ubInf = false := by
  unfold dualFixDecide at h
  split_ifs at h with h1 h2 h3 h4 h5 h6 h7 h8 h9 <;> simp_all
  exact h3.1.le

section
variable {μ : Mode} {I J K I' J' : St → Prop} {a b s t : St} {r q : St × Status} {st : Status} {k i : ℕ}

theorem Bs.next (c : Bs s) (g : Good μ I J s t) (o : Ok μ t) (hi : I s) (hn : Num t) : Bs t ∧ J t := by
  obtain ⟨r, j⟩ := (g o).2 c.inv hi
  exact ⟨⟨r.inv c.inv, r.steps.inRng c.inv.gi c.rng, hn⟩, j⟩

theorem KeepsP.base (h : KeepsP μ I J a r) (f : fine r.2) (o : Ok μ r.1) (c : Bs a) (hi : I a) :
    Bs r.1 ∧ J r.1 := c.next (h.good.2 f) o hi (h.back f o c hi).1

theorem KeepsP.trans (h : KeepsP μ I J a r) (h' : KeepsP μ J K r.1 q) : KeepsP μ I K a (q.1, r.2 ||| q.2) := by
  refine ⟨h.good.trans' h'.good, fun f o c hi => ?_⟩
  obtain ⟨f1, f2⟩ := fine_or.mp f
  have o1 := h'.good.1 o
  obtain ⟨c', j⟩ := h.base f1 o1 c hi
  obtain ⟨hp, hb⟩ := h'.back f2 o c' j
  exact ⟨hp, (h.back f1 o1 c hi).2.trans hb⟩

theorem KeepsP.then (h : KeepsP μ I J a r) (f : fine r.2) (h' : KeepsP μ J K r.1 q) : KeepsP μ I K a q := by
  refine ⟨⟨fun o => h.good.1 (h'.good.1 o), fun f' => (h.good.2 f).trans (h'.good.2 f')⟩, fun f2 o c hi => ?_⟩
  have o1 := h'.good.1 o
  obtain ⟨c', j⟩ := h.base f o1 c hi
  obtain ⟨hp, hb⟩ := h'.back f2 o c' j
  exact ⟨hp, (h.back f o1 c hi).2.trans hb⟩

theorem KeepsP.next (h : KeepsP μ I J a (b, UNCHANGED)) (h' : KeepsP μ J K b q) : KeepsP μ I K a q :=
  KeepsP.then (r := (b, UNCHANGED)) h fine_unchanged h'

theorem KeepsP.weaken (h : KeepsP μ I J a r) (hI : I' a → I a) (hJ : J r.1 → J' r.1) : KeepsP μ I' J' a r :=
  ⟨⟨h.good.1, fun f => (h.good.2 f).weaken (fun _ => hI) (fun _ => hJ)⟩, fun f o c hi => h.back f o c (hI hi)⟩

theorem KeepsP.refl (μ : Mode) (I : St → Prop) (s : St) : KeepsP μ I I s (s, UNCHANGED) :=
  ⟨Good.toR (.refl _ _ _), fun _ _ c _ => ⟨c.num, .refl _⟩⟩

theorem KeepsP.bad (f : ¬ fine r.2) (ok : Ok μ r.1 → Ok μ a) : KeepsP μ I J a r :=
  ⟨⟨ok, fun f' => absurd f' f⟩, fun f' => absurd f' f⟩

theorem KeepsP.infeasible (ok : Ok μ b → Ok μ a) : KeepsP μ I J a (b, INFEASIBLE) := .bad not_fine_infeasible ok

theorem KeepsP.of (g : Good μ I J s t) (h : Ok μ t → Bs s → I s → Num t ∧ PtBack s t) : KeepsP μ I J s (t, st) :=
  ⟨g.toR, fun _ o c hi => h o c hi⟩

theorem KeepsP.core (c : SameCore s t) (g : Good μ I J s t) : KeepsP μ I J s (t, st) :=
  .of g (fun _ b _ => ⟨b.num.core c, .core c⟩)

theorem KeepsP.check (s : St) (x : Bool) (hj : I s → J (s.check x)) :
    KeepsP μ I J s (s.check x, UNCHANGED) := .core (sameCore_check s x) (.check s x (fun _ => hj))

/-! ### Deletion and fixing -/

theorem delRows_P (μ : Mode) (I J : St → Prop) (s : St)
    (hJ : Inv s → I s → RowsDeleted s (deleteInactiveRows s) → J (deleteInactiveRows s)) :
    KeepsP μ I J s (deleteInactiveRows s, st) :=
  .of (delRows_good μ I J s hJ) (fun _ c _ => delRows_pt c.inv.gi c.num)

theorem delCols_P (μ : Mode) (I J : St → Prop) (s : St) (hN : I s → NoRows s)
    (hJ : Inv s → I s → ColsDel s (deleteInactiveCols (deleteFixedCols s)) →
      J (deleteInactiveCols (deleteFixedCols s))) :
    KeepsP μ I J s (deleteInactiveCols (deleteFixedCols s), st) :=
  .of (delCols_good μ I J s hN hJ) (fun _ c hi => delCols_pt c.inv.gi c.num (hN hi))

theorem delBoth_P (μ : Mode) (I : St → Prop) (s : St) :
    KeepsP μ I Clean s (deleteInactiveCols (deleteFixedCols (deleteInactiveRows s)), st) :=
  (delRows_P μ I NoRows s (fun _ _ d => d.noRows)).next
    (delCols_P μ NoRows Clean _ id (fun _ _ d => ⟨d.noRows, d.noFixed, d.noSub⟩))

theorem fixCol_P (μ : Mode) (I : St → Prop) (hI : FixStable I) (hN : ∀ s, I s → NoRows s) (s : St)
    (k : ℕ) (val : D)
    (h : Ok μ s → Bs s → (s.ctag k).inactive = false → (∃ q, val = .fin q) ∧ SignP s k val) :
    KeepsP μ I I s ((fixCol s k val (s.c k)).1, st) := by
  refine .of (fixCol_good μ I hI hN s k val) (fun o c hi => ?_)
  obtain ⟨os, hc, -⟩ := fixCol_le μ s k val _ o
  obtain ⟨hv, hs⟩ := h os c hc
  exact fixCol_pt c.inv.gi c.num hv hc (hN s hi) hs

/-! ### Close bounds -/

theorem closeBoundsLoop_P (hμ : μ.near = false) (L : List ℕ) (s : St) :
    KeepsP μ NoRows NoRows s (closeBoundsLoop L s) := by
  induction L generalizing s with
  | nil => exact .refl μ _ s
  | cons k rest ih =>
    unfold closeBoundsLoop
    split
    · exact ih s
    · rename_i hb
      simp only [Bool.or_eq_true, not_or, Bool.not_eq_true] at hb
      simp only
      have g1 : KeepsP μ NoRows NoRows s (s.check (!(s.ctag k).inactive), UNCHANGED) := .check s _ (fun h => h)
      split
      · have g2 : KeepsP μ NoRows NoRows (s.check (!(s.ctag k).inactive))
            ((s.check (!(s.ctag k).inactive)).fuzz (!D.eqb (s.lb k) (s.ub k)), UNCHANGED) :=
          .core (by constructor <;> rfl) (Good.fuzz _ _ (fun h => h))
        refine ((g1.next g2).next (fixCol_P μ _ noRows_fixStable (fun _ h => h) _ k _ ?_)).next (ih _)
        intro o c hc
        have hn := o.2.2 hμ
        have he : D.eqb (s.lb k) (s.ub k) = true := by
          have := (Bool.or_eq_false_iff.mp hn).2
          simpa using this
        obtain ⟨l, hl⟩ := (c.num.lb k hc).fin hb.1.2
        obtain ⟨u, hu⟩ := (c.num.ub k hc).fin hb.2
        have hl' : s.lb k = .fin l := hl
        have hu' : s.ub k = .fin u := hu
        rw [hl', hu'] at he
        have e := D.eqb_fin_iff.mp he
        refine ⟨⟨l, hl⟩, fun Y _ _ => ⟨fun _ => ⟨hb.1.2, rfl⟩, fun _ => ⟨hb.2, ?_⟩⟩⟩
        show s.ub k = s.lb k
        rw [hl', hu', e]
      · split
        · exact .infeasible (fun o => (Ok.check o).1)
        · exact g1.next (ih _)

theorem closeBounds_P (hμ : μ.near = false) (s : St) : KeepsP μ Clean Clean s (closeBounds s) := by
  refine ⟨(closeBounds_good μ s).toR, ?_⟩
  unfold closeBounds
  simp only
  have g := (closeBoundsLoop_P hμ (List.range s.n) s).weaken (I' := Clean) (J' := NoRows) (fun h => h.1) (fun h => h)
  split
  · rename_i h
    exact fun f => absurd (h ▸ f) not_fine_infeasible
  · rename_i h
    exact (KeepsP.then g (by rw [(closeBoundsLoop_st _ _).resolve_right h]; exact fine_unchanged)
      (delCols_P μ NoRows Clean _ id (fun _ _ d => ⟨d.noRows, d.noFixed, d.noSub⟩))).back

/-! ### Empty rows -/

theorem rowOut_pt (s : St) (row : ℕ) (n : Num s) : Num (rowOut s row) ∧ PtBack s (rowOut s row) := by
  have hr : ∀ r, r ≠ row → (rowOut s row).rtag r = s.rtag r := fun r hr => upd_ne _ _ hr
  have hi : ((rowOut s row).rtag row).inactive = true := by
    show (upd s.rtag row _ row).inactive = true
    rw [upd_same]
  refine ⟨n.deact hr hi rfl rfl rfl rfl rfl rfl rfl, .log (new := [.deletedRow row 0]) rfl (by simp [Rec.isHead])
    (fun σ h => h.deact rfl (fun _ _ => rfl) rfl rfl rfl rfl rfl rfl hr hi)⟩

theorem emptyRowLoop_pt (L : List ℕ) (s : St) (f : fine (emptyRowLoop L s).2) (n : Num s) :
    Num (emptyRowLoop L s).1 ∧ PtBack s (emptyRowLoop L s).1 := by
  induction L generalizing s with
  | nil => exact ⟨n, .refl _⟩
  | cons row rest ih =>
    unfold emptyRowLoop at f ⊢
    simp only at f ⊢
    split at f
    · exact absurd f not_fine_infeasible
    · rename_i h
      rw [if_neg h]
      obtain ⟨h1, h2⟩ := rowOut_pt s row n
      obtain ⟨h3, h4⟩ := ih _ f h1
      exact ⟨h3, h2.trans h4⟩

theorem removeEmptyRows_P (μ : Mode) (s : St) : KeepsP μ Clean Clean s (removeEmptyRows s) := by
  refine ⟨(removeEmptyRows_good μ s).toR, fun f o c hi => ?_⟩
  unfold removeEmptyRows at f ⊢
  simp only at f ⊢
  split
  · rename_i h
    rw [if_pos h] at f
    exact absurd (h ▸ f) not_fine_infeasible
  · rename_i h
    have hf : fine (emptyRowLoop s.emptyRows s).2 := fine_of_two (emptyRowLoop_st _ _) h
    obtain ⟨hp, hb⟩ := emptyRowLoop_pt s.emptyRows s hf c.num
    have sc : SameCore (emptyRowLoop s.emptyRows s).1 { (emptyRowLoop s.emptyRows s).1 with emptyRows := [] } := by
      constructor <;> rfl
    exact ⟨hp.core sc, hb.trans (.core sc)⟩

/-! ### Empty columns -/

theorem emptyColVal_tags {ck : ℚ} {lb ub val : D} {t : CTag} (h : emptyColVal ck lb ub t = some val)
    (hl : FinIf t.lbInf lb) (hu : FinIf t.ubInf ub) :
    (∃ q, val = .fin q) ∧ (0 < ck → t.lbInf = false ∧ lb = val) ∧ (ck < 0 → t.ubInf = false ∧ ub = val) := by
  unfold emptyColVal at h
  split at h
  · rename_i h0
    refine ⟨?_, fun hp => absurd h0 hp.ne', fun hp => absurd h0 hp.ne⟩
    split_ifs at h with h1 h2
    · injection h with h; subst h; exact hl (by simp_all)
    · injection h with h; subst h; exact hu (by simp_all)
    · injection h with h; subst h; exact ⟨0, rfl⟩
  · rename_i h0
    split at h
    · rename_i h1
      split_ifs at h with h2
      injection h with h
      subst h
      have h2 : t.ubInf = false := by simpa using h2
      exact ⟨hu h2, fun hp => absurd h1 (not_lt.mpr hp.le), fun _ => ⟨h2, rfl⟩⟩
    · rename_i h1
      split_ifs at h with h2
      injection h with h
      subst h
      have h2 : t.lbInf = false := by simpa using h2
      exact ⟨hl h2, fun _ => ⟨h2, rfl⟩, fun hp => absurd hp h1⟩

theorem colOut_pt (s : St) (k : ℕ) (val : D) (c : Bs s) (o : Ok μ (colOut s k val)) (hi : Clean s)
    (hv : emptyColVal (s.c k) (s.lb k) (s.ub k) (s.ctag k) = some val) :
    Num (colOut s k val) ∧ PtBack s (colOut s k val) := by
  obtain ⟨hc, hT⟩ := colOut_key c.inv (colOut_ok o).2
  have hlog : (colOut s k val).log = .fixedCol k val (s.c k) [] :: s.log := rfl
  obtain ⟨v1, v2, v3⟩ := emptyColVal_tags hv (c.num.lb k hc).fin (c.num.ub k hc).fin
  have elb : ∀ j, j ≠ k → (colOut s k val).lb j = s.lb j := by
    intro j hj
    show (if s.c k < 0 then upd s.lb k (s.ub k) else s.lb) j = _
    split
    · exact upd_ne _ _ hj
    · rfl
  have eub : ∀ j, j ≠ k → (colOut s k val).ub j = s.ub j := by
    intro j hj
    show (if 0 < s.c k then upd s.ub k (s.lb k) else s.ub) j = _
    split
    · exact upd_ne _ _ hj
    · rfl
  have ect : ∀ j, j ≠ k → (colOut s k val).ctag j = s.ctag j := fun j hj => upd_ne _ _ hj
  have ecs : ∀ i, (s.rtag i).inactive = false → ∀ p ∈ s.A i, p.1 ≠ k := by
    intro i hr p hp e
    have : (i, p.2) ∈ s.AT p.1 := (c.inv.gi.agree i p.1 p.2 (c.inv.gi.rowActive hr)
      (by rw [e]; exact c.inv.gi.colActive hc)).mp hp
    rw [e, hT] at this; cases this
  constructor
  · have hfc : (colOut s k val).fixedCols = s.fixedCols := rfl
    refine c.num.off (k := k) (by show (upd s.ctag k _ k).inactive = true; rw [upd_same]; rfl) ect elb eub rfl rfl rfl
      (fun j hj => .inl (hfc ▸ hj)) (fun hj => ?_) rfl
    rw [hfc, hi.2.1] at hj; cases hj
  · refine .log (new := [.fixedCol k val (s.c k) []]) hlog (by simp [Rec.isHead]) (fun σ h => ?_)
    have hz : StatAt s (retFixCol σ k val (s.c k) []) := by
      refine h.stat.addCol (k := k) rfl (fun j hj => upd_ne _ _ hj) (fun hfin => ?_) rfl
        (fun _ _ _ _ => rfl) rfl (fun _ => rfl)
        (fun j hj => by show ((upd s.ctag k _) j).inactive = _; rw [upd_ne _ _ hj])
      show upd σ.z k (.fin (s.c k)) k = _
      rw [upd_same, colSum_col c.inv.gi hc (by rw [hT]; simp), hT, dot_nil, sub_zero]
    have ez : ((retFixCol σ k val (s.c k) []).z k).toQ = s.c k := by
      show (upd σ.z k (.fin (s.c k)) k).toQ = _
      rw [upd_same]; rfl
    refine h.col (k := k) (val := val) hz rfl v1 rfl (fun j hj => upd_ne _ _ hj) rfl rfl rfl (fun i hr => ?_) ect elb eub
      (fun hp => ?_) (fun hp => ?_)
    · refine dot_congr (fun p hp => ?_)
      have e := ecs i hr p hp
      unfold pt
      rw [ect _ e, eub _ e]
      show _ = if _ then _ else (upd σ.x k val p.1).toQ
      rw [upd_ne _ _ e]
    · have hp : 0 < ((retFixCol σ k val (s.c k) []).z k).toQ := hp
      rw [ez] at hp; exact v2 hp
    · have hp : ((retFixCol σ k val (s.c k) []).z k).toQ < 0 := hp
      rw [ez] at hp; exact v3 hp

theorem colOut_good (μ : Mode) (s : St) (k : ℕ) (rest : List ℕ) (v : D) :
    Good μ (ColsLeft (k :: rest)) (ColsLeft rest) s (colOut s k v) := by
  refine .of (fun o => (Ok.check (s := s) ⟨o.1, o.2⟩).1) (fun o i hi => ?_)
  have hz : (decide (s.colSize k = 0) && !(s.ctag k).inactive) = true :=
    (Ok.check (μ := μ) (s := s) ⟨o.1, o.2⟩).2
  rw [Bool.and_eq_true, decide_eq_true_eq, Bool.not_eq_true'] at hz
  have hT : s.AT k = [] := by
    have := i.gi.colSz k hz.2
    rw [hz.1] at this
    exact List.eq_nil_of_length_eq_zero (by omega)
  refine ⟨.of_raw (.emptyCol k v hz.2 hT (by constructor <;> rfl)) i.gi rfl rfl rfl, hi.1, fun r hr => ?_⟩
  show r ∈ rest ∨ (upd s.ctag k _ r).inactive = true
  by_cases e : r = k
  · right; rw [e, upd_same]; rfl
  · rw [upd_ne _ _ e]
    exact (hi.2 r hr).imp_left (fun h => (List.mem_cons.mp h).resolve_left e)

theorem emptyColLoop_P (μ : Mode) (L : List ℕ) (s : St) :
    KeepsP μ (ColsLeft L) (fun t => Clean t ∧ ((emptyColLoop L s).2 ≠ UNBNDORINFEAS → ColsLeft [] t)) s
      (emptyColLoop L s) := by
  induction L generalizing s with
  | nil => exact (KeepsP.refl μ _ s).weaken (fun h => h) (fun h => ⟨h.1, fun _ => h⟩)
  | cons k rest ih =>
    unfold emptyColLoop
    simp only
    split
    · exact .bad (by show ¬ fine UNBNDORINFEAS; decide) (fun o => (Ok.check o).1)
    · rename_i val hv
      exact (KeepsP.of (colOut_good μ s k rest val) (fun o c hi => colOut_pt s k val c o hi.1 hv)).next (ih _)

theorem removeEmptyCols_P (μ : Mode) (s : St) : KeepsP μ Clean Clean s (removeEmptyCols s) := by
  have g := emptyColLoop_P μ s.emptyCols s
  refine ⟨(removeEmptyCols_good μ s).toR, fun f o c hi => ?_⟩
  unfold removeEmptyCols at f o ⊢
  simp only at f o ⊢
  have hi' : ColsLeft s.emptyCols s := ⟨hi, fun _ hr => .inl hr⟩
  split at o
  · rename_i h
    rw [if_pos h] at f
    exact absurd (h ▸ f) (by show ¬ fine UNBNDORINFEAS; decide)
  · rename_i h
    rw [if_neg h]
    have hf : fine (emptyColLoop s.emptyCols s).2 := by
      rcases emptyColLoop_st s.emptyCols s with e | e
      · rw [e]; exact fine_unchanged
      · exact absurd e h
    obtain ⟨hp, hb⟩ := g.back hf ⟨o.1, o.2⟩ c hi'
    have sc : SameCore (emptyColLoop s.emptyCols s).1 { (emptyColLoop s.emptyCols s).1 with emptyCols := [] } := by
      constructor <;> rfl
    exact ⟨hp.core sc, hb.trans (.core sc)⟩

/-! ### Dual fixing -/

theorem GI.locksMean (g : GI s) (hc : (s.ctag k).inactive = false) : LocksMean s k := by
  obtain ⟨h1, h2⟩ := locks_count g hc
  refine ⟨fun e i _ _ a ha hs => ?_, fun e i _ _ a ha hs => ?_⟩
  · rw [e] at h2; exact h2.none i ⟨a, ha, hs⟩
  · rw [e] at h1; exact h1.none i ⟨a, ha, hs⟩

theorem signP_lower (g : GI s) (hm : InRng s) (hN : NoRows s) (hc : (s.ctag k).inactive = false) (h0 : 0 ≤ s.c k)
    (hd : s.down k = 0) (hl : (s.ctag k).lbInf = false) : SignP s k (s.lb k) := by
  intro Y h1 h2
  refine ⟨fun _ => ⟨hl, rfl⟩, fun hp => ?_⟩
  have : dot (s.AT k) Y ≤ 0 := by
    refine dot_nonpos (fun p hp => ?_)
    have ha := g.rowsActive hN hc p hp
    have hcell : (k, p.2) ∈ s.A p.1 := (g.agree p.1 k p.2 (g.rowActive ha) (g.colActive hc)).mpr hp
    have hl := (g.locksMean hc).1 hd p.1 (hm.1 p.1 (g.rowActive ha)) ha p.2 hcell
    have hq : p.2 ≠ 0 := (g.rowRange p.1 _ hcell).2.2
    unfold StopsDown at hl
    push Not at hl
    rcases lt_or_gt_of_ne hq with hneg | hpos
    · by_contra hcon
      have hy : Y p.1 < 0 := by
        by_contra hy
        push Not at hy hcon
        nlinarith
      have := h2 p.1 ha hy
      exact absurd this (by simpa using hl.2 hneg)
    · by_contra hcon
      have hy : 0 < Y p.1 := by
        by_contra hy
        push Not at hy hcon
        nlinarith
      have := h1 p.1 ha hy
      exact absurd this (by simpa using hl.1 hpos)
  linarith

theorem signP_upper (g : GI s) (hm : InRng s) (hN : NoRows s) (hc : (s.ctag k).inactive = false) (h0 : s.c k ≤ 0)
    (hd : s.up k = 0) (hu : (s.ctag k).ubInf = false) : SignP s k (s.ub k) := by
  intro Y h1 h2
  refine ⟨fun hp => ?_, fun _ => ⟨hu, rfl⟩⟩
  have : 0 ≤ dot (s.AT k) Y := by
    refine dot_nonneg' (fun p hp => ?_)
    have ha := g.rowsActive hN hc p hp
    have hcell : (k, p.2) ∈ s.A p.1 := (g.agree p.1 k p.2 (g.rowActive ha) (g.colActive hc)).mpr hp
    have hl := (g.locksMean hc).2 hd p.1 (hm.1 p.1 (g.rowActive ha)) ha p.2 hcell
    have hq : p.2 ≠ 0 := (g.rowRange p.1 _ hcell).2.2
    unfold StopsUp at hl
    push Not at hl
    rcases lt_or_gt_of_ne hq with hneg | hpos
    · by_contra hcon
      have hy : 0 < Y p.1 := by
        by_contra hy
        push Not at hy hcon
        nlinarith
      have := h1 p.1 ha hy
      exact absurd this (by simpa using hl.2 hneg)
    · by_contra hcon
      have hy : Y p.1 < 0 := by
        by_contra hy
        push Not at hy hcon
        nlinarith
      have := h2 p.1 ha hy
      exact absurd this (by simpa using hl.1 hpos)
  linarith

theorem dualFixStep_pt {q : List (ℕ × Bool)} (k : ℕ) (c : Bs s) (hi : NoRows s) :
    Num (dualFixStep (s, q, st) k).1 ∧ PtBack s (dualFixStep (s, q, st) k).1 := by
  unfold dualFixStep
  simp only
  have same : Num s ∧ PtBack s s := ⟨c.num, .refl _⟩
  have gi : ∀ x, GI (s.check x) := fun x =>
    c.inv.gi.of_eq rfl rfl rfl rfl rfl (fun _ => rfl) rfl rfl rfl rfl rfl rfl rfl rfl
  split
  · exact same
  · rename_i hg
    simp only [Bool.or_eq_true, not_or, Bool.not_eq_true] at hg
    have hc := hg.1
    split
    · exact same
    · exact same
    · rename_i hd
      obtain ⟨f1, f2, f3⟩ := dualFixDecide_lowP hd
      obtain ⟨h1, h2⟩ := fixCol_pt (s := s.check (!D.isInf (s.lb k))) (k := k) (val := s.lb k) (gi _)
        (c.num.core (sameCore_check s _)) ((c.num.lb k hc).fin f3) hc hi
        (show SignP s k (s.lb k) from signP_lower c.inv.gi c.rng hi hc f1 f2 f3)
      exact ⟨h1, (PtBack.core (sameCore_check s _)).trans h2⟩
    · rename_i hd
      obtain ⟨f1, f2, f3⟩ := dualFixDecide_uppP hd
      obtain ⟨h1, h2⟩ := fixCol_pt (s := s.check (!D.isInf (s.ub k))) (k := k) (val := s.ub k) (gi _)
        (c.num.core (sameCore_check s _)) ((c.num.ub k hc).fin f3) hc hi
        (show SignP s k (s.ub k) from signP_upper c.inv.gi c.rng hi hc f1 f2 f3)
      exact ⟨h1, (PtBack.core (sameCore_check s _)).trans h2⟩
    · exact same
    · exact same

theorem dualFixFold_pt (L : List ℕ) {q : List (ℕ × Bool)} (o : Ok μ (L.foldl dualFixStep (s, q, st)).1)
    (c : Bs s) (hi : NoRows s ∧ ZeroCost q s) :
    Bs (L.foldl dualFixStep (s, q, st)).1 ∧ PtBack s (L.foldl dualFixStep (s, q, st)).1 := by
  induction L generalizing s q st with
  | nil => exact ⟨c, .refl _⟩
  | cons k L ih =>
    rw [List.foldl_cons] at o ⊢
    have o1 := ((dualFixFold_good μ L _ _ _) o).1
    obtain ⟨n1, b1⟩ := dualFixStep_pt (st := st) (q := q) k c hi.1
    obtain ⟨c1, h1⟩ := c.next (dualFixStep_good μ s q st k) o1 hi n1
    obtain ⟨h2, h3⟩ := ih o c1 h1
    exact ⟨h2, b1.trans h3⟩

theorem simpleDualFix_P (hμ : μ.near = false) (s : St) : KeepsP μ Clean Clean s (simpleDualFix s) := by
  refine ⟨(simpleDualFix_good μ s).toR, fun _ o c hi => ?_⟩
  unfold simpleDualFix at o ⊢
  simp only at o ⊢
  generalize hs1 : s.check (decide (s.emptyCols = [])) = s1 at o ⊢
  have g0 : KeepsP μ Clean (fun s => NoRows s ∧ ZeroCost [] s) s (s1, UNCHANGED) := by
    rw [← hs1]
    exact .check s _ (fun h => ⟨h.1, fun p hp => by cases hp⟩)
  generalize hr : (List.range s1.n).foldl dualFixStep (s1, [], UNCHANGED) = r at o ⊢
  have o1 := ((delBoth_good μ (fun _ => True) _) o).1
  have hn := fixInfFold_nil hμ r.2.1 r.1 o1
  rw [hn] at o o1 ⊢
  simp only [List.foldl_nil] at o o1 ⊢
  have o2 : Ok μ s1 := by
    rw [← hr] at o1
    exact ((dualFixFold_good μ _ _ _ _) o1).1
  obtain ⟨c1, h1⟩ := g0.base fine_unchanged o2 c hi
  rw [← hr] at o1
  obtain ⟨c2, h2⟩ := dualFixFold_pt (List.range s1.n) o1 c1 h1
  rw [hr] at h2 c2
  obtain ⟨h3, h4⟩ := (delBoth_P (st := UNCHANGED) μ (fun _ => True) r.1).back fine_unchanged o c2 trivial
  exact ⟨h3, ((g0.back fine_unchanged o2 c hi).2.trans h2).trans h4⟩

theorem trivialHead_P (hμ : μ.near = false) (stgs : Settings) (s : St) :
    KeepsP μ Clean Clean s (trivialHead stgs s) := by
  unfold trivialHead
  simp only
  have g := closeBounds_P hμ s
  split
  · rename_i h
    exact .bad (by rw [h]; exact not_fine_infeasible) g.good.1
  · rename_i h
    split
    · exact (g.trans (removeEmptyCols_P μ _)).trans (simpleDualFix_P hμ _)
    · exact g

end

end Verif
