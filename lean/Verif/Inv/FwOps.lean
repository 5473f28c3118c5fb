import Verif.Inv.FwDef

/-!
# Points and rays of the problem that is left: the first part of a round
-/

namespace Verif

section
variable {μ : Mode} {I J K I' J' : St → Prop} {a b s t : St} {r q : St × Status} {st : Status} {k i : ℕ}
  {w d : ℕ → ℚ}

/-! ### Deletion -/

theorem delRows_Fwd (g : GI s) (e : Ef s) : Fwd s (deleteInactiveRows s) := by
  have dd := deleteInactiveRows_deleted g
  generalize deleteInactiveRows s = t at *
  have trt : t.rtag = s.rtag := by rw [dd.eq]
  have tct : t.ctag = s.ctag := by rw [dd.eq]
  have tm : t.m = s.m := by rw [dd.eq]
  have tn : t.n = s.n := by rw [dd.eq]
  have tc : t.c = s.c := by rw [dd.eq]
  have tof : t.off = s.off := by rw [dd.eq]
  have tl : t.lhs = s.lhs := by rw [dd.eq]
  have tr : t.rhs = s.rhs := by rw [dd.eq]
  have tlb : t.lb = s.lb := by rw [dd.eq]
  have tub : t.ub = s.ub := by rw [dd.eq]
  have tf : t.fixedCols = s.fixedCols := by rw [dd.eq]
  have tA : ∀ i, (s.rtag i).inactive = false → t.A i = s.A i := by
    intro i hi
    rw [dd.A, if_neg]
    intro hm
    have := (g.rowsDel i hm).1
    rw [this] at hi; cases hi
  refine ⟨⟨by rw [tof]; exact e.off, by rw [tf, tlb, tub, tct]; exact e.fix⟩, fun w hw => ⟨w, ⟨fun i hi ha => ?_,
    fun k hk hs hb => ?_⟩, ?_⟩, fun ⟨d, hd⟩ => ⟨d, ?_⟩⟩
  · rw [trt] at ha
    have := hw.1 i (tm ▸ hi) ha
    unfold RowOK at *
    rw [trt, tl, tr, tA i ha]; exact this
  · rw [tct] at hb
    have := hw.2 k (tn ▸ hk) (fun e => hs ((dd.colGone k).mp e)) hb
    unfold ColIn at *
    rw [tct, tlb, tub]; exact this
  · unfold costAt objP
    rw [tof, tn, tc]
    refine (congrArg _ (Finset.sum_congr rfl (fun k _ => ?_))).le
    by_cases hk : s.colSize k = -1
    · rw [if_pos hk, if_pos ((dd.colGone k).mp hk)]
    · rw [if_neg hk, if_neg (fun h => hk ((dd.colGone k).mpr h))]
  · refine ⟨fun i ha => ?_, fun i ha => ?_, by rw [← tct]; exact hd.lb, by rw [← tct]; exact hd.ub,
      by rw [← tct]; exact hd.off, ?_⟩
    · rw [← tA i ha]; have := hd.lhs i; rw [trt] at this; exact this ha
    · rw [← tA i ha]; have := hd.rhs i; rw [trt] at this; exact this ha
    · have := hd.cost
      unfold objective at *
      rw [← tn, ← tc]; exact this

theorem sum_over {n : ℕ} (K : List ℕ) (hnd : K.Nodup) (hlt : ∀ k ∈ K, k < n) (f : ℕ → ℚ) :
    (K.map f).sum = ∑ k ∈ Finset.range n, if k ∈ K then f k else 0 := by
  rw [← Finset.sum_filter]
  rw [← List.sum_toFinset f hnd]
  refine Finset.sum_congr ?_ (fun _ _ => rfl)
  ext k
  simp only [List.mem_toFinset, Finset.mem_filter, Finset.mem_range]
  exact ⟨fun h => ⟨hlt k h, h⟩, fun h => h.2⟩

theorem delCols_Fwd (c : Bs s) (e : Ef s) (hN : NoRows s) : Fwd s (deleteInactiveCols (deleteFixedCols s)) := by
  have g := c.inv.gi
  have n := c.num
  have hcd : ∀ k ∈ s.fixedCols, (s.ctag k).inactive = true ∧ s.colSize k ≠ -1 :=
    fun k hk => g.colsDel k (List.mem_append_left _ hk)
  have hnd : s.fixedCols.Nodup := by
    have := g.colsNodup
    rw [n.subs, List.append_nil] at this; exact this
  have hlt : ∀ k ∈ s.fixedCols, k < s.n := fun k hk => c.rng.2 k (hcd k hk).2
  have hsh : ∀ i, (s.rtag i).inactive = false → SideShift s (deleteFixedCols s) s.fixedCols i :=
    fun i hi => (sideShiftFold g hi s.fixedCols hnd (fun k hk => ⟨n.pend k hk, (hcd k hk).2⟩)).2
  obtain ⟨o0, ho0⟩ := e.off
  have hoff := deleteFixedCols_off s ho0 (fun k hk => n.pend k hk)
  obtain ⟨l, r, a, o, b, ee⟩ := deleteFixedCols_eq s
  have g1 : GI (deleteFixedCols s) := by
    rw [ee]
    exact g.of_eq rfl rfl rfl rfl rfl (fun _ => rfl) rfl rfl rfl rfl rfl rfl rfl rfl
  have dd := deleteInactiveCols_deleted g1 (by rw [ee]; exact hN)
  generalize hu : deleteFixedCols s = u at *
  generalize deleteInactiveCols u = t at *
  have eF : u.fixedCols ++ u.subCols = s.fixedCols := by rw [ee]; simp [n.subs]
  have eA : u.A = s.A := by rw [ee]
  have tA : ∀ i, t.A i = offCols s.fixedCols (s.A i) := fun i => by rw [dd.A, eF, eA]
  have tcs : ∀ k, t.colSize k = if k ∈ s.fixedCols then -1 else s.colSize k := fun k => by
    rw [dd.colSize, eF]; rw [ee]
  have tlb : t.lb = s.lb := by rw [dd.eq, ee]
  have tub : t.ub = s.ub := by rw [dd.eq, ee]
  have tct : t.ctag = s.ctag := by rw [dd.eq, ee]
  have trt : t.rtag = s.rtag := by rw [dd.eq, ee]
  have tm : t.m = s.m := by rw [dd.eq, ee]
  have tn : t.n = s.n := by rw [dd.eq, ee]
  have tc : t.c = s.c := by rw [dd.eq, ee]
  have tr : t.rhs = u.rhs := by rw [dd.eq]
  have tl : t.lhs = u.lhs := by rw [dd.eq]
  have tof : t.off = u.off := by rw [dd.eq]
  have hdot : ∀ i (x : ℕ → ℚ), dot (s.A i) x = dot (t.A i) x +
      (((s.A i).filter (fun p => decide (p.1 ∈ s.fixedCols))).map (fun p => p.2 * x p.1)).sum := by
    intro i x
    rw [tA]
    unfold Verif.dot offCols
    rw [sum_filter_split _ (fun p => decide (p.1 ∈ s.fixedCols)), add_comm]
    congr 1
    congr 2
    refine List.filter_congr (fun p _ => ?_)
    by_cases h : p.1 ∈ s.fixedCols <;> simp [h]
  have val : ∀ w, FeasPt s w → ∀ k ∈ s.fixedCols, w k = (s.ub k).toQ := by
    intro w hw k hk
    obtain ⟨⟨q, h1, h2⟩, hsb⟩ := e.fix k hk
    obtain ⟨hin, hsz⟩ := hcd k hk
    obtain ⟨h6, h7⟩ := hw.2 k (hlt k hk) hsz hsb
    unfold effTag at h6 h7
    unfold CTag.inactive at hin
    rw [hsb, Bool.or_false] at hin
    rw [hin, h1] at h6
    rw [hin, h2] at h7
    simp only [if_true, Lo_fin, Hi_fin] at h6 h7
    rw [h2]; exact le_antisymm h7 h6
  refine ⟨⟨⟨_, by rw [tof]; exact hoff⟩, fun k hk => ?_⟩, fun w hw => ⟨w, ⟨fun i hi ha => ?_, fun k hk hs hb => ?_⟩, ?_⟩,
    fun ⟨d, hd⟩ => ⟨d, ?_⟩⟩
  · rw [dd.eq] at hk; cases hk
  · rw [trt] at ha
    have h1 := hw.1 i (tm ▸ hi) ha
    have hmv : (((s.A i).filter (fun p => decide (p.1 ∈ s.fixedCols))).map (fun p => p.2 * w p.1)).sum =
        movedUb s s.fixedCols i := by
      unfold movedUb
      congr 1
      refine List.map_congr_left (fun p hp => ?_)
      have hm : p.1 ∈ s.fixedCols := by simpa using (List.mem_filter.mp hp).2
      rw [val w hw _ hm]
    unfold RowOK Sides at *
    rw [hdot i w, hmv] at h1
    rw [trt, tl, tr]
    refine ⟨?_, ?_⟩
    · cases hl : (s.rtag i).lhsInf with
      | true => exact .inl rfl
      | false =>
        obtain ⟨q, hq⟩ := n.lhs i ha hl
        rw [(hsh i ha).lhs hl q hq, Lo_fin]
        have := h1.1
        rw [hl, hq, Lo_fin] at this
        linarith
    · cases hl : (s.rtag i).rhsInf with
      | true => exact .inl rfl
      | false =>
        obtain ⟨q, hq⟩ := n.rhs i ha hl
        rw [(hsh i ha).rhs hl q hq, Hi_fin]
        have := h1.2
        rw [hl, hq, Hi_fin] at this
        linarith
  · rw [tct] at hb
    have hs' : s.colSize k ≠ -1 := by
      intro he; apply hs; rw [tcs]; split
      · rfl
      · exact he
    have := hw.2 k (tn ▸ hk) hs' hb
    unfold ColIn at *
    rw [tct, tlb, tub]; exact this
  · unfold costAt objP
    rw [tof, hoff, ho0, tn, tc, sum_over s.fixedCols hnd hlt]
    show o0 + _ + _ ≤ o0 + _
    rw [add_assoc, ← Finset.sum_add_distrib]
    refine (congrArg _ (Finset.sum_congr rfl (fun k _ => ?_))).le
    rw [tcs]
    by_cases hk : k ∈ s.fixedCols
    · rw [if_pos hk, if_pos hk, if_pos rfl, if_neg (hcd k hk).2, val w hw k hk, add_zero]
    · rw [if_neg hk, if_neg hk, zero_add]
  · have hz : ∀ i, dot (s.A i) d = dot (t.A i) d := by
      intro i
      rw [hdot i d]
      have : ((s.A i).filter (fun p => decide (p.1 ∈ s.fixedCols))).map (fun p => p.2 * d p.1) =
          ((s.A i).filter (fun p => decide (p.1 ∈ s.fixedCols))).map (fun _ => 0) := by
        refine List.map_congr_left (fun p hp => ?_)
        have hm : p.1 ∈ s.fixedCols := by simpa using (List.mem_filter.mp hp).2
        rw [hd.off p.1 (by rw [tct]; exact (hcd _ hm).1), mul_zero]
      rw [this]; simp
    refine ⟨fun i ha => ?_, fun i ha => ?_, by rw [← tct]; exact hd.lb, by rw [← tct]; exact hd.ub,
      by rw [← tct]; exact hd.off, ?_⟩
    · rw [hz]; have := hd.lhs i; rw [trt] at this; exact this ha
    · rw [hz]; have := hd.rhs i; rw [trt] at this; exact this ha
    · have := hd.cost
      unfold objective at *
      rw [← tn, ← tc]; exact this

theorem delRows_F (μ : Mode) (I J : St → Prop) (s : St)
    (hJ : Inv s → I s → RowsDeleted s (deleteInactiveRows s) → J (deleteInactiveRows s)) (f : fine st) :
    KeepsF μ I J s (deleteInactiveRows s, st) :=
  .of (delRows_P μ I J s hJ) f (fun _ c e _ _ => delRows_Fwd c.inv.gi e)

theorem delCols_F (μ : Mode) (I J : St → Prop) (s : St) (hN : I s → NoRows s)
    (hJ : Inv s → I s → ColsDel s (deleteInactiveCols (deleteFixedCols s)) →
      J (deleteInactiveCols (deleteFixedCols s))) (f : fine st) :
    KeepsF μ I J s (deleteInactiveCols (deleteFixedCols s), st) :=
  .of (delCols_P μ I J s hN hJ) f (fun _ c e hi _ => delCols_Fwd c e (hN hi))

theorem delBoth_F (μ : Mode) (I : St → Prop) (s : St) (f : fine st) :
    KeepsF μ I Clean s (deleteInactiveCols (deleteFixedCols (deleteInactiveRows s)), st) :=
  (delRows_F μ I NoRows s (fun _ _ d => d.noRows) fine_unchanged).next
    (delCols_F μ NoRows Clean _ id (fun _ _ d => ⟨d.noRows, d.noFixed, d.noSub⟩) f)

/-! ### Fixing -/

theorem Ef.fixed (e : Ef s) (hk : (s.ctag k).inactive = false) (v ck : ℚ) : Ef (fixStep s k (.fin v) ck) := by
  refine ⟨e.off, fun j hj => ?_⟩
  have hj : j ∈ s.fixedCols ++ [k] := hj
  show (∃ q, upd s.lb k (.fin v) j = .fin q ∧ upd s.ub k (.fin v) j = .fin q) ∧ (upd s.ctag k _ j).subst = false
  by_cases ej : j = k
  · subst ej
    rw [upd_same, upd_same, upd_same]
    exact ⟨⟨v, rfl, rfl⟩, (CTag.inactive_false.mp hk).2⟩
  · rw [upd_ne _ _ ej, upd_ne _ _ ej, upd_ne _ _ ej]
    exact e.fix j (by simpa [ej] using hj)

theorem RayAt.fixed {v : D} {ck : ℚ} (hk : (s.ctag k).inactive = false) (h : RayAt (fixStep s k v ck) d) :
    RayAt s d := by
  have dk : d k = 0 := h.off k (by show (upd s.ctag k _ k).inactive = true; rw [upd_same]; rfl)
  have ct : ∀ j, j ≠ k → (fixStep s k v ck).ctag j = s.ctag j := fun j hj => upd_ne _ _ hj
  refine ⟨h.lhs, h.rhs, fun j hj hl => ?_, fun j hj hl => ?_, fun j hj => ?_, h.cost⟩
  · by_cases e : j = k
    · rw [e, dk]
    · exact h.lb j (by rw [ct j e]; exact hj) (by rw [ct j e]; exact hl)
  · by_cases e : j = k
    · rw [e, dk]
    · exact h.ub j (by rw [ct j e]; exact hj) (by rw [ct j e]; exact hl)
  · have e : j ≠ k := by rintro rfl; rw [hk] at hj; cases hj
    exact h.off j (by rw [ct j e]; exact hj)

/-- A column is fixed at a value that is no worse than any other. -/
theorem fixCol_fwd (c : Bs s) (e : Ef s) (hk : (s.ctag k).inactive = false) {q : ℚ}
    (h : ∀ w, FeasPt s w → FeasPt s (setAt w k q) ∧ s.c k * q ≤ s.c k * w k) (hw : ∃ w, FeasPt s w) :
    Fwd s (fixCol s k (.fin q) (s.c k)).1 := by
  obtain ⟨w, hw⟩ := hw
  have hf := fixCol_feas (ck := s.c k) (c.colLt hk) (c.inv.gi.colActive hk) hk (h w hw).1 (c.colFin hk) (setAt_same _ _ _)
  rcases fixCol_eq s k (.fin q) (s.c k) with ⟨b, ee, -⟩ | ⟨b, a, u, ee, -⟩
  · rw [ee] at hf
    exact absurd hf.1 (show ¬ INFEASIBLE = REDUCED by decide)
  · rw [ee] at hf ⊢
    have sc : SameCore (fixStep s k (.fin q) (s.c k)) { fixStep s k (.fin q) (s.c k) with act := a, updActs := u, asrt := b } := by
      constructor <;> rfl
    refine ⟨(e.fixed hk q _).core sc, fun w hw => ⟨setAt w k q, (hf.2 _).mpr ⟨(h w hw).1, setAt_same _ _ _⟩, ?_⟩,
      fun ⟨d, hd⟩ => ⟨d, (hd.core sc).fixed hk⟩⟩
    show s.off.toQ + objP s (setAt w k q) ≤ s.off.toQ + objP s w
    rw [objP_setAt s w (c.colLt hk) (c.inv.gi.colActive hk)]
    have := (h w hw).2
    linarith

theorem fixCol_F (μ : Mode) (I : St → Prop) (hI : FixStable I) (hN : ∀ s, I s → NoRows s) (s : St)
    (k : ℕ) (val : D)
    (h : Ok μ s → Bs s → (s.ctag k).inactive = false → (∃ q, val = .fin q ∧
      ∀ w, FeasPt s w → FeasPt s (setAt w k q) ∧ s.c k * q ≤ s.c k * w k) ∧ SignP s k val) (f : fine st) :
    KeepsF μ I I s ((fixCol s k val (s.c k)).1, st) := by
  refine .of (fixCol_P μ I hI hN s k val (fun o c hc => ?_)) f (fun o c e hi hw => ?_)
  · obtain ⟨⟨q, h1, -⟩, h2⟩ := h o c hc
    exact ⟨⟨q, h1⟩, h2⟩
  · obtain ⟨os, hc, -⟩ := fixCol_le μ s k val _ o
    obtain ⟨⟨q, rfl, h2⟩, -⟩ := h os c hc
    exact fixCol_fwd c e hc h2 hw

/-! ### Close bounds -/

theorem closeBoundsLoop_F (hμ : μ.near = false) (L : List ℕ) (s : St) :
    KeepsF μ NoRows NoRows s (closeBoundsLoop L s) := by
  induction L generalizing s with
  | nil => exact .refl μ _ s
  | cons k rest ih =>
    unfold closeBoundsLoop
    split
    · exact ih s
    · rename_i hb
      simp only [Bool.or_eq_true, not_or, Bool.not_eq_true] at hb
      simp only
      have g1 : KeepsF μ NoRows NoRows s (s.check (!(s.ctag k).inactive), UNCHANGED) := .check s _ (fun h => h)
      split
      · have g2 : KeepsF μ NoRows NoRows (s.check (!(s.ctag k).inactive))
            ((s.check (!(s.ctag k).inactive)).fuzz (!D.eqb (s.lb k) (s.ub k)), UNCHANGED) :=
          .core (by constructor <;> rfl) (Good.fuzz _ _ (fun h => h)) fine_unchanged
        refine ((g1.next g2).next (fixCol_F μ _ noRows_fixStable (fun _ h => h) _ k _ ?_ fine_unchanged)).next (ih _)
        intro o c hc
        have hn := o.2.2 hμ
        have he : D.eqb (s.lb k) (s.ub k) = true := by
          have := (Bool.or_eq_false_iff.mp hn).2
          simpa using this
        obtain ⟨l, hl⟩ := (c.num.lb k hc).fin hb.1.2
        obtain ⟨u, hu⟩ := (c.num.ub k hc).fin hb.2
        have hl' : s.lb k = .fin l := hl
        have hu' : s.ub k = .fin u := hu
        rw [hl', hu'] at he
        have e := D.eqb_fin_iff.mp he
        refine ⟨⟨l, hl, fun w hw => ?_⟩, fun Y _ _ => ⟨fun _ => ⟨hb.1.2, rfl⟩, fun _ => ⟨hb.2, ?_⟩⟩⟩
        · have h1 := c.colIn hw hc
          have h2 : Lo (s.ctag k).lbInf (s.lb k) (w k) := h1.1
          have h3 : Hi (s.ctag k).ubInf (s.ub k) (w k) := h1.2
          rw [hb.1.2, hl', Lo_fin] at h2
          rw [hb.2, hu', Hi_fin] at h3
          rw [D.fin.injEq] at e
          have ew : w k = l := by linarith
          have es : setAt w k l = w := by
            funext j
            by_cases hj : j = k
            · subst hj; rw [setAt_same, ew]
            · rw [setAt_ne _ _ hj]
          rw [es, ew]; exact ⟨hw, le_rfl⟩
        · show s.ub k = s.lb k
          rw [hl', hu', e]
      · split
        · rename_i hx
          refine .infeasible (fun o => (Ok.check o).1) (fun o c _ w hw => ?_)
          have hc : (s.ctag k).inactive = false := by simpa using (Ok.check o).2
          obtain ⟨h1, h2⟩ := c.colIn hw hc
          obtain ⟨l, hl⟩ := (c.colFin hc).1 hb.1.2
          obtain ⟨u, hu⟩ := (c.colFin hc).2 hb.2
          have hx' : D.lt (D.add (s.ub k) (.fin FEAS_TOL)) (s.lb k) = true := hx
          rw [hl, hu, D.add_fin, D.lt_fin, decide_eq_true_eq] at hx'
          rw [hb.1.2, hl, Lo_fin] at h1
          rw [hb.2, hu, Hi_fin] at h2
          have := FEAS_TOL_pos
          linarith
        · exact g1.next (ih _)

theorem KeepsF.run' (g : KeepsP μ I J a r)
    (h : Ok μ r.1 → Bs a → Ef a → I a → (∃ w, FeasPt a w) → Fair a r.2 ∧ (fine r.2 → Fwd a r.1)) : KeepsF μ I J a r :=
  ⟨g, h⟩

theorem closeBounds_F (hμ : μ.near = false) (s : St) : KeepsF μ Clean Clean s (closeBounds s) := by
  refine .run' (closeBounds_P hμ s) ?_
  unfold closeBounds
  simp only
  have g := (closeBoundsLoop_F hμ (List.range s.n) s).weaken (I' := Clean) (J' := NoRows) (fun h => h.1) (fun h => h)
  split
  · rename_i h
    intro o c e hi hw
    have := (g.run o c e hi hw).1
    rw [h] at this
    exact absurd this not_fair_infeasible
  · rename_i h
    exact (KeepsF.then g (by rw [(closeBoundsLoop_st _ _).resolve_right h]; exact fine_unchanged)
      (delCols_F μ NoRows Clean _ id (fun _ _ d => ⟨d.noRows, d.noFixed, d.noSub⟩) fine_unchanged)).run

/-! ### Empty rows -/

theorem rowOut_fwd (e : Ef s) {row : ℕ} (hA : s.A row = []) : Fwd s (rowOut s row) := by
  have hr : ∀ r, r ≠ row → (rowOut s row).rtag r = s.rtag r := fun r hr => upd_ne _ _ hr
  have hi : ((rowOut s row).rtag row).inactive = true := by
    show (upd s.rtag row _ row).inactive = true
    rw [upd_same]
  refine ⟨⟨e.off, e.fix⟩, fun w hw => ⟨w, ⟨fun i hi' ha => ?_, hw.2⟩, le_rfl⟩, fun ⟨d, hd⟩ => ⟨d, ?_⟩⟩
  · have hne : i ≠ row := by rintro rfl; rw [hi] at ha; cases ha
    rw [hr i hne] at ha
    have := hw.1 i hi' ha
    unfold RowOK at *
    rw [hr i hne]; exact this
  · have hz : dot (s.A row) d = 0 := by rw [hA]; rfl
    refine ⟨fun i ha hl => ?_, fun i ha hl => ?_, hd.lb, hd.ub, hd.off, hd.cost⟩
    · by_cases hne : i = row
      · rw [hne, hz]
      · exact hd.lhs i (by rw [hr i hne]; exact ha) (by rw [hr i hne]; exact hl)
    · by_cases hne : i = row
      · rw [hne, hz]
      · exact hd.rhs i (by rw [hr i hne]; exact ha) (by rw [hr i hne]; exact hl)

theorem rowOut_good (μ : Mode) (s : St) (row : ℕ) (rest : List ℕ) :
    Good μ (RowsLeft (row :: rest)) (RowsLeft rest) s (rowOut s row) := by
  refine .of (fun o => (Ok.check (s := s) ⟨o.1, o.2⟩).1) (fun o i hi => ?_)
  obtain ⟨hact, hA⟩ := rowOut_key i hi (Ok.check (μ := μ) (s := s) ⟨o.1, o.2⟩).2
  refine ⟨.of_raw (.emptyRow row hact hA (by constructor <;> rfl)) i.gi rfl rfl rfl, hi.1, fun r hr => ?_⟩
  show r ∈ rest ∨ (upd s.rtag row _ r).inactive = true
  by_cases e : r = row
  · right; rw [e, upd_same]
  · rw [upd_ne _ _ e]
    exact (hi.2 r hr).imp_left (fun h => (List.mem_cons.mp h).resolve_left e)

theorem emptyRowLoop_F (μ : Mode) (L : List ℕ) (s : St) :
    KeepsF μ (RowsLeft L) (fun t => Clean t ∧ ((emptyRowLoop L s).2 ≠ INFEASIBLE → RowsLeft [] t)) s
      (emptyRowLoop L s) := by
  induction L generalizing s with
  | nil => exact (KeepsF.refl μ _ s).weaken (fun h => h) (fun h => ⟨h.1, fun _ => h⟩)
  | cons row rest ih =>
    unfold emptyRowLoop
    simp only
    split
    · rename_i hx
      refine .infeasible (fun o => (Ok.check o).1) (fun o c hi w hw => ?_)
      obtain ⟨hact, hA⟩ := rowOut_key c.inv hi (Ok.check o).2
      have hs := hw.1 row (c.rowLt hact) hact
      have h1 := c.num.lhs row hact
      have h2 := c.num.rhs row hact
      unfold RowOK at hs
      rw [hA] at hs
      have hε := FEAS_TOL_pos
      have hx' : ((!(s.rtag row).lhsInf && D.le (.fin FEAS_TOL) (s.lhs row)) ||
        (!(s.rtag row).rhsInf && D.le (s.rhs row) (.fin (-FEAS_TOL)))) = true := hx
      simp only [Bool.or_eq_true, Bool.and_eq_true, Bool.not_eq_true'] at hx'
      have hd : dot [] w = 0 := rfl
      rw [hd] at hs
      rcases hx' with ⟨hf, hle⟩ | ⟨hf, hle⟩
      · obtain ⟨q, e⟩ := h1 hf
        have := hs.1
        rw [hf, e, Lo_fin] at this
        rw [e, D.le_fin, decide_eq_true_eq] at hle
        linarith
      · obtain ⟨q, e⟩ := h2 hf
        have := hs.2
        rw [hf, e, Hi_fin] at this
        rw [e, D.le_fin, decide_eq_true_eq] at hle
        linarith
    · rename_i hx
      refine KeepsF.next (b := rowOut s row) (J := RowsLeft rest) (.of (.of (rowOut_good μ s row rest)
        (fun _ c _ => rowOut_pt s row c.num)) fine_unchanged (fun o c e hi _ => ?_)) (ih _)
      exact rowOut_fwd e (rowOut_key c.inv hi (Ok.check (μ := μ) (s := s) ⟨o.1, o.2⟩).2).2

theorem removeEmptyRows_F (μ : Mode) (s : St) : KeepsF μ Clean Clean s (removeEmptyRows s) := by
  have g := emptyRowLoop_F μ s.emptyRows s
  refine .run' (removeEmptyRows_P μ s) (fun o c e hi hw => ?_)
  have hi' : RowsLeft s.emptyRows s := ⟨hi, fun _ hr => .inl hr⟩
  unfold removeEmptyRows at o ⊢
  simp only at o ⊢
  split at o
  · rename_i h
    rw [if_pos h]
    have := (g.run o c e hi' hw).1
    rw [h] at this
    exact absurd this not_fair_infeasible
  · rename_i h
    rw [if_neg h]
    have h2 := g.run ⟨o.1, o.2⟩ c e hi' hw
    have hf : fine (emptyRowLoop s.emptyRows s).2 := fine_of_two (emptyRowLoop_st _ _) h
    exact ⟨.inl fine_unchanged, fun _ => (h2.2 hf).trans (.core (h2.2 hf).ef (by constructor <;> rfl))⟩

/-! ### Empty columns -/

theorem colOut_fwd (c : Bs s) (e : Ef s) (hi : Clean s) {val : D} (o : Ok μ (colOut s k val))
    (hv : emptyColVal (s.c k) (s.lb k) (s.ub k) (s.ctag k) = some val) : Fwd s (colOut s k val) := by
  obtain ⟨hc, hT⟩ := colOut_key c.inv (colOut_ok o).2
  have hcs : (colOut s k val).colSize = upd s.colSize k (-1) := rfl
  rcases emptyColVal_spec s k (c.colFin hc) with ⟨ev, -⟩ | ⟨q, ev, hb⟩
  · rw [ev] at hv; cases hv
  rw [ev] at hv; cases hv
  have elb : ∀ j, j ≠ k → (colOut s k (.fin q)).lb j = s.lb j := by
    intro j hj
    show (if s.c k < 0 then upd s.lb k (s.ub k) else s.lb) j = _
    split
    · exact upd_ne _ _ hj
    · rfl
  have eub : ∀ j, j ≠ k → (colOut s k (.fin q)).ub j = s.ub j := by
    intro j hj
    show (if 0 < s.c k then upd s.ub k (s.lb k) else s.ub) j = _
    split
    · exact upd_ne _ _ hj
    · rfl
  have ect : ∀ j, j ≠ k → (colOut s k (.fin q)).ctag j = s.ctag j := fun j hj => upd_ne _ _ hj
  obtain ⟨o0, ho0⟩ := e.off
  have hoff : (colOut s k (.fin q)).off = .fin (o0 + s.c k * q) := by
    show D.add s.off (D.smul (s.c k) (.fin q)) = _
    rw [ho0, D.smul_fin, D.add_fin]
  refine ⟨⟨⟨_, hoff⟩, fun j hj => ?_⟩, fun w hw => ⟨setAt w k q, ?_, ?_⟩, fun ⟨d, hd⟩ => ⟨d, ?_⟩⟩
  · have hj : j ∈ s.fixedCols := hj
    rw [hi.2.1] at hj; cases hj
  · obtain ⟨h1, h2⟩ := c.colIn hw hc
    obtain ⟨h3, h4, -⟩ := hb _ h1 h2
    have hf := c.emptySet hc hT hw h3 h4
    refine ⟨fun i hi ha => hf.1 i hi ha, fun j hj hs hb => ?_⟩
    rw [hcs] at hs
    have hne : j ≠ k := by rintro rfl; exact hs (upd_same _ _ _)
    rw [upd_ne _ _ hne] at hs
    rw [ect j hne] at hb
    have := hf.2 j hj hs hb
    unfold ColIn at *
    rw [ect j hne, elb j hne, eub j hne]; exact this
  · obtain ⟨h1, h2⟩ := c.colIn hw hc
    obtain ⟨-, -, h5⟩ := hb _ h1 h2
    have hkn := c.colLt hc
    have hsz := c.inv.gi.colActive hc
    have hobj : objP (colOut s k (.fin q)) (setAt w k q) = objP s (setAt w k 0) := by
      rw [objP_gone (s := s) (s' := colOut s k (.fin q)) (k := k) rfl hcs, objP_eq]
      unfold objective
      refine Finset.sum_congr rfl (fun j _ => ?_)
      rw [mask_setAt s w hsz, mask_setAt s w hsz]
      show s.c j * _ = _
      by_cases ej : j = k
      · subst ej; rw [setAt_same, setAt_same]
      · rw [setAt_ne _ _ ej, setAt_ne _ _ ej, setAt_ne _ _ ej]
    unfold costAt
    rw [hobj, objP_setAt s w hkn hsz, hoff, ho0]
    show o0 + s.c k * q + (objP s w + s.c k * (0 - w k)) ≤ o0 + objP s w
    linarith
  · have dk : d k = 0 := hd.off k (by show (upd s.ctag k _ k).inactive = true; rw [upd_same]; rfl)
    refine ⟨hd.lhs, hd.rhs, fun j hj hl => ?_, fun j hj hl => ?_, fun j hj => ?_, hd.cost⟩
    · by_cases ej : j = k
      · rw [ej, dk]
      · exact hd.lb j (by rw [ect j ej]; exact hj) (by rw [ect j ej]; exact hl)
    · by_cases ej : j = k
      · rw [ej, dk]
      · exact hd.ub j (by rw [ect j ej]; exact hj) (by rw [ect j ej]; exact hl)
    · have ej : j ≠ k := by rintro rfl; rw [hc] at hj; cases hj
      exact hd.off j (by rw [ect j ej]; exact hj)

theorem fair_unbounded (h : ∃ d, RayAt s d) : Fair s UNBNDORINFEAS := .inr ⟨by decide, h⟩

theorem emptyColLoop_F (μ : Mode) (L : List ℕ) (s : St) :
    KeepsF μ (ColsLeft L) (fun t => Clean t ∧ ((emptyColLoop L s).2 ≠ UNBNDORINFEAS → ColsLeft [] t)) s
      (emptyColLoop L s) := by
  induction L generalizing s with
  | nil => exact (KeepsF.refl μ _ s).weaken (fun h => h) (fun h => ⟨h.1, fun _ => h⟩)
  | cons k rest ih =>
    unfold emptyColLoop
    simp only
    split
    · rename_i hn
      refine .run' (.bad (by show ¬ fine UNBNDORINFEAS; decide) (fun o => (Ok.check o).1)) (fun o c e hi ⟨x, hx⟩ => ?_)
      refine ⟨?_, fun f => absurd f (by show ¬ fine UNBNDORINFEAS; decide)⟩
      obtain ⟨hc, hT⟩ := colOut_key c.inv (Ok.check o).2
      rcases emptyColVal_spec s k (c.colFin hc) with ⟨-, hu⟩ | ⟨q, e, -⟩
      · refine fair_unbounded (c.ray (w := x) hc (fun M => ?_))
        obtain ⟨h1, h2⟩ := c.colIn hx hc
        obtain ⟨q, h3, h4, h5⟩ := hu _ h1 h2 (M - objective s x + s.c k * x k)
        refine ⟨q, c.emptySet hc hT hx h3 h4, ?_⟩
        rw [objective_setAt s x (c.colLt hc)]
        linarith
      · have hn' : emptyColVal (s.c k) (s.lb k) (s.ub k) (s.ctag k) = none := hn
        rw [e] at hn'; cases hn'
    · rename_i val hv
      exact (KeepsF.of (KeepsP.of (colOut_good μ s k rest val) (fun o c hi => colOut_pt s k val c o hi.1 hv))
        fine_unchanged (fun o c e hi _ => colOut_fwd c e hi.1 o hv)).next (ih _)

theorem removeEmptyCols_F (μ : Mode) (s : St) : KeepsF μ Clean Clean s (removeEmptyCols s) := by
  have g := emptyColLoop_F μ s.emptyCols s
  refine .run' (removeEmptyCols_P μ s) (fun o c e hi hw => ?_)
  have hi' : ColsLeft s.emptyCols s := ⟨hi, fun _ hr => .inl hr⟩
  unfold removeEmptyCols at o ⊢
  simp only at o ⊢
  split at o
  · rename_i h
    rw [if_pos h]
    exact ⟨(g.run o c e hi' hw).1, fun f => absurd (h ▸ f) (by show ¬ fine UNBNDORINFEAS; decide)⟩
  · rename_i h
    rw [if_neg h]
    have h2 := g.run ⟨o.1, o.2⟩ c e hi' hw
    have hf : fine (emptyColLoop s.emptyCols s).2 := by
      rcases emptyColLoop_st s.emptyCols s with e | e
      · rw [e]; exact fine_unchanged
      · exact absurd e h
    exact ⟨.inl fine_unchanged, fun _ => (h2.2 hf).trans (.core (h2.2 hf).ef (by constructor <;> rfl))⟩

/-! ### Dual fixing -/

theorem dualFixStep_fwd {q : List (ℕ × Bool)} (k : ℕ) (c : Bs s) (e : Ef s) (hw : ∃ w, FeasPt s w) :
    Fwd s (dualFixStep (s, q, st) k).1 := by
  unfold dualFixStep
  simp only
  have same : Fwd s s := .refl e
  split
  · exact same
  · rename_i hg
    simp only [Bool.or_eq_true, not_or, Bool.not_eq_true] at hg
    have hc := hg.1
    have fx : ∀ (b : Bool) (v : D), (∃ q, v = .fin q ∧
          ∀ w, FeasPt s w → FeasPt s (setAt w k q) ∧ s.c k * q ≤ s.c k * w k) →
        Fwd s (fixCol (s.check b) k v (s.c k)).1 := by
      rintro b v ⟨q, rfl, h⟩
      have sc := sameCore_check s b
      have c' : Bs (s.check b) := ⟨⟨c.inv.gi.of_eq rfl rfl rfl rfl rfl (fun _ => rfl) rfl rfl rfl rfl rfl rfl rfl rfl,
        c.inv.2, c.inv.3⟩, c.rng, c.num.core sc⟩
      obtain ⟨w0, hw0⟩ := hw
      exact (Fwd.core e sc).trans (fixCol_fwd (s := s.check b) c' (e.core sc) hc h ⟨w0, hw0⟩)
    split
    · exact same
    · exact same
    · rename_i hd
      obtain ⟨f1, f2, f3⟩ := dualFixDecide_lowP hd
      obtain ⟨l, hl⟩ := (c.num.lb k hc).fin f3
      refine fx _ _ ⟨l, hl, fun w hw => ?_⟩
      obtain ⟨h1, h2⟩ := c.colIn hw hc
      have hlx : l ≤ w k := by rwa [f3, hl, Lo_fin] at h1
      refine ⟨feas_setAt hw (rows_down c.rowsOK ((c.inv.gi.locksMean hc).1 f2) hlx hw.1) ?_,
        mul_le_mul_of_nonneg_left hlx f1⟩
      unfold ColIn; rw [effTag_active hc, f3, hl]; exact ⟨by simp, h2.mono hlx⟩
    · rename_i hd
      obtain ⟨f1, f2, f3⟩ := dualFixDecide_uppP hd
      obtain ⟨l, hl⟩ := (c.num.ub k hc).fin f3
      refine fx _ _ ⟨l, hl, fun w hw => ?_⟩
      obtain ⟨h1, h2⟩ := c.colIn hw hc
      have hlx : w k ≤ l := by rwa [f3, hl, Hi_fin] at h2
      refine ⟨feas_setAt hw (rows_up c.rowsOK ((c.inv.gi.locksMean hc).2 f2) hlx hw.1) ?_,
        mul_le_mul_of_nonpos_left hlx f1⟩
      unfold ColIn; rw [effTag_active hc, f3, hl]; exact ⟨h1.mono hlx, by simp⟩
    · exact same
    · exact same

theorem dualFixStep_status {q : List (ℕ × Bool)} (k : ℕ) (c : Bs s) (hw : ∃ w, FeasPt s w) :
    (dualFixStep (s, q, st) k).2.2 = st ∨
      ((dualFixStep (s, q, st) k).2.2 = st ||| UNBNDORINFEAS ∧ ∃ d, RayAt s d) := by
  cases hc : (s.ctag k).inactive with
  | true =>
    have e : dualFixStep (s, q, st) k = (s, q, st) := by
      unfold dualFixStep
      simp [hc]
    rw [e]; exact .inl rfl
  | false =>
    have hd := C28_dual_fix s k q st (c.colLt hc) (fun _ => c.inv.gi.colActive hc) c.rowsOK (c.inv.gi.locksMean hc)
      (c.colFin hc)
    cases hd with
    | same h => rw [h]; exact .inl rfl
    | fixed x h2 _ _ => rw [h2]; exact .inl rfl
    | unbounded h unb =>
      rw [h]
      obtain ⟨w, hw⟩ := hw
      exact .inr ⟨rfl, c.ray hc (unb w hw)⟩
    | negInf h _ _ => rw [h]; exact .inl rfl
    | posInf h _ _ => rw [h]; exact .inl rfl

theorem dualFixFold_fwd (L : List ℕ) {q : List (ℕ × Bool)} (o : Ok μ (L.foldl dualFixStep (s, q, st)).1)
    (c : Bs s) (hi : NoRows s ∧ ZeroCost q s) (hw : ∃ w, FeasPt a w) (f : Fwd a s) (hs : Fair a st) :
    Fair a (L.foldl dualFixStep (s, q, st)).2.2 ∧ Fwd a (L.foldl dualFixStep (s, q, st)).1 := by
  induction L generalizing s q st with
  | nil => exact ⟨hs, f⟩
  | cons k L ih =>
    rw [List.foldl_cons] at o ⊢
    have o1 := ((dualFixFold_good μ L _ _ _) o).1
    obtain ⟨n1, -⟩ := dualFixStep_pt (st := st) (q := q) k c hi.1
    obtain ⟨c1, h1⟩ := c.next (dualFixStep_good μ s q st k) o1 hi n1
    have hs' : Fair a (dualFixStep (s, q, st) k).2.2 := by
      rcases dualFixStep_status (st := st) (q := q) k c (f.some hw) with e | ⟨e, hd⟩
      · rw [e]; exact hs
      · rw [e]; exact hs.or (fair_unbounded (f.ray hd))
    exact ih o c1 h1 (f.trans (dualFixStep_fwd k c f.ef (f.some hw))) hs'

theorem simpleDualFix_F (hμ : μ.near = false) (s : St) : KeepsF μ Clean Clean s (simpleDualFix s) := by
  refine .run' (simpleDualFix_P hμ s) (fun o c e hi hw => ?_)
  unfold simpleDualFix at o ⊢
  simp only at o ⊢
  generalize hs1 : s.check (decide (s.emptyCols = [])) = s1 at o ⊢
  have g0 : KeepsF μ Clean (fun s => NoRows s ∧ ZeroCost [] s) s (s1, UNCHANGED) := by
    rw [← hs1]
    exact .check s _ (fun h => ⟨h.1, fun p hp => by cases hp⟩)
  generalize hr : (List.range s1.n).foldl dualFixStep (s1, [], UNCHANGED) = r at o ⊢
  have o1 := ((delBoth_good μ (fun _ => True) _) o).1
  have hn := fixInfFold_nil hμ r.2.1 r.1 o1
  rw [hn] at o o1 ⊢
  simp only [List.foldl_nil] at o o1 ⊢
  have o2 : Ok μ s1 := by
    rw [← hr] at o1
    exact ((dualFixFold_good μ _ _ _ _) o1).1
  obtain ⟨c1, h1⟩ := g0.pts.base fine_unchanged o2 c hi
  rw [← hr] at o1
  have f1 := (g0.run o2 c e hi hw).2 fine_unchanged
  obtain ⟨h2, f2⟩ := dualFixFold_fwd (List.range s1.n) o1 c1 h1 hw f1 (.inl fine_unchanged)
  obtain ⟨c2, -⟩ := dualFixFold_pt (List.range s1.n) o1 c1 h1
  rw [hr] at h2 f2 c2
  refine ⟨h2, fun f => ?_⟩
  exact f2.trans (((delBoth_F μ (fun _ => True) r.1 f).run o c2 f2.ef trivial (f2.some hw)).2 f)

theorem trivialHead_F (hμ : μ.near = false) (stgs : Settings) (s : St) :
    KeepsF μ Clean Clean s (trivialHead stgs s) := by
  unfold trivialHead
  simp only
  have g := closeBounds_F hμ s
  split
  · rename_i h
    refine .run' (.bad (by rw [h]; exact not_fine_infeasible) g.pts.good.1) (fun o c e hi hw => ?_)
    have := (g.run o c e hi hw).1
    rw [h] at this
    exact absurd this not_fair_infeasible
  · split
    · exact (g.trans (removeEmptyCols_F μ _)).trans (simpleDualFix_F hμ _)
    · exact g

end

end Verif
