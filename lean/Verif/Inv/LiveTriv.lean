import Verif.Inv.LiveOps
import Verif.Inv.FeasMain

/-!
# Live points and the simple explorers
-/

namespace Verif

section
variable {μ : Mode} {P : LP} {v : ℚ} {I J K : St → Prop} {s t a : St} {r : St × Status} {w : ℕ → ℚ} {i k : ℕ}
  {st : Status}

theorem KeepsPt.keep {F : St → Prop} (h : KeepsPt μ P v I J a r) (hF : Mono a r.1 → F a → F r.1) :
    KeepsPt μ P v (fun s => I s ∧ F s) (fun s => J s ∧ F s) a r := by
  refine ⟨⟨h.good.1, fun f => ?_⟩, fun o c hi => h.live o c hi.1⟩
  exact ((h.good.2 f).keep hF).weaken (fun _ x => ⟨⟨x.1.1, x.2⟩, x.1.2⟩) (fun _ x => ⟨⟨x.1.1, x.2⟩, x.1.2⟩)

/-! ### Close bounds -/

theorem closeBoundsLoop_keeps (hμ : μ.near = false) (P : LP) (v : ℚ) (L : List ℕ) (s : St) :
    KeepsPt μ P v NoRows NoRows s (closeBoundsLoop L s) := by
  induction L generalizing s with
  | nil => exact .refl μ P v _ s
  | cons k rest ih =>
    unfold closeBoundsLoop
    split
    · exact ih s
    · rename_i hb
      simp only [Bool.or_eq_true, not_or, Bool.not_eq_true] at hb
      simp only
      have g1 : KeepsPt μ P v NoRows NoRows s (s.check (!(s.ctag k).inactive), UNCHANGED) :=
        .check s _ (fun _ h => h)
      split
      · have g2 : KeepsPt μ P v NoRows NoRows (s.check (!(s.ctag k).inactive))
            ((s.check (!(s.ctag k).inactive)).fuzz (!D.eqb (s.lb k) (s.ub k)), UNCHANGED) :=
          .core (by constructor <;> rfl) ((Good.fuzz _ _ (fun h => h)).withF
            (fun _ _ _ _ h => h.core (by constructor <;> rfl) (fun _ => .refl _))) fine_unchanged
        refine ((g1.next g2).next (fixCol_keeps μ P v _ noRows_fixStable (fun _ h => h) _ k _
          (fun g h hc => h.lbFin g hc hb.1.2) ?_ fine_unchanged)).next (ih _)
        intro o c hc q hq w hw
        have hn := o.2.2 hμ
        have he : D.eqb (s.lb k) (s.ub k) = true := by
          have := (Bool.or_eq_false_iff.mp hn).2
          simpa using this
        have h1 := c.colIn hw.pt hc
        obtain ⟨u, hu⟩ := (c.colFin hc).2 hb.2
        have hu' : s.ub k = .fin u := hu
        have hq' : s.lb k = .fin q := hq
        rw [hq', hu'] at he
        have e := D.eqb_fin_iff.mp he
        rw [D.fin.injEq] at e
        have h2 : Lo (s.ctag k).lbInf (s.lb k) (w k) := h1.1
        have h3 : Hi (s.ctag k).ubInf (s.ub k) (w k) := h1.2
        rw [hb.1.2, hq', Lo_fin] at h2
        rw [hb.2, hu', Hi_fin] at h3
        exact ⟨w, hw, le_refl _, by linarith⟩
      · split
        · rename_i hx
          refine .infeasible (fun o => (Ok.check o).1) (fun o c _ w hw => ?_)
          have hc : (s.ctag k).inactive = false := by simpa using (Ok.check o).2
          obtain ⟨h1, h2⟩ := c.colIn hw.pt hc
          obtain ⟨l, hl⟩ := (c.colFin hc).1 hb.1.2
          obtain ⟨u, hu⟩ := (c.colFin hc).2 hb.2
          have hx' : D.lt (D.add (s.ub k) (.fin FEAS_TOL)) (s.lb k) = true := hx
          rw [hl, hu, D.add_fin, D.lt_fin, decide_eq_true_eq] at hx'
          rw [hb.1.2, hl, Lo_fin] at h1
          rw [hb.2, hu, Hi_fin] at h2
          have := FEAS_TOL_pos
          linarith
        · exact g1.next (ih _)

theorem closeBounds_keeps (hμ : μ.near = false) (P : LP) (v : ℚ) (s : St) :
    KeepsPt μ P v Clean Clean s (closeBounds s) := by
  unfold closeBounds
  simp only
  have g := (closeBoundsLoop_keeps hμ P v (List.range s.n) s).weaken (I' := Clean) (J' := NoRows) (fun _ h => h.1)
    (fun _ h => h)
  have f : ∀ (L : List ℕ) (s : St), (closeBoundsLoop L s).2 ≠ INFEASIBLE → (closeBoundsLoop L s).2 = UNCHANGED := by
    intro L
    induction L with
    | nil => intro _ _; rfl
    | cons k L ih =>
      intro s h
      unfold closeBoundsLoop at h ⊢
      simp only at h ⊢
      split
      · rename_i h1; rw [if_pos h1] at h; exact ih _ h
      · rename_i h1
        rw [if_neg h1] at h
        split
        · rename_i h2; rw [if_pos h2] at h; exact ih _ h
        · rename_i h2
          rw [if_neg h2] at h
          split
          · rename_i h3; rw [if_pos h3] at h; exact absurd rfl h
          · rename_i h3; rw [if_neg h3] at h; exact ih _ h
  split
  · rename_i h
    exact ⟨⟨g.good.1, fun f => absurd (h ▸ f) not_fine_infeasible⟩, g.live⟩
  · rename_i h
    exact KeepsPt.then g (by rw [f _ _ h]; exact fine_unchanged)
      (delCols_keeps μ P v NoRows Clean _ id (fun _ _ d => ⟨d.noRows, d.noFixed, d.noSub⟩) fine_unchanged)

/-! ### Empty rows -/

theorem rowOut_keeps (μ : Mode) (P : LP) (v : ℚ) (s : St) (row : ℕ) (rest : List ℕ)
    (hx : ¬ ((!(s.rtag row).lhsInf && D.le (.fin FEAS_TOL) (s.lhs row)) ||
       (!(s.rtag row).rhsInf && D.le (s.rhs row) (.fin (-FEAS_TOL)))) = true) :
    KeepsPt μ P v (RowsLeft (row :: rest)) (RowsLeft rest) s (rowOut s row, UNCHANGED) := by
  refine .stay (rowOut_goodF μ P s row rest hx) fine_unchanged (.one (r := .deletedRow row 0) rfl rfl rfl)
    (fun o c hi w hw => ⟨fun i hi ha => ?_, fun k hk hs hb => hw.pt.2 k hk hs hb⟩)
  have ha' : (upd s.rtag row { s.rtag row with inactive := true } i).inactive = false := ha
  have hne : i ≠ row := by
    rintro rfl; rw [upd_same] at ha'; cases ha'
  rw [upd_ne _ _ hne] at ha'
  have := hw.pt.1 i hi ha'
  unfold RowOK at *
  show Sides (upd s.rtag row _ i) (s.lhs i) (s.rhs i) (dot (s.A i) w)
  rw [upd_ne _ _ hne]; exact this

theorem Cur.finRow (c : Cur P v s) (ha : (s.rtag i).inactive = false) :
    FinIf (s.rtag i).lhsInf (s.lhs i) ∧ FinIf (s.rtag i).rhsInf (s.rhs i) := by
  have hr := c.feas.row i (c.feas.rrng i ha)
  constructor
  · intro h; obtain ⟨B, -, e⟩ := hr.lhs ha h; exact ⟨_, e⟩
  · intro h; obtain ⟨B, -, e⟩ := hr.rhs ha h; exact ⟨_, e⟩

theorem Cur.rowLt (c : Cur P v s) (ha : (s.rtag i).inactive = false) : i < s.m := by
  rw [c.feas.m]; exact c.feas.rrng i ha

theorem emptyRowLoop_keeps (μ : Mode) (P : LP) (v : ℚ) (L : List ℕ) (s : St) :
    KeepsPt μ P v (RowsLeft L) (fun t => Clean t ∧ ((emptyRowLoop L s).2 ≠ INFEASIBLE → RowsLeft [] t)) s
      (emptyRowLoop L s) := by
  induction L generalizing s with
  | nil => exact (KeepsPt.refl μ P v _ s).weaken (fun _ h => h) (fun _ h => ⟨h.1, fun _ => h⟩)
  | cons row rest ih =>
    unfold emptyRowLoop
    simp only
    split
    · rename_i hx
      refine .infeasible (fun o => (Ok.check o).1) (fun o c hi w hw => ?_)
      obtain ⟨hact, hA⟩ := rowOut_key c.inv hi (Ok.check o).2
      have hs := hw.pt.1 row (c.rowLt hact) hact
      obtain ⟨h1, h2⟩ := c.finRow hact
      unfold RowOK at hs
      rw [hA] at hs
      have hε := FEAS_TOL_pos
      have hx' : ((!(s.rtag row).lhsInf && D.le (.fin FEAS_TOL) (s.lhs row)) ||
        (!(s.rtag row).rhsInf && D.le (s.rhs row) (.fin (-FEAS_TOL)))) = true := hx
      simp only [Bool.or_eq_true, Bool.and_eq_true, Bool.not_eq_true'] at hx'
      have hd : dot [] w = 0 := rfl
      rw [hd] at hs
      rcases hx' with ⟨hf, hle⟩ | ⟨hf, hle⟩
      · obtain ⟨q, e⟩ := h1 hf
        have := hs.1
        rw [hf, e, Lo_fin] at this
        rw [e, D.le_fin, decide_eq_true_eq] at hle
        linarith
      · obtain ⟨q, e⟩ := h2 hf
        have := hs.2
        rw [hf, e, Hi_fin] at this
        rw [e, D.le_fin, decide_eq_true_eq] at hle
        linarith
    · rename_i hx
      exact (rowOut_keeps μ P v s row rest hx).next (ih _)

theorem emptyRowLoop_st (L : List ℕ) (s : St) :
    (emptyRowLoop L s).2 = UNCHANGED ∨ (emptyRowLoop L s).2 = INFEASIBLE := by
  induction L generalizing s with
  | nil => exact .inl rfl
  | cons k L ih =>
    unfold emptyRowLoop
    simp only
    split
    · exact .inr rfl
    · exact ih _

theorem removeEmptyRows_keeps (μ : Mode) (P : LP) (v : ℚ) (s : St) : KeepsPt μ P v Clean Clean s (removeEmptyRows s) := by
  have gg := removeEmptyRows_goodF μ P s
  have g := emptyRowLoop_keeps μ P v s.emptyRows s
  unfold removeEmptyRows at gg ⊢
  simp only at gg ⊢
  refine ⟨gg.toR, fun o c hi => ?_⟩
  have hi' : RowsLeft s.emptyRows s := ⟨hi, fun _ hr => .inl hr⟩
  split at o
  · rename_i h
    rw [if_pos h]
    exact g.live o c hi'
  · rename_i h
    rw [if_neg h]
    have h2 := g.live ⟨o.1, o.2⟩ c hi'
    have hf : fine (emptyRowLoop s.emptyRows s).2 := by
      exact fine_of_two (emptyRowLoop_st _ _) h
    obtain ⟨hp, w, hw, hv⟩ := h2.2 hf
    exact ⟨.inl fine_unchanged, fun _ => ⟨hp, w, ⟨hw.pt.core (by constructor <;> rfl), hw.old⟩, hv⟩⟩

/-! ### Empty columns -/

theorem Cur.notIn (c : Cur P v s) (hc : (s.ctag k).inactive = false) (hT : s.AT k = []) (ha : (s.rtag i).inactive = false)
    {p : Cell} (hp : p ∈ s.A i) : p.1 ≠ k := by
  rintro rfl
  have hr : s.rowSize i ≠ -1 := by
    intro e
    have := c.inv.gi.rowGone i e
    rw [this.1] at hp; cases hp
  have := (c.inv.gi.agree i p.1 p.2 hr (c.inv.gi.colActive hc)).mp hp
  rw [hT] at this; cases this

/-- The value of an empty column may be changed within its bounds. -/
theorem Cur.emptySet (c : Cur P v s) (hc : (s.ctag k).inactive = false) (hT : s.AT k = []) (hw : FeasPt s w) {q : ℚ}
    (h1 : Lo (s.ctag k).lbInf (s.lb k) q) (h2 : Hi (s.ctag k).ubInf (s.ub k) q) : FeasPt s (setAt w k q) := by
  refine feas_setAt hw (fun i hi ha => ?_) ?_
  · have := hw.1 i hi ha
    unfold RowOK at *
    unfold setAt
    rw [dot_update_notMem (fun p hp => c.notIn hc hT ha hp)]; exact this
  · unfold ColIn; rw [effTag_active hc]; exact ⟨h1, h2⟩

theorem colOut_keeps (μ : Mode) (P : LP) (v : ℚ) (s : St) (k : ℕ) (rest : List ℕ) (val : D)
    (hv : emptyColVal (s.c k) (s.lb k) (s.ub k) (s.ctag k) = some val) :
    KeepsPt μ P v (ColsLeft (k :: rest)) (ColsLeft rest) s (colOut s k val, UNCHANGED) := by
  refine .of (colOut_goodF μ P s k rest val hv) fine_unchanged (fun o c hi => ?_)
  obtain ⟨hc, hT⟩ := colOut_key c.inv (colOut_ok o).2
  have hlog : (colOut s k val).log = .fixedCol k val (s.c k) [] :: s.log := rfl
  have hcs : (colOut s k val).colSize = upd s.colSize k (-1) := rfl
  refine ⟨fun x hx => ?_, fun w hw _ => ?_⟩
  · rw [hlog] at hx
    rcases List.mem_cons.mp hx with rfl | hx
    · rfl
    · exact c.plain x hx
  · rcases emptyColVal_spec s k (c.colFin hc) with ⟨e, -⟩ | ⟨q, e, hb⟩
    · rw [e] at hv; cases hv
    · rw [e] at hv; cases hv
      obtain ⟨h1, h2⟩ := c.colIn hw.pt hc
      obtain ⟨h3, h4, h5⟩ := hb _ h1 h2
      have hf := c.emptySet hc hT hw.pt h3 h4
      refine ⟨setAt w k q, ⟨⟨fun i hi ha => hf.1 i hi ha, fun j hj hs hb => ?_⟩, fun j hj hs => ?_⟩, ?_⟩
      · rw [hcs] at hs
        have hne : j ≠ k := by rintro rfl; exact hs (upd_same _ _ _)
        rw [upd_ne _ _ hne] at hs
        have e1 : (colOut s k (.fin q)).ctag j = s.ctag j := upd_ne _ _ hne
        have e2 : (colOut s k (.fin q)).lb j = s.lb j := by
          show (if s.c k < 0 then upd s.lb k (s.ub k) else s.lb) j = _
          split
          · exact upd_ne _ _ hne
          · rfl
        have e3 : (colOut s k (.fin q)).ub j = s.ub j := by
          show (if 0 < s.c k then upd s.ub k (s.lb k) else s.ub) j = _
          split
          · exact upd_ne _ _ hne
          · rfl
        rw [e1] at hb
        have := hf.2 j hj hs hb
        unfold ColIn at *
        rw [e1, e2, e3]; exact this
      · by_cases hne : j = k
        · subst hne
          rw [hlog, setAt_same]
          show (logVal s.log j).or (if j = j then some (D.fin q) else none) = _
          rw [if_pos rfl, (c.feas.col j hj).new (CTag.inactive_false.mp hc).1, Option.none_or]
        · rw [hcs, upd_ne _ _ hne] at hs
          rw [hlog, setAt_ne _ _ hne]
          exact logVal_suffix (l' := [_]) (hw.old j hj hs)
      · rw [c.obj, c.obj, objective_setAt s w (c.colLt hc)]
        linarith

theorem emptyColLoop_keeps (μ : Mode) (P : LP) (v : ℚ) (L : List ℕ) (s : St) :
    KeepsPt μ P v (ColsLeft L) (fun t => Clean t ∧ ((emptyColLoop L s).2 ≠ UNBNDORINFEAS → ColsLeft [] t)) s
      (emptyColLoop L s) := by
  induction L generalizing s with
  | nil => exact (KeepsPt.refl μ P v _ s).weaken (fun _ h => h) (fun _ h => ⟨h.1, fun _ => h⟩)
  | cons k rest ih =>
    unfold emptyColLoop
    simp only
    split
    · rename_i hn
      refine .bad (by show ¬ fine UNBNDORINFEAS; decide) (fun o => (Ok.check o).1) (fun o c hi => ?_)
      obtain ⟨hc, hT⟩ := colOut_key c.inv (Ok.check o).2
      rcases emptyColVal_spec s k (c.colFin hc) with ⟨-, hu⟩ | ⟨q, e, -⟩
      · refine verdict_unbounded (c.unbounded hc (c.inv.gi.colActive hc) (fun x hx M => ?_))
        obtain ⟨h1, h2⟩ := c.colIn hx hc
        obtain ⟨q, h3, h4, h5⟩ := hu _ h1 h2 (M - objective s x + s.c k * x k)
        refine ⟨q, c.emptySet hc hT hx h3 h4, ?_⟩
        rw [objective_setAt s x (c.colLt hc)]
        linarith
      · have hn' : emptyColVal (s.c k) (s.lb k) (s.ub k) (s.ctag k) = none := hn
        rw [e] at hn'; cases hn'
    · rename_i val hv
      exact (colOut_keeps μ P v s k rest val hv).next (ih _)

theorem emptyColLoop_st (L : List ℕ) (s : St) :
    (emptyColLoop L s).2 = UNCHANGED ∨ (emptyColLoop L s).2 = UNBNDORINFEAS := by
  induction L generalizing s with
  | nil => exact .inl rfl
  | cons k L ih =>
    unfold emptyColLoop
    simp only
    split
    · exact .inr rfl
    · exact ih _

theorem removeEmptyCols_keeps (μ : Mode) (P : LP) (v : ℚ) (s : St) : KeepsPt μ P v Clean Clean s (removeEmptyCols s) := by
  have gg := removeEmptyCols_goodF μ P s
  have g := emptyColLoop_keeps μ P v s.emptyCols s
  unfold removeEmptyCols at gg ⊢
  simp only at gg ⊢
  refine ⟨gg.toR, fun o c hi => ?_⟩
  have hi' : ColsLeft s.emptyCols s := ⟨hi, fun _ hr => .inl hr⟩
  split at o
  · rename_i h
    rw [if_pos h]
    exact g.live o c hi'
  · rename_i h
    rw [if_neg h]
    have h2 := g.live ⟨o.1, o.2⟩ c hi'
    have hf : fine (emptyColLoop s.emptyCols s).2 := by
      rcases emptyColLoop_st s.emptyCols s with e | e
      · rw [e]; exact fine_unchanged
      · exact absurd e h
    obtain ⟨hp, w, hw, hv⟩ := h2.2 hf
    exact ⟨.inl fine_unchanged, fun _ => ⟨hp, w, ⟨hw.pt.core (by constructor <;> rfl), hw.old⟩, hv⟩⟩

/-! ### Dual fixing -/

theorem Counts.none {p : ℕ → Prop} (h : Counts 0 p) (i : ℕ) : ¬ p i := by
  obtain ⟨L, -, h1, h2⟩ := h
  intro hp
  have : L = [] := List.eq_nil_of_length_eq_zero (by omega)
  rw [← h1, this] at hp; cases hp

theorem Cur.locks (c : Cur P v s) (hc : (s.ctag k).inactive = false) : LocksMean s k := by
  obtain ⟨h1, h2⟩ := locks_count c.inv.gi hc
  refine ⟨fun e i _ _ a ha hs => ?_, fun e i _ _ a ha hs => ?_⟩
  · rw [e] at h2; exact h2.none i ⟨a, ha, hs⟩
  · rw [e] at h1; exact h1.none i ⟨a, ha, hs⟩

theorem dualFixStep_grow (s : St) (q : List (ℕ × Bool)) (st : Status) (k : ℕ) :
    Grow s (dualFixStep (s, q, st) k).1 := by
  unfold dualFixStep
  simp only
  split
  · exact .refl s
  · split
    · exact .refl s
    · exact .refl s
    · exact (Grow.same (s := s) (t := s.check (!D.isInf (s.lb k))) rfl rfl).trans (fixCol_grow _ _ _ _)
    · exact (Grow.same (s := s) (t := s.check (!D.isInf (s.ub k))) rfl rfl).trans (fixCol_grow _ _ _ _)
    · exact .refl s
    · exact .refl s

theorem dualFixStep_live {q : List (ℕ × Bool)} (k : ℕ) (o : Ok μ (dualFixStep (s, q, st) k).1) (c : Cur P v s)
    (hi : NoRows s ∧ ZeroCost q s) (hv : Verdict P st) :
    Verdict P (dualFixStep (s, q, st) k).2.2 ∧ Cur P v (dualFixStep (s, q, st) k).1 ∧
      NoRows (dualFixStep (s, q, st) k).1 ∧
      ZeroCost (dualFixStep (s, q, st) k).2.1 (dualFixStep (s, q, st) k).1 := by
  have key : Verdict P (dualFixStep (s, q, st) k).2.2 ∧ Live P v (dualFixStep (s, q, st) k).1 := by
    cases hc : (s.ctag k).inactive with
    | true =>
      have e : dualFixStep (s, q, st) k = (s, q, st) := by
        unfold dualFixStep
        simp [hc]
      rw [e]; exact ⟨hv, c.live⟩
    | false =>
      have hd := C28_dual_fix s k q st (c.colLt hc) (fun _ => c.inv.gi.colActive hc) c.rowsOK (c.locks hc) (c.colFin hc)
      have hg := dualFixStep_grow s q st k
      cases hd with
      | same h => rw [h]; exact ⟨hv, c.live⟩
      | fixed x h2 better sub =>
        refine ⟨by rw [h2]; exact hv, ?_⟩
        obtain ⟨w, hw, hwv⟩ := c.live
        obtain ⟨h3, h4⟩ := better w hw.pt
        have h5 := (sub _ ⟨w, hw.pt⟩ h3).1
        refine ⟨_, (hw.setAt (c.inv.gi.colActive hc) h5).grow hg h3, ?_⟩
        rw [c.obj]
        rw [c.obj] at hwv
        exact h4.trans hwv
      | unbounded h unb =>
        rw [h]
        exact ⟨hv.or (verdict_unbounded (c.unbounded hc (c.inv.gi.colActive hc) unb)), c.live⟩
      | negInf h _ _ => rw [h]; exact ⟨hv, c.live⟩
      | posInf h _ _ => rw [h]; exact ⟨hv, c.live⟩
  obtain ⟨c', j⟩ := c.next (dualFixStep_goodF μ P s q st k) o hi ((dualFixStep_grow s q st k).plain c.plain) key.2
  exact ⟨key.1, c', j⟩

theorem dualFixFold_live (L : List ℕ) {q : List (ℕ × Bool)} (o : Ok μ (L.foldl dualFixStep (s, q, st)).1)
    (c : Cur P v s) (hi : NoRows s ∧ ZeroCost q s) (hv : Verdict P st) :
    Verdict P (L.foldl dualFixStep (s, q, st)).2.2 ∧ Cur P v (L.foldl dualFixStep (s, q, st)).1 := by
  induction L generalizing s q st with
  | nil => exact ⟨hv, c⟩
  | cons k L ih =>
    rw [List.foldl_cons] at o ⊢
    have o1 := ((dualFixFold_goodF μ P L _ _ _) o).1
    obtain ⟨h1, h2, h3⟩ := dualFixStep_live k o1 c hi hv
    exact ih o h2 h3 h1

theorem fixColInfTail_near (s : St) (k : ℕ) (pos : Bool) (bound v : D) : (fixColInfTail s k pos bound v).near = true := by
  cases h : (fixColInfTail s k pos bound v).near with
  | true => rfl
  | false =>
    have h' : (deactivateRows (saveFixedColInf s k pos bound) ((saveFixedColInf s k pos bound).AT k)).near = false := h
    have h2 := (deactivateRows_le _ _).near h'
    unfold saveFixedColInf at h2
    have := (Bool.or_eq_false_iff.mp h2).2
    cases this

theorem fixColInf_near (s : St) (p : ℕ × Bool) : (if p.2 then fixColPosInf s p.1 else fixColNegInf s p.1).near = true := by
  split
  · exact fixColInfTail_near (((s.check (!(s.ctag p.1).inactive)).check (s.ctag p.1).ubInf).check (decide (s.up p.1 = 0)))
      p.1 true (s.lb p.1) .pinf
  · exact fixColInfTail_near (((s.check (!(s.ctag p.1).inactive)).check (s.ctag p.1).lbInf).check (decide (s.down p.1 = 0)))
      p.1 false (s.ub p.1) .ninf

theorem fixInfFold_nil (hμ : μ.near = false) (L : List (ℕ × Bool)) (s : St)
    (o : Ok μ (L.foldl (fun s p => if p.2 then fixColPosInf s p.1 else fixColNegInf s p.1) s)) : L = [] := by
  cases L with
  | nil => rfl
  | cons p L =>
    rw [List.foldl_cons] at o
    have o1 := ((fixInfFold_good μ L L (fun _ h => h) _) o).1
    have := o1.2.2 hμ
    rw [fixColInf_near] at this; cases this

theorem simpleDualFix_keeps (hμ : μ.near = false) (P : LP) (v : ℚ) (s : St) :
    KeepsPt μ P v Clean Clean s (simpleDualFix s) := by
  refine ⟨(simpleDualFix_goodF μ P s).toR, fun o c hi => ?_⟩
  unfold simpleDualFix at o ⊢
  simp only at o ⊢
  generalize hs1 : s.check (decide (s.emptyCols = [])) = s1 at o ⊢
  have g0 : KeepsPt μ P v Clean (fun s => NoRows s ∧ ZeroCost [] s) s (s1, UNCHANGED) := by
    rw [← hs1]
    exact .check s _ (fun _ h => ⟨h.1, fun p hp => by cases hp⟩)
  generalize hr : (List.range s1.n).foldl dualFixStep (s1, [], UNCHANGED) = r at o ⊢
  have o1 := ((delBoth_goodF μ P (fun _ => True) _) o).1
  have hn := fixInfFold_nil hμ r.2.1 r.1 o1
  rw [hn] at o o1 ⊢
  simp only [List.foldl_nil] at o o1 ⊢
  have o2 : Ok μ s1 := by
    rw [← hr] at o1
    exact ((dualFixFold_goodF μ P _ _ _ _) o1).1
  obtain ⟨c1, h1⟩ := (g0.cur o2 c hi).2 fine_unchanged
  rw [← hr] at o1
  obtain ⟨h2, c2⟩ := dualFixFold_live (List.range s1.n) o1 c1 h1 (Verdict.fine fine_unchanged)
  rw [hr] at h2 c2
  refine ⟨h2, fun f => ?_⟩
  exact ((delBoth_keeps μ P v (fun _ => True) r.1 f).live o c2 trivial).2 f

/-! ### The head -/

/-- Either nothing is reported or `UNBNDORINFEAS`. -/
def ZeroOrSix (st : Status) : Prop := st = UNCHANGED ∨ st = UNBNDORINFEAS

theorem ZeroOrSix.or {a b : Status} (h : ZeroOrSix a) (h' : ZeroOrSix b) : ZeroOrSix (a ||| b) := by
  rcases h with rfl | rfl <;> rcases h' with rfl | rfl
  · left; decide
  · right; decide
  · right; decide
  · right; decide

theorem dualFixFold_st (L : List ℕ) (s : St) (q : List (ℕ × Bool)) (h : ZeroOrSix st) :
    ZeroOrSix (L.foldl dualFixStep (s, q, st)).2.2 := by
  induction L generalizing s q st with
  | nil => exact h
  | cons k L ih =>
    rw [List.foldl_cons]
    have hs : ZeroOrSix (dualFixStep (s, q, st) k).2.2 := by
      unfold dualFixStep
      simp only
      split
      · exact h
      · split
        · exact h
        · exact h.or (.inr rfl)
        · exact h
        · exact h
        · exact h
        · exact h
    exact ih _ _ hs

theorem trivialHead_st (stgs : Settings) (s : St) (h : (trivialHead stgs s).2 ≠ INFEASIBLE)
    (h' : ¬ (stgs.dualFix = true ∧ (trivialHead stgs s).2 = UNBNDORINFEAS)) : fine (trivialHead stgs s).2 := by
  unfold trivialHead at h h' ⊢
  simp only at h h' ⊢
  split at h
  · rename_i hx; exact absurd hx h
  · rename_i hx
    rw [if_neg hx] at h' ⊢
    split at h
    · rename_i hd
      rw [if_pos hd] at h' ⊢
      have hz : ZeroOrSix ((closeBounds s).2 ||| (removeEmptyCols (closeBounds s).1).2 |||
          (simpleDualFix (removeEmptyCols (closeBounds s).1).1).2) := by
        refine ZeroOrSix.or (.or ?_ (removeEmptyCols_st _)) ?_
        · rcases closeBounds_st s with e | e
          · exact .inl e
          · exact absurd e hx
        · unfold simpleDualFix
          exact dualFixFold_st _ _ _ (.inl rfl)
      rcases hz with e | e
      · show fine (_ : Status)
        rw [e]; exact fine_unchanged
      · exact absurd ⟨hd, e⟩ h'
    · rename_i hd
      rw [if_neg hd]
      exact fine_of_two (closeBounds_st s) hx

theorem trivialHead_keeps (hμ : μ.near = false) (P : LP) (v : ℚ) (stgs : Settings) (s : St) :
    KeepsPt μ P v Clean Clean s (trivialHead stgs s) := by
  unfold trivialHead
  simp only
  have g := closeBounds_keeps hμ P v s
  split
  · rename_i h
    exact ⟨⟨g.good.1, fun f => absurd (h ▸ f) not_fine_infeasible⟩, fun o c hi => by
      have := g.live o c hi
      rw [h] at this
      exact (not_verdict_infeasible this.1).elim⟩
  · rename_i h
    split
    · exact (g.trans (removeEmptyCols_keeps μ P v _)).trans (simpleDualFix_keeps hμ P v _)
    · exact g

end

end Verif
