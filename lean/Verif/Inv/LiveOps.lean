import Verif.Inv.LiveDef

/-!
# Live points and the elementary operations
-/

namespace Verif

section
variable {μ : Mode} {P : LP} {v : ℚ} {I J K : St → Prop} {s t : St} {w : ℕ → ℚ} {i k : ℕ} {st : Status}

/-! ### Rows of the state and of the original problem -/

/-- The columns that are gone contribute what was moved into the sides. -/
theorem LiveAt.dot (hw : LiveAt P s w) (h : Feas P s) (ha : (s.rtag i).inactive = false) :
    dot (P.A i) w = dot (s.A i) w + gone P s i := by
  have hr := h.row i (h.rrng i ha)
  unfold Verif.dot
  rw [sum_filter_split _ (fun p => decide (s.colSize p.1 ≠ -1)), filter_neg_size, ← hr.cells ha]
  congr 1
  unfold gone
  congr 1
  refine List.map_congr_left (fun p hp => ?_)
  obtain ⟨hp, hs⟩ := List.mem_filter.mp hp
  have := hw.old p.1 (h.valid.range i p hp).2.1 (of_decide_eq_true hs)
  unfold curLb
  rw [this]; rfl

theorem rowOK_iff (h : Feas P s) (ha : (s.rtag i).inactive = false) {y : ℕ → ℚ} (hd : dot (P.A i) y = dot (s.A i) y + gone P s i) :
    RowOK s i y ↔ ((s.rtag i).lhsInf = false → ∀ B, P.lhs i = .fin B → B ≤ dot (P.A i) y) ∧
      ((s.rtag i).rhsInf = false → ∀ B, P.rhs i = .fin B → dot (P.A i) y ≤ B) := by
  have hr := h.row i (h.rrng i ha)
  unfold RowOK Sides
  rw [hd]
  refine and_congr ?_ ?_
  · cases hl : (s.rtag i).lhsInf with
    | true => simp
    | false =>
      obtain ⟨B, h1, h2⟩ := hr.lhs ha hl
      rw [h2, Lo_fin, h1]
      constructor
      · intro h _ B' e; rw [D.fin.injEq] at e; linarith
      · intro h; have := h rfl B rfl; linarith
  · cases hl : (s.rtag i).rhsInf with
    | true => simp
    | false =>
      obtain ⟨B, h1, h2⟩ := hr.rhs ha hl
      rw [h2, Hi_fin, h1]
      constructor
      · intro h _ B' e; rw [D.fin.injEq] at e; linarith
      · intro h; have := h rfl B rfl; linarith

theorem LiveAt.near (hw : LiveAt P s w) (h : Feas P s) (hR : P.Regular) : P.NearFeasible w := by
  have hrow : ∀ i < P.m, (s.rtag i).inactive = false → _ := fun i hi ha =>
    (rowOK_iff h ha (hw.dot h ha)).mp (hw.pt.1 i (by rw [h.m]; exact hi) ha)
  refine h.near_of hR (fun k hk => ?_) (fun i hi ha => (hrow i hi ha).1) (fun i hi ha => (hrow i hi ha).2)
  by_cases hs : s.colSize k = -1
  · have := hw.old k hk hs
    constructor
    · intro l hl; unfold curLb at hl; rw [this] at hl
      simp only [Option.getD_some, D.fin.injEq] at hl; exact hl.ge
    · intro l hl; unfold curUb at hl; rw [this] at hl
      simp only [Option.getD_some, D.fin.injEq] at hl; exact hl.le
  · have hC := h.col k hk
    obtain ⟨e1, e2⟩ := h.cur hk hs
    obtain ⟨h1, h2⟩ := hw.pt.2 k (by rw [h.n]; exact hk) hs hC.sub
    constructor
    · intro l hl
      rw [e1] at hl
      rcases h1 with h1 | ⟨a, h3, h4⟩
      · exfalso
        unfold effTag at h1
        cases hf : (s.ctag k).fixed with
        | false => rw [hf] at h1; rw [hC.lbT hf h1] at hl; cases hl
        | true => rw [hf] at h1; cases h1
      · rw [hl, D.fin.injEq] at h3; rw [h3]; exact h4
    · intro l hl
      rw [e2] at hl
      rcases h2 with h1 | ⟨a, h3, h4⟩
      · exfalso
        unfold effTag at h1
        cases hf : (s.ctag k).fixed with
        | false => rw [hf] at h1; rw [hC.ubT hf h1] at hl; cases hl
        | true => rw [hf] at h1; cases h1
      · rw [hl, D.fin.injEq] at h3; rw [h3]; exact h4

theorem Cur.obj (c : Cur P v s) (y : ℕ → ℚ) : P.obj y = objective s y := by
  rw [LP.obj_eq]; unfold objective; rw [c.feas.n, c.cost]

theorem LiveAt.setAt (hw : LiveAt P s w) {q : ℚ} (hs : s.colSize k ≠ -1) (h : FeasPt s (setAt w k q)) :
    LiveAt P s (setAt w k q) := by
  refine ⟨h, fun j hj hg => ?_⟩
  have : j ≠ k := fun e => hs (e ▸ hg)
  rw [setAt_ne _ _ this]; exact hw.old j hj hg

/-- A linear function that is bounded on points arbitrarily far down `c` does not grow there. -/
theorem far_sign {c a b d : ℚ} (hc : c ≠ 0) {Q : ℚ → Prop} (far : ∀ T, ∃ q, Q q ∧ c * q < T)
    (h : ∀ q, Q q → a * q + d ≤ b) : 0 ≤ a * c := by
  by_contra hn
  have hn := not_le.mp hn
  have hcc : 0 < c * c := mul_self_pos.mpr hc
  obtain ⟨q, h1, h2⟩ := far ((b - d) * (c * c) / (a * c))
  have h3 := h q h1
  rw [lt_div_iff_of_neg hn] at h2
  have : (c * q) * (a * c) = (a * q) * (c * c) := by ring
  rw [this] at h2
  nlinarith

/-- A column along which the objective has no lower bound: the same column shows that the original problem
is unbounded if it is feasible. -/
theorem Cur.unbounded (c : Cur P v s) (hk : (s.ctag k).inactive = false) (hs : s.colSize k ≠ -1)
    (h : ∀ x, FeasPt s x → ∀ M : ℚ, ∃ q, FeasPt s (Verif.setAt x k q) ∧ objective s (Verif.setAt x k q) < M) :
    (∃ w, P.Feasible w) → P.Unbounded := by
  rintro ⟨w0, hw0⟩
  obtain ⟨w, hw, -⟩ := c.live
  have F := c.feas
  have g := c.inv.gi
  have hkP : k < P.n := F.crng k hs
  have hkn : k < s.n := by rw [F.n]; exact hkP
  obtain ⟨hf, hsb⟩ := CTag.inactive_false.mp hk
  have hC := F.col k hkP
  obtain ⟨el, eu⟩ := F.cur hkP hs
  have hc0 : P.c k ≠ 0 := by
    intro e
    obtain ⟨q, -, h2⟩ := h w hw.pt (objective s w)
    rw [objective_setAt s w hkn, c.cost, e] at h2
    simp at h2
  have far : ∀ T, ∃ q, FeasPt s (Verif.setAt w k q) ∧ P.c k * q < T := by
    intro T
    obtain ⟨q, h1, h2⟩ := h w hw.pt (objective s w - P.c k * w k + T)
    rw [objective_setAt s w hkn, c.cost] at h2
    exact ⟨q, h1, by linarith⟩
  -- bounds
  have hub : P.c k < 0 → s.ub k = .pinf := by
    intro hneg
    refine hC.ubT hf ?_
    by_contra hn
    have hn : (s.ctag k).ubInf = false := by simpa using hn
    obtain ⟨u, hu⟩ := hC.ubF hf hn
    have := far_sign (a := 1) (b := u) (d := 0) hc0 far (fun q hq => by
      have h2 := (hq.2 k hkn hs hsb).2
      rw [effTag_active hk, hn, hu, Hi_fin, setAt_same] at h2
      linarith)
    linarith
  have hlb : 0 < P.c k → s.lb k = .ninf := by
    intro hpos
    refine hC.lbT hf ?_
    by_contra hn
    have hn : (s.ctag k).lbInf = false := by simpa using hn
    obtain ⟨u, hu⟩ := hC.lbF hf hn
    have := far_sign (a := -1) (b := -u) (d := 0) hc0 far (fun q hq => by
      have h2 := (hq.2 k hkn hs hsb).1
      rw [effTag_active hk, hn, hu, Lo_fin, setAt_same] at h2
      linarith)
    linarith
  have nub : P.c k < 0 → ∀ u, curUb s k ≠ .fin u := by
    intro hneg u e; rw [eu, hub hneg] at e; cases e
  have nlb : 0 < P.c k → ∀ u, curLb s k ≠ .fin u := by
    intro hneg u e; rw [el, hlb hneg] at e; cases e
  -- rows
  have nd : ∀ i, ((P.A i).map Prod.fst).Nodup := fun i => (F.valid.sorted i).nodup
  have incell : ∀ i, (s.rtag i).inactive = false → ∀ a, (k, a) ∈ P.A i → (k, a) ∈ s.A i := by
    intro i ha a hm
    rw [(F.row i (F.rrng i ha)).cells ha]
    exact List.mem_filter.mpr ⟨hm, by simpa using hs⟩
  have hrow : ∀ i < P.m, ∀ a, (k, a) ∈ P.A i → (∀ B, P.rhs i = .fin B → 0 ≤ a * P.c k) ∧
      (∀ B, P.lhs i = .fin B → a * P.c k ≤ 0) := by
    intro i hi a hm
    have ha0 := (F.valid.range i _ hm).2.2
    have hR := F.row i hi
    refine ⟨fun B hB => ?_, fun B hB => ?_⟩
    · by_cases hd : (s.rtag i).inactive = true ∨ (s.rtag i).rhsInf = true
      · have D := hR.rhsD hd B hB
        by_contra hn
        have hn := not_le.mp hn
        rcases lt_or_gt_of_ne hc0 with hcn | hcp
        · obtain ⟨u, hu⟩ := D.ub _ hm (show 0 < a by nlinarith)
          exact nub hcn u hu
        · obtain ⟨u, hu⟩ := D.lb _ hm (show ¬ 0 < a by intro h0; nlinarith)
          exact nlb hcp u hu
      · push Not at hd
        have h1 : (s.rtag i).inactive = false := by simpa using hd.1
        have h2 : (s.rtag i).rhsInf = false := by simpa using hd.2
        obtain ⟨B', -, hB'⟩ := hR.rhs h1 h2
        refine far_sign (b := B' - gone P s i) (d := Verif.dot (s.A i) w - a * w k) hc0 far (fun q hq => ?_)
        have h3 := (hq.1 i (by rw [F.m]; exact hi) h1).2
        rw [h2, hB', Hi_fin, dot_setAt_mem (g.rowSorted i).nodup (incell i h1 a hm)] at h3
        linarith
    · by_cases hd : (s.rtag i).inactive = true ∨ (s.rtag i).lhsInf = true
      · have D := hR.lhsD hd B hB
        by_contra hn
        have hn := not_le.mp hn
        rcases lt_or_gt_of_ne hc0 with hcn | hcp
        · obtain ⟨u, hu⟩ := D.ub _ hm (show ¬ 0 < a by intro h0; nlinarith)
          exact nub hcn u hu
        · obtain ⟨u, hu⟩ := D.lb _ hm (show 0 < a by nlinarith)
          exact nlb hcp u hu
      · push Not at hd
        have h1 : (s.rtag i).inactive = false := by simpa using hd.1
        have h2 : (s.rtag i).lhsInf = false := by simpa using hd.2
        obtain ⟨B', -, hB'⟩ := hR.lhs h1 h2
        have := far_sign (a := -a) (b := -(B' - gone P s i)) (d := -(Verif.dot (s.A i) w - a * w k)) hc0 far (fun q hq => by
          have h3 := (hq.1 i (by rw [F.m]; exact hi) h1).1
          rw [h2, hB', Lo_fin, dot_setAt_mem (g.rowSorted i).nodup (incell i h1 a hm)] at h3
          linarith)
        linarith
  -- the ray
  have ray : ∀ τ : ℚ, 0 ≤ τ → P.Feasible (Verif.setAt w0 k (w0 k - τ * P.c k)) := by
    intro τ hτ
    refine ⟨fun i hi => ?_, fun j hj => ?_⟩
    · by_cases hm : ∃ a, (k, a) ∈ P.A i
      · obtain ⟨a, hm⟩ := hm
        rw [dot_setAt_mem (nd i) hm]
        obtain ⟨h1, h2⟩ := hw0.row i hi
        obtain ⟨h3, h4⟩ := hrow i hi a hm
        refine ⟨?_, ?_⟩
        · rcases h1 with h1 | ⟨B, h1, h5⟩
          · exact .inl h1
          · refine .inr ⟨B, h1, ?_⟩
            have := h4 B h1
            nlinarith
        · rcases h2 with h1 | ⟨B, h1, h5⟩
          · exact .inl h1
          · refine .inr ⟨B, h1, ?_⟩
            have := h3 B h1
            nlinarith
      · have e : Verif.dot (P.A i) (Verif.setAt w0 k (w0 k - τ * P.c k)) = Verif.dot (P.A i) w0 := by
          unfold Verif.dot
          congr 1
          refine List.map_congr_left (fun p hp => ?_)
          rw [setAt_ne]
          intro e
          exact hm ⟨p.2, by rw [← e]; exact hp⟩
        rw [e]; exact hw0.row i hi
    · by_cases hj' : j = k
      · subst hj'
        rw [setAt_same]
        obtain ⟨h1, h2⟩ := hw0.col j hj
        refine ⟨?_, ?_⟩
        · rcases h1 with h1 | ⟨B, h1, h5⟩
          · exact .inl h1
          · refine .inr ⟨B, h1, ?_⟩
            obtain ⟨l, h6, -⟩ := hC.lo B h1
            have : ¬ 0 < P.c j := fun hp => nlb hp l h6
            nlinarith
        · rcases h2 with h1 | ⟨B, h1, h5⟩
          · exact .inl h1
          · refine .inr ⟨B, h1, ?_⟩
            obtain ⟨l, h6, -⟩ := hC.hi B h1
            have : ¬ P.c j < 0 := fun hp => nub hp l h6
            nlinarith
      · rw [setAt_ne _ _ hj']; exact hw0.col j hj
  intro M
  have hcc : 0 < P.c k * P.c k := mul_self_pos.mpr hc0
  refine ⟨_, ray ((|P.obj w0 - M| + 1) / (P.c k * P.c k)) (by positivity), ?_⟩
  rw [c.obj, objective_setAt s w0 hkn, c.cost, ← c.obj]
  have e : P.c k * (w0 k - (|P.obj w0 - M| + 1) / (P.c k * P.c k) * P.c k - w0 k) = -(|P.obj w0 - M| + 1) := by
    field_simp
    ring
  rw [e]
  have := le_abs_self (P.obj w0 - M)
  linarith

theorem verdict_unbounded (h : (∃ w, P.Feasible w) → P.Unbounded) : Verdict P UNBNDORINFEAS := .inr ⟨by decide, h⟩

/-! ### Columns -/

theorem Cur.colFin (c : Cur P v s) (hc : (s.ctag k).inactive = false) : ColFin s k := by
  have hC := c.feas.col k (c.feas.rng c.inv.gi hc)
  have hf := (CTag.inactive_false.mp hc).1
  exact ⟨hC.lbF hf, hC.ubF hf⟩

theorem Cur.colLt (c : Cur P v s) (hc : (s.ctag k).inactive = false) : k < s.n := by
  rw [c.feas.n]; exact c.feas.rng c.inv.gi hc

theorem Cur.colIn (c : Cur P v s) (hw : FeasPt s w) (hc : (s.ctag k).inactive = false) :
    Lo (s.ctag k).lbInf (s.lb k) (w k) ∧ Hi (s.ctag k).ubInf (s.ub k) (w k) := by
  have := hw.2 k (c.colLt hc) (c.inv.gi.colActive hc) (CTag.inactive_false.mp hc).2
  unfold ColIn at this
  rwa [effTag_active hc] at this

theorem Cur.rowsOK (c : Cur P v s) : RowsOK s :=
  fun i => ⟨(c.inv.gi.rowSorted i).nodup, fun p hp => (c.inv.gi.rowRange i p hp).2.2⟩

/-! ### Deletion -/

theorem delRows_keeps (μ : Mode) (P : LP) (v : ℚ) (I J : St → Prop) (s : St)
    (hJ : Inv s → I s → RowsDeleted s (deleteInactiveRows s) → J (deleteInactiveRows s)) (f : fine st) :
    KeepsPt μ P v I J s (deleteInactiveRows s, st) := by
  refine .of (delRows_goodF μ P I J s hJ) f (fun o c hi => ?_)
  have d := deleteInactiveRows_deleted c.inv.gi
  generalize deleteInactiveRows s = t at *
  have tlg : t.log = s.log := by rw [d.eq]
  have trt : t.rtag = s.rtag := by rw [d.eq]
  have tct : t.ctag = s.ctag := by rw [d.eq]
  have tm : t.m = s.m := by rw [d.eq]
  have tn : t.n = s.n := by rw [d.eq]
  have tl : t.lhs = s.lhs := by rw [d.eq]
  have tr : t.rhs = s.rhs := by rw [d.eq]
  have tlb : t.lb = s.lb := by rw [d.eq]
  have tub : t.ub = s.ub := by rw [d.eq]
  refine ⟨by unfold PlainLog; rw [tlg]; exact c.plain, fun w hw _ => ⟨w, ?_, le_refl _⟩⟩
  refine hw.to (l := []) ⟨fun i hi ha => ?_, fun k hk hs hb => ?_⟩ tlg (fun k _ hs => .inl ((d.colGone k).mpr hs))
  · rw [trt] at ha
    have hA : t.A i = s.A i := by
      rw [d.A, if_neg]
      intro hx
      have := (c.inv.gi.rowsDel i hx).1
      rw [ha] at this; cases this
    have := hw.pt.1 i (tm ▸ hi) ha
    unfold RowOK at *
    rw [trt, tl, tr, hA]; exact this
  · rw [tct] at hb
    have := hw.pt.2 k (tn ▸ hk) (fun e => hs ((d.colGone k).mp e)) hb
    unfold ColIn at *
    rw [tct, tlb, tub]; exact this

theorem delCols_keeps (μ : Mode) (P : LP) (v : ℚ) (I J : St → Prop) (s : St) (hN : I s → NoRows s)
    (hJ : Inv s → I s → ColsDel s (deleteInactiveCols (deleteFixedCols s)) →
      J (deleteInactiveCols (deleteFixedCols s))) (f : fine st) :
    KeepsPt μ P v I J s (deleteInactiveCols (deleteFixedCols s), st) := by
  refine .of (delCols_goodF μ P I J s hN hJ) f (fun o c hi => ?_)
  have hF := c.feas.delCols c.inv.gi (hN hi)
  have h := c.feas
  have g := c.inv.gi
  have hn : ∀ k ∈ s.fixedCols, k < P.n :=
    fun k hk => h.crng k (g.colsDel k (List.mem_append_left _ hk)).2
  obtain ⟨l, r, a, of, b, e⟩ := deleteFixedCols_eq s
  have g1 : GI (deleteFixedCols s) := by
    rw [e]
    exact g.of_eq rfl rfl rfl rfl rfl (fun _ => rfl) rfl rfl rfl rfl rfl rfl rfl rfl
  have d := deleteInactiveCols_deleted g1 (by rw [e]; exact hN hi)
  generalize deleteFixedCols s = u at *
  generalize deleteInactiveCols u = t at *
  have eF : u.fixedCols ++ u.subCols = s.fixedCols := by rw [e]; simp [h.subs]
  have tcs : ∀ k, t.colSize k = if k ∈ s.fixedCols then -1 else s.colSize k := fun k => by
    rw [d.colSize, eF]; rw [e]
  have tlb : t.lb = s.lb := by rw [d.eq, e]
  have tub : t.ub = s.ub := by rw [d.eq, e]
  have tct : t.ctag = s.ctag := by rw [d.eq, e]
  have trt : t.rtag = s.rtag := by rw [d.eq, e]
  have tlg : t.log = s.log := by rw [d.eq, e]
  have tm : t.m = s.m := by rw [d.eq, e]
  have tn : t.n = s.n := by rw [d.eq, e]
  refine ⟨by unfold PlainLog; rw [tlg]; exact c.plain, fun w hw _ => ⟨w, ?_, le_refl _⟩⟩
  have old : ∀ k < P.n, t.colSize k = -1 → logVal t.log k = some (.fin (w k)) := by
    intro k hk hs
    rw [tlg]
    by_cases hg : s.colSize k = -1
    · exact hw.old k hk hg
    · rw [tcs] at hs
      split at hs
      · rename_i hx
        have h1 := (g.colsDel k (List.mem_append_left _ hx)).1
        have hC := h.col k hk
        unfold CTag.inactive at h1
        rw [hC.sub, Bool.or_false] at h1
        obtain ⟨q, h2, h3⟩ := hC.old h1
        obtain ⟨h4, h5⟩ := h3 hg
        obtain ⟨h6, h7⟩ := hw.pt.2 k (by rw [h.n]; exact hk) hg hC.sub
        unfold effTag at h6 h7
        rw [h1, h4] at h6
        rw [h1, h5] at h7
        simp only [if_true, Lo_fin, Hi_fin] at h6 h7
        rw [h2, le_antisymm h6 h7]
      · exact absurd hs hg
  have hwt : LiveAt P s w := hw
  refine ⟨⟨fun i hi ha => ?_, fun k hk hs hb => ?_⟩, old⟩
  · have ha' := ha
    rw [trt] at ha
    have h1 := (rowOK_iff h ha (hw.dot h ha)).mp (hw.pt.1 i (tm ▸ hi) ha)
    have hdot : dot (P.A i) w = dot (t.A i) w + gone P t i := by
      have hr := hF.row i (hF.rrng i ha')
      unfold Verif.dot
      rw [sum_filter_split _ (fun p => decide (t.colSize p.1 ≠ -1)), filter_neg_size, ← hr.cells ha']
      congr 1
      unfold gone
      congr 1
      refine List.map_congr_left (fun p hp => ?_)
      obtain ⟨hp, hs⟩ := List.mem_filter.mp hp
      have := old p.1 (h.valid.range i p hp).2.1 (of_decide_eq_true hs)
      unfold curLb
      rw [this]; rfl
    refine (rowOK_iff hF ha' hdot).mpr ?_
    rw [trt]; exact h1
  · rw [tct] at hb
    have hs' : s.colSize k ≠ -1 := by
      intro he; apply hs; rw [tcs]; split
      · rfl
      · exact he
    have := hw.pt.2 k (tn ▸ hk) hs' hb
    unfold ColIn at *
    rw [tct, tlb, tub]; exact this

theorem delBoth_keeps (μ : Mode) (P : LP) (v : ℚ) (I : St → Prop) (s : St) (f : fine st) :
    KeepsPt μ P v I Clean s (deleteInactiveCols (deleteFixedCols (deleteInactiveRows s)), st) :=
  (delRows_keeps μ P v I NoRows s (fun _ _ d => d.noRows) fine_unchanged).next
    (delCols_keeps μ P v NoRows Clean _ id (fun _ _ d => ⟨d.noRows, d.noFixed, d.noSub⟩) f)

/-! ### Fixing a column -/

theorem fixCol_grow (s : St) (k : ℕ) (val : D) (ck : ℚ) : Grow s (fixCol s k val ck).1 := by
  rcases fixCol_eq s k val ck with ⟨b, e, -⟩ | ⟨b, a, u, e, -⟩
  · rw [e]; exact .same rfl rfl
  · rw [e]; exact .one (r := .fixedCol k val ck (s.AT k)) rfl rfl rfl

theorem fixCol_keeps (μ : Mode) (P : LP) (v : ℚ) (I : St → Prop) (hI : FixStable I) (hN : ∀ s, I s → NoRows s) (s : St)
    (k : ℕ) (val : D) (hv : GI s → Feas P s → (s.ctag k).inactive = false → ∃ q, val = .fin q)
    (h : Ok μ s → Cur P v s → (s.ctag k).inactive = false → ∀ q, val = .fin q → ∀ w, LiveAt P s w →
      ∃ w', LiveAt P s w' ∧ P.obj w' ≤ P.obj w ∧ w' k = q) (f : fine st) :
    KeepsPt μ P v I I s ((fixCol s k val (s.c k)).1, st) := by
  refine .of (fixCol_goodF μ P I hI hN s k val hv) f (fun o c hi => ?_)
  obtain ⟨os, hc, -⟩ := fixCol_le μ s k val _ o
  obtain ⟨q, rfl⟩ := hv c.inv.gi c.feas hc
  refine ⟨(fixCol_grow s k _ _).plain c.plain, fun w hw _ => ?_⟩
  obtain ⟨w', h1, h2, h3⟩ := h os c hc q rfl w hw
  have hf := fixCol_feas (ck := s.c k) (c.colLt hc) (c.inv.gi.colActive hc) hc h1.pt (c.colFin hc) h3
  exact ⟨w', h1.grow (fixCol_grow s k _ _) ((hf.2 w').mpr ⟨h1.pt, h3⟩), h2⟩

end

end Verif
