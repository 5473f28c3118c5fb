import Verif.Inv.CompOps

/-!
# Complementarity and singleton rows
-/

namespace Verif

/-- The dual that `retrieve_added_rows` computes. -/
theorem foldl_added_val (y : ℕ → D) (i : ℕ) (a : ℚ) (l : List Cell) (h : ∀ p ∈ l, p.1 ≠ i → ∃ q, y p.1 = .fin q) (b : ℚ) :
    l.foldl (fun b p => if p.1 = i then b else D.sub b (D.smul (p.2 / a) (y p.1))) (.fin b) =
      .fin (b - dot l (fun j => if j = i then 0 else (y j).toQ) / a) := by
  induction l generalizing b with
  | nil => simp
  | cons p l ih =>
    have ih := ih (fun p hp => h p (List.mem_cons_of_mem _ hp))
    rw [List.foldl_cons, dot_cons]
    by_cases e : p.1 = i
    · rw [if_pos e, ih, if_pos e, mul_zero, zero_add]
    · obtain ⟨q, hq⟩ := h p List.mem_cons_self e
      rw [if_neg e, hq, D.smul_fin, D.sub_fin, ih, if_neg e, D.toQ_fin]
      congr 1
      rw [add_div]; ring

section
variable {μ : Mode} {P : LP} {β : Bool} {X : ℕ → D} {s t : St} {σ : Sol} {k row : ℕ} {a : ℚ}

/-- The columns that are gone contribute what was moved into the sides. -/
theorem Feas.dotX (F : Feas P s) (g : GI s) (hX : ∀ k v, logVal s.log k = some v → X k = v) {i : ℕ}
    (ha : (s.rtag i).inactive = false) :
    dot (P.A i) (fun k => (X k).toQ) = dot (s.A i) (fun k => (X k).toQ) + gone P s i := by
  have hr := F.row i (F.rrng i ha)
  unfold Verif.dot
  rw [sum_filter_split _ (fun p => decide (s.colSize p.1 ≠ -1)), filter_neg_size, ← hr.cells ha]
  congr 1
  unfold gone
  congr 1
  refine List.map_congr_left (fun p hp => ?_)
  obtain ⟨hp, hs⟩ := List.mem_filter.mp hp
  have hk := (F.valid.range i p hp).2.1
  have hC := F.col p.1 hk
  have hf : (s.ctag p.1).fixed = true := by
    cases hx : (s.ctag p.1).fixed with
    | true => rfl
    | false => exact absurd (of_decide_eq_true hs) (g.colActive (CTag.inactive_false.mpr ⟨hx, hC.sub⟩))
  obtain ⟨v, hv, -⟩ := hC.old hf
  unfold curLb
  show p.2 * (X p.1).toQ = _
  rw [hv, hX _ _ hv]; rfl

/-- A singleton row is tight when its variable takes the value that a side implies. -/
theorem Feas.tightRhs (F : Feas P s) (g : GI s) (hX : ∀ k v, logVal s.log k = some v → X k = v)
    (ha : (s.rtag row).inactive = false) (hA : s.A row = [(k, a)]) (hq : a ≠ 0) (hi : (s.rtag row).rhsInf = false)
    (hv : X k = D.divq (s.rhs row) a) : P.rhs row = .fin (dot (P.A row) (fun k => (X k).toQ)) := by
  obtain ⟨B, e1, e2⟩ := (F.row row (F.rrng row ha)).rhs ha hi
  rw [F.dotX g hX ha, hA, dot_cons, dot_nil, hv, e2, D.divq_fin hq, e1]
  show D.fin B = D.fin (a * ((B - gone P s row) / a) + 0 + _)
  congr 1
  field_simp; ring

theorem Feas.tightLhs (F : Feas P s) (g : GI s) (hX : ∀ k v, logVal s.log k = some v → X k = v)
    (ha : (s.rtag row).inactive = false) (hA : s.A row = [(k, a)]) (hq : a ≠ 0) (hi : (s.rtag row).lhsInf = false)
    (hv : X k = D.divq (s.lhs row) a) : P.lhs row = .fin (dot (P.A row) (fun k => (X k).toQ)) := by
  obtain ⟨B, e1, e2⟩ := (F.row row (F.rrng row ha)).lhs ha hi
  rw [F.dotX g hX ha, hA, dot_cons, dot_nil, hv, e2, D.divq_fin hq, e1]
  show D.fin B = D.fin (a * ((B - gone P s row) / a) + 0 + _)
  congr 1
  field_simp; ring

/-! ### Equality rows -/

theorem Back.stonEq (c : Base P s) (hN : NoRows s) (hi : (s.rtag row).inactive = false)
    (hk : (s.ctag k).inactive = false) (hA : s.A row = [(k, a)]) (hl : (s.rtag row).lhsInf = false)
    (hr : (s.rtag row).rhsInf = false) (he : s.lhs row = s.rhs row) :
    Back P β s (stonEqStep s row k a (D.divq (s.rhs row) a)) := by
  have g := c.inv.gi
  have hrows : ∀ p ∈ s.AT k, (s.rtag p.1).inactive = false := fun p hp => g.rowsActive hN hk p hp
  have hcell : (k, a) ∈ s.A row := by rw [hA]; exact List.mem_cons_self
  have hq : a ≠ 0 := (g.rowRange row _ hcell).2.2
  have hT : (row, a) ∈ s.AT k := (g.agree row k a (g.rowActive hi) (g.colActive hk)).mp hcell
  generalize hval : D.divq (s.rhs row) a = val
  refine .log (new := [.deletedRow row (s.c k / a), .addedRows row (s.AT k) a, .fixedCol k val (s.c k) (s.AT k)]) rfl
    (by simp [Rec.isHead]) (.off (k := k) (by show (upd s.ctag k _ k).inactive = true; rw [upd_same]; rfl)
      (fun j hj => upd_ne _ _ hj) (fun j hj => upd_ne _ _ hj) (fun j hj => upd_ne _ _ hj)) (fun X σ h => ?_)
  have hst := h.stat.stonEq g hi hk hA hrows
  have tr : ∀ r, r ≠ row → (stonEqStep s row k a val).rtag r = s.rtag r := fun r hr => upd_ne _ _ hr
  have hfin : ∀ p ∈ s.AT k, p.1 ≠ row → ∃ q, σ.y p.1 = .fin q := fun p hp hne =>
    h.stat.y p.1 (by rw [tr _ hne]; exact hrows p hp)
  -- the dual of the row
  have hy : ∀ r, (([Rec.deletedRow row (s.c k / a), .addedRows row (s.AT k) a, .fixedCol k val (s.c k) (s.AT k)].foldl
      retRec σ).y r).toQ = if r = row then
        s.c k / a - dot (s.AT k) (fun j => if j = row then 0 else (σ.y j).toQ) / a else (σ.y r).toQ := by
    intro r
    show (upd (upd σ.y row (.fin (s.c k / a))) row ((s.AT k).foldl (fun b p => if p.1 = row then b else
      D.sub b (D.smul (p.2 / a) (upd σ.y row (.fin (s.c k / a)) p.1))) (upd σ.y row (.fin (s.c k / a)) row)) r).toQ = _
    by_cases e : r = row
    · subst e
      rw [upd_same, upd_same, foldl_added_val, if_pos rfl, D.toQ_fin]
      · congr 2
        refine congrArg (dot (s.AT k)) (funext fun j => ?_)
        by_cases e : j = r
        · rw [if_pos e, if_pos e]
        · rw [if_neg e, if_neg e, upd_ne _ _ e]
      · intro p hp hne
        rw [upd_ne _ _ hne]; exact hfin p hp hne
    · rw [upd_ne _ _ e, upd_ne _ _ e, if_neg e]
  have hz0 : (([Rec.deletedRow row (s.c k / a), .addedRows row (s.AT k) a, .fixedCol k val (s.c k) (s.AT k)].foldl
      retRec σ).z k).toQ = 0 := by
    rw [hst.z k hk, colSum_col g hk hrows, D.toQ_fin]
    simp only [hy]
    have := dot_update_mem (g.colSorted k).nodup hT (fun j => if j = row then 0 else (σ.y j).toQ)
      (s.c k / a - dot (s.AT k) (fun j => if j = row then 0 else (σ.y j).toQ) / a)
    have e : (fun j => if j = row then s.c k / a - dot (s.AT k) (fun j => if j = row then 0 else (σ.y j).toQ) / a
        else if j = row then 0 else (σ.y j).toQ) = (fun j => if j = row then
        s.c k / a - dot (s.AT k) (fun j => if j = row then 0 else (σ.y j).toQ) / a else (σ.y j).toQ) := by
      funext j; split <;> rfl
    rw [e] at this
    rw [this, if_pos rfl]
    field_simp; ring
  have hnew := c.new hk
  have hlv : logVal (stonEqStep s row k a val).log k = some val := by
    have := logVal_new hnew val (s.c k) (s.AT k)
    exact logVal_suffix (l' := [_, _]) this
  have hX := h.old k val hlv
  have hold : ∀ k v, logVal s.log k = some v → X k = v := h.oldSuffix (l := [_, _, _]) rfl
  generalize hτ : ([Rec.deletedRow row (s.c k / a), .addedRows row (s.AT k) a, .fixedCol k val (s.c k) (s.AT k)].foldl
      retRec σ) = τ at *
  have hx : ∀ j, τ.x j = upd σ.x k val j := by rw [← hτ]; exact fun _ => rfl
  have hzz : ∀ j, j ≠ k → τ.z j = σ.z j := by rw [← hτ]; exact fun j hj => upd_ne _ _ hj
  have tc : ∀ j, j ≠ k → (stonEqStep s row k a val).ctag j = s.ctag j := fun r hr => upd_ne _ _ hr
  refine ⟨hst, fun j hj => ?_, h.num, hold, fun r hr' hp => ?_, fun r hr' hp => ?_, fun j hj hp => ?_, fun j hj hp => ?_⟩
  · rw [hx]
    by_cases e : j = k
    · subst e; rw [upd_same, hX]
    · rw [upd_ne _ _ e]; exact h.here j (by rw [tc j e]; exact hj)
  · by_cases e : r = row
    · subst e
      exact ⟨hl, c.feas.tightLhs g hold hi hA hq hl (by rw [hX, he, hval])⟩
    · rw [hy, if_neg e] at hp
      have := h.lhs r (by rw [tr r e]; exact hr') hp
      rw [tr r e] at this; exact this
  · by_cases e : r = row
    · subst e
      exact ⟨hr, c.feas.tightRhs g hold hi hA hq hr (by rw [hX, hval])⟩
    · rw [hy, if_neg e] at hp
      have := h.rhs r (by rw [tr r e]; exact hr') hp
      rw [tr r e] at this; exact this
  · by_cases e : j = k
    · subst e; rw [hz0] at hp; exact absurd hp (lt_irrefl _)
    · rw [hzz j e] at hp
      have := h.lb j (by rw [tc j e]; exact hj) hp
      rw [← this]
      exact (upd_ne _ _ e).symm
  · by_cases e : j = k
    · subst e; rw [hz0] at hp; exact absurd hp (lt_irrefl _)
    · rw [hzz j e] at hp
      have := h.ub j (by rw [tc j e]; exact hj) hp
      rw [← this]
      exact (upd_ne _ _ e).symm

/-! ### Bounds from inequality rows -/

/-- The side of the row that gives a bound is tight when the variable is at that bound. -/
def SideTight (P : LP) (s : St) (row k : ℕ) (implied : D) (upper : Bool) : Prop :=
  ∀ X : ℕ → D, (∀ k v, logVal s.log k = some v → X k = v) → X k = implied →
    if upper then (s.rtag row).rhsInf = false ∧ P.rhs row = .fin (dot (P.A row) (fun k => (X k).toQ))
    else (s.rtag row).lhsInf = false ∧ P.lhs row = .fin (dot (P.A row) (fun k => (X k).toQ))

theorem isEqualFeasTol_self (q : ℚ) : isEqualFeasTol (.fin q) (.fin q) = true := by
  rw [isEqualFeasTol_fin, sub_self, abs_zero, decide_eq_true_eq]; exact FEAS_TOL_pos.le

/-- Row `row` stops column `k`: one of its sides is tight at `X` and the other columns are at the bounds that make the
value of the row extreme. -/
structure RowStop (P : LP) (X : ℕ → D) (s : St) (row : ℕ) (right : Bool) (k : ℕ) : Prop where
  side : if right then (s.rtag row).rhsInf = false ∧ P.rhs row = .fin (dot (P.A row) (fun k => (X k).toQ))
    else (s.rtag row).lhsInf = false ∧ P.lhs row = .fin (dot (P.A row) (fun k => (X k).toQ))
  others : ∀ p ∈ s.A row, p.1 ≠ k → (s.ctag p.1).inactive = false →
    if decide (0 < p.2) = right then s.lb p.1 = X p.1 else s.ub p.1 = X p.1

theorem coefAt_zero_or (l : List Cell) (h : (l.map Prod.fst).Nodup) (j : ℕ) :
    coefAt j l = 0 ∨ ∃ v, (j, v) ∈ l ∧ coefAt j l = v := by
  by_cases e : ∃ v, (j, v) ∈ l
  · obtain ⟨v, hv⟩ := e
    obtain ⟨l1, l2, rfl, n1, n2⟩ := split_col h hv
    refine .inr ⟨v, hv, ?_⟩
    have hn : j ∉ l2.map Prod.fst := by
      intro hm
      obtain ⟨p, hp, e⟩ := List.mem_map.mp hm
      exact n2 p hp e
    have e1 : coefAt j (l1 ++ (j, v) :: l2) = coefAt j l1 + coefAt j ((j, v) :: l2) := by
      unfold coefAt mids
      rw [List.filter_append, List.map_append, List.sum_append]
    rw [e1, coefAt_noCol n1, zero_add]
    exact coefAt_cons_same hn
  · refine .inl (coefAt_noCol (fun p hp hj => e ⟨p.2, ?_⟩))
    rw [← hj]; exact hp

theorem Comp.bound (F : Feas P s) (g : GI s) (hrng : InRng s) (hi : (s.rtag row).inactive = false)
    (hk : (s.ctag k).inactive = false) (hcell : (k, a) ∈ s.A row) {implied other : D} {low : Bool}
    (h : Comp P X t σ) (tm : t.m = s.m) (tA : t.A = s.A) (tc : t.c = s.c) (trt : t.rtag = s.rtag)
    (tct : ∀ j, (t.ctag j).inactive = (s.ctag j).inactive)
    (tlb : ∀ j, j ≠ k → t.lb j = s.lb j) (tub : ∀ j, j ≠ k → t.ub j = s.ub j)
    (hlow : if low then t.ub k = implied ∧ t.lb k = s.lb k ∧ s.lb k = other
      else t.lb k = implied ∧ t.ub k = s.ub k ∧ s.ub k = other)
    {l : List Rec} (hl : t.log = l ++ s.log)
    (hT : X k = implied → RowStop P X s row (decide (0 < a) == low) k) :
    Comp P X s (retBoundChange σ row (s.A row) k implied other low) := by
  have hq : a ≠ 0 := (g.rowRange row _ hcell).2.2
  have hnd := (g.rowSorted row).nodup
  have hstat : StatAt s σ := h.stat.frame rfl rfl tm (fun i _ => by rw [tA]) tc (fun _ => by rw [trt]) tct
  have hold := h.oldSuffix hl
  have hkn : k < P.n := F.rng g hk
  obtain ⟨q, hXq⟩ := h.num k hkn
  have hxk : σ.x k = .fin q := by rw [h.here k (by rw [tct]; exact hk), hXq]
  have hzk := hstat.z k hk
  set Z := s.c k - colSum s (fun i => (σ.y i).toQ) k with hZ
  have hlb : 0 < Z → t.lb k = X k := fun hp => h.lb k (by rw [tct]; exact hk) (by rw [hzk]; exact hp)
  have hub : Z < 0 → t.ub k = X k := fun hp => h.ub k (by rw [tct]; exact hk) (by rw [hzk]; exact hp)
  have hlbs : ∀ j, (s.ctag j).inactive = false → j ≠ k → 0 < (σ.z j).toQ → s.lb j = X j := fun j hj e hp => by
    rw [← tlb j e]; exact h.lb j (by rw [tct]; exact hj) hp
  have hubs : ∀ j, (s.ctag j).inactive = false → j ≠ k → (σ.z j).toQ < 0 → s.ub j = X j := fun j hj e hp => by
    rw [← tub j e]; exact h.ub j (by rw [tct]; exact hj) hp
  have hrec : (if low then Z < 0 else 0 < Z) ∨ ((0 < Z → s.lb k = X k) ∧ (Z < 0 → s.ub k = X k)) := by
    cases low with
    | true =>
      by_cases e : Z < 0
      · left; exact e
      · right
        refine ⟨fun hp => ?_, fun hp => absurd hp e⟩
        rw [← hlb hp]; exact hlow.2.1.symm
    | false =>
      by_cases e : 0 < Z
      · left; exact e
      · right
        refine ⟨fun hp => absurd hp e, fun hp => ?_⟩
        rw [← hub hp]; exact hlow.2.1.symm
  -- at the bound that was recorded
  have himp : (if low then Z < 0 else 0 < Z) → X k = implied := by
    cases low with
    | true => exact fun hp => (hub hp).symm.trans hlow.1
    | false => exact fun hp => (hlb hp).symm.trans hlow.1
  have keep : (0 < Z → s.lb k = X k) → (Z < 0 → s.ub k = X k) → Comp P X s σ := by
    intro h1 h2
    refine ⟨hstat, fun j hj => h.here j (by rw [tct]; exact hj), h.num, hold, by rw [← trt]; exact h.lhs,
      by rw [← trt]; exact h.rhs, fun j hj hp => ?_, fun j hj hp => ?_⟩
    · by_cases e : j = k
      · subst e; rw [hzk] at hp; exact h1 hp
      · exact hlbs j hj e hp
    · by_cases e : j = k
      · subst e; rw [hzk] at hp; exact h2 hp
      · exact hubs j hj e hp
  have hbound := StatAt.bound (t := s) (implied := implied) (other := other) (low := low) g hrng hi hk ⟨a, hcell⟩ hstat
  unfold retBoundChange at hbound ⊢
  split
  · -- the other bound is met
    rename_i hc
    rw [hxk, hzk] at hc
    refine hrec.elim (fun hp => ?_) (fun hp => keep hp.1 hp.2)
    exfalso
    simp only [Bool.and_eq_true, Bool.or_eq_true, D.le_fin, decide_eq_true_eq, Bool.not_eq_true'] at hc
    cases low with
    | true =>
      have hp : Z < 0 := hp
      rcases hc.2 with ⟨-, e⟩ | ⟨e, -⟩
      · linarith
      · cases e
    | false =>
      have hp : 0 < Z := hp
      rcases hc.2 with ⟨e, -⟩ | ⟨-, e⟩
      · cases e
      · linarith
  · rename_i hc
    rw [if_neg hc] at hbound
    split
    · rename_i hc2
      refine hrec.elim (fun hp => ?_) (fun hp => keep hp.1 hp.2)
      exfalso
      rw [hxk, ← himp hp, hXq, isEqualFeasTol_self] at hc2
      cases hc2
    · rename_i hc2
      rw [if_neg hc2] at hbound
      obtain ⟨y0, hy0⟩ := hstat.y row hi
      have hfc : findCoef k (s.A row) = a := findCoef_mem (g.rowSorted row).nodup hcell
      have hzr : ∀ j, (s.ctag j).inactive = false → j ≠ k → ((upd ((s.A row).foldl (fun z p => if p.1 = k then z
          else if D.eqb (z p.1) .pinf then z
          else upd z p.1 (D.sub (z p.1) (D.smul (p.2 / findCoef k (s.A row)) (σ.z k)))) σ.z) k (.fin 0)) j).toQ =
          (σ.z j).toQ - coefAt j (s.A row) * (Z / a) := by
        intro j hj e
        rw [upd_ne _ _ e, hfc, hzk, boundFold_z k a Z _ hnd σ.z e (hstat.z j hj), hstat.z j hj, D.toQ_fin, D.toQ_fin]
        ring
      have hyr : ∀ r, ((upd σ.y row (D.add (σ.y row) (D.divq (σ.z k) (findCoef k (s.A row))))) r).toQ =
          if r = row then y0 + Z / a else (σ.y r).toQ := by
        intro r
        by_cases e : r = row
        · subst e; rw [upd_same, if_pos rfl, hfc, hy0, hzk, D.divq_fin hq]; rfl
        · rw [upd_ne _ _ e, if_neg e]
      have hZ0 : ¬ (if low then Z < 0 else 0 < Z) → Z = 0 := by
        intro hn
        by_contra hne
        rcases lt_or_gt_of_ne hne with hlt | hgt
        · cases low with
          | true => exact hn hlt
          | false =>
            refine hc ?_
            have e1 := hub hlt
            have e2 : other = .fin q := by rw [← hlow.2.2, ← hlow.2.1, e1, hXq]
            rw [hxk, hzk, e2, isEqualFeasTol_self, D.le_fin, D.le_fin]
            simp [hlt.le]
        · cases low with
          | false => exact hn hgt
          | true =>
            refine hc ?_
            have e1 := hlb hgt
            have e2 : other = .fin q := by rw [← hlow.2.2, ← hlow.2.1, e1, hXq]
            rw [hxk, hzk, e2, isEqualFeasTol_self, D.le_fin, D.le_fin]
            simp [hgt.le]
      -- sign of the change of the dual
      have hsgn : Z / a ≠ 0 → ∃ right : Bool, RowStop P X s row right k ∧ (if right then Z / a < 0 else 0 < Z / a) := by
        intro hne
        by_cases hp : (if low then Z < 0 else 0 < Z)
        · have hT := hT (himp hp)
          refine ⟨_, hT, ?_⟩
          rcases lt_or_gt_of_ne hq with ha | ha
          · rw [decide_eq_false (not_lt.mpr ha.le)]
            cases low with
            | true =>
              have hp : Z < 0 := hp
              exact div_pos_of_neg_of_neg hp ha
            | false =>
              have hp : 0 < Z := hp
              exact div_neg_of_pos_of_neg hp ha
          · rw [decide_eq_true ha]
            cases low with
            | true =>
              have hp : Z < 0 := hp
              exact div_neg_of_neg_of_pos hp ha
            | false =>
              have hp : 0 < Z := hp
              exact div_pos hp ha
        · rw [hZ0 hp, zero_div] at hne
          exact absurd rfl hne
      have hother : ∀ j, (s.ctag j).inactive = false → j ≠ k → coefAt j (s.A row) * (Z / a) ≠ 0 →
          if coefAt j (s.A row) * (Z / a) < 0 then s.lb j = X j else s.ub j = X j := by
        intro j hj e hne
        obtain ⟨right, T, hs⟩ := hsgn (fun h => hne (by rw [h, mul_zero]))
        rcases coefAt_zero_or (s.A row) hnd j with h0 | ⟨v, hv, ev⟩
        · rw [h0, zero_mul] at hne; exact absurd rfl hne
        · have ho := T.others _ hv e hj
          have hv0 : v ≠ 0 := (g.rowRange row _ hv).2.2
          rw [ev]
          cases right with
          | true =>
            have hs : Z / a < 0 := hs
            rcases lt_or_gt_of_ne hv0 with hn | hn
            · rw [if_neg (not_lt.mpr (mul_pos_of_neg_of_neg hn hs).le)]
              rw [decide_eq_false (not_lt.mpr hn.le)] at ho
              exact ho
            · rw [if_pos (mul_neg_of_pos_of_neg hn hs)]
              rw [decide_eq_true hn] at ho
              exact ho
          | false =>
            have hs : 0 < Z / a := hs
            rcases lt_or_gt_of_ne hv0 with hn | hn
            · rw [if_pos (mul_neg_of_neg_of_pos hn hs)]
              rw [decide_eq_false (not_lt.mpr hn.le)] at ho
              exact ho
            · rw [if_neg (not_lt.mpr (mul_pos hn hs).le)]
              rw [decide_eq_true hn] at ho
              exact ho
      have hlr := h.lhs row (by rw [trt]; exact hi)
      have hrr := h.rhs row (by rw [trt]; exact hi)
      rw [hy0, D.toQ_fin, trt] at hlr hrr
      refine ⟨hbound, fun j hj => h.here j (by rw [tct]; exact hj), h.num, hold, fun r hr hp => ?_, fun r hr hp => ?_,
        fun j hj hp => ?_, fun j hj hp => ?_⟩
      · have hp : 0 < ((upd σ.y row (D.add (σ.y row) (D.divq (σ.z k) (findCoef k (s.A row))))) r).toQ := hp
        rw [hyr] at hp
        by_cases e : r = row
        · subst e
          rw [if_pos rfl] at hp
          by_cases hz : 0 < Z / a
          · obtain ⟨right, T, hs⟩ := hsgn hz.ne'
            cases right with
            | true => exact absurd (show Z / a < 0 from hs) (not_lt.mpr hz.le)
            | false => exact T.side
          · exact hlr (by linarith)
        · rw [if_neg e] at hp
          rw [← trt]; exact h.lhs r (by rw [trt]; exact hr) hp
      · have hp : ((upd σ.y row (D.add (σ.y row) (D.divq (σ.z k) (findCoef k (s.A row))))) r).toQ < 0 := hp
        rw [hyr] at hp
        by_cases e : r = row
        · subst e
          rw [if_pos rfl] at hp
          by_cases hz : Z / a < 0
          · obtain ⟨right, T, hs⟩ := hsgn hz.ne
            cases right with
            | true => exact T.side
            | false => exact absurd (show 0 < Z / a from hs) (not_lt.mpr hz.le)
          · exact hrr (by linarith)
        · rw [if_neg e] at hp
          rw [← trt]; exact h.rhs r (by rw [trt]; exact hr) hp
      · by_cases e : j = k
        · subst e
          have hp : 0 < ((upd _ j (.fin 0) : ℕ → D) j).toQ := hp
          rw [upd_same] at hp; exact absurd hp (lt_irrefl _)
        · have hp := lt_of_lt_of_eq hp (hzr j hj e)
          by_cases hz : 0 < (σ.z j).toQ
          · exact hlbs j hj e hz
          · have hm : coefAt j (s.A row) * (Z / a) < 0 := by linarith
            have := hother j hj e hm.ne
            rw [if_pos hm] at this; exact this
      · by_cases e : j = k
        · subst e
          have hp : ((upd _ j (.fin 0) : ℕ → D) j).toQ < 0 := hp
          rw [upd_same] at hp; exact absurd hp (lt_irrefl _)
        · have hp := lt_of_eq_of_lt (hzr j hj e).symm hp
          by_cases hz : (σ.z j).toQ < 0
          · exact hubs j hj e hz
          · have hm : 0 < coefAt j (s.A row) * (Z / a) := by linarith
            have := hother j hj e hm.ne'
            rw [if_neg (not_lt.mpr hm.le)] at this; exact this

theorem SideTight.tight {implied : D} {low : Bool}
    (hS : if 0 < a then SideTight P s row k implied low else SideTight P s row k implied (!low))
    (hX : ∀ k v, logVal s.log k = some v → X k = v) (hA : s.A row = [(k, a)]) (hv : X k = implied) :
    RowStop P X s row (decide (0 < a) == low) k := by
  refine ⟨?_, fun p hp hne _ => ?_⟩
  · by_cases ha : 0 < a
    · rw [if_pos ha] at hS
      have := hS X hX hv
      rw [decide_eq_true ha]
      cases low <;> exact this
    · rw [if_neg ha] at hS
      have := hS X hX hv
      rw [decide_eq_false ha]
      cases low <;> exact this
  · rw [hA, List.mem_singleton] at hp
    subst hp
    exact absurd rfl hne

/-- Points that are feasible for the original problem keep the bound. -/
def SideHolds (P : LP) (s : St) (k : ℕ) (implied : D) (upper : Bool) : Prop :=
  ∀ X : ℕ → D, P.Feasible (fun k => (X k).toQ) → Agrees X s →
    if upper then Hi false implied (X k).toQ else Lo false implied (X k).toQ

theorem Feas.rowRhs (F : Feas P s) (g : GI s) (hf : P.Feasible (fun k => (X k).toQ)) (hX : Agrees X s)
    (ha : (s.rtag row).inactive = false) (hi : (s.rtag row).rhsInf = false) :
    ∃ R, s.rhs row = .fin R ∧ dot (s.A row) (fun k => (X k).toQ) ≤ R := by
  obtain ⟨B, e1, e2⟩ := (F.row row (F.rrng row ha)).rhs ha hi
  have h := (hf.row row (F.rrng row ha)).2
  rw [e1, HiD_fin, F.dotX g hX ha] at h
  exact ⟨_, e2, by linarith⟩

theorem Feas.rowLhs (F : Feas P s) (g : GI s) (hf : P.Feasible (fun k => (X k).toQ)) (hX : Agrees X s)
    (ha : (s.rtag row).inactive = false) (hi : (s.rtag row).lhsInf = false) :
    ∃ R, s.lhs row = .fin R ∧ R ≤ dot (s.A row) (fun k => (X k).toQ) := by
  obtain ⟨B, e1, e2⟩ := (F.row row (F.rrng row ha)).lhs ha hi
  have h := (hf.row row (F.rrng row ha)).1
  rw [e1, LoD_fin, F.dotX g hX ha] at h
  exact ⟨_, e2, by linarith⟩

theorem sideHolds_rhs (F : Feas P s) (g : GI s) (ha : (s.rtag row).inactive = false) (hA : s.A row = [(k, a)])
    (hq : a ≠ 0) (hi : (s.rtag row).rhsInf = false) : SideHolds P s k (D.divq (s.rhs row) a) (decide (0 < a)) := by
  intro X hf hX
  obtain ⟨R, e, h⟩ := F.rowRhs g hf hX ha hi
  rw [hA, dot_cons, dot_nil, add_zero] at h
  rw [e, D.divq_fin hq]
  rcases lt_or_gt_of_ne hq with hp | hp
  · rw [if_neg (by simpa using hp.le)]
    exact .inr ⟨_, rfl, (div_le_iff_of_neg hp).mpr (by linarith)⟩
  · rw [if_pos (by simpa using hp)]
    exact .inr ⟨_, rfl, (le_div_iff₀ hp).mpr (by linarith)⟩

theorem sideHolds_lhs (F : Feas P s) (g : GI s) (ha : (s.rtag row).inactive = false) (hA : s.A row = [(k, a)])
    (hq : a ≠ 0) (hi : (s.rtag row).lhsInf = false) : SideHolds P s k (D.divq (s.lhs row) a) (!decide (0 < a)) := by
  intro X hf hX
  obtain ⟨R, e, h⟩ := F.rowLhs g hf hX ha hi
  rw [hA, dot_cons, dot_nil, add_zero] at h
  rw [e, D.divq_fin hq]
  rcases lt_or_gt_of_ne hq with hp | hp
  · rw [if_pos (by simpa using hp.le)]
    exact .inr ⟨_, rfl, (le_div_iff_of_neg hp).mpr (by linarith)⟩
  · rw [if_neg (by simpa using hp)]
    exact .inr ⟨_, rfl, (div_le_iff₀ hp).mpr (by linarith)⟩

theorem updateUb_back (F : Feas P s) (g : GI s) (hrng : InRng s) (hi : (s.rtag row).inactive = false)
    (hk : (s.ctag k).inactive = false) (hA : s.A row = [(k, a)]) (v : D)
    (hS : if 0 < a then SideTight P s row k v true else SideTight P s row k v false)
    (hH : SideHolds P s k v true) :
    Back P β s (updateUb s k v row).1 ∧ InRng (updateUb s k v row).1 := by
  rcases updateUb_eq s k v row with ⟨st, e⟩ | ⟨ac, u, e⟩
  · rw [e]; exact ⟨.core (sameCore_check _ _), hrng⟩
  · rw [e]
    refine ⟨⟨⟨[_, _], rfl⟩, fun X hf hX hb j hj => ?_,
      fun X σ _ h => ⟨retBoundChange σ row (s.A row) k v (s.lb k) true, rfl, ?_⟩⟩, hrng⟩
    · have hH := hH X hf (hX.suffix ⟨[_, _], rfl⟩)
      by_cases e : j = k
      · subst e
        obtain ⟨h1, h2⟩ := hb j hk
        show Lo (upd s.ctag j _ j).lbInf (upd s.lb j _ j) _ ∧ Hi (upd s.ctag j _ j).ubInf (upd s.ub j _ j) _
        rw [upd_same, upd_same, upd_same]
        exact ⟨h1, hH⟩
      · have hj : (upd s.ctag k _ j).inactive = false := hj
        rw [upd_ne _ _ e] at hj
        show Lo (upd s.ctag k _ j).lbInf (upd s.lb k _ j) _ ∧ Hi (upd s.ctag k _ j).ubInf (upd s.ub k _ j) _
        rw [upd_ne _ _ e, upd_ne _ _ e, upd_ne _ _ e]
        exact hb j hj
    refine h.bound (a := a) F g hrng hi hk (by rw [hA]; exact List.mem_cons_self) rfl rfl rfl rfl (fun j => ?_) (fun j hj => upd_ne _ _ hj)
      (fun j hj => upd_ne _ _ hj) ⟨upd_same _ _ _, upd_same _ _ _, rfl⟩ (l := [_, _]) rfl
      (SideTight.tight hS (low := true) (h.oldSuffix (l := [_, _]) rfl) hA)
    show (upd s.ctag k _ j).inactive = _
    by_cases e : j = k
    · subst e; rw [upd_same]; rfl
    · rw [upd_ne _ _ e]

theorem updateLb_back (F : Feas P s) (g : GI s) (hrng : InRng s) (hi : (s.rtag row).inactive = false)
    (hk : (s.ctag k).inactive = false) (hA : s.A row = [(k, a)]) (v : D)
    (hS : if 0 < a then SideTight P s row k v false else SideTight P s row k v true)
    (hH : SideHolds P s k v false) :
    Back P β s (updateLb s k v row).1 ∧ InRng (updateLb s k v row).1 := by
  rcases updateLb_eq s k v row with ⟨st, e⟩ | ⟨ac, u, e⟩
  · rw [e]; exact ⟨.core (sameCore_check _ _), hrng⟩
  · rw [e]
    refine ⟨⟨⟨[_, _], rfl⟩, fun X hf hX hb j hj => ?_,
      fun X σ _ h => ⟨retBoundChange σ row (s.A row) k v (s.ub k) false, rfl, ?_⟩⟩, hrng⟩
    · have hH := hH X hf (hX.suffix ⟨[_, _], rfl⟩)
      by_cases e : j = k
      · subst e
        obtain ⟨h1, h2⟩ := hb j hk
        show Lo (upd s.ctag j _ j).lbInf (upd s.lb j _ j) _ ∧ Hi (upd s.ctag j _ j).ubInf (upd s.ub j _ j) _
        rw [upd_same, upd_same, upd_same]
        exact ⟨hH, h2⟩
      · have hj : (upd s.ctag k _ j).inactive = false := hj
        rw [upd_ne _ _ e] at hj
        show Lo (upd s.ctag k _ j).lbInf (upd s.lb k _ j) _ ∧ Hi (upd s.ctag k _ j).ubInf (upd s.ub k _ j) _
        rw [upd_ne _ _ e, upd_ne _ _ e, upd_ne _ _ e]
        exact hb j hj
    refine h.bound (a := a) F g hrng hi hk (by rw [hA]; exact List.mem_cons_self) rfl rfl rfl rfl (fun j => ?_) (fun j hj => upd_ne _ _ hj)
      (fun j hj => upd_ne _ _ hj) ⟨upd_same _ _ _, upd_same _ _ _, rfl⟩ (l := [_, _]) rfl
      (SideTight.tight hS (low := false) (h.oldSuffix (l := [_, _]) rfl) hA)
    show (upd s.ctag k _ j).inactive = _
    by_cases e : j = k
    · subst e; rw [upd_same]; rfl
    · rw [upd_ne _ _ e]

theorem sideTight_rhs (F : Feas P s) (g : GI s) (hi : (s.rtag row).inactive = false) (hA : s.A row = [(k, a)])
    (hq : a ≠ 0) (hr : (s.rtag row).rhsInf = false) : SideTight P s row k (D.divq (s.rhs row) a) true :=
  fun _ hX hv => ⟨hr, F.tightRhs g hX hi hA hq hr hv⟩

theorem sideTight_lhs (F : Feas P s) (g : GI s) (hi : (s.rtag row).inactive = false) (hA : s.A row = [(k, a)])
    (hq : a ≠ 0) (hr : (s.rtag row).lhsInf = false) : SideTight P s row k (D.divq (s.lhs row) a) false :=
  fun _ hX hv => ⟨hr, F.tightLhs g hX hi hA hq hr hv⟩

/-! ### One singleton row -/

theorem removeStonRow_eq_back (heq : (s.rtag row).eq = true) (c : Base P s) (hN : NoRows s)
    (hlen : (s.A row).length ≤ 1) (o : Ok μ (removeStonRow s row).1) : Back P β s (removeStonRow s row).1 := by
  cases hA : s.A row with
  | nil =>
    have e : removeStonRow s row = (s, UNCHANGED) := by
      unfold removeStonRow; rw [hA]
    rw [e]; exact .refl _ _ _
  | cons p rest =>
    obtain ⟨k, a⟩ := p
    have hrest : rest = [] := by
      rw [hA] at hlen
      cases rest with
      | nil => rfl
      | cons => simp at hlen
    subst hrest
    cases hf : (s.ctag k).fixed with
    | true => rw [removeStonRow_fixed hA hf]; exact .core (sameCore_check _ _)
    | false =>
      obtain ⟨h1, h2, h3⟩ := removeStonRow_facts hA hf o
      have h3 := h3 heq
      obtain ⟨hl, hr⟩ := (c.feas.row row (c.feas.rrng row h1)).eq h1 heq
      have he : s.lhs row = s.rhs row := by
        obtain ⟨B, -, e1⟩ := (c.feas.row row (c.feas.rrng row h1)).lhs h1 hl
        obtain ⟨B', -, e2⟩ := (c.feas.row row (c.feas.rrng row h1)).rhs h1 hr
        rw [e1, e2] at h3 ⊢
        exact (D.eqb_fin_iff.mp h3).symm
      have hb := Back.stonEq (β := β) c hN h1 h2 hA hl hr he
      unfold removeStonRow
      rw [hA]
      simp only
      generalize hs1 : s.check (!(s.rtag row).inactive && !(s.ctag k).subst) = s1
      have hc1 : s1.ctag = s.ctag := by rw [← hs1]; rfl
      have hr1 : s1.rtag = s.rtag := by rw [← hs1]; rfl
      rw [hc1, if_neg (by rw [hf]; simp)]
      have heq2 : ((s1.check (!(s.ctag k).inactive)).rtag row).eq = true := by
        show (s1.rtag row).eq = true
        rw [hr1]; exact heq
      rw [if_pos heq2]
      have hs2 : ∃ b, (s1.check (!(s.ctag k).inactive)).check (D.eqb (s.lhs row) (s.rhs row)) =
          { s with asrt := b } := ⟨_, by rw [← hs1]; rfl⟩
      obtain ⟨b, hs2⟩ := hs2
      rw [hs2]
      rcases fixCol_eq { s with asrt := b } k (D.divq (s.rhs row) a) (s.c k) with
        ⟨b', e, -⟩ | ⟨b', ac, u, e, -⟩
      · rw [e, if_pos rfl]
        exact .core (by constructor <;> rfl)
      · rw [e, if_neg (show ¬ REDUCED = INFEASIBLE by decide)]
        exact hb.trans (.core (by constructor <;> rfl))

theorem Back.deact (s : St) (i : ℕ) : Back P β s (setRowToInactive s i 0) := by
  refine .log (new := [.deletedRow i 0]) rfl (by simp [Rec.isHead]) (.eq rfl rfl rfl) (fun X σ h => ?_)
  refine h.deact (l := [_]) rfl (fun r _ => rfl) rfl rfl rfl rfl (fun r hr => ?_) ?_ rfl
  · show upd s.rtag i _ r = _
    exact upd_ne _ _ hr
  · show (upd s.rtag i _ i).inactive = true
    rw [upd_same]

/-- The two bound changes of a singleton inequality, taken back. -/
theorem stonIneq_back {s t : St} {first second : St → St × Status} (hs : Back P β s (first s).1)
    (hs2 : Back P β (first s).1 (second (first s).1).1)
    (ht : t = (if (first s).2 = INFEASIBLE then ((first s).1, INFEASIBLE)
      else if (second (first s).1).2 = INFEASIBLE then ((second (first s).1).1, INFEASIBLE)
      else (setRowToInactive (second (first s).1).1 row 0, REDUCED)).1) : Back P β s t := by
  subst ht
  split
  · exact hs
  · split
    · exact hs.trans hs2
    · exact (hs.trans hs2).trans (.deact _ _)

theorem sideTight_mid {t : St} (hl : ∀ k v, logVal s.log k = some v → logVal t.log k = some v) (hr : t.rtag = s.rtag)
    {v : D} {b : Bool} (h : SideTight P s row k v b) : SideTight P t row k v b := by
  intro X hX hv
  rw [hr]
  exact h X (fun k v hv => hX k v (hl k v hv)) hv

theorem sideHolds_mid {t : St} (hl : ∀ k v, logVal s.log k = some v → logVal t.log k = some v)
    {v : D} {b : Bool} (h : SideHolds P s k v b) : SideHolds P t k v b :=
  fun X hf hX => h X hf (fun k v hv => hX k v (hl k v hv))

theorem removeStonRow_ineq_back (heq : (s.rtag row).eq = false) (c : Base P s)
    (hlen : (s.A row).length ≤ 1) (o : Ok μ (removeStonRow s row).1) : Back P β s (removeStonRow s row).1 := by
  cases hA : s.A row with
  | nil =>
    have e : removeStonRow s row = (s, UNCHANGED) := by
      unfold removeStonRow; rw [hA]
    rw [e]; exact .refl _ _ _
  | cons p rest =>
    obtain ⟨k, a⟩ := p
    have hrest : rest = [] := by
      rw [hA] at hlen
      cases rest with
      | nil => rfl
      | cons => simp at hlen
    subst hrest
    cases hf : (s.ctag k).fixed with
    | true => rw [removeStonRow_fixed hA hf]; exact .core (sameCore_check _ _)
    | false =>
      obtain ⟨h1, h2, -⟩ := removeStonRow_facts hA hf o
      have g := c.inv.gi
      have hq : a ≠ 0 := (g.rowRange row (k, a) (by rw [hA]; exact List.mem_cons_self)).2.2
      have hrow := c.feas.row row (c.feas.rrng row h1)
      unfold removeStonRow
      rw [hA]
      simp only
      generalize hs1 : s.check (!(s.rtag row).inactive && !(s.ctag k).subst) = s1
      have hc1 : s1.ctag = s.ctag := by rw [← hs1]; rfl
      have hr1 : s1.rtag = s.rtag := by rw [← hs1]; rfl
      rw [hc1, if_neg (by rw [hf]; simp)]
      have hs2 : ∃ b, s1.check (!(s.ctag k).inactive) = { s with asrt := b } := ⟨_, by rw [← hs1]; rfl⟩
      obtain ⟨b, hs2⟩ := hs2
      rw [hs2]
      rw [show (({ s with asrt := b } : St).rtag row).eq = false from heq, if_neg Bool.false_ne_true]
      have sc : SameCore s { s with asrt := b } := by constructor <;> rfl
      refine (Back.core sc).trans ?_
      have F2 : Feas P { s with asrt := b } := c.feas.core sc (fun _ => .refl _)
      have g2 : GI { s with asrt := b } := sc.gi g
      have n2 : InRng { s with asrt := b } := c.rng
      have i2 : (({ s with asrt := b } : St).rtag row).inactive = false := h1
      have k2 : (({ s with asrt := b } : St).ctag k).inactive = false := h2
      have A2 : ({ s with asrt := b } : St).A row = [(k, a)] := hA
      have hR : ∃ r, (s.rtag row).rhsInf = false → s.rhs row = .fin r := by
        cases hi : (s.rtag row).rhsInf with
        | true => exact ⟨0, fun h => absurd h (by simp)⟩
        | false => obtain ⟨B, -, e⟩ := hrow.rhs h1 hi; exact ⟨_, fun _ => e⟩
      have hL : ∃ r, (s.rtag row).lhsInf = false → s.lhs row = .fin r := by
        cases hi : (s.rtag row).lhsInf with
        | true => exact ⟨0, fun h => absurd h (by simp)⟩
        | false => obtain ⟨B, -, e⟩ := hrow.lhs h1 hi; exact ⟨_, fun _ => e⟩
      obtain ⟨R, hR⟩ := hR
      obtain ⟨L, hL⟩ := hL
      have hvR : (s.rtag row).rhsInf = false → D.divq (s.rhs row) a = .fin (R / a) := fun hi => by
        rw [hR hi, D.divq_fin hq]
      have hvL : (s.rtag row).lhsInf = false → D.divq (s.lhs row) a = .fin (L / a) := fun hi => by
        rw [hL hi, D.divq_fin hq]
      have tR := fun hi => sideTight_rhs c.feas g h1 hA hq (hr := hi)
      have tL := fun hi => sideTight_lhs c.feas g h1 hA hq (hr := hi)
      have oR := fun hi => sideHolds_rhs c.feas g h1 hA hq (hi := hi)
      have oL := fun hi => sideHolds_lhs c.feas g h1 hA hq (hi := hi)
      have mid : ∀ (x : St × Status), x = (if (s.rtag row).rhsInf then (({ s with asrt := b } : St), UNCHANGED) else
            updateUb { s with asrt := b } k (D.divq (s.rhs row) a) row) ∨
          x = (if (s.rtag row).rhsInf then (({ s with asrt := b } : St), UNCHANGED) else
            updateLb { s with asrt := b } k (D.divq (s.rhs row) a) row) →
          StonMid P { s with asrt := b } x.1 k ∧ ∀ k v, logVal s.log k = some v → logVal x.1.log k = some v := by
        intro x hx
        have lg : Grow { s with asrt := b } x.1 := by
          rcases hx with rfl | rfl
          · split
            · exact .refl _
            · exact updateUb_grow _ _ _ _
          · split
            · exact .refl _
            · exact updateLb_grow _ _ _ _
        refine ⟨?_, fun k v hv => ?_⟩
        · rcases hx with rfl | rfl
          · exact (ubPart F2 g2 k2 _ hvR rfl).1
          · exact (lbPart F2 g2 k2 _ hvR rfl).1
        · obtain ⟨l, e, -⟩ := lg.log
          rw [e]; exact logVal_suffix hv
      split
      · rename_i hpos
        have f1 : ∀ t : St × Status, t = (if (s.rtag row).rhsInf then (({ s with asrt := b } : St), UNCHANGED) else
            updateUb { s with asrt := b } k (D.divq (s.rhs row) a) row) →
            Back P β { s with asrt := b } t.1 ∧ InRng t.1 := by
          rintro t rfl
          split
          · exact ⟨.refl _ _ _, n2⟩
          · rename_i hr
            exact updateUb_back F2 g2 n2 i2 k2 A2 _ (by
              rw [if_pos hpos]; exact sideTight_mid (fun _ _ h => h) rfl (tR (by simpa using hr))) (by
              have := oR (by simpa using hr)
              rw [decide_eq_true hpos] at this
              exact sideHolds_mid (fun _ _ h => h) this)
        refine stonIneq_back (row := row) (first := fun t => if (s.rtag row).rhsInf then (t, UNCHANGED) else
            updateUb t k (D.divq (s.rhs row) a) row) (second := fun t => if (s.rtag row).lhsInf then (t, UNCHANGED) else
            updateLb t k (D.divq (s.lhs row) a) row) (f1 _ rfl).1 ?_ rfl
        obtain ⟨m1, ml⟩ := mid _ (.inl rfl)
        have r1 := (f1 _ rfl).2
        show Back P β _ (if (s.rtag row).lhsInf then (_, UNCHANGED) else updateLb _ k (D.divq (s.lhs row) a) row).1
        generalize (if (s.rtag row).rhsInf then (({ s with asrt := b } : St), UNCHANGED) else
            updateUb { s with asrt := b } k (D.divq (s.rhs row) a) row) = x at m1 ml r1 ⊢
        split
        · exact .refl _ _ _
        · rename_i hl
          exact (updateLb_back m1.feas m1.gi r1 (by rw [m1.rtag]; exact h1) m1.act (by rw [m1.A]; exact hA) _ (by
              rw [if_pos hpos]; exact sideTight_mid ml m1.rtag (tL (by simpa using hl))) (by
              have := oL (by simpa using hl)
              rw [decide_eq_true hpos] at this
              exact sideHolds_mid ml this)).1
      · rename_i hpos
        have f1 : ∀ t : St × Status, t = (if (s.rtag row).rhsInf then (({ s with asrt := b } : St), UNCHANGED) else
            updateLb { s with asrt := b } k (D.divq (s.rhs row) a) row) →
            Back P β { s with asrt := b } t.1 ∧ InRng t.1 := by
          rintro t rfl
          split
          · exact ⟨.refl _ _ _, n2⟩
          · rename_i hr
            exact updateLb_back F2 g2 n2 i2 k2 A2 _ (by
              rw [if_neg hpos]; exact sideTight_mid (fun _ _ h => h) rfl (tR (by simpa using hr))) (by
              have := oR (by simpa using hr)
              rw [decide_eq_false hpos] at this
              exact sideHolds_mid (fun _ _ h => h) this)
        refine stonIneq_back (row := row) (first := fun t => if (s.rtag row).rhsInf then (t, UNCHANGED) else
            updateLb t k (D.divq (s.rhs row) a) row) (second := fun t => if (s.rtag row).lhsInf then (t, UNCHANGED) else
            updateUb t k (D.divq (s.lhs row) a) row) (f1 _ rfl).1 ?_ rfl
        obtain ⟨m1, ml⟩ := mid _ (.inr rfl)
        have r1 := (f1 _ rfl).2
        show Back P β _ (if (s.rtag row).lhsInf then (_, UNCHANGED) else updateUb _ k (D.divq (s.lhs row) a) row).1
        generalize (if (s.rtag row).rhsInf then (({ s with asrt := b } : St), UNCHANGED) else
            updateLb { s with asrt := b } k (D.divq (s.rhs row) a) row) = x at m1 ml r1 ⊢
        split
        · exact .refl _ _ _
        · rename_i hl
          exact (updateUb_back m1.feas m1.gi r1 (by rw [m1.rtag]; exact h1) m1.act (by rw [m1.A]; exact hA) _ (by
              rw [if_neg hpos]; exact sideTight_mid ml m1.rtag (tL (by simpa using hl))) (by
              have := oL (by simpa using hl)
              rw [decide_eq_false hpos] at this
              exact sideHolds_mid ml this)).1

/-! ### All singleton rows -/

theorem stonEqLoop_kkt (μ : Mode) (P : LP) (L : List ℕ) (s : St) :
    KeepsKkt μ P β (fun s => NoRows s ∧ Short L s) NoRows s (stonEqLoop L s) := by
  refine ⟨(stonEqLoop_goodF μ P L s).toR, ?_⟩
  induction L generalizing s with
  | nil => exact fun _ _ c _ => ⟨c.plain, .refl _ _ _⟩
  | cons row rest ih =>
    unfold stonEqLoop
    split
    · exact fun f o c hi => ih s f o c ⟨hi.1, fun i h => hi.2 i (List.mem_cons_of_mem _ h)⟩
    · rename_i hc
      have heq : (s.rtag row).eq = true := by
        cases h : (s.rtag row).eq
        · rw [h] at hc; simp at hc
        · rfl
      simp only
      have g := removeStonRow_eq_good μ s row heq
      have g2 := (g.keep (P := Short rest) Short.mono).withF
          (fun o i hi _ h => removeStonRow_eq_feas (P := P) heq hi.1.2 i.gi h o)
      split
      · exact fun f => absurd f not_fine_infeasible
      · intro f o c hi
        have o1 := (stonEqLoop_goodF μ P rest _ o).1
        have hb := removeStonRow_eq_back (β := β) heq c hi.1 (hi.2 row List.mem_cons_self) o1
        obtain ⟨c', j⟩ := c.next g2 o1
          ⟨⟨hi.1, hi.2 row List.mem_cons_self⟩, fun i h => hi.2 i (List.mem_cons_of_mem _ h)⟩
          ((removeStonRow_grow s row).plain c.plain)
        obtain ⟨h1, h2⟩ := ih _ f o c' j
        exact ⟨h1, hb.trans h2⟩

theorem stonIneqLoop_kkt (μ : Mode) (P : LP) (L : List ℕ) (s : St) :
    KeepsKkt μ P β (Short L) (fun _ => True) s (stonIneqLoop L s) := by
  refine ⟨(stonIneqLoop_goodF μ P L s).toR, ?_⟩
  induction L generalizing s with
  | nil => exact fun _ _ c _ => ⟨c.plain, .refl _ _ _⟩
  | cons row rest ih =>
    have hs : ∀ t, Short (row :: rest) t → Short rest t := fun t h i hi => h i (List.mem_cons_of_mem _ hi)
    unfold stonIneqLoop
    split
    · exact fun f o c hi => ih s f o c (hs _ hi)
    · rename_i hc
      have heq : (s.rtag row).eq = false := by
        cases h : (s.rtag row).eq
        · rfl
        · rw [h] at hc; simp at hc
      simp only
      have g : Good μ (Short (row :: rest)) (Short rest) s (removeStonRow s row).1 := by
        have g0 : Good μ (fun _ => True) (fun _ => True) s (removeStonRow s row).1 :=
          Good.weaken (removeStonRow_ineq_good μ s row heq) (fun _ => id) (fun _ _ => trivial)
        exact (g0.keep (P := Short (row :: rest)) Short.mono).weaken (fun _ h => ⟨trivial, h⟩) (fun _ h => hs _ h.2)
      have g2 := g.withF (fun o i hi _ h =>
        removeStonRow_ineq_feas (P := P) heq (hi row List.mem_cons_self) i.gi h o)
      split
      · exact fun f => absurd f not_fine_infeasible
      · intro f o c hi
        have o1 := (stonIneqLoop_goodF μ P rest _ o).1
        have hb := removeStonRow_ineq_back (β := β) heq c (hi row List.mem_cons_self) o1
        obtain ⟨c', j⟩ := c.next g2 o1 hi ((removeStonRow_grow s row).plain c.plain)
        obtain ⟨h1, h2⟩ := ih _ f o c' j
        exact ⟨h1, hb.trans h2⟩

theorem removeStonRows_kkt (μ : Mode) (P : LP) (N : ℕ) (s : St) :
    KeepsKkt μ P β (fun s => Clean s ∧ long s ≤ N) (fun s => Clean s ∧ StonLess N s) s (removeStonRows s) := by
  refine ⟨(removeStonRows_goodF μ P N s).toR, ?_⟩
  unfold removeStonRows
  split
  · exact fun _ _ c _ => ⟨c.plain, .refl _ _ _⟩
  · simp only
    have g1 : KeepsKkt μ P β (fun s => Clean s ∧ long s ≤ N) (fun t => Short s.stonRows t ∧ long t ≤ N)
        s (stonEqLoop s.stonRows s) := by
      have g := KeepsKkt.keep (stonEqLoop_kkt (β := β) μ P s.stonRows s) (F := fun t => Short s.stonRows t ∧ long t ≤ N)
        (fun m h => ⟨Short.mono m h.1, (long_mono m).trans h.2⟩)
      exact g.weaken (fun i h => ⟨⟨h.1.1, i.ston⟩, i.ston, h.2⟩) (fun i h => h.2)
    split
    · exact g1.back
    · rename_i h
      have hf := fine_of_two (stonEqLoop_st _ _) h
      have g2 : KeepsKkt μ P β (fun t => Short s.stonRows t ∧ long t ≤ N) (fun t => long t ≤ N)
          (stonEqLoop s.stonRows s).1 (stonIneqLoop s.stonRows (stonEqLoop s.stonRows s).1) :=
        (KeepsKkt.keep (stonIneqLoop_kkt μ P s.stonRows _) (F := fun t => long t ≤ N)
          (fun m h => (long_mono m).trans h)).weaken (fun _ h => h) (fun _ h => h.2)
      split
      · exact (KeepsKkt.then g1 hf g2).back
      · rename_i h2
        have hf2 := fine_of_two (stonIneqLoop_st _ _) h2
        refine (KeepsKkt.then (KeepsKkt.then g1 hf g2) hf2 (K := Clean) ?_).back
        generalize (stonIneqLoop s.stonRows (stonEqLoop s.stonRows s).1).1 = t
        have g3 : KeepsKkt μ P β (fun t => long t ≤ N) (fun s => s.stonRows = [] ∧ long s ≤ N) t
            ({ t with stonRows := [] }, UNCHANGED) := by
          have sc : SameCore t { t with stonRows := [] } := by constructor <;> rfl
          refine .core sc (Good.withF (.of (fun o => o) (fun _ i hi =>
            ⟨⟨.single (.same sc), ?_, fun _ h => Or.inl h, rfl, id⟩, rfl, hi⟩))
            (fun _ _ _ _ h => h.core sc (fun _ => .refl _)))
          intro _ h; cases h
        exact g3.next (delBoth_kkt μ P _ _)

theorem stonRowsLoop_kkt (μ : Mode) (P : LP) (fuel : ℕ) (s : St) :
    KeepsKkt μ P β (fun s => Clean s ∧ ((s.stonRows = [] ∧ 1 ≤ fuel) ∨ long s + 2 ≤ fuel)) Clean s
      (stonRowsLoop fuel s) := by
  refine ⟨(stonRowsLoop_goodF μ P fuel s).toR, ?_⟩
  induction fuel generalizing s with
  | zero =>
    intro _ _ _ hi
    obtain ⟨-, h | h⟩ := hi <;> omega
  | succ fuel ih =>
    unfold stonRowsLoop
    simp only
    have k := removeStonRows_kkt (β := β) μ P (long s) s
    intro f o c hi
    split at o
    · rename_i h
      rw [if_pos h] at f ⊢
      exact k.back f o c ⟨hi.1, le_refl _⟩
    · rename_i h
      rw [if_neg h] at f ⊢
      split at o
      · rename_i h2
        rw [if_pos h2] at f ⊢
        have hf : fine (removeStonRows s).2 := by rw [h2]; exact fine_reduced
        have hne : s.stonRows ≠ [] := by
          intro e
          unfold removeStonRows at h2
          rw [if_pos e] at h2
          cases h2
        have hl : long s + 2 ≤ fuel + 1 := by
          rcases hi.2 with h | h
          · exact absurd h.1 hne
          · exact h
        have o1 := (stonRowsLoop_goodF μ P fuel _ o).1
        obtain ⟨c', j⟩ := k.base hf o1 c ⟨hi.1, le_refl _⟩
        have hb := (k.back hf o1 c ⟨hi.1, le_refl _⟩).2
        obtain ⟨h3, h4⟩ := ih _ f o c' ⟨j.1, by
          rcases j.2 with e | e
          · exact Or.inl ⟨e, by omega⟩
          · exact Or.inr (by omega)⟩
        exact ⟨h3, hb.trans h4⟩
      · rename_i h2
        rw [if_neg h2] at f ⊢
        exact k.back f o c ⟨hi.1, le_refl _⟩

/-! ### The trivial explorers -/

theorem check3_kkt (μ : Mode) (P : LP) (s : St) (x y z : Bool) :
    KeepsKkt μ P β Clean Clean s (((s.check x).check y).check z, UNCHANGED) := by
  have h1 : KeepsKkt μ P β Clean Clean s (s.check x, UNCHANGED) := KeepsKkt.check s x (fun _ h => h)
  have h2 : KeepsKkt μ P β Clean Clean (s.check x) ((s.check x).check y, UNCHANGED) := KeepsKkt.check _ y (fun _ h => h)
  have h3 : KeepsKkt μ P β Clean Clean ((s.check x).check y) (((s.check x).check y).check z, UNCHANGED) :=
    KeepsKkt.check _ z (fun _ h => h)
  exact (h1.next h2).next h3

theorem runTrivial_kkt (hμ : μ.near = false) (P : LP) (stgs : Settings) (s : St) :
    KeepsKkt μ P β Clean Clean s (runTrivial stgs s) := by
  refine ⟨(runTrivial_goodF μ P stgs s).toR, ?_⟩
  unfold runTrivial
  simp only
  have g := trivialHead_kkt (β := β) hμ P stgs s
  split
  · exact g.back
  · rename_i h1
    split
    · exact g.back
    · rename_i h2
      have hf : fine (trivialHead stgs s).2 := trivialHead_st stgs s h1 h2
      have g2 : KeepsKkt μ P β Clean Clean s (stonRowsLoop ((trivialHead stgs s).1.m + 2) (trivialHead stgs s).1) := by
        refine KeepsKkt.then g hf ?_
        generalize (trivialHead stgs s).1 = t
        exact (stonRowsLoop_kkt μ P (t.m + 2) t).weaken
          (fun _ h => ⟨h, Or.inr (by have := long_le t; omega)⟩) (fun _ h => h)
      split
      · exact g2.back
      · rename_i h3
        have g3 := KeepsKkt.then g2 (fine_of_two (stonRowsLoop_st _ _) h3) (removeEmptyRows_kkt μ P _)
        split
        · exact g3.back
        · rename_i h4
          have g4 := KeepsKkt.then g3 (fine_of_two (removeEmptyRows_st _) h4) (removeEmptyCols_kkt μ P _)
          split
          · exact g4.back
          · rename_i h5
            exact (KeepsKkt.then g4 (fine_of_two (removeEmptyCols_st _) h5) (check3_kkt μ P _ _ _ _)).back

/-! ### Whole runs -/

theorem mainLoop_kkt (hμ : μ.near = false) (P : LP) (env : Env) (stgs : Settings)
    (h1 : stgs.stonCols = false) (h2 : stgs.dtonEq = false)
    (hm : ∀ s, KeepsKkt μ P β Clean Clean s (runMedium env stgs s))
    (fuel : ℕ) (s : St) (c : Complexity) (b a : ℤ) :
    KeepsKkt μ P β Clean Clean s ((mainLoop env stgs fuel s c b a).1, (mainLoop env stgs fuel s c b a).2.1) := by
  induction fuel generalizing s c b a with
  | zero => exact .refl _ _ _ _ _
  | succ fuel ih =>
    unfold mainLoop
    simp only
    have hT : KeepsKkt μ P β Clean Clean s (runTrivial stgs s) := runTrivial_kkt hμ P stgs s
    generalize runTrivial stgs s = r at hT
    split
    · exact hT
    · rename_i hu
      have hu : r.2 = UNCHANGED := by simpa using hu
      have key : ∀ q : St × Status, KeepsKkt μ P β Clean Clean r.1 q → KeepsKkt μ P β Clean Clean s
          ((if updateTermination (if c = .medium then q.1.nnz else a) b c q.2 (env.timeUp q.1.tick) = true then
            ({ q.1 with tick := q.1.tick + 1 }, q.2, true)
          else mainLoop env stgs fuel { q.1 with tick := q.1.tick + 1 } (updateComplexity c r.1.nnz q.1.nnz)
            (if c = .medium then (if c = .medium then q.1.nnz else a) else b)
            (if c = .medium then q.1.nnz else a)).1,
          (if updateTermination (if c = .medium then q.1.nnz else a) b c q.2 (env.timeUp q.1.tick) = true then
            ({ q.1 with tick := q.1.tick + 1 }, q.2, true)
          else mainLoop env stgs fuel { q.1 with tick := q.1.tick + 1 } (updateComplexity c r.1.nnz q.1.nnz)
            (if c = .medium then (if c = .medium then q.1.nnz else a) else b)
            (if c = .medium then q.1.nnz else a)).2.1) := by
        intro q h2
        have h3 := KeepsKkt.then hT (by rw [hu]; exact fine_unchanged) h2
        have sc : SameCore q.1 { q.1 with tick := q.1.tick + 1 } := by constructor <;> rfl
        have gt : Good μ (Fz P Clean) (Fz P Clean) q.1 { q.1 with tick := q.1.tick + 1 } :=
          Good.withF (.same sc rfl rfl rfl (fun o => ⟨o.1, o.2⟩) (fun _ h => h))
            (fun _ _ _ _ h => h.core sc (fun _ => .refl _))
        have h4 : KeepsKkt μ P β Clean Clean s ({ q.1 with tick := q.1.tick + 1 }, q.2) := by
          have := h3.trans (KeepsKkt.core (st := UNCHANGED) sc gt)
          have e : q.2 ||| UNCHANGED = q.2 := Nat.or_zero _
          rw [e] at this; exact this
        generalize (if c = .medium then q.1.nnz else a) = a'
        generalize (if c = .medium then a' else b) = b'
        split
        · exact h4
        · rename_i ht
          have hq : fine q.2 := by
            unfold updateTermination at ht
            simp only [Bool.or_eq_true, not_or, Bool.not_eq_true] at ht
            exact ht.1.1
          exact KeepsKkt.then h4 hq (ih { q.1 with tick := q.1.tick + 1 } (updateComplexity c r.1.nnz q.1.nnz) b' a')
      cases c with
      | fast =>
        refine key _ ?_
        unfold runFast
        rw [h1, h2]
        exact .refl _ _ _ _ _
      | medium =>
        exact key _ (hm _)

theorem runMedium_off_kkt (env : Env) (stgs : Settings) (h3 : stgs.primalPropagation = false)
    (hr : stgs.parallelRows = false) (hc : stgs.parallelCols = false) (s : St) :
    KeepsKkt μ P β Clean Clean s (runMedium env stgs s) := by
  unfold runMedium
  rw [h3, hr, hc]
  simp only [Bool.false_eq_true, if_false]
  rw [ite_self, ite_self]
  exact .refl _ _ _ _ _

end

end Verif
