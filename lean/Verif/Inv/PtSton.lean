import Verif.Inv.PtOps

/-!
# Optimality conditions of the problem that is left: singleton rows
-/

namespace Verif

section
variable {μ : Mode} {I J I' J' : St → Prop} {s t u : St} {σ : Sol} {k row i : ℕ} {a : ℚ} {r : St × Status}

theorem KeepsP.weakenI (h : KeepsP μ I J s r) (hI : Inv s → I' s → I s) (hJ : J r.1 → J' r.1) : KeepsP μ I' J' s r :=
  ⟨⟨h.good.1, fun f => (h.good.2 f).weaken hI (fun _ => hJ)⟩, fun f o c hi => h.back f o c (hI c.inv hi)⟩

theorem KeepsP.keep {F : St → Prop} (h : KeepsP μ I J s r) (hF : Mono s r.1 → F s → F r.1) :
    KeepsP μ (fun s => I s ∧ F s) (fun s => J s ∧ F s) s r :=
  ⟨⟨h.good.1, fun f => (h.good.2 f).keep hF⟩, fun f o c hi => h.back f o c hi.1⟩

/-! ### Equality rows -/

theorem Num.stonEq (n : Num s) {v : ℚ} : Num (stonEqStep s row k a (.fin v)) := by
  have tr : ∀ r, r ≠ row → (stonEqStep s row k a (.fin v)).rtag r = s.rtag r := fun r hr => upd_ne _ _ hr
  have ti : ((stonEqStep s row k a (.fin v)).rtag row).inactive = true := by
    show (upd s.rtag row _ row).inactive = true
    rw [upd_same]
  have n1 := n.fix (k := k) (val := .fin v) ⟨v, rfl⟩ (s.c k)
  refine n1.deact (t := stonEqStep s row k a (.fin v)) (i := row) tr ti rfl rfl rfl rfl rfl rfl rfl

theorem PtBack.stonEq (g : GI s) (hN : NoRows s) (hi : (s.rtag row).inactive = false)
    (hk : (s.ctag k).inactive = false) (hA : s.A row = [(k, a)]) (hl : (s.rtag row).lhsInf = false)
    (hr : (s.rtag row).rhsInf = false) {b : ℚ} (hL : s.lhs row = .fin b) (hR : s.rhs row = .fin b) :
    PtBack s (stonEqStep s row k a (.fin (b / a))) := by
  have hrows : ∀ p ∈ s.AT k, (s.rtag p.1).inactive = false := fun p hp => g.rowsActive hN hk p hp
  have hcell : (k, a) ∈ s.A row := by rw [hA]; exact List.mem_cons_self
  have hq : a ≠ 0 := (g.rowRange row _ hcell).2.2
  have hT : (row, a) ∈ s.AT k := (g.agree row k a (g.rowActive hi) (g.colActive hk)).mp hcell
  generalize hval : (D.fin (b / a)) = val
  refine .log (new := [.deletedRow row (s.c k / a), .addedRows row (s.AT k) a, .fixedCol k val (s.c k) (s.AT k)]) rfl
    (by simp [Rec.isHead]) (fun σ h => ?_)
  have hst := h.stat.stonEq g hi hk hA hrows
  have tr : ∀ r, r ≠ row → (stonEqStep s row k a val).rtag r = s.rtag r := fun r hr => upd_ne _ _ hr
  have hfin : ∀ p ∈ s.AT k, p.1 ≠ row → ∃ q, σ.y p.1 = .fin q := fun p hp hne =>
    h.stat.y p.1 (by rw [tr _ hne]; exact hrows p hp)
  -- the dual of the row
  have hy : ∀ r, (([Rec.deletedRow row (s.c k / a), .addedRows row (s.AT k) a, .fixedCol k val (s.c k) (s.AT k)].foldl
      retRec σ).y r).toQ = if r = row then
        s.c k / a - dot (s.AT k) (fun j => if j = row then 0 else (σ.y j).toQ) / a else (σ.y r).toQ := by
    intro r
    show (upd (upd σ.y row (.fin (s.c k / a))) row ((s.AT k).foldl (fun b p => if p.1 = row then b else
      D.sub b (D.smul (p.2 / a) (upd σ.y row (.fin (s.c k / a)) p.1))) (upd σ.y row (.fin (s.c k / a)) row)) r).toQ = _
    by_cases e : r = row
    · subst e
      rw [upd_same, upd_same, foldl_added_val, if_pos rfl, D.toQ_fin]
      · congr 2
        refine congrArg (dot (s.AT k)) (funext fun j => ?_)
        by_cases e : j = r
        · rw [if_pos e, if_pos e]
        · rw [if_neg e, if_neg e, upd_ne _ _ e]
      · intro p hp hne
        rw [upd_ne _ _ hne]; exact hfin p hp hne
    · rw [upd_ne _ _ e, upd_ne _ _ e, if_neg e]
  have hz0 : (([Rec.deletedRow row (s.c k / a), .addedRows row (s.AT k) a, .fixedCol k val (s.c k) (s.AT k)].foldl
      retRec σ).z k).toQ = 0 := by
    rw [hst.z k hk, colSum_col g hk hrows, D.toQ_fin]
    simp only [hy]
    have := dot_update_mem (g.colSorted k).nodup hT (fun j => if j = row then 0 else (σ.y j).toQ)
      (s.c k / a - dot (s.AT k) (fun j => if j = row then 0 else (σ.y j).toQ) / a)
    have e : (fun j => if j = row then s.c k / a - dot (s.AT k) (fun j => if j = row then 0 else (σ.y j).toQ) / a
        else if j = row then 0 else (σ.y j).toQ) = (fun j => if j = row then
        s.c k / a - dot (s.AT k) (fun j => if j = row then 0 else (σ.y j).toQ) / a else (σ.y j).toQ) := by
      funext j; split <;> rfl
    rw [e] at this
    rw [this, if_pos rfl]
    field_simp; ring
  generalize hτ : ([Rec.deletedRow row (s.c k / a), .addedRows row (s.AT k) a, .fixedCol k val (s.c k) (s.AT k)].foldl
      retRec σ) = τ at *
  have hx : ∀ j, τ.x j = upd σ.x k val j := by rw [← hτ]; exact fun _ => rfl
  have hzz : ∀ j, j ≠ k → τ.z j = σ.z j := by rw [← hτ]; exact fun j hj => upd_ne _ _ hj
  have tc : ∀ j, j ≠ k → (stonEqStep s row k a val).ctag j = s.ctag j := fun r hr => upd_ne _ _ hr
  have hpt : pt (stonEqStep s row k a val) σ = pt s τ := by
    funext j
    unfold pt
    show (if (upd s.ctag k _ j).inactive then (upd s.ub k val j).toQ else _) = _
    rw [hx]
    by_cases e : j = k
    · subst e
      rw [upd_same, upd_same, upd_same, if_pos (CTag.inactive_fixed _), hk]; rfl
    · rw [upd_ne _ _ e, upd_ne _ _ e, upd_ne _ _ e]
  have hdot : dot (s.A row) (pt s τ) = b := by
    rw [hA, dot_cons, dot_nil, add_zero]
    unfold pt
    rw [hk, hx, upd_same, ← hval]
    show a * (b / a) = b
    field_simp
  refine ⟨fun j hj => ?_, hst, fun r hr' hp => ?_, fun r hr' hp => ?_, fun j hj hp => ?_, fun j hj hp => ?_⟩
  · rw [hx]
    by_cases e : j = k
    · subst e; rw [upd_same, ← hval]; exact ⟨_, rfl⟩
    · rw [upd_ne _ _ e]; exact h.num j (by rw [tc j e]; exact hj)
  · by_cases e : r = row
    · subst e; rw [hdot]; exact ⟨hl, hL⟩
    · rw [hy, if_neg e] at hp
      have := h.lhs r (by rw [tr r e]; exact hr') hp
      rw [tr r e, hpt] at this
      rwa [show (stonEqStep s row k a val).A r = s.A r from upd_ne _ _ e] at this
  · by_cases e : r = row
    · subst e; rw [hdot]; exact ⟨hr, hR⟩
    · rw [hy, if_neg e] at hp
      have := h.rhs r (by rw [tr r e]; exact hr') hp
      rw [tr r e, hpt] at this
      rwa [show (stonEqStep s row k a val).A r = s.A r from upd_ne _ _ e] at this
  · by_cases e : j = k
    · subst e; rw [hz0] at hp; exact absurd hp (lt_irrefl _)
    · rw [hzz j e] at hp
      have := h.lb j (by rw [tc j e]; exact hj) hp
      rw [tc j e] at this
      rw [hx, upd_ne _ _ e, ← this.2]
      exact ⟨this.1, (upd_ne _ _ e).symm⟩
  · by_cases e : j = k
    · subst e; rw [hz0] at hp; exact absurd hp (lt_irrefl _)
    · rw [hzz j e] at hp
      have := h.ub j (by rw [tc j e]; exact hj) hp
      rw [tc j e] at this
      rw [hx, upd_ne _ _ e, ← this.2]
      exact ⟨this.1, (upd_ne _ _ e).symm⟩

/-! ### Bounds from inequality rows -/

/-- `v` is what one side of row `row`, with the one cell `(k, a)`, gives for column `k`. -/
def SideVal (s : St) (row : ℕ) (a : ℚ) (right : Bool) (v : D) : Prop :=
  ∃ b, v = .fin (b / a) ∧ if right then (s.rtag row).rhsInf = false ∧ s.rhs row = .fin b
    else (s.rtag row).lhsInf = false ∧ s.lhs row = .fin b

theorem KktP.bound (g : GI s) (hrng : InRng s) (hi : (s.rtag row).inactive = false)
    (hk : (s.ctag k).inactive = false) (hA : s.A row = [(k, a)]) {implied other : D} {low : Bool}
    (h : KktP t σ) (tm : t.m = s.m) (tA : t.A = s.A) (tc : t.c = s.c) (tl : t.lhs = s.lhs) (tr : t.rhs = s.rhs)
    (trt : t.rtag = s.rtag) (tct : ∀ p, p ≠ k → t.ctag p = s.ctag p) (tck : (t.ctag k).inactive = false)
    (tlb : ∀ p, p ≠ k → t.lb p = s.lb p) (tub : ∀ p, p ≠ k → t.ub p = s.ub p)
    (hlow : if low then t.ub k = implied ∧ t.lb k = s.lb k ∧ s.lb k = other ∧ (t.ctag k).lbInf = (s.ctag k).lbInf
      else t.lb k = implied ∧ t.ub k = s.ub k ∧ s.ub k = other ∧ (t.ctag k).ubInf = (s.ctag k).ubInf)
    (hv : SideVal s row a (decide (0 < a) == low) implied) :
    KktP s (retBoundChange σ row (s.A row) k implied other low) := by
  have hmem : (k, a) ∈ s.A row := by rw [hA]; exact List.mem_cons_self
  have hnd := (g.rowSorted row).nodup
  have ha : a ≠ 0 := (g.rowRange row _ hmem).2.2
  have hta : ∀ p, (t.ctag p).inactive = (s.ctag p).inactive := fun p => by
    by_cases e : p = k
    · subst e; rw [tck, hk]
    · rw [tct p e]
  have hpt : pt t σ = pt s σ := by
    funext p
    unfold pt
    rw [hta]
    by_cases e : p = k
    · subst e; rw [hk]; rfl
    · rw [tub p e]
  have hstat : StatAt s σ := h.stat.frame rfl rfl tm (fun i _ => by rw [tA]) tc (fun _ => by rw [trt]) hta
  obtain ⟨q, hxk⟩ := h.num k tck
  obtain ⟨y0, hy0⟩ := hstat.y row hi
  have hzk := hstat.z k hk
  set Z := s.c k - colSum s (fun i => (σ.y i).toQ) k with hZ
  have hlbk : 0 < Z → t.lb k = σ.x k := fun hp => (h.lb k tck (by rw [hzk]; exact hp)).2
  have hubk : Z < 0 → t.ub k = σ.x k := fun hp => (h.ub k tck (by rw [hzk]; exact hp)).2
  have himp : (if low then Z < 0 else 0 < Z) → implied = σ.x k := by
    cases low with
    | true => exact fun hp => hlow.1.symm.trans (hubk hp)
    | false => exact fun hp => hlow.1.symm.trans (hlbk hp)
  have hoth : (if low then 0 < Z else Z < 0) → other = σ.x k := by
    cases low with
    | true => exact fun hp => (hlow.2.1.trans hlow.2.2.1).symm.trans (hlbk hp)
    | false => exact fun hp => (hlow.2.1.trans hlow.2.2.1).symm.trans (hubk hp)
  obtain ⟨d, hM, hd, hd1, hd2⟩ := retBoundChange_moved (i := row) (implied := implied) (other := other) (low := low) hnd hmem
    ha hzk hxk (fun hp => (himp hp).trans hxk) (fun hp => (hoth hp).trans hxk)
  have hst := StatAt.bound (t := s) (implied := implied) (other := other) (low := low) g hrng hi hk ⟨a, hmem⟩ hstat
  generalize retBoundChange σ row (s.A row) k implied other low = τ at hM hst ⊢
  have hps : pt s τ = pt s σ := by unfold pt; rw [hM.x]
  have zk' : (τ.z k).toQ = Z - d := by rw [hM.zCol _ hzk]; rfl
  have hoff : ∀ p, p ≠ k → τ.z p = σ.z p := by
    intro p h1
    refine hM.zOther p (fun hm => ?_)
    rw [hA] at hm; simp at hm; exact h1 hm
  have yr' : (τ.y row).toQ = y0 + d / a := by rw [hM.y _ hy0]; rfl
  -- the side is tight where the dual moves
  have hside : d ≠ 0 → if decide (0 < a) == low then
      ((s.rtag row).rhsInf = false ∧ s.rhs row = .fin (dot (s.A row) (pt s σ))) ∧ d / a < 0
      else ((s.rtag row).lhsInf = false ∧ s.lhs row = .fin (dot (s.A row) (pt s σ))) ∧ 0 < d / a := by
    intro hne
    have hdZ : d = Z := hd.resolve_left hne
    have hs : if low then Z < 0 else 0 < Z := by
      cases low with
      | true =>
        by_contra hn
        have hn : ¬ Z < 0 := hn
        exact hne (hd2 (lt_of_le_of_ne (not_lt.mp hn) (fun e => hne (hdZ.trans e.symm))))
      | false =>
        by_contra hn
        have hn : ¬ 0 < Z := hn
        exact hne (hd2 (lt_of_le_of_ne (not_lt.mp hn) (fun e => hne (hdZ.trans e))))
    obtain ⟨b, hb, hv⟩ := hv
    have e1 : dot (s.A row) (pt s σ) = b := by
      rw [hA, dot_cons, dot_nil, add_zero]
      unfold pt
      rw [hk, ← himp hs, hb]
      show a * (b / a) = b
      field_simp
    rw [e1, hdZ]
    rcases lt_or_gt_of_ne ha with hn | hn
    · rw [decide_eq_false (not_lt.mpr hn.le)] at hv ⊢
      cases low with
      | true => exact ⟨hv, div_pos_of_neg_of_neg hs hn⟩
      | false => exact ⟨hv, div_neg_of_pos_of_neg hs hn⟩
    · rw [decide_eq_true hn] at hv ⊢
      cases low with
      | true => exact ⟨hv, div_neg_of_neg_of_pos hs hn⟩
      | false => exact ⟨hv, div_pos hs hn⟩
  have hlr := h.lhs row (by rw [trt]; exact hi)
  have hrr := h.rhs row (by rw [trt]; exact hi)
  rw [hy0, trt, tl, tA, hpt] at hlr
  rw [hy0, trt, tr, tA, hpt] at hrr
  refine ⟨?_, hst, ?_, ?_, ?_, ?_⟩
  · rw [hM.x]; exact fun p hp => h.num p (by rw [hta]; exact hp)
  · intro r hr hy
    rw [hps]
    by_cases e : r = row
    · subst e
      rw [yr'] at hy
      by_cases hp : 0 < y0
      · exact hlr hp
      · have hne : d ≠ 0 := by rintro rfl; rw [zero_div, add_zero] at hy; exact hp hy
        have hs := hside hne
        by_cases hb : (decide (0 < a) == low) = true
        · rw [if_pos hb] at hs; linarith [hs.2]
        · rw [if_neg hb] at hs; exact hs.1
    · rw [hM.yOther r e] at hy
      have := h.lhs r (by rw [trt]; exact hr) hy
      rwa [trt, tl, tA, hpt] at this
  · intro r hr hy
    rw [hps]
    by_cases e : r = row
    · subst e
      rw [yr'] at hy
      by_cases hp : y0 < 0
      · exact hrr hp
      · have hne : d ≠ 0 := by rintro rfl; rw [zero_div, add_zero] at hy; exact hp hy
        have hs := hside hne
        by_cases hb : (decide (0 < a) == low) = true
        · rw [if_pos hb] at hs; exact hs.1
        · rw [if_neg hb] at hs; linarith [hs.2]
    · rw [hM.yOther r e] at hy
      have := h.rhs r (by rw [trt]; exact hr) hy
      rwa [trt, tr, tA, hpt] at this
  · intro p hp hz
    rw [hM.x]
    by_cases e : p = k
    · subst e
      rw [zk'] at hz
      have hd0 : d = 0 := by
        rcases hd with e | e
        · exact e
        · exfalso; linarith
      have hZp : 0 < Z := by linarith
      cases low with
      | true =>
        have := h.lb p tck (by rw [hzk]; exact hZp)
        rw [hlow.2.2.2, hlow.2.1] at this; exact this
      | false => exact absurd (hd1 hZp) (by linarith)
    · rw [hoff p e] at hz
      have := h.lb p (by rw [hta]; exact hp) hz
      rwa [tct p e, tlb p e] at this
  · intro p hp hz
    rw [hM.x]
    by_cases e : p = k
    · subst e
      rw [zk'] at hz
      have hd0 : d = 0 := by
        rcases hd with e | e
        · exact e
        · exfalso; linarith
      have hZp : Z < 0 := by linarith
      cases low with
      | false =>
        have := h.ub p tck (by rw [hzk]; exact hZp)
        rw [hlow.2.2.2, hlow.2.1] at this; exact this
      | true => exact absurd (hd1 hZp) (by linarith)
    · rw [hoff p e] at hz
      have := h.ub p (by rw [hta]; exact hp) hz
      rwa [tct p e, tub p e] at this

/-- The situation while the two sides of a singleton inequality are turned into bounds. -/
structure StonPt (row k : ℕ) (a : ℚ) (rt : ℕ → RTag) (l r : ℕ → D) (s : St) : Prop where
  gi : GI s
  rng : InRng s
  num : Num s
  rowOn : (s.rtag row).inactive = false
  col : (s.ctag k).inactive = false
  cells : s.A row = [(k, a)]
  rtag : s.rtag = rt
  lhs : s.lhs = l
  rhs : s.rhs = r
  pend : k ∉ s.fixedCols

theorem Num.bound (h : Num s) (hp : k ∉ s.fixedCols) (hk : (s.ctag k).inactive = false)
    (hc : ∀ j, j ≠ k → t.ctag j = s.ctag j)
    (hlb : ∀ j, j ≠ k → t.lb j = s.lb j) (hub : ∀ j, j ≠ k → t.ub j = s.ub j) (hr : t.rtag = s.rtag)
    (hl : t.lhs = s.lhs) (hu : t.rhs = s.rhs) (hf : t.fixedCols = s.fixedCols) (hs : t.subCols = s.subCols)
    (h1 : LoForm (t.ctag k).lbInf (t.lb k)) (h2 : HiForm (t.ctag k).ubInf (t.ub k)) : Num t := by
  refine ⟨by rw [hr, hl]; exact h.lhs, by rw [hr, hu]; exact h.rhs, by rw [hr]; exact h.eq, fun j hj => ?_,
    fun j hj => ?_, fun j hj => ?_, hs.trans h.subs⟩
  · by_cases e : j = k
    · subst e; exact h1
    · rw [hc j e] at hj ⊢; rw [hlb j e]; exact h.lb j hj
  · by_cases e : j = k
    · subst e; exact h2
    · rw [hc j e] at hj ⊢; rw [hub j e]; exact h.ub j hj
  · rw [hf] at hj
    rw [hub j (fun e => hp (e ▸ hj))]; exact h.pend j hj

theorem updateUb_pt {rt : ℕ → RTag} {l r : ℕ → D} (h : StonPt row k a rt l r s) {v : D}
    (hv : SideVal s row a (decide (0 < a)) v) :
    PtBack s (updateUb s k v row).1 ∧ StonPt row k a rt l r (updateUb s k v row).1 := by
  rcases updateUb_eq s k v row with ⟨st, e⟩ | ⟨ac, u, e⟩
  · rw [e]
    exact ⟨.core (sameCore_check _ _), (sameCore_check s _).gi h.gi, h.rng, h.num.core (sameCore_check _ _), h.rowOn, h.col,
      h.cells, h.rtag, h.lhs, h.rhs, h.pend⟩
  · rw [e]
    have tck : ((upd s.ctag k { s.ctag k with ubInf := false }) k).inactive = false := by
      rw [upd_same]; exact h.col
    have hact : ∀ j, ((upd s.ctag k { s.ctag k with ubInf := false }) j).inactive = (s.ctag j).inactive := by
      intro j
      by_cases e : j = k
      · subst e; rw [upd_same]; rfl
      · rw [upd_ne _ _ e]
    constructor
    · intro σ hσ
      refine ⟨retBoundChange σ row (s.A row) k v (s.lb k) true, rfl, ?_⟩
      refine hσ.bound (a := a) h.gi h.rng h.rowOn h.col h.cells rfl rfl rfl rfl rfl rfl (fun j hj => upd_ne _ _ hj) tck
        (fun j hj => upd_ne _ _ hj) (fun j hj => upd_ne _ _ hj) ⟨upd_same _ _ _, upd_same _ _ _, rfl, ?_⟩ ?_
      · show (upd s.ctag k _ k).lbInf = _
        rw [upd_same]
      · rw [beq_true]; exact hv
    · refine ⟨h.gi.of_eq rfl rfl rfl rfl rfl hact rfl rfl rfl rfl rfl rfl rfl rfl, h.rng,
        h.num.bound (k := k) h.pend h.col (fun j hj => upd_ne _ _ hj) (fun j hj => upd_ne _ _ hj) (fun j hj => upd_ne _ _ hj)
          rfl rfl rfl rfl rfl ?_ ?_, h.rowOn, tck, h.cells, h.rtag, h.lhs, h.rhs, h.pend⟩
      · show LoForm (upd s.ctag k _ k).lbInf (upd s.lb k (s.lb k) k)
        rw [upd_same, upd_same]; exact h.num.lb k h.col
      · show HiForm (upd s.ctag k _ k).ubInf (upd s.ub k v k)
        rw [upd_same, upd_same]
        obtain ⟨b, hb, -⟩ := hv
        exact .inr ⟨rfl, _, hb⟩

theorem updateLb_pt {rt : ℕ → RTag} {l r : ℕ → D} (h : StonPt row k a rt l r s) {v : D}
    (hv : SideVal s row a (!decide (0 < a)) v) :
    PtBack s (updateLb s k v row).1 ∧ StonPt row k a rt l r (updateLb s k v row).1 := by
  rcases updateLb_eq s k v row with ⟨st, e⟩ | ⟨ac, u, e⟩
  · rw [e]
    exact ⟨.core (sameCore_check _ _), (sameCore_check s _).gi h.gi, h.rng, h.num.core (sameCore_check _ _), h.rowOn, h.col,
      h.cells, h.rtag, h.lhs, h.rhs, h.pend⟩
  · rw [e]
    have tck : ((upd s.ctag k { s.ctag k with lbInf := false }) k).inactive = false := by
      rw [upd_same]; exact h.col
    have hact : ∀ j, ((upd s.ctag k { s.ctag k with lbInf := false }) j).inactive = (s.ctag j).inactive := by
      intro j
      by_cases e : j = k
      · subst e; rw [upd_same]; rfl
      · rw [upd_ne _ _ e]
    constructor
    · intro σ hσ
      refine ⟨retBoundChange σ row (s.A row) k v (s.ub k) false, rfl, ?_⟩
      refine hσ.bound (a := a) h.gi h.rng h.rowOn h.col h.cells rfl rfl rfl rfl rfl rfl (fun j hj => upd_ne _ _ hj) tck
        (fun j hj => upd_ne _ _ hj) (fun j hj => upd_ne _ _ hj) ⟨upd_same _ _ _, upd_same _ _ _, rfl, ?_⟩ ?_
      · show (upd s.ctag k _ k).ubInf = _
        rw [upd_same]
      · rw [beq_false]; exact hv
    · refine ⟨h.gi.of_eq rfl rfl rfl rfl rfl hact rfl rfl rfl rfl rfl rfl rfl rfl, h.rng,
        h.num.bound (k := k) h.pend h.col (fun j hj => upd_ne _ _ hj) (fun j hj => upd_ne _ _ hj) (fun j hj => upd_ne _ _ hj)
          rfl rfl rfl rfl rfl ?_ ?_, h.rowOn, tck, h.cells, h.rtag, h.lhs, h.rhs, h.pend⟩
      · show LoForm (upd s.ctag k _ k).lbInf (upd s.lb k v k)
        rw [upd_same, upd_same]
        obtain ⟨b, hb, -⟩ := hv
        exact .inr ⟨rfl, _, hb⟩
      · show HiForm (upd s.ctag k _ k).ubInf (upd s.ub k (s.ub k) k)
        rw [upd_same, upd_same]; exact h.num.ub k h.col

/-! ### One singleton row -/

theorem removeStonRow_eq_pt (heq : (s.rtag row).eq = true) (c : Bs s) (hN : NoRows s)
    (hlen : (s.A row).length ≤ 1) (o : Ok μ (removeStonRow s row).1) :
    Num (removeStonRow s row).1 ∧ PtBack s (removeStonRow s row).1 := by
  cases hA : s.A row with
  | nil =>
    have e : removeStonRow s row = (s, UNCHANGED) := by
      unfold removeStonRow; rw [hA]
    rw [e]; exact ⟨c.num, .refl _⟩
  | cons p rest =>
    obtain ⟨k, a⟩ := p
    have hrest : rest = [] := by
      rw [hA] at hlen
      cases rest with
      | nil => rfl
      | cons => simp at hlen
    subst hrest
    cases hf : (s.ctag k).fixed with
    | true =>
      rw [removeStonRow_fixed hA hf]
      exact ⟨c.num.core (sameCore_check _ _), .core (sameCore_check _ _)⟩
    | false =>
      obtain ⟨h1, h2, h3⟩ := removeStonRow_facts hA hf o
      have h3 := h3 heq
      obtain ⟨hl, hr⟩ := c.num.eq row h1 heq
      have hq : a ≠ 0 := (c.inv.gi.rowRange row (k, a) (by rw [hA]; exact List.mem_cons_self)).2.2
      obtain ⟨b1, e1⟩ := c.num.lhs row h1 hl
      obtain ⟨b, e2⟩ := c.num.rhs row h1 hr
      have e0 : b1 = b := by
        rw [e1, e2] at h3
        have := D.eqb_fin_iff.mp h3
        exact (D.fin.inj this).symm
      subst e0
      have hb := PtBack.stonEq c.inv.gi hN h1 h2 hA hl hr e1 e2
      have hn := c.num.stonEq (row := row) (k := k) (a := a) (v := b1 / a)
      have hval : D.divq (s.rhs row) a = .fin (b1 / a) := by rw [e2, D.divq_fin hq]
      unfold removeStonRow
      rw [hA]
      simp only
      generalize hs1 : s.check (!(s.rtag row).inactive && !(s.ctag k).subst) = s1
      have hc1 : s1.ctag = s.ctag := by rw [← hs1]; rfl
      have hr1 : s1.rtag = s.rtag := by rw [← hs1]; rfl
      rw [hc1, if_neg (by rw [hf]; simp)]
      have heq2 : ((s1.check (!(s.ctag k).inactive)).rtag row).eq = true := by
        show (s1.rtag row).eq = true
        rw [hr1]; exact heq
      rw [if_pos heq2, hval]
      have hs2 : ∃ b, (s1.check (!(s.ctag k).inactive)).check (D.eqb (s.lhs row) (s.rhs row)) =
          { s with asrt := b } := ⟨_, by rw [← hs1]; rfl⟩
      obtain ⟨b, hs2⟩ := hs2
      rw [hs2]
      rcases fixCol_eq { s with asrt := b } k (.fin (b1 / a)) (s.c k) with
        ⟨b', e, -⟩ | ⟨b', ac, u, e, -⟩
      · rw [e, if_pos rfl]
        exact ⟨c.num.core (by constructor <;> rfl), .core (by constructor <;> rfl)⟩
      · rw [e, if_neg (show ¬ REDUCED = INFEASIBLE by decide)]
        exact ⟨hn.core (by constructor <;> rfl), hb.trans (.core (by constructor <;> rfl))⟩

theorem PtBack.deact (s : St) (i : ℕ) : PtBack s (setRowToInactive s i 0) := by
  refine .log (new := [.deletedRow i 0]) rfl (by simp [Rec.isHead]) (fun σ h => ?_)
  refine h.deact rfl (fun r _ => rfl) rfl rfl rfl rfl rfl rfl (fun r hr => ?_) ?_
  · show upd s.rtag i _ r = _
    exact upd_ne _ _ hr
  · show (upd s.rtag i _ i).inactive = true
    rw [upd_same]

theorem Num.setInactive (n : Num s) (i : ℕ) : Num (setRowToInactive s i 0) := by
  refine n.deact (i := i) (fun r hr => ?_) ?_ rfl rfl rfl rfl rfl rfl rfl
  · show upd s.rtag i _ r = _
    exact upd_ne _ _ hr
  · show (upd s.rtag i _ i).inactive = true
    rw [upd_same]

/-- The two bound changes of a singleton inequality, taken back. -/
theorem stonIneq_pt {rt : ℕ → RTag} {l r : ℕ → D} {s t : St} {first second : St → St × Status} 
    (hs : StonPt row k a rt l r s)
    (h1 : ∀ s, StonPt row k a rt l r s → PtBack s (first s).1 ∧ StonPt row k a rt l r (first s).1)
    (h2 : ∀ s, StonPt row k a rt l r s → PtBack s (second s).1 ∧ StonPt row k a rt l r (second s).1)
    (ht : t = (if (first s).2 = INFEASIBLE then ((first s).1, INFEASIBLE)
      else if (second (first s).1).2 = INFEASIBLE then ((second (first s).1).1, INFEASIBLE)
      else (setRowToInactive (second (first s).1).1 row 0, REDUCED)).1) : Num t ∧ PtBack s t := by
  subst ht
  obtain ⟨p1, m1⟩ := h1 s hs
  obtain ⟨p2, m2⟩ := h2 _ m1
  split
  · exact ⟨m1.num, p1⟩
  · split
    · exact ⟨m2.num, p1.trans p2⟩
    · exact ⟨m2.num.setInactive _, (p1.trans p2).trans (.deact _ _)⟩

theorem removeStonRow_ineq_pt (heq : (s.rtag row).eq = false) (c : Bs s)
    (hlen : (s.A row).length ≤ 1) (o : Ok μ (removeStonRow s row).1) :
    Num (removeStonRow s row).1 ∧ PtBack s (removeStonRow s row).1 := by
  cases hA : s.A row with
  | nil =>
    have e : removeStonRow s row = (s, UNCHANGED) := by
      unfold removeStonRow; rw [hA]
    rw [e]; exact ⟨c.num, .refl _⟩
  | cons p rest =>
    obtain ⟨k, a⟩ := p
    have hrest : rest = [] := by
      rw [hA] at hlen
      cases rest with
      | nil => rfl
      | cons => simp at hlen
    subst hrest
    cases hf : (s.ctag k).fixed with
    | true =>
      rw [removeStonRow_fixed hA hf]
      exact ⟨c.num.core (sameCore_check _ _), .core (sameCore_check _ _)⟩
    | false =>
      obtain ⟨h1, h2, -⟩ := removeStonRow_facts hA hf o
      have g := c.inv.gi
      have hq : a ≠ 0 := (g.rowRange row (k, a) (by rw [hA]; exact List.mem_cons_self)).2.2
      unfold removeStonRow
      rw [hA]
      simp only
      generalize hs1 : s.check (!(s.rtag row).inactive && !(s.ctag k).subst) = s1
      have hc1 : s1.ctag = s.ctag := by rw [← hs1]; rfl
      have hr1 : s1.rtag = s.rtag := by rw [← hs1]; rfl
      rw [hc1, if_neg (by rw [hf]; simp)]
      have hs2 : ∃ b, s1.check (!(s.ctag k).inactive) = { s with asrt := b } := ⟨_, by rw [← hs1]; rfl⟩
      obtain ⟨b, hs2⟩ := hs2
      rw [hs2]
      rw [show (({ s with asrt := b } : St).rtag row).eq = false from heq, if_neg Bool.false_ne_true]
      have sc : SameCore s { s with asrt := b } := by constructor <;> rfl
      have m0 : StonPt row k a s.rtag s.lhs s.rhs { s with asrt := b } := by
        refine ⟨sc.gi g, c.rng, c.num.core sc, h1, h2, hA, rfl, rfl, rfl, fun hm => ?_⟩
        have := (g.colsDel k (List.mem_append_left _ hm)).1
        rw [h2] at this; cases this
      have vR : ∀ t, StonPt row k a s.rtag s.lhs s.rhs t → (s.rtag row).rhsInf = false →
          SideVal t row a true (D.divq (s.rhs row) a) := by
        intro t h hi
        obtain ⟨B, e⟩ := c.num.rhs row h1 hi
        refine ⟨B, by rw [e, D.divq_fin hq], ?_⟩
        rw [if_pos rfl, h.rtag, h.rhs]; exact ⟨hi, e⟩
      have vL : ∀ t, StonPt row k a s.rtag s.lhs s.rhs t → (s.rtag row).lhsInf = false →
          SideVal t row a false (D.divq (s.lhs row) a) := by
        intro t h hi
        obtain ⟨B, e⟩ := c.num.lhs row h1 hi
        refine ⟨B, by rw [e, D.divq_fin hq], ?_⟩
        rw [if_neg Bool.false_ne_true, h.rtag, h.lhs]; exact ⟨hi, e⟩
      have fin : ∀ t, Num t ∧ PtBack { s with asrt := b } t → Num t ∧ PtBack s t :=
        fun t h => ⟨h.1, (PtBack.core sc).trans h.2⟩
      refine fin _ ?_
      split
      · rename_i hpos
        refine stonIneq_pt (row := row) (first := fun t => if (s.rtag row).rhsInf then (t, UNCHANGED) else
            updateUb t k (D.divq (s.rhs row) a) row) (second := fun t => if (s.rtag row).lhsInf then (t, UNCHANGED) else
            updateLb t k (D.divq (s.lhs row) a) row) m0 ?_ ?_ rfl
        · intro t h
          split
          · exact ⟨.refl _, h⟩
          · rename_i hi
            exact updateUb_pt h (by rw [decide_eq_true hpos]; exact vR t h (by simpa using hi))
        · intro t h
          split
          · exact ⟨.refl _, h⟩
          · rename_i hi
            exact updateLb_pt h (by rw [decide_eq_true hpos]; exact vL t h (by simpa using hi))
      · rename_i hpos
        refine stonIneq_pt (row := row) (first := fun t => if (s.rtag row).rhsInf then (t, UNCHANGED) else
            updateLb t k (D.divq (s.rhs row) a) row) (second := fun t => if (s.rtag row).lhsInf then (t, UNCHANGED) else
            updateUb t k (D.divq (s.lhs row) a) row) m0 ?_ ?_ rfl
        · intro t h
          split
          · exact ⟨.refl _, h⟩
          · rename_i hi
            exact updateLb_pt h (by rw [decide_eq_false hpos]; exact vR t h (by simpa using hi))
        · intro t h
          split
          · exact ⟨.refl _, h⟩
          · rename_i hi
            exact updateUb_pt h (by rw [decide_eq_false hpos]; exact vL t h (by simpa using hi))

/-! ### All singleton rows -/

theorem stonEqLoop_P (μ : Mode) (L : List ℕ) (s : St) :
    KeepsP μ (fun s => NoRows s ∧ Short L s) NoRows s (stonEqLoop L s) := by
  refine ⟨(stonEqLoop_good μ L s).toR, ?_⟩
  induction L generalizing s with
  | nil => exact fun _ _ c _ => ⟨c.num, .refl _⟩
  | cons row rest ih =>
    unfold stonEqLoop
    split
    · exact fun f o c hi => ih s f o c ⟨hi.1, fun i h => hi.2 i (List.mem_cons_of_mem _ h)⟩
    · rename_i hc
      have heq : (s.rtag row).eq = true := by
        cases h : (s.rtag row).eq
        · rw [h] at hc; simp at hc
        · rfl
      simp only
      have g := (removeStonRow_eq_good μ s row heq).keep (P := Short rest) Short.mono
      split
      · exact fun f => absurd f not_fine_infeasible
      · intro f o c hi
        have o1 := (stonEqLoop_good μ rest _ o).1
        obtain ⟨hn, hb⟩ := removeStonRow_eq_pt heq c hi.1 (hi.2 row List.mem_cons_self) o1
        obtain ⟨c', j⟩ := c.next g o1
          ⟨⟨hi.1, hi.2 row List.mem_cons_self⟩, fun i h => hi.2 i (List.mem_cons_of_mem _ h)⟩ hn
        obtain ⟨h1, h2⟩ := ih _ f o c' j
        exact ⟨h1, hb.trans h2⟩

theorem stonIneqLoop_P (μ : Mode) (L : List ℕ) (s : St) :
    KeepsP μ (Short L) (fun _ => True) s (stonIneqLoop L s) := by
  refine ⟨⟨(stonIneqLoop_good μ L s).toR.1, fun f => ((stonIneqLoop_good μ L s).toR.2 f).weaken (fun _ _ => trivial)
    (fun _ h => h)⟩, ?_⟩
  induction L generalizing s with
  | nil => exact fun _ _ c _ => ⟨c.num, .refl _⟩
  | cons row rest ih =>
    have hs : ∀ t, Short (row :: rest) t → Short rest t := fun t h i hi => h i (List.mem_cons_of_mem _ hi)
    unfold stonIneqLoop
    split
    · exact fun f o c hi => ih s f o c (hs _ hi)
    · rename_i hc
      have heq : (s.rtag row).eq = false := by
        cases h : (s.rtag row).eq
        · rfl
        · rw [h] at hc; simp at hc
      simp only
      have g : Good μ (Short (row :: rest)) (Short rest) s (removeStonRow s row).1 := by
        have g0 : Good μ (fun _ => True) (fun _ => True) s (removeStonRow s row).1 :=
          Good.weaken (removeStonRow_ineq_good μ s row heq) (fun _ => id) (fun _ _ => trivial)
        exact (g0.keep (P := Short (row :: rest)) Short.mono).weaken (fun _ h => ⟨trivial, h⟩) (fun _ h => hs _ h.2)
      split
      · exact fun f => absurd f not_fine_infeasible
      · intro f o c hi
        have o1 := (stonIneqLoop_good μ rest _ o).1
        obtain ⟨hn, hb⟩ := removeStonRow_ineq_pt heq c (hi row List.mem_cons_self) o1
        obtain ⟨c', j⟩ := c.next g o1 hi hn
        obtain ⟨h1, h2⟩ := ih _ f o c' j
        exact ⟨h1, hb.trans h2⟩

theorem removeStonRows_P (μ : Mode) (N : ℕ) (s : St) :
    KeepsP μ (fun s => Clean s ∧ long s ≤ N) (fun s => Clean s ∧ StonLess N s) s (removeStonRows s) := by
  refine ⟨(removeStonRows_good μ N s).toR, ?_⟩
  unfold removeStonRows
  split
  · exact fun _ _ c _ => ⟨c.num, .refl _⟩
  · simp only
    have g1 : KeepsP μ (fun s => Clean s ∧ long s ≤ N) (fun t => Short s.stonRows t ∧ long t ≤ N)
        s (stonEqLoop s.stonRows s) := by
      have g := KeepsP.keep (stonEqLoop_P μ s.stonRows s) (F := fun t => Short s.stonRows t ∧ long t ≤ N)
        (fun m h => ⟨Short.mono m h.1, (long_mono m).trans h.2⟩)
      exact g.weakenI (fun i h => ⟨⟨h.1.1, i.ston⟩, i.ston, h.2⟩) (fun h => h.2)
    split
    · exact g1.back
    · rename_i h
      have hf := fine_of_two (stonEqLoop_st _ _) h
      have g2 : KeepsP μ (fun t => Short s.stonRows t ∧ long t ≤ N) (fun t => long t ≤ N)
          (stonEqLoop s.stonRows s).1 (stonIneqLoop s.stonRows (stonEqLoop s.stonRows s).1) :=
        (KeepsP.keep (stonIneqLoop_P μ s.stonRows _) (F := fun t => long t ≤ N)
          (fun m h => (long_mono m).trans h)).weaken (fun h => h) (fun h => h.2)
      split
      · exact (KeepsP.then g1 hf g2).back
      · rename_i h2
        have hf2 := fine_of_two (stonIneqLoop_st _ _) h2
        refine (KeepsP.then (KeepsP.then g1 hf g2) hf2 (K := Clean) ?_).back
        generalize (stonIneqLoop s.stonRows (stonEqLoop s.stonRows s).1).1 = t
        have g3 : KeepsP μ (fun t => long t ≤ N) (fun s => s.stonRows = [] ∧ long s ≤ N) t
            ({ t with stonRows := [] }, UNCHANGED) := by
          have sc : SameCore t { t with stonRows := [] } := by constructor <;> rfl
          refine .core sc (.of (fun o => o) (fun _ i hi =>
            ⟨⟨.single (.same sc), ?_, fun _ h => Or.inl h, rfl, id⟩, rfl, hi⟩))
          intro _ h; cases h
        exact g3.next (delBoth_P μ _ _)

theorem stonRowsLoop_P (μ : Mode) (fuel : ℕ) (s : St) :
    KeepsP μ (fun s => Clean s ∧ ((s.stonRows = [] ∧ 1 ≤ fuel) ∨ long s + 2 ≤ fuel)) Clean s
      (stonRowsLoop fuel s) := by
  refine ⟨(stonRowsLoop_good μ fuel s).toR, ?_⟩
  induction fuel generalizing s with
  | zero =>
    intro _ _ _ hi
    obtain ⟨-, h | h⟩ := hi <;> omega
  | succ fuel ih =>
    unfold stonRowsLoop
    simp only
    have k := removeStonRows_P μ (long s) s
    intro f o c hi
    split at o
    · rename_i h
      rw [if_pos h] at f ⊢
      exact k.back f o c ⟨hi.1, le_refl _⟩
    · rename_i h
      rw [if_neg h] at f ⊢
      split at o
      · rename_i h2
        rw [if_pos h2] at f ⊢
        have hf : fine (removeStonRows s).2 := by rw [h2]; exact fine_reduced
        have hne : s.stonRows ≠ [] := by
          intro e
          unfold removeStonRows at h2
          rw [if_pos e] at h2
          cases h2
        have hl : long s + 2 ≤ fuel + 1 := by
          rcases hi.2 with h | h
          · exact absurd h.1 hne
          · exact h
        have o1 := (stonRowsLoop_good μ fuel _ o).1
        obtain ⟨c', j⟩ := k.base hf o1 c ⟨hi.1, le_refl _⟩
        have hb := (k.back hf o1 c ⟨hi.1, le_refl _⟩).2
        obtain ⟨h3, h4⟩ := ih _ f o c' ⟨j.1, by
          rcases j.2 with e | e
          · exact Or.inl ⟨e, by omega⟩
          · exact Or.inr (by omega)⟩
        exact ⟨h3, hb.trans h4⟩
      · rename_i h2
        rw [if_neg h2] at f ⊢
        exact k.back f o c ⟨hi.1, le_refl _⟩

/-! ### The trivial explorers -/

theorem check3_P (μ : Mode) (s : St) (x y z : Bool) :
    KeepsP μ Clean Clean s (((s.check x).check y).check z, UNCHANGED) := by
  have h1 : KeepsP μ Clean Clean s (s.check x, UNCHANGED) := KeepsP.check s x (fun h => h)
  have h2 : KeepsP μ Clean Clean (s.check x) ((s.check x).check y, UNCHANGED) := KeepsP.check _ y (fun h => h)
  have h3 : KeepsP μ Clean Clean ((s.check x).check y) (((s.check x).check y).check z, UNCHANGED) :=
    KeepsP.check _ z (fun h => h)
  exact (h1.next h2).next h3

theorem runTrivial_P (hμ : μ.near = false) (stgs : Settings) (s : St) :
    KeepsP μ Clean Clean s (runTrivial stgs s) := by
  refine ⟨(runTrivial_good μ stgs s).toR, ?_⟩
  unfold runTrivial
  simp only
  have g := trivialHead_P hμ stgs s
  split
  · exact g.back
  · rename_i h1
    split
    · exact g.back
    · rename_i h2
      have hf : fine (trivialHead stgs s).2 := trivialHead_st stgs s h1 h2
      have g2 : KeepsP μ Clean Clean s (stonRowsLoop ((trivialHead stgs s).1.m + 2) (trivialHead stgs s).1) := by
        refine KeepsP.then g hf ?_
        generalize (trivialHead stgs s).1 = t
        exact (stonRowsLoop_P μ (t.m + 2) t).weaken
          (fun h => ⟨h, Or.inr (by have := long_le t; omega)⟩) (fun h => h)
      split
      · exact g2.back
      · rename_i h3
        have g3 := KeepsP.then g2 (fine_of_two (stonRowsLoop_st _ _) h3) (removeEmptyRows_P μ _)
        split
        · exact g3.back
        · rename_i h4
          have g4 := KeepsP.then g3 (fine_of_two (removeEmptyRows_st _) h4) (removeEmptyCols_P μ _)
          split
          · exact g4.back
          · rename_i h5
            exact (KeepsP.then g4 (fine_of_two (removeEmptyCols_st _) h5) (check3_P μ _ _ _ _)).back

end

end Verif
