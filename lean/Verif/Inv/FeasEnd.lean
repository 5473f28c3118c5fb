import Verif.Inv.FeasMain
import Verif.Lemmas.Reduced
import Verif.Props.C01_Objective
import Verif.Spec.Near

/-!
# Feasibility along a run: start, end and replay
-/

namespace Verif

/-! ### Replay of `x` -/

theorem logVal_fix_getD (l : List Rec) (j k : ℕ) (v : D) (ck : ℚ) (cells : List Cell) (f : ℕ → D) :
    (logVal (.fixedCol j v ck cells :: l) k).getD (f k) = (logVal l k).getD (upd f j v k) := by
  simp only [logVal]
  cases logVal l k with
  | some d => rfl
  | none =>
    by_cases h : j = k
    · subst h; simp [upd]
    · have : k ≠ j := fun e => h e.symm
      simp [upd, h, this]

/-- Postsolve gives a column the value of its oldest record and copies the others. -/
theorem replay_x : ∀ (log : List Rec) (g : Option Group) (σ σ' : Sol), (∀ r ∈ log, r.plain = true) →
    replay g log σ = some σ' → ∀ k, σ'.x k = (logVal log k).getD (σ.x k) := by
  intro log
  induction log with
  | nil =>
    intro g σ σ' _ h k
    cases g with
    | none => simp only [replay, Option.some.injEq] at h; subst h; rfl
    | some g => simp [replay] at h
  | cons r l ih =>
    intro g σ σ' hp h k
    have hl : ∀ r ∈ l, r.plain = true := fun r hr => hp r (List.mem_cons_of_mem _ hr)
    have hr := hp r List.mem_cons_self
    cases g with
    | none =>
      cases r with
      | fixedCol j v ck cells =>
        simp only [replay, retRec] at h
        rw [logVal_fix_getD]
        exact ih _ _ _ hl h k
      | fixedColInf => cases hr
      | subCol => cases hr
      | parallelCol => cases hr
      | lhsChange =>
        simp only [replay, retRec] at h
        rw [ih _ _ _ hl h k, retLhsChange_x]; rfl
      | rhsChange =>
        simp only [replay, retRec] at h
        rw [ih _ _ _ hl h k, retRhsChange_x]; rfl
      | _ =>
        simp only [replay, retRec] at h
        exact ih _ _ _ hl h k
    | some g =>
      obtain ⟨i, cells, n⟩ := g
      cases r with
      | fixedCol j v ck cells =>
        simp only [replay] at h
        rw [logVal_fix_getD]
        exact ih _ _ _ hl h k
      | boundChangeNoRow =>
        simp only [replay] at h
        rw [ih _ _ _ hl h k, retBoundChange_x]; rfl
      | _ => simp [replay] at h

/-! ### Start -/

theorem D.eqb_ninf {d : D} (h : D.eqb d .ninf = true) : d = .ninf := by cases d <;> simp_all [D.eqb]
theorem D.eqb_pinf {d : D} (h : D.eqb d .pinf = true) : d = .pinf := by cases d <;> simp_all [D.eqb]

theorem initSt_here {P : LP} {k : ℕ} (h : k < P.n) : (initSt P).colSize k ≠ -1 := by
  show (if k < P.n then (((colCells P.m P.A k).length : ℕ) : ℤ) else -1) ≠ -1
  rw [if_pos h]; omega

theorem initSt_ctag {P : LP} {k : ℕ} (h : k < P.n) : (initSt P).ctag k = colTagOf (P.lb k) (P.ub k) := if_pos h

theorem initSt_rtag {P : LP} {i : ℕ} (h : i < P.m) : (initSt P).rtag i = rowTagOf (P.lhs i) (P.rhs i) := if_pos h

theorem initSt_gone {P : LP} (hP : P.Valid) (i : ℕ) : gone P (initSt P) i = 0 := by
  unfold gone
  have : (P.A i).filter (fun p => decide ((initSt P).colSize p.1 = -1)) = [] := by
    refine List.filter_eq_nil_iff.mpr (fun p hp => ?_)
    rw [decide_eq_true_eq]
    exact initSt_here (hP.range i p hp).2.1
  rw [this]; rfl

theorem initSt_feas {P : LP} (hP : P.Valid) (hR : P.Regular)
    (hg : ∀ k < P.n, ∀ l u, P.lb k = .fin l → P.ub k = .fin u → l ≤ u + FEAS_TOL) : Feas P (initSt P) := by
  refine ⟨hP, rfl, rfl, rfl, fun k hk => ?_, fun i hi => ?_, fun k hk => ?_, fun i hi => ?_, fun i hi _ => ?_⟩
  · by_contra h
    exact hk (if_neg h)
  · by_contra h
    have e : (initSt P).rtag i = { inactive := true } := if_neg h
    rw [e] at hi; cases hi
  · have e := initSt_ctag hk
    have hl := hR.lb k hk
    have hu := hR.ub k hk
    refine ⟨by rw [e]; rfl, fun _ => rfl, fun _ h => ?_, fun _ h => ?_, fun _ h => ?_, fun _ h => ?_,
      fun _ l u h1 h2 => hg k hk l u h1 h2, fun h => ?_, fun b hb => ?_, fun b hb => ?_⟩
    · rw [e] at h; exact D.eqb_ninf h
    · rw [e] at h
      rcases hl with hl | hl
      · rw [colTagOf, hl] at h; cases h
      · exact hl
    · rw [e] at h; exact D.eqb_pinf h
    · rw [e] at h
      rcases hu with hu | hu
      · rw [colTagOf, hu] at h; cases h
      · exact hu
    · rw [e] at h; cases h
    · exact ⟨b, hb, le_add_of_nonneg_right (slk_nonneg _ _)⟩
    · exact ⟨b, hb, sub_le_self _ (slk_nonneg _ _)⟩
  · have e := initSt_rtag hi
    have hl := hR.lhs i hi
    have hu := hR.rhs i hi
    refine ⟨fun _ => ?_, fun _ h => ?_, fun _ h => ?_, fun h B hB => ?_, fun _ h => ?_, fun h B hB => ?_,
      fun _ h => ?_, fun _ h => ?_⟩
    · refine (List.filter_eq_self.mpr (fun p hp => ?_)).symm
      rw [decide_eq_true_eq]
      exact initSt_here (hP.range i p hp).2.1
    · rw [e] at h ⊢
      simp only [rowTagOf, Bool.and_eq_true, Bool.not_eq_true'] at h ⊢
      refine ⟨h.1, ?_⟩
      rcases hl with hl | ⟨q, hl⟩
      · rw [hl] at h; cases h.1
      · rcases hu with hu | ⟨r, hu⟩
        · rw [hl, hu] at h; cases h.2
        · rw [hu]; rfl
    · rw [e] at h
      rcases hu with hu | ⟨B, hu⟩
      · rw [rowTagOf, hu] at h; cases h
      · exact ⟨B, hu, by rw [initSt_gone hP, sub_zero]; exact hu⟩
    · rw [e] at h
      rcases h with h | h
      · cases h
      · rw [rowTagOf, hB] at h; cases h
    · rw [e] at h
      rcases hl with hl | ⟨B, hl⟩
      · rw [rowTagOf, hl] at h; cases h
      · exact ⟨B, hl, by rw [initSt_gone hP, sub_zero]; exact hl⟩
    · rw [e] at h
      rcases h with h | h
      · cases h
      · rw [rowTagOf, hB] at h; cases h
    · rw [e] at h; exact D.eqb_pinf h
    · rw [e] at h; exact D.eqb_ninf h
  · have e : ActEq ((initSt P).act i) (actInit (initSt P).ctag P.lb P.ub (P.A i)) := by
      show ActEq (if _ then _ else _) _
      split <;> exact ⟨rfl, rfl, rfl, rfl⟩
    refine e.rec ?_
    refine Recomputed.congr (ctag := (initSt P).ctag) (lb := P.lb) (ub := P.ub) (fun p hp => ?_)
      ⟨rfl, rfl, fun _ => rfl, fun _ => rfl⟩
    have e : effTags (initSt P) p.1 = (initSt P).ctag p.1 := by
      unfold effTags
      rw [initSt_ctag (hP.range i p hp).2.1]
      rfl
    rw [e]
    exact ⟨rfl, rfl, rfl, rfl⟩

/-! ### End -/

/-- What the user sees does not depend on the relaxed bounds. -/
structure SameResult (s t : St) : Prop where
  m : t.m = s.m
  n : t.n = s.n
  A : t.A = s.A
  lhs : t.lhs = s.lhs
  rhs : t.rhs = s.rhs
  lb : t.lb = s.lb
  ub : t.ub = s.ub
  c : t.c = s.c
  rowSize : t.rowSize = s.rowSize
  colSize : t.colSize = s.colSize
  log : t.log = s.log
  asrt : t.asrt = s.asrt
  tiny : t.tiny = s.tiny

theorem SameResult.trans {s t u : St} (a : SameResult s t) (b : SameResult t u) : SameResult s u :=
  ⟨b.m.trans a.m, b.n.trans a.n, b.A.trans a.A, b.lhs.trans a.lhs, b.rhs.trans a.rhs, b.lb.trans a.lb,
    b.ub.trans a.ub, b.c.trans a.c, b.rowSize.trans a.rowSize, b.colSize.trans a.colSize, b.log.trans a.log,
    b.asrt.trans a.asrt, b.tiny.trans a.tiny⟩

theorem SameResult.refl (s : St) : SameResult s s := by constructor <;> rfl

theorem relaxCol_out (s : St) (k : ℕ) : SameResult s (relaxCol s k) := by
  unfold relaxCol
  simp only
  split
  · exact .refl s
  · split
    · split
      · constructor <;> rfl
      · exact .refl s
    · split
      · constructor <;> rfl
      · exact .refl s

theorem removeRedundantBounds_out (s : St) : SameResult s (removeRedundantBounds s) := by
  unfold removeRedundantBounds
  generalize relaxOrder s = L
  induction L generalizing s with
  | nil => exact .refl s
  | cons k L ih => exact (relaxCol_out s k).trans (ih _)

theorem SameResult.reduced {s t : St} (h : SameResult s t) : reducedLP t = reducedLP s := by
  unfold reducedLP
  rw [h.m, h.n, h.A, h.lhs, h.rhs, h.lb, h.ub, h.c, h.rowSize, h.colSize]

theorem SameResult.postsolve {s t : St} (h : SameResult s t) (x y z : ℕ → D) :
    postsolve t x y z = postsolve s x y z := by
  unfold Verif.postsolve
  rw [h.log, h.rowSize, h.colSize]

section
variable {P : LP} {s : St}

theorem reduced_dot {x : ℕ → ℚ} {i : ℕ} (hi : i < s.m) (hr : s.rowSize i ≠ -1) :
    dot ((reducedLP s).A (liveIdx s.rowSize i).length) x =
      dot (s.A i) (fun k => x ((idxMapOf s.colSize k).getD 0)) := by
  have e : (reducedLP s).A (liveIdx s.rowSize i).length =
      (s.A i).map (fun p => ((idxMapOf s.colSize p.1).getD 0, p.2)) := by
    show shrunk _ _ _ _ = _
    unfold shrunk
    rw [liveIdx_rank hi hr]
  rw [e]
  unfold dot
  rw [List.map_map]
  rfl

theorem liveIdx_rank_lt {size : ℕ → ℤ} {n i : ℕ} (hi : i < n) (h : size i ≠ -1) :
    (liveIdx size i).length < (liveIdx size n).length := by
  obtain ⟨h, _⟩ := List.getElem?_eq_some_iff.mp (liveIdx_rank hi h)
  exact h

/-- The postsolved value of a column. -/
structure ValOK (s : St) (k : ℕ) (v : ℚ) : Prop where
  lo : ∀ l, curLb s k = .fin l → l ≤ v
  hi : ∀ u, curUb s k = .fin u → v ≤ u

theorem DropHi.le_dot {cells : List Cell} {B : ℚ} (h : DropHi s cells B) {x : ℕ → ℚ}
    (hv : ∀ p ∈ cells, ValOK s p.1 (x p.1)) : dot cells x ≤ B + FEAS_TOL * (1 + 2 * absSum cells) := by
  have h1 : dot cells x ≤ (cells.map (hiTerm s)).sum + FEAS_TOL * norm1 cells := by
    have h2 : (cells.map (fun p => hiTerm s p + FEAS_TOL * |p.2|)).sum =
        (cells.map (hiTerm s)).sum + FEAS_TOL * norm1 cells := by
      unfold norm1
      rw [List.sum_map_add, List.sum_map_mul_left]
    rw [← h2]
    refine sum_map_le (fun p hp => ?_)
    have hs := slk_le s p.1
    unfold hiTerm
    split
    · rename_i h0
      obtain ⟨u, hu⟩ := h.ub p hp h0
      have := (hv p hp).hi u hu
      rw [hu, D.toQ_fin, abs_of_pos h0]
      nlinarith
    · rename_i h0
      obtain ⟨u, hu⟩ := h.lb p hp h0
      have := (hv p hp).lo u hu
      have h0 := not_lt.mp h0
      rw [hu, D.toQ_fin, abs_of_nonpos h0]
      nlinarith
  have h3 := h.le
  have e : absSum cells = norm1 cells := rfl
  rw [e]
  linarith

theorem DropLo.le_dot {cells : List Cell} {B : ℚ} (h : DropLo s cells B) {x : ℕ → ℚ}
    (hv : ∀ p ∈ cells, ValOK s p.1 (x p.1)) : B ≤ dot cells x + FEAS_TOL * (1 + 2 * absSum cells) := by
  have h1 : (cells.map (loTerm s)).sum ≤ dot cells x + FEAS_TOL * norm1 cells := by
    have h2 : (cells.map (fun p => p.2 * x p.1 + FEAS_TOL * |p.2|)).sum = dot cells x + FEAS_TOL * norm1 cells := by
      unfold norm1 dot
      rw [List.sum_map_add, List.sum_map_mul_left]
    rw [← h2]
    refine sum_map_le (fun p hp => ?_)
    have hs := slk_le s p.1
    unfold loTerm
    split
    · rename_i h0
      obtain ⟨u, hu⟩ := h.lb p hp h0
      have := (hv p hp).lo u hu
      rw [hu, D.toQ_fin, abs_of_pos h0]
      nlinarith
    · rename_i h0
      obtain ⟨u, hu⟩ := h.ub p hp h0
      have := (hv p hp).hi u hu
      have h0 := not_lt.mp h0
      rw [hu, D.toQ_fin, abs_of_nonpos h0]
      nlinarith
  have h3 := h.le
  have e : absSum cells = norm1 cells := rfl
  rw [e]
  linarith

/-- A point within the bounds of the state that satisfies the sides of `P` whose row is still there
is nearly feasible. -/
theorem Feas.near_of (h : Feas P s) (hR : P.Regular) {x' : ℕ → ℚ}
    (val : ∀ k < P.n, ValOK s k (x' k))
    (rlo : ∀ i < P.m, (s.rtag i).inactive = false → (s.rtag i).lhsInf = false → ∀ B, P.lhs i = .fin B →
      B ≤ dot (P.A i) x')
    (rhi : ∀ i < P.m, (s.rtag i).inactive = false → (s.rtag i).rhsInf = false → ∀ B, P.rhs i = .fin B →
      dot (P.A i) x' ≤ B) : P.NearFeasible x' := by
  have hn : ∀ i, ∀ p ∈ P.A i, p.1 < P.n := fun i p hp => (h.valid.range i p hp).2.1
  refine ⟨fun i hi => ⟨?_, ?_⟩, fun k hk => ⟨?_, ?_⟩⟩
  · rcases hR.lhs i hi with hb | ⟨B, hb⟩
    · rw [hb]; exact LoD_ninf _
    · rw [hb, LoD_fin]
      by_cases ha : (s.rtag i).inactive = true ∨ (s.rtag i).lhsInf = true
      · exact ((h.row i hi).lhsD ha B hb).le_dot (fun p hp => val p.1 (hn i p hp))
      · push Not at ha
        have ha1 : (s.rtag i).inactive = false := by simpa using ha.1
        have ha2 : (s.rtag i).lhsInf = false := by simpa using ha.2
        obtain ⟨B', h1, h2⟩ := (h.row i hi).lhs ha1 ha2
        rw [hb, D.fin.injEq] at h1
        subst h1
        have hrow := rlo i hi ha1 ha2 _ hb
        have := FEAS_TOL_pos
        have := norm1_nonneg (P.A i)
        have : 0 ≤ FEAS_TOL * (1 + 2 * absSum (P.A i)) := by
          have e : absSum (P.A i) = norm1 (P.A i) := rfl
          rw [e]; positivity
        linarith
  · rcases hR.rhs i hi with hb | ⟨B, hb⟩
    · rw [hb]; exact HiD_pinf _
    · rw [hb, HiD_fin, sub_le_iff_le_add]
      by_cases ha : (s.rtag i).inactive = true ∨ (s.rtag i).rhsInf = true
      · exact ((h.row i hi).rhsD ha B hb).le_dot (fun p hp => val p.1 (hn i p hp))
      · push Not at ha
        have ha1 : (s.rtag i).inactive = false := by simpa using ha.1
        have ha2 : (s.rtag i).rhsInf = false := by simpa using ha.2
        obtain ⟨B', h1, h2⟩ := (h.row i hi).rhs ha1 ha2
        rw [hb, D.fin.injEq] at h1
        subst h1
        have hrow := rhi i hi ha1 ha2 _ hb
        have := FEAS_TOL_pos
        have := norm1_nonneg (P.A i)
        have : 0 ≤ FEAS_TOL * (1 + 2 * absSum (P.A i)) := by
          have e : absSum (P.A i) = norm1 (P.A i) := rfl
          rw [e]; positivity
        linarith
  · rcases hR.lb k hk with hb | ⟨b, hb⟩
    · rw [hb]; exact LoD_ninf _
    · obtain ⟨l, h1, h2⟩ := (h.col k hk).lo b hb
      have h3 := (val k hk).lo l h1
      have := slk_le s k
      rw [hb, LoD_fin]; linarith
  · rcases hR.ub k hk with hb | ⟨b, hb⟩
    · rw [hb]; exact HiD_pinf _
    · obtain ⟨l, h1, h2⟩ := (h.col k hk).hi b hb
      have h3 := (val k hk).hi l h1
      have := slk_le s k
      rw [hb, HiD_fin]; linarith

theorem Feas.near (h : Feas P s) (hR : P.Regular) (g : GI s) (c : Clean s) {x x' : ℕ → ℚ}
    (hx : (reducedLP s).Feasible x)
    (hx' : ∀ k < P.n, x' k = ((logVal s.log k).getD (.fin (x ((idxMapOf s.colSize k).getD 0)))).toQ) :
    P.NearFeasible x' := by
  have live : ∀ k < P.n, s.colSize k ≠ -1 → logVal s.log k = none ∧ x' k = x ((idxMapOf s.colSize k).getD 0) := by
    intro k hk hc
    have ha : (s.ctag k).inactive = false := by
      by_contra hn
      exact hc ((g.colGone_iff c k).mpr (by simpa using hn))
    have hl := (h.col k hk).new (CTag.inactive_false.mp ha).1
    refine ⟨hl, ?_⟩
    rw [hx' k hk, hl]; rfl
  have dead : ∀ k < P.n, s.colSize k = -1 → curLb s k = .fin (x' k) ∧ curUb s k = .fin (x' k) := by
    intro k hk hc
    have ha := (g.colGone_iff c k).mp hc
    have hf : (s.ctag k).fixed = true := by
      have := (h.col k hk).sub
      unfold CTag.inactive at ha
      rw [this, Bool.or_false] at ha
      exact ha
    obtain ⟨v, hv, _⟩ := (h.col k hk).old hf
    have : x' k = v := by rw [hx' k hk, hv]; rfl
    unfold curLb curUb
    rw [hv, this]
    exact ⟨rfl, rfl⟩
  have val : ∀ k < P.n, ValOK s k (x' k) := by
    intro k hk
    by_cases hc : s.colSize k = -1
    · obtain ⟨h1, h2⟩ := dead k hk hc
      refine ⟨fun l hl => ?_, fun l hl => ?_⟩
      · rw [h1, D.fin.injEq] at hl; exact hl.ge
      · rw [h2, D.fin.injEq] at hl; exact hl.le
    · obtain ⟨h1, h2⟩ := live k hk hc
      have hk' : k < s.n := by rw [h.n]; exact hk
      have hcol := hx.col _ (liveIdx_rank_lt hk' hc)
      have e1 : (reducedLP s).lb (liveIdx s.colSize k).length = s.lb k := by
        show shrunk _ _ _ _ = _
        unfold shrunk; rw [liveIdx_rank hk' hc]
      have e2 : (reducedLP s).ub (liveIdx s.colSize k).length = s.ub k := by
        show shrunk _ _ _ _ = _
        unfold shrunk; rw [liveIdx_rank hk' hc]
      rw [e1, e2] at hcol
      rw [h2, idxMapOf_live hc, Option.getD_some]
      unfold curLb curUb at *
      refine ⟨fun l hl => ?_, fun l hl => ?_⟩
      · rw [curLb, h1] at hl
        have hl : s.lb k = .fin l := hl
        have := hcol.1
        rw [hl, LoD_fin] at this; exact this
      · rw [curUb, h1] at hl
        have hl : s.ub k = .fin l := hl
        have := hcol.2
        rw [hl, HiD_fin] at this; exact this
  have hn : ∀ i, ∀ p ∈ P.A i, p.1 < P.n := fun i p hp => (h.valid.range i p hp).2.1
  have rowdot : ∀ i < P.m, (s.rtag i).inactive = false →
      s.rowSize i ≠ -1 ∧ dot (P.A i) x' = dot ((reducedLP s).A (liveIdx s.rowSize i).length) x + gone P s i := by
    intro i hi ha
    have hr := g.rowActive ha
    refine ⟨hr, ?_⟩
    rw [reduced_dot (by rw [h.m]; exact hi) hr, (h.row i hi).cells ha]
    unfold dot gone
    rw [sum_filter_split (P.A i) (fun p => decide (s.colSize p.1 ≠ -1)), filter_neg_size]
    congr 1
    · congr 1
      refine List.map_congr_left (fun p hp => ?_)
      obtain ⟨h1, h2⟩ := List.mem_filter.mp hp
      rw [(live p.1 (hn i p h1) (of_decide_eq_true h2)).2]
    · congr 1
      refine List.map_congr_left (fun p hp => ?_)
      obtain ⟨h1, h2⟩ := List.mem_filter.mp hp
      rw [(dead p.1 (hn i p h1) (of_decide_eq_true h2)).1]
      rfl
  refine h.near_of hR val (fun i hi ha1 ha2 B hb => ?_) (fun i hi ha1 ha2 B hb => ?_)
  · obtain ⟨B', h1, h2⟩ := (h.row i hi).lhs ha1 ha2
    rw [hb, D.fin.injEq] at h1
    subst h1
    obtain ⟨h3, h4⟩ := rowdot i hi ha1
    have hi' : i < s.m := by rw [h.m]; exact hi
    have hrow := (hx.row _ (liveIdx_rank_lt hi' h3)).1
    have e1 : (reducedLP s).lhs (liveIdx s.rowSize i).length = s.lhs i := by
      show shrunk _ _ _ _ = _
      unfold shrunk; rw [liveIdx_rank hi' h3]
    rw [e1, h2, LoD_fin] at hrow
    rw [h4]; linarith
  · obtain ⟨B', h1, h2⟩ := (h.row i hi).rhs ha1 ha2
    rw [hb, D.fin.injEq] at h1
    subst h1
    obtain ⟨h3, h4⟩ := rowdot i hi ha1
    have hi' : i < s.m := by rw [h.m]; exact hi
    have hrow := (hx.row _ (liveIdx_rank_lt hi' h3)).2
    have e1 : (reducedLP s).rhs (liveIdx s.rowSize i).length = s.rhs i := by
      show shrunk _ _ _ _ = _
      unfold shrunk; rw [liveIdx_rank hi' h3]
    rw [e1, h2, HiD_fin] at hrow
    rw [h4]; linarith

/-! ### Crossed bounds -/

theorem closeBoundsLoop_crossed {k : ℕ} {l u : ℚ} (hlt : u + FEAS_TOL < l) :
    ∀ (L : List ℕ) (s : St), k ∈ L → 0 ≤ s.colSize k → (s.ctag k).lbInf = false → (s.ctag k).ubInf = false →
      s.lb k = .fin l → s.ub k = .fin u → (closeBoundsLoop L s).2 = INFEASIBLE := by
  intro L
  induction L with
  | nil => intro s h; cases h
  | cons j L ih =>
    intro s hm hc h1 h2 h3 h4
    unfold closeBoundsLoop
    by_cases hj : j = k
    · subst hj
      have hne : isEqualFeasTol (s.lb j) (s.ub j) = false := by
        rw [h3, h4, isEqualFeasTol_fin, decide_eq_false_iff_not, not_le]
        exact lt_of_lt_of_le (by linarith) (le_abs_self _)
      have hlt' : D.lt (D.add (s.ub j) (.fin FEAS_TOL)) (s.lb j) = true := by
        rw [h3, h4, D.add_fin, D.lt_fin, decide_eq_true_eq]; exact hlt
      have hc' : ¬ s.colSize j < 0 := not_lt.mpr hc
      simp only [hc', h1, h2, decide_false, Bool.or_self, Bool.false_eq_true, if_false]
      show (if isEqualFeasTol (s.lb j) (s.ub j) = true then _ else
        if D.lt (D.add (s.ub j) (.fin FEAS_TOL)) (s.lb j) = true then _ else _ : St × Status).2 = _
      rw [hne, hlt']
      rfl
    · have hm' : k ∈ L := (List.mem_cons.mp hm).resolve_left (fun e => hj e.symm)
      split
      · exact ih s hm' hc h1 h2 h3 h4
      · simp only
        split
        · have hk : k ≠ j := fun e => hj e.symm
          refine ih _ hm' ?_ ?_ ?_ ?_ ?_ <;>
          · rcases fixCol_eq ((s.check (!(s.ctag j).inactive)).fuzz (!D.eqb (s.lb j) (s.ub j))) j (s.lb j) (s.c j) with ⟨b, e, -⟩ | ⟨b, a, w, e, -⟩
            · have e' := congrArg Prod.fst e
              simp only [St.check, St.fuzz] at e' ⊢
              rw [e']; assumption
            · have e' := congrArg Prod.fst e
              simp only [St.check, St.fuzz] at e' ⊢
              rw [e']
              simp only [fixStep, St.check, St.fuzz, upd, if_neg hk]
              assumption
        · split
          · rfl
          · exact ih _ hm' hc h1 h2 h3 h4

theorem mainLoop_crossed {k : ℕ} {l u : ℚ} (hlt : u + FEAS_TOL < l) {P : LP} (hk : k < P.n)
    (h1 : P.lb k = .fin l) (h2 : P.ub k = .fin u) (env : Env) (stgs : Settings) (fuel : ℕ) (c : Complexity) (b a : ℤ) :
    (mainLoop env stgs (fuel + 1) (initSt P) c b a).2.1 = INFEASIBLE := by
  have h : (closeBounds (initSt P)).2 = INFEASIBLE := by
    unfold closeBounds
    have : (closeBoundsLoop (List.range (initSt P).n) (initSt P)).2 = INFEASIBLE := by
      refine closeBoundsLoop_crossed hlt _ _ (List.mem_range.mpr hk) ?_ ?_ ?_ h1 h2
      · show 0 ≤ (if k < P.n then (((colCells P.m P.A k).length : ℕ) : ℤ) else -1)
        rw [if_pos hk]; omega
      · rw [initSt_ctag hk, colTagOf, h1]; rfl
      · rw [initSt_ctag hk, colTagOf, h2]; rfl
    simp only [this, if_true]
  have h3 : (trivialHead stgs (initSt P)).2 = INFEASIBLE := by
    unfold trivialHead
    simp only [h, if_true]
  have h4 : (runTrivial stgs (initSt P)).2 = INFEASIBLE := by
    unfold runTrivial
    simp only [h3, if_true]
  unfold mainLoop
  simp only [h4]
  rfl

end

end Verif
