import Verif.Inv.FwDton
import Verif.Inv.PtMain
import Verif.Props.C06_Doubletons

/-!
# Points and rays: whole runs with doubleton equalities
-/

namespace Verif

section
variable {μ : Mode} {s t : St} {P : LP} {w d : ℕ → ℚ}

theorem runFast_F (hn : μ.near = false) (hμ : μ.round = false) (env : Env) (stgs : Settings)
    (h1 : stgs.stonCols = false) (s : St) : KeepsF μ CleanTags CleanTags s (runFast env stgs s) := by
  unfold runFast
  rw [h1]
  simp only [Bool.false_eq_true, if_false]
  split
  · have h := (removeDtonRows_F hμ env s).trans ((runTrivial_F hn stgs (removeDtonRows env s)).tags
      (runTrivial_lup stgs (removeDtonRows env s)))
    exact h
  · exact .refl _ _ _

theorem runMedium_off_F (env : Env) (stgs : Settings) (h3 : stgs.primalPropagation = false)
    (hr : stgs.parallelRows = false) (hc : stgs.parallelCols = false) (s : St) :
    KeepsF μ CleanTags CleanTags s (runMedium env stgs s) := by
  unfold runMedium
  rw [h3, hr, hc]
  simp only [Bool.false_eq_true, if_false]
  rw [ite_self, ite_self]
  exact .refl _ _ _

theorem mainLoop_F (hn : μ.near = false) (hμ : μ.round = false) (env : Env) (stgs : Settings)
    (h1 : stgs.stonCols = false) (hm : ∀ s, KeepsF μ CleanTags CleanTags s (runMedium env stgs s))
    (fuel : ℕ) (s : St) (c : Complexity) (b a : ℤ) :
    KeepsF μ CleanTags CleanTags s ((mainLoop env stgs fuel s c b a).1, (mainLoop env stgs fuel s c b a).2.1) := by
  induction fuel generalizing s c b a with
  | zero => exact .refl _ _ _
  | succ fuel ih =>
    unfold mainLoop
    simp only
    have hT : KeepsF μ CleanTags CleanTags s (runTrivial stgs s) := (runTrivial_F hn stgs s).tags (runTrivial_lup stgs s)
    generalize runTrivial stgs s = r at hT
    split
    · exact hT
    · rename_i hu
      have hu : r.2 = UNCHANGED := by simpa using hu
      have key : ∀ q : St × Status, KeepsF μ CleanTags CleanTags r.1 q → KeepsF μ CleanTags CleanTags s
          ((if updateTermination (if c = .medium then q.1.nnz else a) b c q.2 (env.timeUp q.1.tick) = true then
            ({ q.1 with tick := q.1.tick + 1 }, q.2, true)
          else mainLoop env stgs fuel { q.1 with tick := q.1.tick + 1 } (updateComplexity c r.1.nnz q.1.nnz)
            (if c = .medium then (if c = .medium then q.1.nnz else a) else b)
            (if c = .medium then q.1.nnz else a)).1,
          (if updateTermination (if c = .medium then q.1.nnz else a) b c q.2 (env.timeUp q.1.tick) = true then
            ({ q.1 with tick := q.1.tick + 1 }, q.2, true)
          else mainLoop env stgs fuel { q.1 with tick := q.1.tick + 1 } (updateComplexity c r.1.nnz q.1.nnz)
            (if c = .medium then (if c = .medium then q.1.nnz else a) else b)
            (if c = .medium then q.1.nnz else a)).2.1) := by
        intro q h2
        have h3 := KeepsF.then hT (by rw [hu]; exact fine_unchanged) h2
        have sc : SameCore q.1 { q.1 with tick := q.1.tick + 1 } := by constructor <;> rfl
        have gt : Good μ CleanTags CleanTags q.1 { q.1 with tick := q.1.tick + 1 } :=
          .same sc rfl rfl rfl (fun o => ⟨o.1, o.2⟩) (fun _ h => ⟨h.1, ⟨⟨h.2.1.range, h.2.1.status, h.2.1.rows⟩, h.2.2⟩⟩)
        have h4 : KeepsF μ CleanTags CleanTags s ({ q.1 with tick := q.1.tick + 1 }, q.2) := by
          have := h3.trans (KeepsF.core (st := UNCHANGED) sc gt fine_unchanged)
          have e : q.2 ||| UNCHANGED = q.2 := Nat.or_zero _
          rw [e] at this; exact this
        generalize (if c = .medium then q.1.nnz else a) = a'
        generalize (if c = .medium then a' else b) = b'
        split
        · exact h4
        · rename_i ht
          have hq : fine q.2 := by
            unfold updateTermination at ht
            simp only [Bool.or_eq_true, not_or, Bool.not_eq_true] at ht
            exact ht.1.1
          exact KeepsF.then h4 hq (ih { q.1 with tick := q.1.tick + 1 } (updateComplexity c r.1.nnz q.1.nnz) b' a')
      cases c with
      | fast => exact key _ (runFast_F hn hμ env stgs h1 _)
      | medium => exact key _ (hm _)

/-- A feasible point of the problem that is left is feasible for the reduced problem. -/
theorem FeasPt.reduced (h : FeasPt s w) (b : Bs s) (c : Clean s) (tg : TagOK s) :
    (reducedLP s).Feasible (restrict s w) := by
  have g := b.inv.gi
  refine ⟨fun t ht => ?_, fun t ht => ?_⟩
  · have ht : t < (liveIdx s.rowSize s.m).length := ht
    obtain ⟨i, hi⟩ : ∃ i, (liveIdx s.rowSize s.m)[t]? = some i := ⟨_, List.getElem?_eq_getElem ht⟩
    obtain ⟨him, hr, rfl⟩ := liveIdx_rank_inv hi
    have ha : (s.rtag i).inactive = false := by
      by_contra hn
      exact hr ((g.rowGone_iff c i).mpr (by simpa using hn))
    have e1 : (reducedLP s).lhs (liveIdx s.rowSize i).length = s.lhs i := by
      show shrunk _ _ _ _ = _
      unfold shrunk; rw [hi]
    have e2 : (reducedLP s).rhs (liveIdx s.rowSize i).length = s.rhs i := by
      show shrunk _ _ _ _ = _
      unfold shrunk; rw [hi]
    have e3 : Verif.dot (s.A i) (fun k => restrict s w ((idxMapOf s.colSize k).getD 0)) = Verif.dot (s.A i) w := by
      unfold Verif.dot
      congr 1
      refine List.map_congr_left (fun p hp => ?_)
      have hp2 := g.rowIn i ha p hp
      show p.2 * restrict s w ((idxMapOf s.colSize p.1).getD 0) = _
      rw [idxMapOf_live hp2, Option.getD_some, restrict_rank (g.rowRange i p hp).2.1 hp2]
    rw [e1, e2, reduced_dot him hr, e3]
    obtain ⟨lo, hi'⟩ := h.1 i him ha
    refine ⟨?_, ?_⟩
    · rcases lo with lo | lo
      · exact .inl ((tg i).lInf lo)
      · exact .inr lo
    · rcases hi' with lo | lo
      · exact .inl ((tg i).rInf lo)
      · exact .inr lo
  · have ht : t < (liveIdx s.colSize s.n).length := ht
    obtain ⟨k, hk⟩ : ∃ k, (liveIdx s.colSize s.n)[t]? = some k := ⟨_, List.getElem?_eq_getElem ht⟩
    obtain ⟨hkn, hc, rfl⟩ := liveIdx_rank_inv hk
    have ha : (s.ctag k).inactive = false := by
      by_contra hn
      exact hc ((g.colGone_iff c k).mpr (by simpa using hn))
    have e1 : (reducedLP s).lb (liveIdx s.colSize k).length = s.lb k := by
      show shrunk _ _ _ _ = _
      unfold shrunk; rw [hk]
    have e2 : (reducedLP s).ub (liveIdx s.colSize k).length = s.ub k := by
      show shrunk _ _ _ _ = _
      unfold shrunk; rw [hk]
    rw [e1, e2, restrict_rank hkn hc]
    obtain ⟨lo, hi'⟩ := b.colIn h ha
    refine ⟨?_, ?_⟩
    · rcases b.num.lb k ha with ⟨-, e⟩ | ⟨e, q, e'⟩
      · exact .inl e
      · exact .inr (lo.resolve_left (by rw [e]; simp))
    · rcases b.num.ub k ha with ⟨-, e⟩ | ⟨e, q, e'⟩
      · exact .inl e
      · exact .inr (hi'.resolve_left (by rw [e]; simp))

theorem restrict_obj (s : St) (w : ℕ → ℚ) : (reducedLP s).obj (restrict s w) = objP s w := by
  rw [reducedLP_obj]
  unfold objP
  refine Finset.sum_congr rfl (fun k hk => ?_)
  by_cases h : s.colSize k = -1
  · rw [if_pos h, if_pos h]
  · rw [if_neg h, if_neg h, restrict_rank (Finset.mem_range.mp hk) h]

theorem LoD.up {a : D} {u v : ℚ} (h : LoD a u) (huv : u ≤ v) : LoD a v :=
  h.imp id (fun ⟨q, e, hq⟩ => ⟨q, e, hq.trans huv⟩)

theorem HiD.down {a : D} {u v : ℚ} (h : HiD a u) (huv : v ≤ u) : HiD a v :=
  h.imp id (fun ⟨q, e, hq⟩ => ⟨q, e, huv.trans hq⟩)

/-- A ray at the beginning and a feasible point make the problem unbounded. -/
theorem RayAt.unbounded (hd : RayAt (initSt P) d) (hR : P.Regular) (hw : P.Feasible w) : P.Unbounded := by
  have hcost : (∑ k ∈ Finset.range P.n, P.c k * d k) < 0 := hd.cost
  have feas : ∀ τ : ℚ, 0 ≤ τ → P.Feasible (along w d τ) := by
    intro τ hτ
    refine ⟨fun i hi => ?_, fun k hk => ?_⟩
    · have hin : ((initSt P).rtag i).inactive = false := by rw [initSt_rtag hi]; rfl
      obtain ⟨h1, h2⟩ := hw.row i hi
      rw [dot_along]
      refine ⟨?_, ?_⟩
      · rcases hR.lhs i hi with e | ⟨q, e⟩
        · rw [e]; exact .inl rfl
        · have := hd.lhs i hin (by rw [initSt_rtag hi, rowTagOf, e]; rfl)
          exact h1.up (by have := mul_nonneg hτ (show 0 ≤ dot (P.A i) d from this); linarith)
      · rcases hR.rhs i hi with e | ⟨q, e⟩
        · rw [e]; exact .inl rfl
        · have := hd.rhs i hin (by rw [initSt_rtag hi, rowTagOf, e]; rfl)
          exact h2.down (by have := mul_nonneg hτ (neg_nonneg.mpr (show dot (P.A i) d ≤ 0 from this)); linarith)
    · have hin : ((initSt P).ctag k).inactive = false := by rw [initSt_ctag hk]; rfl
      obtain ⟨h1, h2⟩ := hw.col k hk
      show LoD _ (w k + τ * d k) ∧ HiD _ (w k + τ * d k)
      refine ⟨?_, ?_⟩
      · rcases hR.lb k hk with e | ⟨q, e⟩
        · rw [e]; exact .inl rfl
        · have := hd.lb k hin (by rw [initSt_ctag hk, colTagOf, e]; rfl)
          exact h1.up (by have := mul_nonneg hτ this; linarith)
      · rcases hR.ub k hk with e | ⟨q, e⟩
        · rw [e]; exact .inl rfl
        · have := hd.ub k hin (by rw [initSt_ctag hk, colTagOf, e]; rfl)
          exact h2.down (by have := mul_nonneg hτ (neg_nonneg.mpr this); linarith)
  intro M
  by_cases hM : P.obj w < M
  · exact ⟨w, hw, hM⟩
  · have hM := not_lt.mp hM
    generalize hS : (∑ k ∈ Finset.range P.n, P.c k * d k) = S at hcost
    refine ⟨along w d ((P.obj w - M + 1) / (-S)), feas _ (div_nonneg (by linarith) (by linarith)), ?_⟩
    have e : P.obj (along w d ((P.obj w - M + 1) / (-S))) = P.obj w + (P.obj w - M + 1) / (-S) * S := by
      rw [← hS, LP.obj_eq, LP.obj_eq, Finset.mul_sum, ← Finset.sum_add_distrib]
      exact Finset.sum_congr rfl (fun k _ => by unfold along; ring)
    rw [e]
    have : (P.obj w - M + 1) / (-S) * S = -(P.obj w - M + 1) := by
      have := hcost.ne
      field_simp
    rw [this]; linarith

theorem relaxCol_off (s : St) (k : ℕ) : (relaxCol s k).off = s.off := by
  unfold relaxCol
  simp only
  repeat' split
  all_goals rfl

theorem removeRedundantBounds_off (s : St) : (removeRedundantBounds s).off = s.off := by
  unfold removeRedundantBounds
  generalize relaxOrder s = L
  induction L generalizing s with
  | nil => rfl
  | cons k L ih => exact (ih _).trans (relaxCol_off s k)

/-- What a run leaves to the postsolve and how its verdict is to be read. -/
theorem runPresolver_fwd (hP : P.Valid) (hR : P.Regular) (hw : P.Feasible w) {env : Env} {stgs : Settings}
    (h1 : stgs.stonCols = false) (h3 : stgs.parallelRows = false)
    (h4 : stgs.parallelCols = false) (h5 : stgs.primalPropagation = false) {fuel : ℕ}
    (ho : (runPresolver env stgs fuel P).1.asrt = true)
    (ht : (runPresolver env stgs fuel P).1.tiny = false)
    (hn : (runPresolver env stgs fuel P).1.near = false) :
    (fine (runPresolver env stgs fuel P).2.1 ∨ (hasStatus (runPresolver env stgs fuel P).2.1 4 = true ∧ P.Unbounded)) ∧
    (fine (runPresolver env stgs fuel P).2.1 → ∃ r o, (runPresolver env stgs fuel P).1.off = .fin o ∧
      (reducedLP (runPresolver env stgs fuel P).1).Feasible r ∧
      (reducedLP (runPresolver env stgs fuel P).1).obj r + o ≤ P.obj w) := by
  have hm : (runPresolver env stgs fuel P).2.1 = (mainLoop env stgs fuel (initSt P) .fast (initSt P).nnz (initSt P).nnz).2.1 ∧
      SameResult (mainLoop env stgs fuel (initSt P) .fast (initSt P).nnz (initSt P).nnz).1
        (runPresolver env stgs fuel P).1 ∧
      (runPresolver env stgs fuel P).1.near = (mainLoop env stgs fuel (initSt P) .fast (initSt P).nnz (initSt P).nnz).1.near ∧
      (runPresolver env stgs fuel P).1.tiny = (mainLoop env stgs fuel (initSt P) .fast (initSt P).nnz (initSt P).nnz).1.tiny ∧
      (runPresolver env stgs fuel P).1.off = (mainLoop env stgs fuel (initSt P) .fast (initSt P).nnz (initSt P).nnz).1.off := by
    unfold runPresolver
    simp only
    split
    · exact ⟨rfl, .refl _, rfl, rfl, rfl⟩
    · refine ⟨rfl, ?_⟩
      simp only
      split
      · exact ⟨removeRedundantBounds_out _, removeRedundantBounds_near _, removeRedundantBounds_tiny _,
          removeRedundantBounds_off _⟩
      · exact ⟨.refl _, rfl, rfl, rfl⟩
  obtain ⟨e, so, en, et, eoff⟩ := hm
  rw [so.asrt] at ho
  rw [en] at hn
  rw [et] at ht
  rw [so.reduced, e, eoff]
  have K := mainLoop_F (μ := ⟨true, true, false, false, true⟩) rfl rfl env stgs h1 (fun s => runMedium_off_F env stgs h5 h3 h4 s)
    fuel (initSt P) .fast (initSt P).nnz (initSt P).nnz
  have B0 : Bs (initSt P) := ⟨initSt_inv hP, initSt_inRng hP, initSt_num hR⟩
  have C0 : CleanTags (initSt P) := ⟨(initSt_ce P).1, (initSt_updOK P).weak, initSt_tagOK hR.rowSides⟩
  have E0 : Ef (initSt P) := ⟨⟨0, rfl⟩, fun k hk => nomatch hk⟩
  have W0 := initSt_feasPt hP hR hw
  have ok : Ok ⟨true, true, false, false, true⟩ (mainLoop env stgs fuel (initSt P) .fast (initSt P).nnz (initSt P).nnz).1 :=
    ⟨ho, fun _ => ht, fun _ => hn⟩
  obtain ⟨f1, f2⟩ := K.run ok B0 E0 C0 ⟨w, W0⟩
  have f1 : Fair (initSt P) (mainLoop env stgs fuel (initSt P) .fast (initSt P).nnz (initSt P).nnz).2.1 := f1
  refine ⟨f1.imp id (fun ⟨h, d, hd⟩ => ⟨h, hd.unbounded hR hw⟩), fun hf => ?_⟩
  obtain ⟨B, c⟩ := K.pts.base hf ok B0 C0
  have F := f2 hf
  obtain ⟨w', h', hc⟩ := F.down w W0
  obtain ⟨o, eo⟩ := F.ef.off
  refine ⟨_, o, eo, h'.reduced B c.1 c.2.2, ?_⟩
  rw [restrict_obj]
  unfold costAt at hc
  rw [eo] at hc
  have e0 : objP (initSt P) w = P.obj w := by
    rw [LP.obj_eq]
    unfold objP
    refine Finset.sum_congr rfl (fun k hk => ?_)
    have hk : k < P.n := Finset.mem_range.mp hk
    rw [if_neg]
    · rfl
    · exact (initSt_gi hP).colActive (by rw [initSt_ctag hk]; rfl)
  rw [e0] at hc
  have e1 : (initSt P).off.toQ = 0 := rfl
  rw [e1] at hc
  simp only [D.toQ] at hc
  linarith

end

end Verif
