import Verif.Inv.FwSton

/-!
# Points and rays across doubleton equalities

A feasible point satisfies the equality, so the eliminated value is determined and the remaining values stay feasible.
A ray of the smaller problem is completed by the change of the eliminated value that keeps the equality.
-/

namespace Verif

section
variable {μ : Mode} {s t : St} {i j k : ℕ} {aij aik b : ℚ} {x d : ℕ → ℚ}

theorem objP_along (s : St) (x d : ℕ → ℚ) (τ : ℚ) : objP s (along x d τ) = objP s x + τ * objP s d := by
  unfold objP along
  rw [Finset.mul_sum, ← Finset.sum_add_distrib]
  exact Finset.sum_congr rfl (fun j _ => by split <;> ring)

/-- A direction that does not move inactive columns. -/
theorem objP_off (g : GI s) (h : ∀ k, (s.ctag k).inactive = true → d k = 0) : objP s d = objective s d := by
  unfold objP objective
  refine Finset.sum_congr rfl (fun j _ => ?_)
  split
  · rename_i e
    rw [h j (g.colGone j e).2, mul_zero]
  · rfl

theorem modifyBounds_frame (s : St) (i : ℕ) (aij aik : ℚ) (rhs lbk ubk : D) (j : ℕ) (tag : CTag) :
    (modifyBounds s i aij aik rhs lbk ubk j tag).A = s.A ∧ (modifyBounds s i aij aik rhs lbk ubk j tag).AT = s.AT ∧
      ∀ l, l ≠ j → (modifyBounds s i aij aik rhs lbk ubk j tag).ctag l = s.ctag l := by
  have hU : ∀ (s : St) (v : D), (Verif.updateUb s j v i).1.A = s.A ∧ (Verif.updateUb s j v i).1.AT = s.AT ∧
      ∀ l, l ≠ j → (Verif.updateUb s j v i).1.ctag l = s.ctag l := fun s v => by
    rcases updateUb_eq s j v i with ⟨st, e⟩ | ⟨a, u, e⟩ <;> rw [e]
    · exact ⟨rfl, rfl, fun _ _ => rfl⟩
    · exact ⟨rfl, rfl, fun _ h => upd_ne _ _ h⟩
  have hL : ∀ (s : St) (v : D), (Verif.updateLb s j v i).1.A = s.A ∧ (Verif.updateLb s j v i).1.AT = s.AT ∧
      ∀ l, l ≠ j → (Verif.updateLb s j v i).1.ctag l = s.ctag l := fun s v => by
    rcases updateLb_eq s j v i with ⟨st, e⟩ | ⟨a, u, e⟩ <;> rw [e]
    · exact ⟨rfl, rfl, fun _ _ => rfl⟩
    · exact ⟨rfl, rfl, fun _ h => upd_ne _ _ h⟩
  have tr : ∀ {x y z : St}, (y.A = x.A ∧ y.AT = x.AT ∧ ∀ l, l ≠ j → y.ctag l = x.ctag l) →
      (z.A = y.A ∧ z.AT = y.AT ∧ ∀ l, l ≠ j → z.ctag l = y.ctag l) →
      (z.A = x.A ∧ z.AT = x.AT ∧ ∀ l, l ≠ j → z.ctag l = x.ctag l) := fun h h' =>
    ⟨h'.1.trans h.1, h'.2.1.trans h.2.1, fun l hl => (h'.2.2 l hl).trans (h.2.2 l hl)⟩
  have rf : ∀ x : St, (x.A = x.A ∧ x.AT = x.AT ∧ ∀ l, l ≠ j → x.ctag l = x.ctag l) :=
    fun _ => ⟨rfl, rfl, fun _ _ => rfl⟩
  unfold modifyBounds
  simp only
  repeat' split
  all_goals first
    | exact rf _
    | exact hU _ _
    | exact hL _ _
    | exact tr (hU _ _) (hL _ _)
    | exact tr (hL _ _) (hU _ _)

/-- What a substitution leaves alone, and that it rounds nothing away. -/
theorem dtonStep_more (hμ : μ.round = false) (env : Env) (buf : List ℕ) (red : Bool) (c : Bs s)
    (cl : Clean s) (two : (s.A i).length = 2) {s1 : St} (hf : findSubst env s i = (s1, .subst j k aij aik))
    (o : Ok μ (dtonStep env (s, buf, red) i).1) :
    (∀ l, l ≠ j → l ≠ k → (dtonStep env (s, buf, red) i).1.ctag l = s.ctag l) ∧
      NoRounding s i j k (aij / aik) ∧ Clean (dtonStep env (s, buf, red) i).1 ∧ (s.rtag i).inactive = false ∧
      (s.ctag j).inactive = false ∧ (s.ctag k).inactive = false ∧ GI (dtonStep env (s, buf, red) i).1 := by
  have inv := c.inv
  have n := c.num
  have hsc : ∃ t, s1 = { dtonChecked s i with tick := t } := by
    rcases findSubst_out env s i with h | ⟨_, ⟨h, hl⟩ | ⟨t, plan', h⟩⟩
    · rw [hf] at h; cases h
    · omega
    · rw [hf] at h; obtain ⟨e, -⟩ := Prod.mk.inj h; exact ⟨t, e⟩
  obtain ⟨tk, hs1⟩ := hsc
  obtain ⟨_, hcells, hj, hk, _⟩ := findSubst_subst hf two
  have sc : SameCore s s1 := by rw [hs1]; exact dtonChecked_same s i tk
  generalize hr : dtonStep env (s, buf, red) i = r at o ⊢
  unfold dtonStep at hr
  simp only at hr
  rw [hf] at hr
  simp only at hr
  generalize hs2 : modifyBounds s1 i aij aik (s1.rhs i) (s1.lb k) (s1.ub k) j (s1.ctag k) = s2 at hr
  have hok2 : Ok μ s2 := by
    split at hr
    · subst hr; exact o
    · subst hr
      exact (Le.trans (t := dtonPrep s2 i j k aij aik) (.eq rfl rfl) (dtonExecute_le _ _ _ _ _ _ _ _ _)).ok o
  have hok1 : Ok μ s1 := by rw [← hs2] at hok2; exact modifyBounds_ok hok2
  have hchk : Ok μ (dtonChecked s i) := by rw [hs1] at hok1; exact ⟨hok1.1, hok1.2⟩
  obtain ⟨-, hrow, b, hb⟩ := dtonChecked_ok hchk
  have run : Run μ s s1 := by
    rw [hs1]; exact .of_same (dtonChecked_same s i tk) rfl rfl rfl
  have dm : DtonMid i j k aij aik b s1 :=
    ⟨sc.clean cl, by rw [sc.rtag]; exact hrow, by rw [sc.A]; exact hcells, by rw [sc.ctag]; exact hj,
      by rw [sc.ctag]; exact hk, by rw [sc.rhs]; exact hb⟩
  have hja : aij ≠ 0 := (inv.gi.rowRange i (j, aij) (by rcases hcells with e | e <;> rw [e] <;> simp)).2.2
  have n1 := n.core sc
  have na : NumAt j s2 := by
    rw [← hs2, dm.rhs]
    exact NumAt.modify ⟨n1, dm.colj, dm.clean.2.1⟩ hja (n1.lb k dm.colk).fin (n1.ub k dm.colk).fin
  rw [dm.rhs] at hs2
  obtain ⟨fA, fT, fc⟩ := modifyBounds_frame s1 i aij aik (.fin b) (s1.lb k) (s1.ub k) j (s1.ctag k)
  have hg := modifyBounds_good μ s1 i j k aij aik b (.fin b) (s1.lb k) (s1.ub k) (s1.ctag k)
  rw [hs2] at hg fA fT fc
  obtain ⟨r2, dm2⟩ := (hg hok2).2 (run.inv inv) dm
  rw [if_neg (by rw [na.col]; simp)] at hr
  change ((dtonExecute (dtonPrep s2 i j k aij aik) i ((s2.A i).take 2) j k aij aik buf
        ((dtonPrep s2 i j k aij aik).c k)).1,
        (dtonExecute (dtonPrep s2 i j k aij aik) i ((s2.A i).take 2) j k aij aik buf
        ((dtonPrep s2 i j k aij aik).c k)).2, true) = r at hr
  subst hr
  obtain ⟨r3, cl3, -, -, out, hv⟩ := dtonExec_run buf (r2.inv (run.inv inv)) dm2 o
  rw [hμ] at hv
  have hv := hv.resolve_left (by simp)
  refine ⟨fun l hl hlk => ?_, fun q hq hqi hqa a ha => ⟨(inv.gi.rowRange q _ ha).2.2, fun hz => ?_⟩, cl3, hrow, hj, hk,
    (r3.inv (r2.inv (run.inv inv))).gi⟩
  · rw [out.ctag, upd_ne _ _ hlk, fc l hl, sc.ctag]
  · have hm := (inv.gi.agree q k a (inv.gi.rowActive hqa) (inv.gi.colActive hk)).mp ha
    have := hv q a hqi (by rw [fT, sc.AT]; exact hm)
    rw [fA, sc.A] at this
    exact this hz

/-- An elimination carries points and rays. -/
theorem Eliminated.fwd {ε o : ℚ} (hε : 0 ≤ ε) (hE : Eliminated s t i j k ε (fun x => partner aij aik b (x j))) (c : Bs s)
    (gt : GI t) (cl : Clean t) (ho : s.off = .fin o) (hk : (s.ctag k).inactive = false) (hkt : (t.ctag k).inactive = true)
    (hj : (s.ctag j).inactive = false) (hjk : j ≠ k)
    (hc : ∀ l, l ≠ j → l ≠ k → t.ctag l = s.ctag l) (hw : ∃ w, FeasPt s w) : Fwd s t := by
  obtain ⟨w, hw⟩ := hw
  obtain ⟨o1, o', e1, e2, eo⟩ := hE.obj
  have selfk : ∀ x : ℕ → ℚ, x k = partner aij aik b (x j) → setAt x k (partner aij aik b (x j)) = x := by
    intro x hx
    funext l
    by_cases hl : l = k
    · subst hl; rw [setAt_same, hx]
    · rw [setAt_ne _ _ hl]
  refine ⟨⟨⟨o', e2⟩, by rw [cl.2.1]; intro k hk; cases hk⟩, fun x hx => ⟨x, (hE.proj x hx).1, le_of_eq ?_⟩, ?_⟩
  · have := eo x
    rw [selfk x (hE.proj x hx).2] at this
    unfold costAt
    rw [e1, e2]
    simp only [D.toQ]
    linarith
  · rintro ⟨d, hd⟩
    have hlift := hE.lift.resolve_left (fun h => h w hw)
    have dk : d k = 0 := hd.off k hkt
    obtain ⟨f0, w0⟩ := hE.proj w hw
    have hal : ∀ τ : ℚ, along w (setAt d k (-(aij / aik) * d j)) τ =
        setAt (along w d τ) k (partner aij aik b (along w d τ j)) := by
      intro τ
      funext l
      by_cases hl : l = k
      · subst hl
        rw [setAt_same]
        unfold along
        rw [setAt_same, w0]
        unfold partner
        ring
      · rw [setAt_ne _ _ hl]
        unfold along
        rw [setAt_ne _ _ hl]
    have hoff : ∀ l, (s.ctag l).inactive = true → setAt d k (-(aij / aik) * d j) l = 0 := by
      intro l hl
      have hlk : l ≠ k := by rintro rfl; rw [hk] at hl; cases hl
      have hlj : l ≠ j := by rintro rfl; rw [hj] at hl; cases hl
      rw [setAt_ne _ _ hlk]
      exact hd.off l (by rw [hc l hlj hlk]; exact hl)
    refine ⟨setAt d k (-(aij / aik) * d j), RayAt.of_near (x := w) (ε := ε) c.inv.gi c.rng (fun τ hτ => ?_) hoff ?_⟩
    · obtain ⟨D1, D2, D3⟩ := hlift _ (f0.along hd hτ)
      rw [hal τ]
      refine ⟨fun q hq ha => ?_, fun l hl hs hb => ?_⟩
      · have := D1 q hq ha
        exact ⟨this.1.mono (by linarith), this.2.mono (by linarith)⟩
      · by_cases hlk : l = k
        · subst hlk; rw [setAt_same]; exact D3
        · rw [setAt_ne _ _ hlk]
          have := D2 l hl hlk hs hb
          exact ⟨this.1.mono (by linarith), this.2.mono (by linarith)⟩
    · have h0 := eo w
      have h1 := eo (along w d 1)
      rw [selfk w w0] at h0
      rw [← hal 1, objP_along, objP_along, objP_off c.inv.gi hoff, objP_off gt hd.off] at h1
      have := hd.cost
      linarith

theorem dtonStep_fwd (hμ : μ.round = false) (env : Env) {L : List ℕ} {N : ℕ} (buf : List ℕ) (red : Bool) (c : Bs s)
    (e : Ef s) (hi : i ∈ L) (hI : DtonInv L buf red N s) (he : RowTags s) (hw : ∃ w, FeasPt s w)
    (o : Ok μ (dtonStep env (s, buf, red) i).1) : Fwd s (dtonStep env (s, buf, red) i).1 := by
  rcases hf : findSubst env s i with ⟨s1, plan⟩
  have hsame : SameCore s s1 ∧ (plan ≠ .skip → (s.A i).length = 2) := by
    rcases findSubst_out env s i with h | ⟨hsz, ⟨h, hl⟩ | ⟨t, plan', h⟩⟩
    · rw [hf] at h
      obtain ⟨rfl, rfl⟩ := Prod.mk.inj h
      exact ⟨by constructor <;> rfl, fun h => absurd rfl h⟩
    · have := c.inv.gi.rowSz i (by omega)
      omega
    · rw [hf] at h
      obtain ⟨rfl, -⟩ := Prod.mk.inj h
      have h1 := c.inv.gi.rowSz i (by omega)
      have h2 := hI.short i hi
      exact ⟨dtonChecked_same s i t, fun _ => by omega⟩
  cases plan with
  | skip =>
    have e' : (dtonStep env (s, buf, red) i).1 = s1 := by unfold dtonStep; simp only; rw [hf]
    rw [e']; exact .core e hsame.1
  | retry =>
    have e' : (dtonStep env (s, buf, red) i).1 = s1 := by unfold dtonStep; simp only; rw [hf]
    rw [e']; exact .core e hsame.1
  | subst j k aij aik =>
    have two := hsame.2 (by simp)
    obtain ⟨b, hl, hb, hcells, -, -, hct⟩ := dtonStep_subst hμ env buf red c.inv c.rng hI.clean two he hf o
    obtain ⟨hc, hnr, cl, hrow, hj, hk, gt⟩ := dtonStep_more hμ env buf red c hI.clean two hf o
    obtain ⟨o0, ho⟩ := e.off
    have g := c.inv.gi
    have act : ∀ p ∈ s.A i, (s.ctag p.1).inactive = false := by
      intro p hp
      rcases hcells with e | e <;> rw [e] at hp <;> simp at hp <;> rcases hp with rfl | rfl <;> assumption
    have ready : DtonReady s i b := by
      refine ⟨c.rowLt hrow, hrow, hb, hl, he.both hl hb, two, fun q _ _ => g.rowSorted q,
        fun p hp => (g.rowRange i p hp).2.2,
        fun p hp => ⟨(g.rowRange i p hp).2.1, g.colSz _ (act p hp), c.colFin (act p hp), g.colSorted _⟩,
        fun p hp q v hq => ?_, fun q _ hq => ⟨c.num.lhs q hq, c.num.rhs q hq⟩⟩
      rw [← g.agree q p.1 v (g.rowActive hq) (g.colActive (act p hp))]
      exact ⟨fun h => ⟨(g.rowRange q _ h).1, h⟩, fun h => h.2⟩
    have hE := (C32_dton_partial buf red hf ready hnr ho).1
    have hjk : j ≠ k := by
      have := g.rowSorted i
      rcases hcells with e | e <;> rw [e] at this <;> simp [SortedC] at this <;> omega
    exact hE.fwd (mul_nonneg (abs_nonneg _) FEAS_TOL_pos.le) c gt cl ho hk (by rw [hct]; rfl) hj hjk hc hw

theorem dtonSteps_fwd (hμ : μ.round = false) (env : Env) (L : List ℕ) (N : ℕ) (M : List ℕ) (hM : ∀ i ∈ M, i ∈ L)
    (s : St) (buf : List ℕ) (red : Bool) (c : Bs s) (e : Ef s) (hI : DtonInv L buf red N s) (he : RowTags s)
    (hw : ∃ w, FeasPt s w) (o : Ok μ (M.foldl (dtonStep env) (s, buf, red)).1) :
    Fwd s (M.foldl (dtonStep env) (s, buf, red)).1 := by
  induction M generalizing s buf red with
  | nil => exact .refl e
  | cons i M ih =>
    have hg := dtonSteps_good μ env L N M (fun i hi => hM i (List.mem_cons_of_mem _ hi)) (dtonStep env (s, buf, red) i).1
      (dtonStep env (s, buf, red) i).2.1 (dtonStep env (s, buf, red) i).2.2
    rw [List.foldl_cons] at o ⊢
    have o1 : Ok μ (dtonStep env (s, buf, red) i).1 := hg.ok o
    have he1 := (dtonStep_kkt hμ env buf red c.inv c.rng (hM i List.mem_cons_self) hI he o1).2
    obtain ⟨r1, hI1⟩ := (dtonStep_good μ env L buf red N i (hM i List.mem_cons_self) s o1).2 c.inv hI
    have W := dtonStep_fwd hμ env buf red c e (hM i List.mem_cons_self) hI he hw o1
    have c1 : Bs (dtonStep env (s, buf, red) i).1 := ⟨r1.inv c.inv, r1.steps.inRng c.inv.gi c.rng,
      dtonStep_num env buf red c.inv (hM i List.mem_cons_self) hI c.num o1⟩
    exact W.trans (ih (fun i hi => hM i (List.mem_cons_of_mem _ hi)) _ _ _ c1 W.ef hI1 he1 (W.some hw) o)

theorem dtonRound_fwd (hμ : μ.round = false) (env : Env) (s : St) (c : Bs s) (e : Ef s) (cl : Clean s)
    (he : RowTags s) (hw : ∃ w, FeasPt s w) (o : Ok μ (dtonRound env s).1) :
    Fwd s (dtonRound env s).1 ∧ Num (dtonRound env s).1 := by
  unfold dtonRound at o ⊢
  simp only at o ⊢
  have hI : DtonInv s.dtonRows [] false (live s) s := ⟨cl, c.inv.dton, by simp, le_refl _, by simp⟩
  have o' : Ok μ (s.dtonRows.foldl (dtonStep env) (s, [], false)).1 := ⟨o.1, o.2⟩
  have k1 := dtonSteps_fwd hμ env s.dtonRows (live s) s.dtonRows (fun _ h => h) s [] false c e hI he hw o'
  have k2 := dtonSteps_num env s.dtonRows (live s) s.dtonRows (fun _ h => h) s [] false c.inv hI c.num o'
  generalize s.dtonRows.foldl (dtonStep env) (s, [], false) = r at k1 k2
  have sc : SameCore r.1 { r.1 with dtonRows := r.2.1 } := by constructor <;> rfl
  exact ⟨k1.trans (.core k1.ef sc), k2.core sc⟩

theorem dtonLoop_fwd (hμ : μ.round = false) (env : Env) (fuel : ℕ) (s : St) (c : Bs s) (e : Ef s)
    (cl : Clean s) (hl : live s < fuel) (he : RowTags s) (hw : ∃ w, FeasPt s w) (o : Ok μ (dtonLoop env fuel s)) :
    Fwd s (dtonLoop env fuel s) := by
  induction fuel generalizing s with
  | zero => omega
  | succ fuel ih =>
    have hg := fun s1 => dtonLoop_good μ env fuel s1
    unfold dtonLoop at o ⊢
    split
    · exact .refl e
    · rename_i hne
      rw [if_neg hne] at o
      have hround := dtonRound_good μ env fuel s
      have hk := dtonRound_fwd hμ env s c e cl he hw
      have ht := dtonRound_kkt hμ env s c.inv c.rng cl he
      simp only at o ⊢
      generalize dtonRound env s = r at hround hk ht o
      obtain ⟨s1, red⟩ := r
      simp only at hround hk ht o ⊢
      split
      · rename_i hr
        rw [if_pos hr] at o
        have o1 := (hg s1).ok o
        obtain ⟨r1, c1, -, l1⟩ := (hround o1).2 c.inv ⟨cl, by omega⟩
        obtain ⟨W, n1⟩ := hk o1
        exact W.trans (ih s1 ⟨r1.inv c.inv, r1.steps.inRng c.inv.gi c.rng, n1⟩ W.ef c1 (l1 hr) (ht o1).2 (W.some hw) o)
      · rename_i hr
        rw [if_neg hr] at o
        exact (hk o).1

/-- `remove_dton_eq_rows`. -/
theorem removeDtonRows_F (hμ : μ.round = false) (env : Env) (s : St) :
    KeepsF μ CleanTags CleanTags s (removeDtonRows env s, UNCHANGED) := by
  refine .of (removeDtonRows_P hμ env s) fine_unchanged (fun o c e hi hw => ?_)
  obtain ⟨cl, he⟩ := hi
  simp only at o ⊢
  unfold removeDtonRows at o ⊢
  simp only at o ⊢
  generalize hs1 : ((s.check (decide (s.stonRows = []))).check (decide (s.emptyRows = []))).check
    (decide (s.emptyCols = [])) = s1 at o ⊢
  have sc : SameCore s s1 := by rw [← hs1]; constructor <;> rfl
  have run : Run μ s s1 := by rw [← hs1]; exact .of_same (by constructor <;> rfl) rfl rfl rfl
  have W := Fwd.core e sc
  have c1 : Bs s1 := ⟨run.inv c.inv, run.steps.inRng c.inv.gi c.rng, c.num.core sc⟩
  have hl : live s1 < s1.m + 1 := by
    have : live s1 ≤ s1.m := (Finset.card_filter_le _ _).trans (by simp)
    omega
  have hg := dtonLoop_good μ env (s1.m + 1) s1
  have hk : Ok μ (dtonLoop env (s1.m + 1) s1) → Fwd s1 (dtonLoop env (s1.m + 1) s1) := fun o =>
    dtonLoop_fwd hμ env (s1.m + 1) s1 c1 W.ef (sc.clean cl) hl
      (he.lup (by rw [← hs1]; exact ((Lup.check _ _).trans (.check _ _)).trans (.check _ _)) (hg.ok o).1) (W.some hw) o
  generalize dtonLoop env (s1.m + 1) s1 = s2 at o hg hk ⊢
  have o2 : Ok μ s2 := by
    split at o
    · exact o
    · exact (delCols_good μ Clean Clean s2 (fun h => h.1) (fun _ _ h => ⟨h.noRows, h.noFixed, h.noSub⟩)).ok o
  obtain ⟨r2, c2⟩ := (hg o2).2 c1.inv ⟨sc.clean cl, hl⟩
  rw [if_pos c2.2.1]
  exact W.trans (hk o2)

theorem KeepsF.tags {r : St × Status} (h : KeepsF μ Clean Clean s r) (l : Lup s r.1) : KeepsF μ CleanTags CleanTags s r :=
  ⟨h.pts.tags l, fun o c e hi hw => h.run o c e hi.1 hw⟩

end

end Verif
