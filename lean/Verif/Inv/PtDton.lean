import Verif.Inv.PtSton

/-!
# Optimality conditions of the problem that is left: doubleton equalities
-/

namespace Verif

section
variable {μ : Mode} {s t : St} {i j k : ℕ} {aij aik b : ℚ} {lbk ubk : D} {tag : CTag}

/-- The columns and the numbers between the two bounds. -/
structure NumAt (j : ℕ) (s : St) : Prop where
  num : Num s
  col : (s.ctag j).inactive = false
  pend : s.fixedCols = []

theorem NumAt.updateUb (h : NumAt j s) {v : D} (hv : ∃ q, v = .fin q) : NumAt j (Verif.updateUb s j v i).1 := by
  rcases updateUb_eq s j v i with ⟨st, e⟩ | ⟨ac, u, e⟩
  · rw [e]; exact ⟨h.num.core (sameCore_check _ _), h.col, h.pend⟩
  · rw [e]
    have tck : ((upd s.ctag j { s.ctag j with ubInf := false }) j).inactive = false := by rw [upd_same]; exact h.col
    refine ⟨h.num.bound (k := j) (by rw [h.pend]; simp) h.col (fun j hj => upd_ne _ _ hj) (fun j hj => upd_ne _ _ hj)
      (fun j hj => upd_ne _ _ hj) rfl rfl rfl rfl rfl ?_ ?_, tck, h.pend⟩
    · show LoForm (upd s.ctag j _ j).lbInf (upd s.lb j (s.lb j) j)
      rw [upd_same, upd_same]; exact h.num.lb j h.col
    · show HiForm (upd s.ctag j _ j).ubInf (upd s.ub j v j)
      rw [upd_same, upd_same]; exact .inr ⟨rfl, hv⟩

theorem NumAt.updateLb (h : NumAt j s) {v : D} (hv : ∃ q, v = .fin q) : NumAt j (Verif.updateLb s j v i).1 := by
  rcases updateLb_eq s j v i with ⟨st, e⟩ | ⟨ac, u, e⟩
  · rw [e]; exact ⟨h.num.core (sameCore_check _ _), h.col, h.pend⟩
  · rw [e]
    have tck : ((upd s.ctag j { s.ctag j with lbInf := false }) j).inactive = false := by rw [upd_same]; exact h.col
    refine ⟨h.num.bound (k := j) (by rw [h.pend]; simp) h.col (fun j hj => upd_ne _ _ hj) (fun j hj => upd_ne _ _ hj)
      (fun j hj => upd_ne _ _ hj) rfl rfl rfl rfl rfl ?_ ?_, tck, h.pend⟩
    · show LoForm (upd s.ctag j _ j).lbInf (upd s.lb j v j)
      rw [upd_same, upd_same]; exact .inr ⟨rfl, hv⟩
    · show HiForm (upd s.ctag j _ j).ubInf (upd s.ub j (s.ub j) j)
      rw [upd_same, upd_same]; exact h.num.ub j h.col

theorem cand_fin {d : D} (hj : aij ≠ 0) (h : ∃ q, d = .fin q) :
    ∃ q, D.divq (D.sub (.fin b) (D.smul aik d)) aij = .fin q := by
  obtain ⟨q, rfl⟩ := h
  rw [D.smul_fin, D.sub_fin, D.divq_fin hj]
  exact ⟨_, rfl⟩

theorem NumAt.modify (h : NumAt j s) (hj : aij ≠ 0) (h1 : FinIf tag.lbInf lbk) (h2 : FinIf tag.ubInf ubk) :
    NumAt j (modifyBounds s i aij aik (.fin b) lbk ubk j tag) := by
  unfold modifyBounds
  simp only
  split
  · have first : NumAt j (if tag.lbInf then s else (Verif.updateUb s j (((D.fin b).sub (D.smul aik lbk)).divq aij) i).1) := by
      split
      · exact h
      · rename_i e; exact h.updateUb (cand_fin hj (h1 (by simpa using e)))
    generalize (if tag.lbInf then s else (Verif.updateUb s j (((D.fin b).sub (D.smul aik lbk)).divq aij) i).1) = v
      at first ⊢
    split
    · exact first
    · split
      · exact first
      · rename_i e; exact first.updateLb (cand_fin hj (h2 (by simpa using e)))
  · have first : NumAt j (if tag.lbInf then s else (Verif.updateLb s j (((D.fin b).sub (D.smul aik lbk)).divq aij) i).1) := by
      split
      · exact h
      · rename_i e; exact h.updateLb (cand_fin hj (h1 (by simpa using e)))
    generalize (if tag.lbInf then s else (Verif.updateLb s j (((D.fin b).sub (D.smul aik lbk)).divq aij) i).1) = v
      at first ⊢
    split
    · exact first
    · split
      · exact first
      · rename_i e; exact first.updateUb (cand_fin hj (h2 (by simpa using e)))

theorem newSide_fin {inf : Bool} {a : ℚ} {d : D} (h : FinIf inf d) : FinIf inf (newSide inf aik b a d) := by
  intro hi
  obtain ⟨q, rfl⟩ := h hi
  unfold newSide
  split
  · exact ⟨_, rfl⟩
  · rw [D.sub_fin]; exact ⟨_, rfl⟩

/-- One substitution keeps numbers. -/
theorem Num.dton (h : Num s) (d : DtonOut s t i j k aij aik b) (c : Clean t) : Num t := by
  have tr : ∀ r, (t.rtag r).inactive = false → r ≠ i ∧ t.rtag r = s.rtag r := by
    intro r hr
    rw [d.rtag] at hr ⊢
    by_cases e : r = i
    · subst e; rw [upd_same] at hr; cases hr
    · exact ⟨e, upd_ne _ _ e⟩
  have tc : ∀ r, (t.ctag r).inactive = false → t.ctag r = s.ctag r := by
    intro r hr
    rw [d.ctag] at hr ⊢
    by_cases e : r = k
    · subst e; rw [upd_same] at hr; cases hr
    · exact upd_ne _ _ e
  refine ⟨fun r hr => ?_, fun r hr => ?_, fun r hr => ?_, fun r hr => ?_, fun r hr => ?_, fun r hr => ?_, c.2.2⟩
  · obtain ⟨ne, e⟩ := tr r hr
    rw [e] at hr ⊢
    by_cases hm : ∃ a, (r, a) ∈ s.AT k
    · obtain ⟨a, ha⟩ := hm
      rw [(d.hit r a ne ha).2.1]; exact newSide_fin (h.lhs r hr)
    · rw [(d.miss r ne (fun a ha => hm ⟨a, ha⟩)).2.1]; exact h.lhs r hr
  · obtain ⟨ne, e⟩ := tr r hr
    rw [e] at hr ⊢
    by_cases hm : ∃ a, (r, a) ∈ s.AT k
    · obtain ⟨a, ha⟩ := hm
      rw [(d.hit r a ne ha).2.2]; exact newSide_fin (h.rhs r hr)
    · rw [(d.miss r ne (fun a ha => hm ⟨a, ha⟩)).2.2]; exact h.rhs r hr
  · obtain ⟨ne, e⟩ := tr r hr
    rw [e] at hr ⊢; exact h.eq r hr
  · have e := tc r hr
    rw [e] at hr ⊢; rw [d.lb]; exact h.lb r hr
  · have e := tc r hr
    rw [e] at hr ⊢; rw [d.ub]; exact h.ub r hr
  · rw [c.2.1] at hr; cases hr

theorem dtonStep_num (env : Env) {L : List ℕ} {N : ℕ} (buf : List ℕ) (red : Bool) (inv : Inv s)
    (hi : i ∈ L) (hI : DtonInv L buf red N s) (n : Num s) (o : Ok μ (dtonStep env (s, buf, red) i).1) :
    Num (dtonStep env (s, buf, red) i).1 := by
  rcases hf : findSubst env s i with ⟨s1, plan⟩
  have hsame : SameCore s s1 ∧ (plan ≠ .skip → (s.A i).length = 2 ∧ ∃ t, s1 = { dtonChecked s i with tick := t }) := by
    rcases findSubst_out env s i with h | ⟨hsz, ⟨h, hl⟩ | ⟨t, plan', h⟩⟩
    · rw [hf] at h
      obtain ⟨rfl, rfl⟩ := Prod.mk.inj h
      exact ⟨by constructor <;> rfl, fun h => absurd rfl h⟩
    · have := inv.gi.rowSz i (by omega)
      omega
    · rw [hf] at h
      obtain ⟨rfl, -⟩ := Prod.mk.inj h
      have h1 := inv.gi.rowSz i (by omega)
      have h2 := hI.short i hi
      exact ⟨dtonChecked_same s i t, fun _ => ⟨by omega, t, rfl⟩⟩
  obtain ⟨sc, hsc⟩ := hsame
  cases plan with
  | skip =>
    have e : (dtonStep env (s, buf, red) i).1 = s1 := by unfold dtonStep; simp only; rw [hf]
    rw [e]; exact n.core sc
  | retry =>
    have e : (dtonStep env (s, buf, red) i).1 = s1 := by unfold dtonStep; simp only; rw [hf]
    rw [e]; exact n.core sc
  | subst j k aij aik =>
    obtain ⟨two, tk, hs1⟩ := hsc (by simp)
    obtain ⟨_, hcells, hj, hk, _⟩ := findSubst_subst hf two
    generalize hr : dtonStep env (s, buf, red) i = r at o ⊢
    unfold dtonStep at hr
    simp only at hr
    rw [hf] at hr
    simp only at hr
    generalize hs2 : modifyBounds s1 i aij aik (s1.rhs i) (s1.lb k) (s1.ub k) j (s1.ctag k) = s2 at hr
    have hok2 : Ok μ s2 := by
      split at hr
      · subst hr; exact o
      · subst hr
        exact (Le.trans (t := dtonPrep s2 i j k aij aik) (.eq rfl rfl) (dtonExecute_le _ _ _ _ _ _ _ _ _)).ok o
    have hok1 : Ok μ s1 := by rw [← hs2] at hok2; exact modifyBounds_ok hok2
    have hchk : Ok μ (dtonChecked s i) := by rw [hs1] at hok1; exact ⟨hok1.1, hok1.2⟩
    obtain ⟨-, hrow, b, hb⟩ := dtonChecked_ok hchk
    have run : Run μ s s1 := by
      rw [hs1]; exact .of_same (dtonChecked_same s i tk) rfl rfl rfl
    have dm : DtonMid i j k aij aik b s1 :=
      ⟨sc.clean hI.clean, by rw [sc.rtag]; exact hrow, by rw [sc.A]; exact hcells, by rw [sc.ctag]; exact hj,
        by rw [sc.ctag]; exact hk, by rw [sc.rhs]; exact hb⟩
    have hja : aij ≠ 0 := (inv.gi.rowRange i (j, aij) (by rcases hcells with e | e <;> rw [e] <;> simp)).2.2
    have n1 := n.core sc
    have na : NumAt j s2 := by
      rw [← hs2, dm.rhs]
      exact NumAt.modify ⟨n1, dm.colj, dm.clean.2.1⟩ hja (n1.lb k dm.colk).fin (n1.ub k dm.colk).fin
    rw [dm.rhs] at hs2
    have hg := modifyBounds_good μ s1 i j k aij aik b (.fin b) (s1.lb k) (s1.ub k) (s1.ctag k)
    rw [hs2] at hg
    obtain ⟨r2, dm2⟩ := (hg hok2).2 (run.inv inv) dm
    rw [if_neg (by rw [na.col]; simp)] at hr
    change ((dtonExecute (dtonPrep s2 i j k aij aik) i ((s2.A i).take 2) j k aij aik buf
          ((dtonPrep s2 i j k aij aik).c k)).1,
          (dtonExecute (dtonPrep s2 i j k aij aik) i ((s2.A i).take 2) j k aij aik buf
          ((dtonPrep s2 i j k aij aik).c k)).2, true) = r at hr
    subst hr
    obtain ⟨-, cl, -, -, out, -⟩ := dtonExec_run buf (r2.inv (run.inv inv)) dm2 o
    exact na.num.dton out cl

theorem dtonSteps_num (env : Env) (L : List ℕ) (N : ℕ) (M : List ℕ) (hM : ∀ i ∈ M, i ∈ L)
    (s : St) (buf : List ℕ) (red : Bool) (inv : Inv s) (hI : DtonInv L buf red N s) (n : Num s)
    (o : Ok μ (M.foldl (dtonStep env) (s, buf, red)).1) : Num (M.foldl (dtonStep env) (s, buf, red)).1 := by
  induction M generalizing s buf red with
  | nil => exact n
  | cons i M ih =>
    have hg := dtonSteps_good μ env L N M (fun i hi => hM i (List.mem_cons_of_mem _ hi)) (dtonStep env (s, buf, red) i).1
      (dtonStep env (s, buf, red) i).2.1 (dtonStep env (s, buf, red) i).2.2
    rw [List.foldl_cons] at o ⊢
    have o1 : Ok μ (dtonStep env (s, buf, red) i).1 := hg.ok o
    obtain ⟨r1, hI1⟩ := (dtonStep_good μ env L buf red N i (hM i List.mem_cons_self) s o1).2 inv hI
    exact ih (fun i hi => hM i (List.mem_cons_of_mem _ hi)) _ _ _ (r1.inv inv) hI1
      (dtonStep_num env buf red inv (hM i List.mem_cons_self) hI n o1) o

theorem dtonLoop_num (env : Env) (fuel : ℕ) (s : St) (inv : Inv s) (cl : Clean s) (hl : live s < fuel) (n : Num s)
    (o : Ok μ (dtonLoop env fuel s)) : Num (dtonLoop env fuel s) := by
  induction fuel generalizing s with
  | zero => omega
  | succ fuel ih =>
    have hg := fun s1 => dtonLoop_good μ env fuel s1
    unfold dtonLoop at o ⊢
    split
    · exact n
    · rename_i hne
      rw [if_neg hne] at o
      have hround := dtonRound_good μ env fuel s
      have hn : Ok μ (dtonRound env s).1 → Num (dtonRound env s).1 := by
        intro o
        have hI : DtonInv s.dtonRows [] false (live s) s := ⟨cl, inv.dton, by simp, le_refl _, by simp⟩
        have o' : Ok μ (s.dtonRows.foldl (dtonStep env) (s, [], false)).1 := ⟨o.1, o.2⟩
        have := dtonSteps_num env s.dtonRows (live s) s.dtonRows (fun _ h => h) s [] false inv hI n o'
        unfold dtonRound
        exact this.core (by constructor <;> rfl)
      simp only at o ⊢
      generalize dtonRound env s = r at hround hn o
      obtain ⟨s1, red⟩ := r
      simp only at hround hn o ⊢
      split
      · rename_i hr
        rw [if_pos hr] at o
        have o1 := (hg s1).ok o
        obtain ⟨r1, c1, -, l1⟩ := (hround o1).2 inv ⟨cl, by omega⟩
        exact ih s1 (r1.inv inv) c1 (l1 hr) (hn o1) o
      · rename_i hr
        rw [if_neg hr] at o
        exact hn o

theorem removeDtonRows_num (env : Env) (s : St) (inv : Inv s) (cl : Clean s) (n : Num s)
    (o : Ok μ (removeDtonRows env s)) : Num (removeDtonRows env s) := by
  unfold removeDtonRows at o ⊢
  simp only at o ⊢
  generalize hs1 : ((s.check (decide (s.stonRows = []))).check (decide (s.emptyRows = []))).check
    (decide (s.emptyCols = [])) = s1 at o ⊢
  have sc : SameCore s s1 := by rw [← hs1]; constructor <;> rfl
  have run : Run μ s s1 := by rw [← hs1]; exact .of_same (by constructor <;> rfl) rfl rfl rfl
  have inv1 := run.inv inv
  have hl : live s1 < s1.m + 1 := by
    have : live s1 ≤ s1.m := (Finset.card_filter_le _ _).trans (by simp)
    omega
  have hg := dtonLoop_good μ env (s1.m + 1) s1
  have hn := dtonLoop_num (μ := μ) env (s1.m + 1) s1 inv1 (sc.clean cl) hl (n.core sc)
  generalize dtonLoop env (s1.m + 1) s1 = s2 at o hg hn ⊢
  have o2 : Ok μ s2 := by
    split at o
    · exact o
    · exact (delCols_good μ Clean Clean s2 (fun h => h.1) (fun _ _ h => ⟨h.noRows, h.noFixed, h.noSub⟩)).ok o
  obtain ⟨r2, c2⟩ := (hg o2).2 inv1 ⟨sc.clean cl, hl⟩
  rw [if_pos c2.2.1]
  exact hn o2

/-- What is carried between the explorers. -/
def CleanTags (s : St) : Prop := Clean s ∧ RowTags s

theorem KeepsP.tags {r : St × Status} (h : KeepsP μ Clean Clean s r) (l : Lup s r.1) : KeepsP μ CleanTags CleanTags s r := by
  refine ⟨⟨h.good.1, fun f o => ?_⟩, fun f o c hi => h.back f o c hi.1⟩
  obtain ⟨o', k⟩ := h.good.2 f o
  refine ⟨o', fun inv hi => ?_⟩
  obtain ⟨run, cl⟩ := k inv hi.1
  exact ⟨run, cl, hi.2.lup l o.1⟩

/-- `remove_dton_eq_rows`. -/
theorem removeDtonRows_P (hμ : μ.round = false) (env : Env) (s : St) :
    KeepsP μ CleanTags CleanTags s (removeDtonRows env s, UNCHANGED) := by
  have g := removeDtonRows_good μ env s
  refine ⟨⟨fun o => g.ok o, fun _ o => ?_⟩, fun _ o c hi => ?_⟩
  · obtain ⟨o', k⟩ := g o
    refine ⟨o', fun inv hi => ?_⟩
    obtain ⟨run, cl⟩ := k inv hi.1
    exact ⟨run, cl, hi.2.lup (removeDtonRows_lup env s) o.1⟩
  · obtain ⟨run, cl⟩ := (g o).2 c.inv hi.1
    exact ⟨removeDtonRows_num env s c.inv hi.1 c.num o,
      (removeDtonRows_kkt hμ env s c.inv c.rng hi.1 hi.2 o).toP c.inv.gi hi.1 (run.inv c.inv).gi cl⟩

end

end Verif
