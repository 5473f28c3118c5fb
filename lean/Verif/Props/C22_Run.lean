import Verif.Inv.FeasMain
import Verif.Inv.FeasEnd
import Verif.Props.C22_ActUpdate2
import Verif.Props.C50_Debugger
import Verif.Props.C02_Feasibility

/-!
# C22: the stored activities in whole runs

Whole runs of the settings for which every update of an activity is exact.
-/

namespace Verif

/-- The stored activity of every active row is what `Activity_init` would compute, and tags and bounds agree on the
columns of the row. -/
def ActsRight (s : St) : Prop :=
  ∀ i, (s.rtag i).inactive = false → Recomputed (s.act i) s.ctag s.lb s.ub (s.A i) ∧ ColsOK s.ctag s.lb s.ub (s.A i)

theorem Feas.actsRight {P : LP} {s : St} (h : Feas P s) (g : GI s) (c : Clean s) : ActsRight s := by
  intro i hi
  have hm := h.rrng i hi
  have hact := g.colsActive c.2.1 c.2.2 hi
  refine ⟨(h.act i hm hi).congr (fun p hp => ?_), fun p hp => ?_⟩
  · unfold effTags
    rw [effTag_active (hact p hp)]
    exact ⟨rfl, rfl, rfl, rfl⟩
  · have hk := h.crng p.1 (g.rowIn i hi p hp)
    have hf : (s.ctag p.1).fixed = false := by
      have := hact p hp
      unfold CTag.inactive at this
      exact (Bool.or_eq_false_iff.mp this).1
    exact ⟨(h.col _ hk).lbF hf, (h.col _ hk).ubF hf⟩

theorem mainLoopD_goodF (P : LP) (env : Env) (stgs : Settings) (h1 : stgs.stonCols = false) (h2 : stgs.dtonEq = false)
    (hr : stgs.parallelRows = false) (hc : stgs.parallelCols = false) (fuel : ℕ) (s : St) (c : Complexity) (b a : ℤ) :
    ∀ t ∈ (mainLoopD env stgs fuel s c b a).2, Good Mode.all (Fz P Clean) (Fz P Clean) s t := by
  induction fuel generalizing s c b a with
  | zero => intro t ht; cases ht
  | succ fuel ih =>
    unfold mainLoopD
    simp only
    have hT : GoodR Mode.all (Fz P Clean) (Fz P Clean) s (runTrivial stgs s) := (runTrivial_goodF _ P stgs s).toR
    generalize runTrivial stgs s = r at hT
    split
    · intro t ht; cases ht
    · rename_i hu
      have hu : r.2 = UNCHANGED := by simpa using hu
      have hr1 : Good Mode.all (Fz P Clean) (Fz P Clean) s r.1 := hT.2 (by rw [hu]; rfl)
      have key : ∀ q : St × Status, GoodR Mode.all (Fz P Clean) (Fz P Clean) r.1 q →
          ∀ (x : Bool) (c' : Complexity) (b' a' : ℤ), (x = false → fine q.2) →
          ∀ t ∈ (if x = true then (({ q.1 with tick := q.1.tick + 1 }, q.2, true), [r.1]) else
          ((mainLoopD env stgs fuel { q.1 with tick := q.1.tick + 1 } c' b' a').1,
            r.1 :: (mainLoopD env stgs fuel { q.1 with tick := q.1.tick + 1 } c' b' a').2) :
              (St × Status × Bool) × List St).2, Good Mode.all (Fz P Clean) (Fz P Clean) s t := by
        intro q hq x c' b' a' hx t ht
        cases x with
        | true =>
          simp only [if_true, List.mem_singleton] at ht
          subst ht; exact hr1
        | false =>
          simp only [Bool.false_eq_true, if_false] at ht
          rcases List.mem_cons.mp ht with e | e
          · subst e; exact hr1
          · have sc : SameCore q.1 { q.1 with tick := q.1.tick + 1 } := by constructor <;> rfl
            exact ((hr1.trans (hq.2 (hx rfl))).trans (Good.withF (.same sc rfl rfl rfl (fun o => ⟨o.1, o.2⟩) (fun _ h => h))
              (fun _ _ _ _ h => h.core sc (fun _ => .refl _)))).trans (ih _ c' b' a' t e)
      have hfine : ∀ (u v : ℤ) (q : St × Status) (tu : Bool), updateTermination u v c q.2 tu = false → fine q.2 := by
        intro u v q tu ht
        unfold updateTermination at ht
        simp only [Bool.or_eq_false_iff] at ht
        exact ht.1.1
      cases c with
      | fast =>
        refine key _ ?_ _ _ _ _ (hfine _ _ _ _)
        unfold runFast
        rw [h1, h2]
        exact Good.toR (.refl _ _ _)
      | medium => exact key _ (runMedium_goodF _ P env stgs hr hc r.1) _ _ _ _ (hfine _ _ _ _)

/-- What `remove_redundant_bounds` does to one column keeps the activities right. -/
theorem relaxCol_right {s : St} (k : ℕ) (g : GI s) (h : ActsRight s) : ActsRight (relaxCol s k) := by
  unfold relaxCol
  simp only
  split_ifs with h1 h2 h3 h4
  · exact h
  · rw [Bool.or_eq_true, not_or] at h1
    have ha : (s.ctag k).inactive = false := by simpa using h1.1
    have hb : (s.ctag k).lbInf = false := by
      have := h1.2
      rw [h2] at this
      simpa using this
    intro i hi
    have hi : (s.rtag i).inactive = false := hi
    obtain ⟨r, o⟩ := h i hi
    refine ⟨?_, fun p hp => ?_⟩
    · show Recomputed (removeFiniteLb s.act (s.AT k) (s.lb k) i) (upd s.ctag k { s.ctag k with lbInf := true }) s.lb s.ub (s.A i)
      by_cases hm : ∃ q, (k, q) ∈ s.A i
      · obtain ⟨q, hm⟩ := hm
        exact C22_drop_lower s.act s.ctag s.lb s.ub s.A (s.AT k) k i q (g.colSorted k).nodup
          ((g.agree i k q (g.rowActive hi) (g.colActive ha)).mp hm) (g.rowSorted i).nodup hm (g.rowRange i _ hm).2.2 hb o r
      · have e : removeFiniteLb s.act (s.AT k) (s.lb k) i = s.act i := by
          unfold removeFiniteLb
          refine (foldl_upd_get (dropLbAct (s.lb k)) _ ?_ (s.AT k) (g.colSorted k).nodup s.act i).2 (fun p hp e => hm ⟨p.2, ?_⟩)
          · intro f p
            unfold dropLbAct
            split_ifs <;> simp_all
          · have : (i, p.2) ∈ s.AT k := by rw [← e]; exact hp
            exact (g.agree i k p.2 (g.rowActive hi) (g.colActive ha)).mpr this
        rw [e]
        refine r.congr (fun p hp => ?_)
        have : p.1 ≠ k := fun e => hm ⟨p.2, by rw [← e]; exact hp⟩
        rw [upd_ne _ _ this]
        exact ⟨rfl, rfl, rfl, rfl⟩
    · show FinIf (upd s.ctag k { s.ctag k with lbInf := true } p.1).lbInf _ ∧ FinIf (upd s.ctag k { s.ctag k with lbInf := true } p.1).ubInf _
      by_cases e : p.1 = k
      · rw [e, upd_same]
        refine ⟨fun hc => (by cases hc), ?_⟩
        have := (o p hp).2
        rw [e] at this
        exact this
      · rw [upd_ne _ _ e]; exact o p hp
  · exact h
  · rw [Bool.or_eq_true, not_or] at h1
    have ha : (s.ctag k).inactive = false := by simpa using h1.1
    have hb : (s.ctag k).ubInf = false := by simpa using h2
    intro i hi
    have hi : (s.rtag i).inactive = false := hi
    obtain ⟨r, o⟩ := h i hi
    refine ⟨?_, fun p hp => ?_⟩
    · show Recomputed (removeFiniteUb s.act (s.AT k) (s.ub k) i) (upd s.ctag k { s.ctag k with ubInf := true }) s.lb s.ub (s.A i)
      by_cases hm : ∃ q, (k, q) ∈ s.A i
      · obtain ⟨q, hm⟩ := hm
        exact C22_drop_upper s.act s.ctag s.lb s.ub s.A (s.AT k) k i q (g.colSorted k).nodup
          ((g.agree i k q (g.rowActive hi) (g.colActive ha)).mp hm) (g.rowSorted i).nodup hm (g.rowRange i _ hm).2.2 hb o r
      · have e : removeFiniteUb s.act (s.AT k) (s.ub k) i = s.act i := by
          unfold removeFiniteUb
          refine (foldl_upd_get (dropUbAct (s.ub k)) _ ?_ (s.AT k) (g.colSorted k).nodup s.act i).2 (fun p hp e => hm ⟨p.2, ?_⟩)
          · intro f p
            unfold dropUbAct
            split_ifs <;> simp_all
          · have : (i, p.2) ∈ s.AT k := by rw [← e]; exact hp
            exact (g.agree i k p.2 (g.rowActive hi) (g.colActive ha)).mpr this
        rw [e]
        refine r.congr (fun p hp => ?_)
        have : p.1 ≠ k := fun e => hm ⟨p.2, by rw [← e]; exact hp⟩
        rw [upd_ne _ _ this]
        exact ⟨rfl, rfl, rfl, rfl⟩
    · show FinIf (upd s.ctag k { s.ctag k with ubInf := true } p.1).lbInf _ ∧ FinIf (upd s.ctag k { s.ctag k with ubInf := true } p.1).ubInf _
      by_cases e : p.1 = k
      · rw [e, upd_same]
        refine ⟨?_, fun hc => (by cases hc)⟩
        have := (o p hp).1
        rw [e] at this
        exact this
      · rw [upd_ne _ _ e]; exact o p hp
  · exact h

theorem removeRedundantBounds_right {s : St} (o : s.asrt = true) (i : Inv s) (c : Clean s) (h : ActsRight s) :
    ActsRight (removeRedundantBounds s) := by
  unfold removeRedundantBounds
  generalize relaxOrder s = L
  induction L generalizing s with
  | nil => exact h
  | cons k L ih =>
    have o' : (relaxCol s k).asrt = true := by
      unfold relaxCol
      simp only
      split_ifs <;> exact o
    obtain ⟨R, c'⟩ := (relaxCol_good Mode.all s k (ok_all.mpr o')).2 i c
    exact ih o' (R.inv i) c' (relaxCol_right k i.gi h)

/-- **C22, whole runs.**  At every call of the debugger, the result included, the activity of every active row is what
`Activity_init` would compute from the current bounds, tags and entries.

Partial: without singleton columns, doubleton equations, parallel rows and parallel columns (with the first two
it is false: `C22_fix_col_ston_fails`, `C22_coeff_change_fails`), as long as the assertions hold and no column is
moved to infinity. -/
theorem C22_run_partial {P : LP} (hP : P.Valid) (hR : P.Regular)
    (hg : ∀ k < P.n, ∀ l u, P.lb k = .fin l → P.ub k = .fin u → l ≤ u + FEAS_TOL) {env : Env} {stgs : Settings}
    (h1 : stgs.stonCols = false) (h2 : stgs.dtonEq = false)
    (h3 : stgs.parallelRows = false) (h4 : stgs.parallelCols = false) {fuel : ℕ} {t : St} {finished : Bool}
    (h : (t, finished) ∈ debugPoints env stgs fuel P) (o : t.asrt = true) (hlog : ∀ r ∈ t.log, r.plain = true) :
    ActsRight t := by
  have i0 := initSt_inv hP
  have f0 : Fz P Clean (initSt P) := ⟨(initSt_ce P).1, fun _ => initSt_feas hP hR hg⟩
  have lift : ∀ u : St, Good Mode.all (Fz P Clean) (Fz P Clean) (initSt P) u → u.asrt = true → PlainLog u →
      Inv u ∧ Clean u ∧ ActsRight u := by
    intro u g ou pu
    obtain ⟨R, c, f⟩ := (g (ok_all.mpr ou)).2 i0 f0
    exact ⟨R.inv i0, c, (f pu).actsRight (R.inv i0).gi c⟩
  unfold debugPoints at h
  simp only at h
  rcases List.mem_append.mp h with h | h
  · have start : ActsRight (initSt P) := (initSt_feas hP hR hg).actsRight i0.gi (initSt_ce P).1
    rcases List.mem_cons.mp h with e | h
    · cases e; exact start
    rcases List.mem_cons.mp h with e | h
    · cases e; exact start
    obtain ⟨u, hu, e⟩ := List.mem_map.mp h
    cases e
    exact (lift _ (mainLoopD_goodF P env stgs h1 h2 h3 h4 fuel _ _ _ _ _ hu) o hlog).2.2
  · rw [mainLoopD_erase] at h
    split at h
    · rename_i hw
      have e := List.mem_singleton.mp h
      cases e
      have g := (mainLoop_goodF Mode.all P env stgs h1 h2 h3 h4 fuel (initSt P) .fast (initSt P).nnz (initSt P).nnz).2
        (by show fine (mainLoop _ _ _ _ _ _ _).2.1; rw [hw.1]; exact fine_unchanged)
      by_cases hx : stgs.relaxBounds = true
      · rw [if_pos hx] at o hlog ⊢
        have so := removeRedundantBounds_out
          (mainLoop env stgs fuel (initSt P) .fast (initSt P).nnz (initSt P).nnz).1
        rw [so.asrt] at o
        rw [so.log] at hlog
        obtain ⟨i, c, r⟩ := lift _ g o hlog
        exact removeRedundantBounds_right o i c r
      · rw [if_neg hx] at o hlog ⊢
        exact (lift _ g o hlog).2.2
    · cases h

/-- The check of the activities follows. -/
theorem ActsRight.debug {s : St} (h : ActsRight s) (hact : ∀ i < s.m, (s.rtag i).inactive = false →
    ∀ p ∈ s.A i, (s.ctag p.1).inactive = false) :
    verifyActivities s = true := by
  unfold verifyActivities
  rw [List.all_eq_true]
  intro i hm
  cases hi : (s.rtag i).inactive with
  | true => rfl
  | false =>
    obtain ⟨r, o⟩ := h i hi
    have ra := (recomputed_iff o).mp r
    have ha := hact i (List.mem_range.mp hm) hi
    have e1 : (s.A i).countP (unbMax s.ctag) = ((s.A i).filter (debugInfMax s)).length := by
      rw [← List.countP_eq_length_filter]
      refine List.countP_congr (fun p hp => ?_)
      unfold unbMax debugInfMax
      rw [ha p hp]
      by_cases hq : 0 < p.2 <;> simp [hq]
    have e2 : (s.A i).countP (unbMin s.ctag) = ((s.A i).filter (debugInfMin s)).length := by
      rw [← List.countP_eq_length_filter]
      refine List.countP_congr (fun p hp => ?_)
      unfold unbMin debugInfMin
      rw [ha p hp]
      by_cases hq : 0 < p.2 <;> simp [hq]
    have fin : ∀ {x : Bool} {d : D}, FinIf x d → x = false → D.eqb d .pinf = false ∧ D.eqb d .ninf = false := by
      intro x d hd hx
      obtain ⟨q, rfl⟩ := hd hx
      exact ⟨rfl, rfl⟩
    rw [Bool.false_or, Bool.and_eq_true, Bool.and_eq_true, Bool.and_eq_true]
    refine ⟨⟨⟨?_, ?_⟩, ?_⟩, ?_⟩
    · rw [decide_eq_true_eq, ra.nmax, e1]
    · rw [decide_eq_true_eq, ra.nmin, e2]
    · rw [Bool.or_eq_true, decide_eq_true_eq]
      by_cases hn : 0 < (s.act i).nInfMax
      · exact .inl hn
      · refine .inr (List.all_eq_true.mpr (fun p hp => ?_))
        have hz : (s.A i).countP (unbMax s.ctag) = 0 := by
          have := ra.nmax; omega
        have hu : unbMax s.ctag p = false := by
          have := List.countP_eq_zero.mp hz p hp
          simpa using this
        unfold unbMax at hu
        rw [ha p hp, Bool.false_or]
        by_cases hq : 0 < p.2
        · simp only [hq, if_true] at hu ⊢
          rw [hu, (fin (o p hp).2 hu).1]; rfl
        · simp only [hq, if_false] at hu ⊢
          rw [hu, (fin (o p hp).1 hu).2]; rfl
    · rw [Bool.or_eq_true, decide_eq_true_eq]
      by_cases hn : 0 < (s.act i).nInfMin
      · exact .inl hn
      · refine .inr (List.all_eq_true.mpr (fun p hp => ?_))
        have hz : (s.A i).countP (unbMin s.ctag) = 0 := by
          have := ra.nmin; omega
        have hu : unbMin s.ctag p = false := by
          have := List.countP_eq_zero.mp hz p hp
          simpa using this
        unfold unbMin at hu
        rw [ha p hp, Bool.false_or]
        by_cases hq : 0 < p.2
        · simp only [hq, if_true] at hu ⊢
          rw [hu, (fin (o p hp).1 hu).2]; rfl
        · simp only [hq, if_false] at hu ⊢
          rw [hu, (fin (o p hp).2 hu).1]; rfl

/-- **C50 with the check of the activities.**  For the settings of `C22_run_partial` the check of the activities
(`verify_activities`) succeeds as well: no check of the debugger is left out.

Partial: see `C22_run_partial`; the value that debug builds store in an infinite activity is not modelled. -/
theorem C50_activities_partial {P : LP} (hP : P.Valid) (hR : P.Regular)
    (hg : ∀ k < P.n, ∀ l u, P.lb k = .fin l → P.ub k = .fin u → l ≤ u + FEAS_TOL) {env : Env} (hs : env.SortOK)
    {stgs : Settings} (h1 : stgs.stonCols = false) (h2 : stgs.dtonEq = false)
    (h3 : stgs.parallelRows = false) (h4 : stgs.parallelCols = false) {fuel : ℕ} {t : St} {finished : Bool}
    (h : (t, finished) ∈ debugPoints env stgs fuel P) (o : t.asrt = true) (hlog : ∀ r ∈ t.log, r.plain = true) :
    verifyActivities t = true ∧ runDebugger t finished = true := by
  have hd := C50_debugger_partial hP hR.sides hs h o
  refine ⟨(C22_run_partial hP hR hg h1 h2 h3 h4 h o hlog).debug ?_, hd⟩
  intro i hi _ p hp
  unfold runDebugger verifyMatrices at hd
  simp only [Bool.and_eq_true, List.all_eq_true, List.mem_range] at hd
  simpa using hd.1.1.1.2.1.2 i hi p hp

/-- The hypotheses hold on `exSimple`.  Row 3 starts with the activities -29 and 11; propagation tightens them to -10
and 2, and `remove_redundant_bounds` makes both infinite. -/
example : exSimple.Valid ∧ exSimple.Regular ∧ envEx.SortOK ∧ stgsSimple.stonCols = false ∧ stgsSimple.dtonEq = false ∧
    stgsSimple.parallelRows = false ∧ stgsSimple.parallelCols = false ∧
    (∀ p ∈ debugPoints envEx stgsSimple 10 exSimple, p.1.asrt = true ∧ ∀ r ∈ p.1.log, r.plain = true) ∧
    (debugPoints envEx stgsSimple 10 exSimple).map (fun p => ((p.1.act 3).min, (p.1.act 3).nInfMin, (p.1.act 3).max, (p.1.act 3).nInfMax)) =
      [(.fin (-29), 0, .fin 11, 0), (.fin (-29), 0, .fin 11, 0), (.fin (-30), 0, .fin 10, 0), (.fin (-30), 0, .fin 10, 0),
        (.fin (-10), 0, .fin 2, 0), (.fin (-10), 0, .fin 2, 0), (.fin 0, 1, .fin 0, 1)] :=
  ⟨exSimple_valid, exSimple_regular, envEx_sortOK, rfl, rfl, rfl, rfl, by decide +kernel, by decide +kernel⟩

/-- The check does find a wrong count. -/
example : verifyActivities { initSt exSimple with act := upd (initSt exSimple).act 0 { (initSt exSimple).act 0 with nInfMax := 7 } } = false := by
  decide +kernel

end Verif
