import Verif.Model.TrivMat
import Verif.Lemmas.DtonRound
import Verif.Inv.RunTrivialGood
import Verif.Inv.Replay

/-!
# The trivial explorers in the arrays refine the list versions
-/

namespace Verif

/-- The size and the two copies of the matrix. -/
def mats (s : St) := (s.m, s.n, s.A, s.AT)

/-- `o` is the result `r` of the list version, in arrays. -/
def Arrays.Ref (M : Arrays) (o : Option (Arrays × Status)) (r : St × Status) : Prop :=
  ∃ M', o = some (M', r.2) ∧ M'.OK ∧ M'.view = r.1 ∧ M'.A.m = M.A.m ∧ M'.AT.m = M.AT.m

theorem Arrays.with_ok {M : Arrays} (ok : M.OK) {t : St} (h : mats t = mats M.view) :
    Arrays.OK ⟨t, M.A, M.AT⟩ ∧ Arrays.view ⟨t, M.A, M.AT⟩ = t := by
  simp only [mats, Prod.mk.injEq] at h
  obtain ⟨h1, h2, h3, h4⟩ := h
  refine ⟨⟨ok.rows.trans h1.symm, ok.cols.trans h2.symm, ok.layA, ok.layT, ok.inA, ok.inT⟩, ?_⟩
  show { t with A := M.A.lists, AT := M.AT.lists } = t
  have e3 : t.A = M.A.lists := h3
  have e4 : t.AT = M.AT.lists := h4
  rw [← e3, ← e4]

theorem Arrays.delCols_ref {M : Arrays} (ok : M.OK) {t : St} (h : mats t = mats M.view) (g : GI t) (r : InRng t) :
    M.Step (Arrays.deleteInactiveCols ⟨deleteFixedCols t, M.A, M.AT⟩) (Verif.deleteInactiveCols (deleteFixedCols t)) := by
  obtain ⟨l, rr, a, o, b, e⟩ := deleteFixedCols_eq t
  have h' : mats (deleteFixedCols t) = mats M.view := by rw [e]; exact h
  obtain ⟨ok', v⟩ := Arrays.with_ok ok h'
  have s := Arrays.deleteInactiveCols_step ok' (fun k hk => by
    have hk' : k ∈ t.fixedCols ++ t.subCols := by
      have e1 : (deleteFixedCols t).fixedCols = t.fixedCols := by rw [e]
      have e2 : (deleteFixedCols t).subCols = t.subCols := by rw [e]
      rw [← e1, ← e2]; exact hk
    have := r.2 k (g.colsDel k hk').2
    simp only [mats, Prod.mk.injEq] at h
    show k < M.AT.m
    rw [ok.cols, ← show t.n = M.s.n from h.2.1]; exact this)
  rw [v] at s
  exact s

theorem fixCol_mats (s : St) (k : ℕ) (val : D) (ck : ℚ) : mats (fixCol s k val ck).1 = mats s := by
  rcases fixCol_eq s k val ck with ⟨b, e, -⟩ | ⟨b, a, u, e, -⟩ <;> rw [e] <;> rfl

theorem closeBoundsLoop_mats (L : List ℕ) (s : St) : mats (closeBoundsLoop L s).1 = mats s := by
  induction L generalizing s with
  | nil => rfl
  | cons k L ih =>
    unfold closeBoundsLoop
    simp only
    split
    · exact ih s
    · split
      · rw [ih, fixCol_mats]; rfl
      · split
        · rfl
        · rw [ih]; rfl

theorem updateUb_mats (s : St) (j : ℕ) (v : D) (i : ℕ) : mats (Verif.updateUb s j v i).1 = mats s := by
  rcases updateUb_eq s j v i with ⟨st, e⟩ | ⟨a, u, e⟩ <;> rw [e] <;> rfl

theorem updateLb_mats (s : St) (j : ℕ) (v : D) (i : ℕ) : mats (Verif.updateLb s j v i).1 = mats s := by
  rcases updateLb_eq s j v i with ⟨st, e⟩ | ⟨a, u, e⟩ <;> rw [e] <;> rfl

/-- What `remove_stonrow` does to the matrices. -/
theorem removeStonRow_mats (s : St) (row : ℕ) (r : St × Status) (hr : removeStonRow s row = r) :
    ((s.rtag row).eq = true ∧ r.2 = REDUCED ∧ s.A row ≠ [] ∧ mats r.1 = (s.m, s.n, upd s.A row [], s.AT)) ∨
    (((s.rtag row).eq = true → r.2 ≠ REDUCED) ∧ mats r.1 = mats s) := by
  unfold removeStonRow at hr
  cases hA : s.A row with
  | nil =>
    rw [hA] at hr
    subst hr
    exact .inr ⟨fun _ h => (by cases h), rfl⟩
  | cons e l =>
    obtain ⟨k, aik⟩ := e
    rw [hA] at hr
    simp only at hr
    split at hr
    · subst hr
      exact .inr ⟨fun _ h => (by cases h), rfl⟩
    · split at hr
      · rename_i heq
        split at hr
        · subst hr
          refine .inr ⟨fun _ h => (by cases h), ?_⟩
          rw [fixCol_mats]; rfl
        · refine .inl ⟨heq, ?_, by simp, ?_⟩
          · rw [← hr]
          · rw [← hr]
            have h := fixCol_mats (((s.check (!(s.rtag row).inactive && !(s.ctag k).subst)).check
              (!((s.check (!(s.rtag row).inactive && !(s.ctag k).subst)).ctag k).inactive)).check (D.eqb (s.lhs row) (s.rhs row)))
              k (D.divq (s.rhs row) aik) (s.c k)
            simp only [mats, Prod.mk.injEq] at h
            obtain ⟨h1, h2, h3, h4⟩ := h
            show (_, _, upd _ row [], _) = _
            refine Prod.ext h1 (Prod.ext h2 (Prod.ext ?_ h4))
            exact congrArg (fun f => upd f row []) h3
      · rename_i hne
        refine .inr ⟨fun h => absurd h hne, ?_⟩
        subst hr
        have hU := fun s v => updateUb_mats s k v row
        have hL := fun s v => updateLb_mats s k v row
        have hS : ∀ s : St, mats (setRowToInactive s row 0) = mats s := fun _ => rfl
        have hC : ∀ (s : St) b, mats (s.check b) = mats s := fun _ _ => rfl
        repeat' split
        all_goals simp only [hS, hU, hL, hC]

/-- The arrays hold what the list version has, and the invariants hold. -/
structure Arrays.Fit (M : Arrays) : Prop where
  ok : M.OK
  inv : Inv M.view
  rng : InRng M.view

theorem Good.fit {μ : Mode} {I J : St → Prop} {s t : St} (h : Good μ I J s t) (o : Ok μ t) (i : Inv s) (r : InRng s) (hi : I s) :
    Inv t ∧ InRng t ∧ J t := by
  obtain ⟨run, j⟩ := (h o).2 i hi
  exact ⟨run.inv i, run.steps.inRng i.gi r, j⟩

/-- `remove_variables_with_close_bounds`. -/
theorem Arrays.closeBounds_ref {M : Arrays} (f : M.Fit) (cl : Clean M.view) (o : (Verif.closeBounds M.view).1.asrt = true) :
    M.Ref (Arrays.closeBounds M) (Verif.closeBounds M.view) := by
  unfold Arrays.closeBounds Verif.closeBounds at *
  simp only at o ⊢
  rw [show M.rows = M.view from rfl, show M.view.n = M.s.n from rfl] at *
  have hm := closeBoundsLoop_mats (List.range M.s.n) M.view
  have hg := closeBoundsLoop_good Mode.all (List.range M.s.n) M.view
  generalize closeBoundsLoop (List.range M.s.n) M.view = r at *
  by_cases h : r.2 = INFEASIBLE
  · rw [if_pos h, if_pos h]
    obtain ⟨a, b⟩ := Arrays.with_ok f.ok hm
    exact ⟨_, rfl, a, b, rfl, rfl⟩
  · rw [if_neg h] at o
    rw [if_neg h, if_neg h]
    have o1 : Ok Mode.all r.1 := ((delCols_good Mode.all (fun _ => False) (fun _ => True) _ (fun h => h.elim) (fun _ h => h.elim)).ok
        (ok_all.mpr o))
    obtain ⟨i1, r1, -⟩ := hg.fit o1 f.inv f.rng cl.1
    obtain ⟨N, a, b, c, d, e⟩ := Arrays.delCols_ref f.ok hm i1.gi r1
    rw [a]
    exact ⟨N, rfl, b, c, d, e⟩

/-- The loop over singleton equalities. -/
theorem Arrays.stonEqLoop_ref (L : List ℕ) : ∀ {M : Arrays}, M.OK →
    M.Ref (some (Arrays.stonEqLoop L M)) (Verif.stonEqLoop L M.view) := by
  induction L with
  | nil => intro M ok; exact ⟨M, rfl, ok, rfl, rfl, rfl⟩
  | cons row rest ih =>
    intro M ok
    unfold Arrays.stonEqLoop Verif.stonEqLoop
    simp only
    rw [show M.rows = M.view from rfl, show M.view.rtag = M.s.rtag from rfl]
    by_cases h0 : (!(M.s.rtag row).eq || (M.s.rtag row).inactive) = true
    · rw [if_pos h0, if_pos h0]; exact ih ok
    · rw [if_neg h0, if_neg h0]
      have he : (M.s.rtag row).eq = true := by
        cases h : (M.s.rtag row).eq
        · rw [h] at h0; simp at h0
        · rfl
      have hm := removeStonRow_mats M.view row _ rfl
      generalize removeStonRow M.view row = r at *
      by_cases h1 : r.2 = INFEASIBLE
      · rw [if_pos h1, if_pos h1]
        rcases hm with ⟨-, h2, -⟩ | ⟨-, hm⟩
        · rw [h2] at h1; cases h1
        · obtain ⟨a, b⟩ := Arrays.with_ok ok hm
          exact ⟨_, rfl, a, b, rfl, rfl⟩
      · rw [if_neg h1, if_neg h1]
        rcases hm with ⟨-, h2, hne, hm⟩ | ⟨h2, hm⟩
        · rw [if_pos h2]
          have hr : row < M.A.m := by
            by_contra hn
            exact hne (if_neg hn)
          obtain ⟨l1, l2, l3⟩ := Mat.clear_spec ok.layA hr
          simp only [mats, Prod.mk.injEq] at hm
          obtain ⟨m1, m2, m3, m4⟩ := hm
          have a : Arrays.OK ⟨r.1, M.A.setRange row (M.A.ps row) (M.A.ps row), M.AT⟩ := by
            refine ⟨ok.rows.trans m1.symm, ok.cols.trans m2.symm, l1, ok.layT, fun i hi => ?_, ok.inT⟩
            by_cases hir : i = row
            · subst hir
              intro p hp
              rw [show Mat.rowOf _ i = [] from l2] at hp; cases hp
            · intro p hp
              rw [show Mat.rowOf _ i = M.A.rowOf i from l3 i hir] at hp
              exact ok.inA i hi p hp
          have b : Arrays.view ⟨r.1, M.A.setRange row (M.A.ps row) (M.A.ps row), M.AT⟩ = r.1 := by
            have e1 : (M.A.setRange row (M.A.ps row) (M.A.ps row)).lists = upd M.A.lists row [] :=
              Mat.lists_eq rfl hr l2 (fun i _ hi => l3 i hi)
            show { r.1 with A := (M.A.setRange row (M.A.ps row) (M.A.ps row)).lists, AT := M.AT.lists } = r.1
            rw [e1, ← show r.1.A = upd M.A.lists row [] from m3, ← show r.1.AT = M.AT.lists from m4]
          obtain ⟨N, c, d, e, f, g⟩ := ih a
          rw [b] at c e
          exact ⟨N, c, d, e, f, g⟩
        · rw [if_neg (h2 he)]
          obtain ⟨a, b⟩ := Arrays.with_ok ok hm
          obtain ⟨N, c, d, e, f, g⟩ := ih a
          rw [b] at c e
          exact ⟨N, c, d, e, f, g⟩

theorem stonIneqLoop_mats (L : List ℕ) (s : St) : mats (stonIneqLoop L s).1 = mats s := by
  induction L generalizing s with
  | nil => rfl
  | cons row rest ih =>
    unfold stonIneqLoop
    simp only
    split
    · exact ih s
    · rename_i hc
      have he : ¬ (s.rtag row).eq = true := by
        intro h; rw [h] at hc; simp at hc
      have hm : mats (removeStonRow s row).1 = mats s := by
        rcases removeStonRow_mats s row _ rfl with ⟨h, -⟩ | ⟨-, h⟩
        · exact absurd h he
        · exact h
      split
      · exact hm
      · rw [ih, hm]

/-- `remove_ston_rows`. -/
theorem Arrays.removeStonRows_ref {M : Arrays} (f : M.Fit) (cl : Clean M.view) (o : (Verif.removeStonRows M.view).1.asrt = true) :
    M.Ref (Arrays.removeStonRows M) (Verif.removeStonRows M.view) := by
  unfold Arrays.removeStonRows Verif.removeStonRows at *
  rw [show M.view.stonRows = M.s.stonRows from rfl] at *
  by_cases h0 : M.s.stonRows = []
  · rw [if_pos h0, if_pos h0]; exact ⟨M, rfl, f.ok, rfl, rfl, rfl⟩
  rw [if_neg h0] at o
  rw [if_neg h0, if_neg h0]
  simp only at o ⊢
  obtain ⟨N, e1, okN, vN, n1, n2⟩ := Arrays.stonEqLoop_ref M.s.stonRows f.ok
  have g1 := stonEqLoop_good Mode.all M.s.stonRows M.view
  have e1 := Option.some.inj e1
  rw [e1]
  generalize Verif.stonEqLoop M.s.stonRows M.view = r at *
  by_cases h1 : r.2 = INFEASIBLE
  · rw [if_pos h1, if_pos h1]; exact ⟨N, rfl, okN, vN, n1, n2⟩
  rw [if_neg h1] at o
  rw [if_neg h1, if_neg h1]
  simp only
  rw [show N.rows = N.view from rfl, vN]
  have g2 := stonIneqLoop_good Mode.all M.s.stonRows r.1
  have hm := stonIneqLoop_mats M.s.stonRows r.1
  generalize stonIneqLoop M.s.stonRows r.1 = q at *
  rw [← vN] at hm
  by_cases h2 : q.2 = INFEASIBLE
  · rw [if_pos h2, if_pos h2]
    obtain ⟨a, b⟩ := Arrays.with_ok okN hm
    exact ⟨_, rfl, a, b, n1, n2⟩
  rw [if_neg h2] at o
  rw [if_neg h2, if_neg h2]
  have g3 : Good Mode.all (fun _ => True) (fun _ => True) q.1 { q.1 with stonRows := [] } :=
    .of (fun o => o) (fun _ i hi => ⟨⟨.single (.same (by constructor <;> rfl)), (fun _ h => by cases h), fun _ h => Or.inl h, rfl, id⟩, trivial⟩)
  have ht : mats { q.1 with stonRows := [] } = mats N.view := hm
  generalize ({ q.1 with stonRows := [] } : St) = t at *
  have o3 : Ok Mode.all (Verif.deleteInactiveRows t) :=
    (delCols_good Mode.all (fun _ => False) (fun _ => True) _ (fun h => h.elim) (fun _ h => h.elim)).ok (ok_all.mpr o)
  have g4 := delRows_good Mode.all (fun _ => True) (fun _ => True) t (fun _ _ _ => trivial)
  have o2 := g4.ok o3
  have o1 := g3.ok o2
  have oo := Good.ok g2 o1
  obtain ⟨i1, r1, -⟩ := g1.fit oo f.inv f.rng ⟨cl.1, f.inv.ston⟩
  obtain ⟨i2, r2, -⟩ := Good.fit g2 o1 i1 r1 trivial
  obtain ⟨i3, r3, -⟩ := g3.fit o2 i2 r2 trivial
  obtain ⟨i4, r4, -⟩ := g4.fit o3 i3 r3 trivial
  obtain ⟨okt, vt⟩ := Arrays.with_ok okN ht
  have hm' : t.m = N.s.m := congrArg Prod.fst ht
  obtain ⟨N2, a, b, c, d, e⟩ := Arrays.deleteInactiveRows_step okt (fun i hi => by
    show i < N.A.m
    rw [okN.rows, ← hm']; exact r3.1 i (i3.gi.rowsDel i hi).2)
  rw [vt] at c
  rw [a]
  simp only [Option.bind_some]
  rw [show N2.rows = N2.view from rfl]
  obtain ⟨N3, a', b', c', d', e'⟩ := Arrays.delCols_ref b (t := N2.view) rfl (by rw [c]; exact i4.gi) (by rw [c]; exact r4)
  rw [a']
  refine ⟨N3, rfl, b', ?_, (d'.trans d).trans n1, (e'.trans e).trans n2⟩
  rw [c', c]

/-- The do-while loop over singleton rows. -/
theorem Arrays.stonRowsLoop_ref (fuel : ℕ) : ∀ {M : Arrays}, M.Fit → Clean M.view →
    (M.s.stonRows = [] ∧ 1 ≤ fuel) ∨ long M.view + 2 ≤ fuel → (Verif.stonRowsLoop fuel M.view).1.asrt = true →
    M.Ref (Arrays.stonRowsLoop fuel M) (Verif.stonRowsLoop fuel M.view) := by
  induction fuel with
  | zero => intro M _ _ h; rcases h with h | h <;> omega
  | succ fuel ih =>
    intro M f cl h o
    unfold Arrays.stonRowsLoop
    have g := removeStonRows_good Mode.all (long M.view) M.view
    have hne : (Verif.removeStonRows M.view).2 = REDUCED → M.s.stonRows ≠ [] := by
      intro h2 e
      unfold Verif.removeStonRows at h2
      rw [if_pos (show M.view.stonRows = [] from e)] at h2
      cases h2
    have o1 : (Verif.removeStonRows M.view).1.asrt = true := by
      unfold Verif.stonRowsLoop at o
      simp only at o
      split at o
      · exact o
      · split at o
        · exact ok_all.mp (Good.ok (stonRowsLoop_good Mode.all fuel _) (ok_all.mpr o))
        · exact o
    obtain ⟨N, a, b, c, d, e⟩ := Arrays.removeStonRows_ref f cl o1
    unfold Verif.stonRowsLoop at o ⊢
    simp only at o ⊢
    rw [a]
    simp only [Option.bind_some]
    generalize Verif.removeStonRows M.view = r at *
    by_cases h1 : r.2 = INFEASIBLE
    · rw [if_pos h1, if_pos h1]; exact ⟨N, rfl, b, c, d, e⟩
    · rw [if_neg h1] at o
      rw [if_neg h1, if_neg h1]
      by_cases h2 : r.2 = REDUCED
      · rw [if_pos h2] at o
        rw [if_pos h2, if_pos h2]
        obtain ⟨i', r', j⟩ := Good.fit g (ok_all.mpr o1) f.inv f.rng ⟨cl, le_refl _⟩
        obtain ⟨cl', less⟩ := j (by rw [h2]; exact fine_reduced)
        have hl : long M.view + 2 ≤ fuel + 1 := by
          rcases h with h | h
          · exact absurd h.1 (hne h2)
          · exact h
        rw [← c] at i' r' cl' less o
        have := ih (M := N) ⟨b, i', r'⟩ cl' (by
          rcases less with e | e
          · exact Or.inl ⟨e, by omega⟩
          · exact Or.inr (by omega)) o
        rw [c] at this
        obtain ⟨N', a', b', c', d', e'⟩ := this
        exact ⟨N', a', b', c', d'.trans d, e'.trans e⟩
      · rw [if_neg h2, if_neg h2]; exact ⟨N, rfl, b, c, d, e⟩

theorem deactivateRows_mats (L : List Cell) (s : St) : mats (deactivateRows s L) = mats s := by
  unfold deactivateRows
  induction L generalizing s with
  | nil => rfl
  | cons p L ih =>
    rw [List.foldl_cons, ih]
    split <;> rfl

theorem deactivateRows_m (L : List Cell) (s : St) : (deactivateRows s L).m = s.m ∧ (deactivateRows s L).n = s.n ∧
    (deactivateRows s L).A = s.A ∧ (deactivateRows s L).AT = s.AT := by
  have := deactivateRows_mats L s
  simpa only [mats, Prod.mk.injEq] using this

theorem saveFixedColInf_mats (s : St) (k : ℕ) (b : Bool) (v : D) : mats (saveFixedColInf s k b v) = mats s := by
  have h1 : ∀ (s : St) b, mats (s.fuzz b) = mats s := fun _ _ => rfl
  have h2 : ∀ (s : St) r, mats (s.save r) = mats s := fun _ _ => rfl
  have h3 : ∀ (s : St) b, mats (s.check b) = mats s := fun _ _ => rfl
  have h4 : ∀ (s : St) b, mats (s.flag b) = mats s := fun _ _ => rfl
  unfold saveFixedColInf
  simp only
  rw [h1, h2, h3, h4]

theorem fixInf_mats (s : St) (p : ℕ × Bool) :
    mats (if p.2 then fixColPosInf s p.1 else fixColNegInf s p.1) = (s.m, s.n, s.A, upd s.AT p.1 []) := by
  split
  · unfold fixColPosInf
    simp only
    generalize ht : saveFixedColInf _ _ _ _ = t
    have h := deactivateRows_m (t.AT p.1) t
    generalize deactivateRows t (t.AT p.1) = w at *
    have hs : mats t = mats s := by rw [← ht, saveFixedColInf_mats]; rfl
    simp only [mats, Prod.mk.injEq] at hs ⊢
    obtain ⟨a, b, c, d⟩ := h
    obtain ⟨a', b', c', d'⟩ := hs
    exact ⟨a.trans a', b.trans b', c.trans c', by rw [d, d']⟩
  · unfold fixColNegInf
    simp only
    generalize ht : saveFixedColInf _ _ _ _ = t
    have h := deactivateRows_m (t.AT p.1) t
    generalize deactivateRows t (t.AT p.1) = w at *
    have hs : mats t = mats s := by rw [← ht, saveFixedColInf_mats]; rfl
    simp only [mats, Prod.mk.injEq] at hs ⊢
    obtain ⟨a, b, c, d⟩ := h
    obtain ⟨a', b', c', d'⟩ := hs
    exact ⟨a.trans a', b.trans b', c.trans c', by rw [d, d']⟩

theorem Arrays.fixInf_ref {M : Arrays} (ok : M.OK) (p : ℕ × Bool) (hk : p.1 < M.AT.m) :
    (M.fixInf p).OK ∧ (M.fixInf p).view = (if p.2 then fixColPosInf M.view p.1 else fixColNegInf M.view p.1) ∧
      (M.fixInf p).A.m = M.A.m ∧ (M.fixInf p).AT.m = M.AT.m := by
  have hm := fixInf_mats M.view p
  unfold Arrays.fixInf
  rw [show M.rows = M.view from rfl]
  generalize (if p.2 = true then fixColPosInf M.view p.1 else fixColNegInf M.view p.1) = t at *
  obtain ⟨l1, l2, l3⟩ := Mat.clear_spec ok.layT hk
  simp only [mats, Prod.mk.injEq] at hm
  obtain ⟨m1, m2, m3, m4⟩ := hm
  refine ⟨⟨ok.rows.trans m1.symm, ok.cols.trans m2.symm, ok.layA, l1, ok.inA, fun i hi => ?_⟩, ?_, rfl, rfl⟩
  · by_cases hir : i = p.1
    · subst hir
      intro q hq
      rw [show Mat.rowOf _ p.1 = [] from l2] at hq; cases hq
    · intro q hq
      rw [show Mat.rowOf _ i = M.AT.rowOf i from l3 i hir] at hq
      exact ok.inT i hi q hq
  · have e1 : (M.AT.setRange p.1 (M.AT.ps p.1) (M.AT.ps p.1)).lists = upd M.AT.lists p.1 [] :=
      Mat.lists_eq rfl hk l2 (fun i _ hi => l3 i hi)
    show { t with A := M.A.lists, AT := (M.AT.setRange p.1 (M.AT.ps p.1) (M.AT.ps p.1)).lists } = t
    rw [e1, ← show t.A = M.A.lists from m3, ← show t.AT = upd M.AT.lists p.1 [] from m4]

theorem Arrays.fixInfs_ref (q : List (ℕ × Bool)) : ∀ {M : Arrays}, M.OK → (∀ p ∈ q, p.1 < M.AT.m) →
    (q.foldl Arrays.fixInf M).OK ∧
      (q.foldl Arrays.fixInf M).view = q.foldl (fun s p => if p.2 then fixColPosInf s p.1 else fixColNegInf s p.1) M.view ∧
      (q.foldl Arrays.fixInf M).A.m = M.A.m ∧ (q.foldl Arrays.fixInf M).AT.m = M.AT.m := by
  induction q with
  | nil => intro M ok _; exact ⟨ok, rfl, rfl, rfl⟩
  | cons p q ih =>
    intro M ok h
    obtain ⟨a, b, c, d⟩ := Arrays.fixInf_ref ok p (h p (List.mem_cons_self ..))
    obtain ⟨a', b', c', d'⟩ := ih a (fun x hx => by rw [d]; exact h x (List.mem_cons_of_mem _ hx))
    rw [List.foldl_cons, List.foldl_cons]
    rw [b] at b'
    exact ⟨a', b', c'.trans c, d'.trans d⟩

theorem dualFixStep_mats (acc : St × List (ℕ × Bool) × Status) (k : ℕ) :
    mats (dualFixStep acc k).1 = mats acc.1 ∧ ∀ p ∈ (dualFixStep acc k).2.1, p ∈ acc.2.1 ∨ p.1 = k := by
  obtain ⟨s, q, st⟩ := acc
  unfold dualFixStep
  simp only
  split
  · exact ⟨rfl, fun _ h => .inl h⟩
  · split
    · exact ⟨rfl, fun _ h => .inl h⟩
    · exact ⟨rfl, fun _ h => .inl h⟩
    · exact ⟨(fixCol_mats ..).trans rfl, fun _ h => .inl h⟩
    · exact ⟨(fixCol_mats ..).trans rfl, fun _ h => .inl h⟩
    · refine ⟨rfl, fun p h => ?_⟩
      rcases List.mem_append.mp h with h | h
      · exact .inl h
      · rw [List.mem_singleton.mp h]; exact .inr rfl
    · refine ⟨rfl, fun p h => ?_⟩
      rcases List.mem_append.mp h with h | h
      · exact .inl h
      · rw [List.mem_singleton.mp h]; exact .inr rfl

theorem dualFixFold_mats (L : List ℕ) (acc : St × List (ℕ × Bool) × Status) :
    mats (L.foldl dualFixStep acc).1 = mats acc.1 ∧ ∀ p ∈ (L.foldl dualFixStep acc).2.1, p ∈ acc.2.1 ∨ p.1 ∈ L := by
  induction L generalizing acc with
  | nil => exact ⟨rfl, fun _ h => .inl h⟩
  | cons k L ih =>
    obtain ⟨a, b⟩ := ih (dualFixStep acc k)
    obtain ⟨c, d⟩ := dualFixStep_mats acc k
    refine ⟨a.trans c, fun p hp => ?_⟩
    rcases b p hp with h | h
    · rcases d p h with h | h
      · exact .inl h
      · exact .inr (by rw [h]; exact List.mem_cons_self ..)
    · exact .inr (List.mem_cons_of_mem _ h)

/-- Deleting the marked rows, then the fixed columns. -/
theorem Arrays.delBoth_ref {M : Arrays} (ok : M.OK) (inv : Inv M.view) (rng : InRng M.view)
    (o : Ok Mode.all (Verif.deleteInactiveRows M.view)) :
    M.Step ((Arrays.deleteInactiveRows M).bind fun N => Arrays.deleteInactiveCols ⟨deleteFixedCols N.rows, N.A, N.AT⟩)
      (Verif.deleteInactiveCols (deleteFixedCols (Verif.deleteInactiveRows M.view))) := by
  have g4 := delRows_good Mode.all (fun _ => True) (fun _ => True) M.view (fun _ _ _ => trivial)
  obtain ⟨i4, r4, -⟩ := g4.fit o inv rng trivial
  obtain ⟨N2, a, b, c, d, e⟩ := Arrays.deleteInactiveRows_step ok (fun i hi => by
    rw [ok.rows]; exact rng.1 i (inv.gi.rowsDel i hi).2)
  rw [a]
  simp only [Option.bind_some]
  rw [show N2.rows = N2.view from rfl]
  obtain ⟨N3, a', b', c', d', e'⟩ := Arrays.delCols_ref b (t := N2.view) rfl (by rw [c]; exact i4.gi) (by rw [c]; exact r4)
  refine ⟨N3, a', b', ?_, d'.trans d, e'.trans e⟩
  rw [c', c]

/-- `simple_dual_fix`. -/
theorem Arrays.simpleDualFix_ref {M : Arrays} (f : M.Fit) (cl : Clean M.view) (o : (Verif.simpleDualFix M.view).1.asrt = true) :
    M.Ref (Arrays.simpleDualFix M) (Verif.simpleDualFix M.view) := by
  unfold Arrays.simpleDualFix Verif.simpleDualFix at *
  simp only at o ⊢
  rw [show M.rows = M.view from rfl, show M.s.emptyCols = M.view.emptyCols from rfl]
  generalize hs1 : M.view.check (decide (M.view.emptyCols = [])) = s1 at *
  have hn : s1.n = M.s.n := by rw [← hs1]; rfl
  rw [hn] at o ⊢
  have g0 : Good Mode.all Clean (fun s => NoRows s ∧ ZeroCost [] s) M.view s1 := by
    rw [← hs1]
    exact .check _ _ (fun _ h => ⟨h.1, fun p hp => by cases hp⟩)
  have h1 : mats s1 = mats M.view := by rw [← hs1]; rfl
  have g1 := g0.trans (dualFixFold_good Mode.all (List.range M.s.n) s1 [] UNCHANGED)
  have hm := dualFixFold_mats (List.range M.s.n) (s1, [], UNCHANGED)
  generalize (List.range M.s.n).foldl dualFixStep (s1, [], UNCHANGED) = r at *
  have g2 := g1.trans ((fixInfFold_good Mode.all r.2.1 r.2.1 (fun p hp => hp) r.1).weaken (fun _ h => h.2) (fun _ h => h))
  obtain ⟨a, b⟩ := Arrays.with_ok f.ok (hm.1.trans h1)
  obtain ⟨c, d, e1, e2⟩ := Arrays.fixInfs_ref r.2.1 a (fun p hp => by
    rcases hm.2 p hp with h | h
    · cases h
    · show p.1 < M.AT.m
      rw [f.ok.cols]; exact List.mem_range.mp h)
  rw [b] at d
  rw [← d] at o g2 ⊢
  generalize r.2.1.foldl Arrays.fixInf ⟨r.1, M.A, M.AT⟩ = N at *
  have o3 : Ok Mode.all (Verif.deleteInactiveRows N.view) :=
    (delCols_good Mode.all (fun _ => False) (fun _ => True) _ (fun h => h.elim) (fun _ h => h.elim)).ok (ok_all.mpr o)
  have o2 := (delRows_good Mode.all (fun _ => True) (fun _ => True) N.view (fun _ _ _ => trivial)).ok o3
  obtain ⟨i, rr, -⟩ := g2.fit o2 f.inv f.rng cl
  obtain ⟨N', p1, p2, p3, p4, p5⟩ := Arrays.delBoth_ref c i rr o3
  refine ⟨N', ?_, p2, p3, p4.trans e1, p5.trans e2⟩
  rw [show ((Arrays.deleteInactiveRows N).bind fun N =>
      (Arrays.deleteInactiveCols ⟨deleteFixedCols N.rows, N.A, N.AT⟩).map (fun N => (N, r.2.2))) =
    ((Arrays.deleteInactiveRows N).bind fun N => Arrays.deleteInactiveCols ⟨deleteFixedCols N.rows, N.A, N.AT⟩).map
      (fun N => (N, r.2.2)) from by cases Arrays.deleteInactiveRows N <;> rfl, p1]
  rfl

theorem emptyRowLoop_mats (L : List ℕ) (s : St) : mats (emptyRowLoop L s).1 = mats s := by
  induction L generalizing s with
  | nil => rfl
  | cons k L ih =>
    unfold emptyRowLoop
    simp only
    split
    · rfl
    · rw [ih]; rfl

theorem removeEmptyRows_mats (s : St) : mats (removeEmptyRows s).1 = mats s := by
  unfold removeEmptyRows
  simp only
  split <;> exact emptyRowLoop_mats _ s

theorem emptyColLoop_mats (L : List ℕ) (s : St) : mats (emptyColLoop L s).1 = mats s := by
  induction L generalizing s with
  | nil => rfl
  | cons k L ih =>
    unfold emptyColLoop
    simp only
    split
    · rfl
    · rw [ih]; rfl

theorem removeEmptyCols_mats (s : St) : mats (removeEmptyCols s).1 = mats s := by
  unfold removeEmptyCols
  simp only
  split <;> exact emptyColLoop_mats _ s

/-- First part of `run_trivial_explorers`. -/
theorem Arrays.trivialHead_ref (stgs : Settings) {M : Arrays} (f : M.Fit) (cl : Clean M.view)
    (o : (Verif.trivialHead stgs M.view).1.asrt = true) :
    M.Ref (Arrays.trivialHead stgs M) (Verif.trivialHead stgs M.view) := by
  unfold Arrays.trivialHead Verif.trivialHead at *
  simp only at o ⊢
  have g := closeBounds_good Mode.all M.view
  have o1 : (Verif.closeBounds M.view).1.asrt = true := by
    split at o
    · exact o
    · split at o
      · exact ok_all.mp ((removeEmptyCols_good Mode.all _).ok ((simpleDualFix_good Mode.all _).ok (ok_all.mpr o)))
      · exact o
  obtain ⟨N, a, b, c, d, e⟩ := Arrays.closeBounds_ref f cl o1
  have hst := closeBounds_st M.view
  rw [a]
  simp only [Option.bind_some]
  rw [show N.rows = N.view from rfl, c]
  generalize Verif.closeBounds M.view = r at *
  by_cases h1 : r.2 = INFEASIBLE
  · rw [if_pos h1, if_pos h1]; exact ⟨N, rfl, b, c, d, e⟩
  rw [if_neg h1] at o
  rw [if_neg h1, if_neg h1]
  by_cases h2 : stgs.dualFix = true
  · rw [if_pos h2] at o
    rw [if_pos h2, if_pos h2]
    have g1 := (GoodX.to_good g (fine_of_two hst h1)).trans (removeEmptyCols_good Mode.all r.1)
    have hm := removeEmptyCols_mats r.1
    generalize Verif.removeEmptyCols r.1 = q at *
    rw [← c] at hm
    obtain ⟨i, rr, cl'⟩ := g1.fit ((simpleDualFix_good Mode.all _).ok (ok_all.mpr o)) f.inv f.rng cl
    obtain ⟨a1, b1⟩ := Arrays.with_ok b hm
    have := Arrays.simpleDualFix_ref (M := ⟨q.1, N.A, N.AT⟩) ⟨a1, by rw [b1]; exact i, by rw [b1]; exact rr⟩
      (by rw [b1]; exact cl') (by rw [b1]; exact o)
    rw [b1] at this
    obtain ⟨N', a', b', c', d', e'⟩ := this
    rw [a']
    exact ⟨N', rfl, b', c', d'.trans d, e'.trans e⟩
  · rw [if_neg h2, if_neg h2]; exact ⟨N, rfl, b, c, d, e⟩

/-- `run_trivial_explorers`. -/
theorem Arrays.runTrivial_ref (stgs : Settings) {M : Arrays} (f : M.Fit) (cl : Clean M.view)
    (o : (Verif.runTrivial stgs M.view).1.asrt = true) :
    M.Ref (Arrays.runTrivial stgs M) (Verif.runTrivial stgs M.view) := by
  unfold Arrays.runTrivial Verif.runTrivial at *
  simp only at o ⊢
  have g := trivialHead_good Mode.all stgs M.view
  have o2 : ∀ t : St, (Verif.removeEmptyRows t).1.asrt = true → t.asrt = true := fun t h =>
    ok_all.mp ((removeEmptyRows_good Mode.all _).ok (ok_all.mpr h))
  have o3 : ∀ t : St, (Verif.removeEmptyCols t).1.asrt = true → t.asrt = true := fun t h =>
    ok_all.mp ((removeEmptyCols_good Mode.all _).ok (ok_all.mpr h))
  have o4 : ∀ (t : St) (x y z : Bool), (((t.check x).check y).check z).asrt = true → t.asrt = true := fun t x y z h =>
    ok_all.mp ((clean_check3 Mode.all t x y z).ok (ok_all.mpr h))
  have o5 : ∀ (n : ℕ) (t : St), (Verif.stonRowsLoop n t).1.asrt = true → t.asrt = true := fun n t h =>
    ok_all.mp (Good.ok (stonRowsLoop_good Mode.all n t) (ok_all.mpr h))
  have oh : (Verif.trivialHead stgs M.view).1.asrt = true := by
    split at o
    · exact o
    · split at o
      · exact o
      · split at o
        · exact o5 _ _ o
        · split at o
          · exact o5 _ _ (o2 _ o)
          · split at o
            · exact o5 _ _ (o2 _ (o3 _ o))
            · exact o5 _ _ (o2 _ (o3 _ (o4 _ _ _ _ o)))
  obtain ⟨N, a, b, c, d, e⟩ := Arrays.trivialHead_ref stgs f cl oh
  rw [a]
  simp only [Option.bind_some]
  generalize Verif.trivialHead stgs M.view = r at *
  by_cases h1 : r.2 = INFEASIBLE
  · rw [if_pos h1, if_pos h1]; exact ⟨N, rfl, b, c, d, e⟩
  rw [if_neg h1] at o
  rw [if_neg h1, if_neg h1]
  by_cases h2 : stgs.dualFix = true ∧ r.2 = UNBNDORINFEAS
  · rw [if_pos h2, if_pos h2]; exact ⟨N, rfl, b, c, d, e⟩
  rw [if_neg h2] at o
  rw [if_neg h2, if_neg h2]
  obtain ⟨i, rr, cl'⟩ := g.fit (ok_all.mpr oh) f.inv f.rng cl
  have cl' := cl' h1
  rw [← c] at i rr cl' o
  rw [← c, show N.s.m = N.view.m from rfl]
  have oq : (Verif.stonRowsLoop (N.view.m + 2) N.view).1.asrt = true := by
    split at o
    · exact o
    · split at o
      · exact o2 _ o
      · split at o
        · exact o2 _ (o3 _ o)
        · exact o2 _ (o3 _ (o4 _ _ _ _ o))
  obtain ⟨N', a', b', c', d', e'⟩ := Arrays.stonRowsLoop_ref (N.view.m + 2) ⟨b, i, rr⟩ cl'
    (Or.inr (by have := long_le N.view; omega)) oq
  rw [a']
  simp only [Option.bind_some]
  rw [show N'.rows = N'.view from rfl, c']
  generalize Verif.stonRowsLoop (N.view.m + 2) N.view = q at *
  have d2 := d'.trans d
  have e2 := e'.trans e
  by_cases h3 : q.2 = INFEASIBLE
  · rw [if_pos h3, if_pos h3]; exact ⟨N', rfl, b', c', d2, e2⟩
  rw [if_neg h3, if_neg h3]
  have hr := removeEmptyRows_mats q.1
  generalize Verif.removeEmptyRows q.1 = u at *
  rw [← c'] at hr
  by_cases h4 : u.2 = INFEASIBLE
  · rw [if_pos h4, if_pos h4]
    obtain ⟨x, y⟩ := Arrays.with_ok b' hr
    exact ⟨_, rfl, x, y, d2, e2⟩
  rw [if_neg h4, if_neg h4]
  have hc := (removeEmptyCols_mats u.1).trans hr
  generalize Verif.removeEmptyCols u.1 = v at *
  by_cases h5 : v.2 = UNBNDORINFEAS
  · rw [if_pos h5, if_pos h5]
    obtain ⟨x, y⟩ := Arrays.with_ok b' hc
    exact ⟨_, rfl, x, y, d2, e2⟩
  rw [if_neg h5, if_neg h5]
  obtain ⟨x, y⟩ := Arrays.with_ok b' (t := ((v.1.check (decide (v.1.stonRows = []))).check
    (decide (v.1.emptyRows = []))).check (decide (v.1.emptyCols = []))) hc
  exact ⟨_, rfl, x, y, d2, e2⟩

end Verif
