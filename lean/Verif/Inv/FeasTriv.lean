import Verif.Inv.FeasRun
import Verif.Inv.Reach

/-!
# Whole runs of the simple explorers keep `Feas`
-/

namespace Verif

section
variable {μ : Mode} {P : LP} {s : St}

/-! ### Redundant sides -/

theorem checkActivity_rhs {a : Act} {l r : D} {t : RTag} (h : (checkActivity a l r t).rhsRed = true) :
    t.rhsInf = false ∧ a.nInfMax = 0 ∧ D.le a.max (D.add r (.fin FEAS_TOL)) = true := by
  unfold checkActivity at h
  split at h
  · cases h
  · simp only at h
    split at h
    · cases h
    · simp only [Bool.and_eq_true, Bool.not_eq_true', decide_eq_true_eq] at h
      exact ⟨h.1.1, h.1.2, h.2⟩

theorem checkActivity_lhs {a : Act} {l r : D} {t : RTag} (h : (checkActivity a l r t).lhsRed = true) :
    t.lhsInf = false ∧ a.nInfMin = 0 ∧ D.le (D.sub l (.fin FEAS_TOL)) a.min = true := by
  unfold checkActivity at h
  split at h
  · cases h
  · simp only at h
    split at h
    · cases h
    · simp only [Bool.and_eq_true, Bool.not_eq_true', decide_eq_true_eq] at h
      exact ⟨h.1.1, h.1.2, h.2⟩

theorem Feas.redHi (h : Feas P s) (g : GI s) {i : ℕ} (ha : (s.rtag i).inactive = false)
    (hr : (checkActivity (s.act i) (s.lhs i) (s.rhs i) (s.rtag i)).rhsRed = true ∨ (s.rtag i).rhsInf = true) :
    ∀ B, P.rhs i = .fin B → DropHi s (P.A i) B := by
  refine h.impliedHi g ha (fun hf => ?_)
  rcases hr with hr | hr
  · obtain ⟨-, h1, h2⟩ := checkActivity_rhs hr
    have hm := h.finMax g ha h1
    refine ⟨hm, fun r hr => ?_⟩
    rw [h.maxFin g ha hm, hr, D.add_fin, D.le_fin, decide_eq_true_eq] at h2
    have := norm1_nonneg (P.A i)
    have := FEAS_TOL_pos
    nlinarith
  · rw [hf] at hr; cases hr

theorem Feas.redLo (h : Feas P s) (g : GI s) {i : ℕ} (ha : (s.rtag i).inactive = false)
    (hr : (checkActivity (s.act i) (s.lhs i) (s.rhs i) (s.rtag i)).lhsRed = true ∨ (s.rtag i).lhsInf = true) :
    ∀ B, P.lhs i = .fin B → DropLo s (P.A i) B := by
  refine h.impliedLo g ha (fun hf => ?_)
  rcases hr with hr | hr
  · obtain ⟨-, h1, h2⟩ := checkActivity_lhs hr
    have hm := h.finMin g ha h1
    refine ⟨hm, fun r hr => ?_⟩
    rw [h.minFin g ha hm, hr, D.sub_fin, D.le_fin, decide_eq_true_eq] at h2
    have := norm1_nonneg (P.A i)
    have := FEAS_TOL_pos
    nlinarith
  · rw [hf] at hr; cases hr

theorem checkActRow_feas (h : Feas P s) (g : GI s) (row : ℕ) : Feas P (checkActRow s row).1 := by
  unfold checkActRow
  split
  · exact h
  · rename_i hc
    have hact : (s.rtag row).inactive = false := by
      cases h : (s.rtag row).inactive
      · rfl
      · rw [h] at hc; simp at hc
    simp only
    generalize hs1 : s.check (decide ((s.act row).nInfMin = 0 ∨ (s.act row).nInfMax = 0)) = s1
    have h1 : Feas P s1 := by rw [← hs1]; exact h.check _
    have g1 : GI s1 := by rw [← hs1]; exact (sameCore_check _ _).gi g
    have hr1 : s1.rtag = s.rtag := by rw [← hs1]; rfl
    have hact1 : (s1.rtag row).inactive = false := by rw [hr1]; exact hact
    have hlt := h1.rrng row hact1
    have hHi := h1.redHi g1 hact1
    have hLo := h1.redLo g1 hact1
    have hlr := @checkActivity_lhsRed (s1.act row) (s1.lhs row) (s1.rhs row) (s1.rtag row)
    have hrr := @checkActivity_rhsRed (s1.act row) (s1.lhs row) (s1.rhs row) (s1.rtag row)
    generalize ht : checkActivity (s1.act row) (s1.lhs row) (s1.rhs row) (s1.rtag row) = t at *
    split
    · rename_i hb
      rw [Bool.and_eq_true, Bool.or_eq_true, Bool.or_eq_true] at hb
      exact h1.deact hact1 (hHi hb.2) (hLo hb.1)
    · rename_i hb
      split
      · rename_i hl
        have hl1 := hlr hl
        have hr : (s1.rtag row).rhsInf = false := by
          rw [hl, hl1] at hb
          cases h : (s1.rtag row).rhsInf
          · rfl
          · rw [h] at hb; simp at hb
        have e := locksEqToIneq_only { s1 with rtag := upd s1.rtag row { lhsInf := true } } (s1.A row) true
        unfold OnlyLocks at e
        show Feas P { locksEqToIneq { s1 with rtag := upd s1.rtag row { lhsInf := true } } (s1.A row) true with
          lhs := upd (locksEqToIneq { s1 with rtag := upd s1.rtag row { lhsInf := true } } (s1.A row) true).lhs
            row .ninf }
        rw [e]
        exact h1.sideOut hlt true hact1 rfl rfl rfl rfl rfl (fun j hj => upd_ne _ _ (hj rfl)) (fun _ _ => rfl) rfl rfl rfl
          (upd_same _ _ _) (fun j hj => upd_ne _ _ hj) (fun _ => rfl) (fun _ => .refl _) ⟨hl1, hr⟩
          (fun h => absurd h (by simp)) (fun _ => hLo (.inl hl)) (fun _ => upd_same _ _ _) (fun h => absurd h (by simp))
      · split
        · rename_i hl
          have hr1 := hrr hl
          have hl1 : (s1.rtag row).lhsInf = false := by
            rw [hl, hr1] at hb
            cases h : (s1.rtag row).lhsInf
            · rfl
            · rw [h] at hb; simp at hb
          have e := locksEqToIneq_only { s1 with rtag := upd s1.rtag row { rhsInf := true } } (s1.A row) false
          unfold OnlyLocks at e
          show Feas P { locksEqToIneq { s1 with rtag := upd s1.rtag row { rhsInf := true } } (s1.A row) false with
            rhs := upd (locksEqToIneq { s1 with rtag := upd s1.rtag row { rhsInf := true } } (s1.A row) false).rhs
              row .pinf }
          rw [e]
          exact h1.sideOut hlt false hact1 rfl rfl rfl rfl rfl (fun _ _ => rfl) (fun j hj => upd_ne _ _ (hj rfl)) rfl rfl rfl
            (upd_same _ _ _) (fun j hj => upd_ne _ _ hj) (fun _ => rfl) (fun _ => .refl _) ⟨hl1, hr1⟩
            (fun _ => hHi (.inl hl)) (fun h => absurd h (by simp)) (fun h => absurd h (by simp)) (fun _ => upd_same _ _ _)
        · exact h1

theorem checkActLoop_feas (L : List ℕ) (h : Feas P s) (i : Inv s) (hN : NoCols s) (o : Ok μ (checkActLoop L s).1) :
    Feas P (checkActLoop L s).1 := by
  induction L generalizing s with
  | nil => exact h
  | cons row rest ih =>
    unfold checkActLoop at o ⊢
    simp only at o ⊢
    split
    · exact checkActRow_feas h i.gi row
    · rename_i hx
      rw [if_neg hx] at o
      have o1 := (checkActLoop_good μ rest _).ok o
      obtain ⟨r, hn⟩ := (checkActRow_good μ s row o1).2 i hN
      exact ih (checkActRow_feas h i.gi row) (r.inv i) hn o

/-! ### Empty rows and columns -/

theorem emptyRow_feas (h : Feas P s) (g : GI s) {row : ℕ} (ha : (s.rtag row).inactive = false) (hA : s.A row = [])
    (h1 : ¬ ((!(s.rtag row).lhsInf && D.le (.fin FEAS_TOL) (s.lhs row)) ||
       (!(s.rtag row).rhsInf && D.le (s.rhs row) (.fin (-FEAS_TOL)))) = true) (b : Bool) :
    Feas P { s with rtag := upd s.rtag row { s.rtag row with inactive := true }
                    rowSize := upd s.rowSize row (-1), asrt := b
                    log := Rec.deletedRow row 0 :: s.log } := by
  simp only [Bool.or_eq_true, Bool.and_eq_true, Bool.not_eq_true', not_or, not_and] at h1
  have hn := norm1_nonneg (P.A row)
  have ht := FEAS_TOL_pos
  refine h.rowOut (h.rrng row ha) rfl rfl rfl (fun _ _ => rfl) rfl rfl rfl rfl rfl rfl
    (by show (upd s.rtag row _ row).inactive = true; rw [upd_same]) (fun j hj => upd_ne _ _ hj) (fun _ => rfl)
    (fun _ => .refl _) (h.impliedHi g ha (fun hf => ⟨fun p hp => ?_, fun r hr => ?_⟩))
    (h.impliedLo g ha (fun hf => ⟨fun p hp => ?_, fun r hr => ?_⟩))
  · rw [hA] at hp; cases hp
  · have := h1.2 hf
    rw [hr, D.le_fin, decide_eq_true_eq, not_le] at this
    rw [hA, List.map_nil, List.sum_nil]
    nlinarith
  · rw [hA] at hp; cases hp
  · have := h1.1 hf
    rw [hr, D.le_fin, decide_eq_true_eq, not_le] at this
    rw [hA, List.map_nil, List.sum_nil]
    nlinarith

theorem emptyColVal_fin {k : ℕ} (h : Feas P s) (g : GI s) (hc : (s.ctag k).inactive = false) {v : D}
    (hv : emptyColVal (s.c k) (s.lb k) (s.ub k) (s.ctag k) = some v) :
    ∃ q, v = .fin q ∧ (∀ l, s.lb k = .fin l → l ≤ q + FEAS_TOL) ∧ (∀ u, s.ub k = .fin u → q ≤ u + FEAS_TOL) := by
  obtain ⟨hfx, -⟩ := CTag.inactive_false.mp hc
  have hC := h.col k (h.rng g hc)
  have ht := FEAS_TOL_pos
  have atLb : (s.ctag k).lbInf = false → ∃ q, s.lb k = .fin q ∧ (∀ l, s.lb k = .fin l → l ≤ q + FEAS_TOL) ∧
      (∀ u, s.ub k = .fin u → q ≤ u + FEAS_TOL) := by
    intro hf
    obtain ⟨q, e⟩ := hC.lbF hfx hf
    exact ⟨q, e, fun l hl => by rw [e] at hl; cases hl; linarith, fun u hu => hC.gap hfx q u e hu⟩
  have atUb : (s.ctag k).ubInf = false → ∃ q, s.ub k = .fin q ∧ (∀ l, s.lb k = .fin l → l ≤ q + FEAS_TOL) ∧
      (∀ u, s.ub k = .fin u → q ≤ u + FEAS_TOL) := by
    intro hf
    obtain ⟨q, e⟩ := hC.ubF hfx hf
    exact ⟨q, e, fun l hl => hC.gap hfx l q hl e, fun u hu => by rw [e] at hu; cases hu; linarith⟩
  unfold emptyColVal at hv
  split at hv
  · split at hv
    · rename_i hb
      rw [Bool.and_eq_true, Bool.not_eq_true'] at hb
      cases hv
      exact atLb hb.1
    · rename_i hb
      split at hv
      · rename_i hb
        rw [Bool.and_eq_true, Bool.not_eq_true'] at hb
        cases hv
        exact atUb hb.1
      · rename_i hb2
        cases hv
        refine ⟨0, rfl, fun l hl => ?_, fun u hu => ?_⟩
        · have hf : (s.ctag k).lbInf = false := by
            cases hf : (s.ctag k).lbInf with
            | false => rfl
            | true => rw [hC.lbT hfx hf] at hl; cases hl
          rw [hf, hl] at hb
          simp only [Bool.not_false, Bool.true_and, D.lt_fin, decide_eq_true_eq, not_lt] at hb
          linarith
        · have hf : (s.ctag k).ubInf = false := by
            cases hf : (s.ctag k).ubInf with
            | false => rfl
            | true => rw [hC.ubT hfx hf] at hu; cases hu
          rw [hf, hu] at hb2
          simp only [Bool.not_false, Bool.true_and, D.lt_fin, decide_eq_true_eq, not_lt] at hb2
          linarith
  · split at hv
    · split at hv
      · cases hv
      · rename_i hf
        cases hv
        exact atUb (by simpa using hf)
    · split at hv
      · cases hv
      · rename_i hf
        cases hv
        exact atLb (by simpa using hf)

theorem emptyCol_feas (h : Feas P s) (g : GI s) {k : ℕ} (hc : (s.ctag k).inactive = false) (hT : s.AT k = []) {v : D}
    (hv : emptyColVal (s.c k) (s.lb k) (s.ub k) (s.ctag k) = some v) (b : Bool) (off : D) :
    Feas P { s with lb := if s.c k < 0 then upd s.lb k (s.ub k) else s.lb
                    ub := if 0 < s.c k then upd s.ub k (s.lb k) else s.ub
                    off := off, asrt := b
                    ctag := upd s.ctag k { s.ctag k with fixed := true }
                    colSize := upd s.colSize k (-1)
                    log := Rec.fixedCol k v (s.c k) [] :: s.log } := by
  obtain ⟨q, rfl, h1, h2⟩ := emptyColVal_fin h g hc hv
  have hnew := (h.col k (h.rng g hc)).new (CTag.inactive_false.mp hc).1
  refine h.emptyCol g (h.rng g hc) hc hT (v := q) rfl rfl rfl rfl (upd_same _ _ _) (fun j hj => upd_ne _ _ hj) rfl rfl rfl
    (fun j hj => ?_) (fun j hj => ?_) rfl (fun j hj => ?_) ?_ (fun _ => .refl _) h1 h2
  · show (if s.c k < 0 then upd s.lb k (s.ub k) else s.lb) j = s.lb j
    split
    · exact upd_ne _ _ hj
    · rfl
  · show (if 0 < s.c k then upd s.ub k (s.lb k) else s.ub) j = s.ub j
    split
    · exact upd_ne _ _ hj
    · rfl
  · show (logVal s.log j).or (if k = j then some (D.fin q) else none) = _
    rw [if_neg (Ne.symm hj), Option.or_none]
  · show (logVal s.log k).or (if k = k then some (D.fin q) else none) = _
    rw [if_pos rfl, hnew, Option.none_or]

/-! ### Combinators -/

variable {I J I' J' : St → Prop} {a b : St}

theorem Good.weakenF (g : Good μ (Fz P I) (Fz P J) a b) (hI : Inv a → I' a → I a) (hJ : Inv b → J b → J' b) :
    Good μ (Fz P I') (Fz P J') a b :=
  g.weaken (fun i h => ⟨hI i h.1, h.2⟩) (fun i h => ⟨hJ i h.1, h.2⟩)

theorem Good.reflF (μ : Mode) (P : LP) (I : St → Prop) (s : St) : Good μ (Fz P I) (Fz P I) s s := .refl μ _ s

theorem Good.checkF (s : St) (x : Bool) (hj : x = true → I s → J (s.check x)) :
    Good μ (Fz P I) (Fz P J) s (s.check x) :=
  (Good.check s x hj).withF (fun _ _ _ _ h => h.check x)

theorem delRows_goodF (μ : Mode) (P : LP) (I J : St → Prop) (s : St)
    (hJ : Inv s → I s → RowsDeleted s (deleteInactiveRows s) → J (deleteInactiveRows s)) :
    Good μ (Fz P I) (Fz P J) s (deleteInactiveRows s) :=
  (delRows_good μ I J s hJ).withF (fun _ i _ _ h => h.delRows i.gi)

theorem delCols_goodF (μ : Mode) (P : LP) (I J : St → Prop) (s : St) (hN : I s → NoRows s)
    (hJ : Inv s → I s → ColsDel s (deleteInactiveCols (deleteFixedCols s)) →
      J (deleteInactiveCols (deleteFixedCols s))) :
    Good μ (Fz P I) (Fz P J) s (deleteInactiveCols (deleteFixedCols s)) :=
  (delCols_good μ I J s hN hJ).withF (fun _ i hi _ h => h.delCols i.gi (hN hi))

theorem delBoth_goodF (μ : Mode) (P : LP) (I : St → Prop) (s : St) :
    Good μ (Fz P I) (Fz P Clean) s (deleteInactiveCols (deleteFixedCols (deleteInactiveRows s))) :=
  (delRows_goodF μ P I NoRows s (fun _ _ d => d.noRows)).trans
    (delCols_goodF μ P NoRows Clean _ id (fun _ _ d => ⟨d.noRows, d.noFixed, d.noSub⟩))

/-! ### Singleton rows -/

theorem stonEqLoop_goodF (μ : Mode) (P : LP) (L : List ℕ) (s : St) :
    Good μ (Fz P (fun s => NoRows s ∧ Short L s)) (Fz P NoRows) s (stonEqLoop L s).1 := by
  induction L generalizing s with
  | nil => exact (Good.reflF μ P NoRows s).weakenF (fun _ h => h.1) (fun _ h => h)
  | cons row rest ih =>
    unfold stonEqLoop
    split
    · exact (ih s).weakenF (fun _ h => ⟨h.1, fun i hi => h.2 i (List.mem_cons_of_mem _ hi)⟩) (fun _ => id)
    · rename_i hc
      have heq : (s.rtag row).eq = true := by
        cases h : (s.rtag row).eq
        · rw [h] at hc; simp at hc
        · rfl
      simp only
      have g := removeStonRow_eq_good μ s row heq
      split
      · exact (g.withF (fun o i hi _ h => removeStonRow_eq_feas heq hi.2 i.gi h o)).weakenF
          (fun _ h => ⟨h.1, h.2 row List.mem_cons_self⟩) (fun _ h => h)
      · have g2 := (g.keep (P := Short rest) Short.mono).withF
          (fun o i hi _ h => removeStonRow_eq_feas (P := P) heq hi.1.2 i.gi h o)
        refine (g2.weakenF (I' := fun s => NoRows s ∧ Short (row :: rest) s)
          (J' := fun s => NoRows s ∧ Short rest s) (fun _ h => ?_) (fun _ h => h)).trans (ih _)
        exact ⟨⟨h.1, h.2 row List.mem_cons_self⟩, fun i hi => h.2 i (List.mem_cons_of_mem _ hi)⟩

theorem stonIneqLoop_goodF (μ : Mode) (P : LP) (L : List ℕ) (s : St) :
    Good μ (Fz P (Short L)) (Fz P (fun _ => True)) s (stonIneqLoop L s).1 := by
  induction L generalizing s with
  | nil => exact (Good.reflF μ P _ s).weakenF (fun _ h => h) (fun _ _ => trivial)
  | cons row rest ih =>
    have hs : ∀ t, Short (row :: rest) t → Short rest t := fun t h i hi => h i (List.mem_cons_of_mem _ hi)
    unfold stonIneqLoop
    split
    · exact (ih s).weakenF (fun _ h => hs _ h) (fun _ => id)
    · rename_i hc
      have heq : (s.rtag row).eq = false := by
        cases h : (s.rtag row).eq
        · rfl
        · rw [h] at hc; simp at hc
      simp only
      have g : Good μ (Short (row :: rest)) (Short rest) s (removeStonRow s row).1 := by
        have g0 : Good μ (fun _ => True) (fun _ => True) s (removeStonRow s row).1 :=
          Good.weaken (removeStonRow_ineq_good μ s row heq) (fun _ => id) (fun _ _ => trivial)
        exact (g0.keep (P := Short (row :: rest)) Short.mono).weaken (fun _ h => ⟨trivial, h⟩) (fun _ h => hs _ h.2)
      have g2 := g.withF (fun o i hi _ h =>
        removeStonRow_ineq_feas (P := P) heq (hi row List.mem_cons_self) i.gi h o)
      split
      · exact g2.weakenF (fun _ => id) (fun _ _ => trivial)
      · exact g2.trans (ih _)

theorem delStep_goodF (μ : Mode) (P : LP) (N : ℕ) (s : St) :
    Good μ (Fz P (fun s => s.stonRows = [] ∧ long s ≤ N)) (Fz P (fun s => Clean s ∧ StonLess N s)) s
      (deleteInactiveCols (deleteFixedCols (deleteInactiveRows s))) := by
  intro o
  have g := delStep_good μ N s
  refine ⟨(g o).1, fun i hi => ?_⟩
  obtain ⟨r, hj⟩ := (g o).2 i hi.1
  refine ⟨r, hj, ?_⟩
  have := delBoth_goodF μ P (fun s => s.stonRows = [] ∧ long s ≤ N) s o
  exact (this.2 i hi).2.2

theorem removeStonRows_goodF (μ : Mode) (P : LP) (N : ℕ) (s : St) :
    GoodX μ (Fz P (fun s => Clean s ∧ long s ≤ N)) (Fz P (fun s => Clean s ∧ StonLess N s)) s (removeStonRows s) := by
  unfold removeStonRows
  split
  · rename_i h
    exact .of_good ((Good.reflF μ P Clean s).weakenF (fun _ h => h.1) (fun _ hj => ⟨hj, Or.inl h⟩))
  · simp only
    have g1 : Good μ (Fz P (fun s => Clean s ∧ long s ≤ N)) (Fz P (fun t => Short s.stonRows t ∧ long t ≤ N))
        s (stonEqLoop s.stonRows s).1 := by
      have g := Good.keep (stonEqLoop_goodF μ P s.stonRows s) (P := fun t => Short s.stonRows t ∧ long t ≤ N)
        (fun m h => ⟨Short.mono m h.1, (long_mono m).trans h.2⟩)
      refine g.weaken (fun i h => ?_) (fun i h => ?_)
      · exact ⟨⟨⟨h.1.1.1, i.ston⟩, h.2⟩, i.ston, h.1.2⟩
      · exact ⟨h.2, h.1.2⟩
    split
    · rename_i h
      exact g1.weaken (fun _ => id) (fun _ _ hf => absurd (h ▸ hf) not_fine_infeasible)
    · have g2 : Good μ (Fz P (fun t => Short s.stonRows t ∧ long t ≤ N)) (Fz P (fun t => long t ≤ N))
          (stonEqLoop s.stonRows s).1 (stonIneqLoop s.stonRows (stonEqLoop s.stonRows s).1).1 := by
        refine (Good.keep (stonIneqLoop_goodF μ P s.stonRows _) (P := fun t => long t ≤ N)
          (fun m h => (long_mono m).trans h)).weaken (fun _ h => ⟨⟨h.1.1, h.2⟩, h.1.2⟩) (fun _ h => ⟨h.2, h.1.2⟩)
      split
      · rename_i h
        exact (g1.trans g2).weaken (fun _ => id) (fun _ _ hf => absurd (h ▸ hf) not_fine_infeasible)
      · refine .of_good ((g1.trans g2).trans ?_)
        generalize (stonIneqLoop s.stonRows (stonEqLoop s.stonRows s).1).1 = t
        have g3 : Good μ (Fz P (fun t => long t ≤ N)) (Fz P (fun s => s.stonRows = [] ∧ long s ≤ N)) t
            { t with stonRows := [] } := by
          have sc : SameCore t { t with stonRows := [] } := by constructor <;> rfl
          refine Good.withF (.of (fun o => o) (fun _ i hi => ⟨⟨.single (.same sc), ?_, fun _ h => Or.inl h, rfl, id⟩, rfl, hi⟩))
            (fun _ _ _ _ h => h.core sc (fun _ => .refl _))
          intro _ h; cases h
        exact g3.trans (delStep_goodF μ P N _)

theorem stonRowsLoop_goodF (μ : Mode) (P : LP) (fuel : ℕ) (s : St) :
    GoodX μ (Fz P (fun s => Clean s ∧ ((s.stonRows = [] ∧ 1 ≤ fuel) ∨ long s + 2 ≤ fuel))) (Fz P Clean) s
      (stonRowsLoop fuel s) := by
  induction fuel generalizing s with
  | zero =>
    refine .of (fun o => ⟨o.1, o.2⟩) (fun _ _ hi => ?_)
    obtain ⟨⟨-, h | h⟩, -⟩ := hi <;> omega
  | succ fuel ih =>
    unfold stonRowsLoop
    simp only
    have g : ∀ N, GoodX μ (Fz P (fun s => Clean s ∧ long s ≤ N)) (Fz P (fun s => Clean s ∧ StonLess N s)) s
      (removeStonRows s) := fun N => removeStonRows_goodF μ P N s
    split
    · exact (g (long s)).weaken (fun _ h => ⟨⟨h.1.1, le_refl _⟩, h.2⟩) (fun _ h hf => ⟨(h hf).1.1, (h hf).2⟩)
    · split
      · rename_i h2
        have hf : fine (removeStonRows s).2 := by rw [h2]; exact fine_reduced
        have hne : s.stonRows ≠ [] := by
          intro e
          unfold removeStonRows at h2
          rw [if_pos e] at h2
          cases h2
        refine .assume (fun _ _ hi => ?_) (fun o => (g (long s) (ih _ o).1).1)
        have hl : long s + 2 ≤ fuel + 1 := by
          obtain ⟨⟨-, h | h⟩, -⟩ := hi
          · exact absurd h.1 hne
          · exact h
        refine ((GoodX.to_good (g (long s)) hf).weakenF (fun _ h => ⟨h.1, le_refl _⟩) (fun _ h => ?_)).trans (ih _)
        refine ⟨h.1, ?_⟩
        rcases h.2 with e | e
        · exact Or.inl ⟨e, by omega⟩
        · exact Or.inr (by omega)
      · exact (g (long s)).weaken (fun _ h => ⟨⟨h.1.1, le_refl _⟩, h.2⟩) (fun _ h hf => ⟨(h hf).1.1, (h hf).2⟩)

/-! ### Activities, empty rows and columns -/

theorem checkActivities_goodF (μ : Mode) (P : LP) (s : St) : GoodX μ (Fz P Clean) (Fz P Clean) s (checkActivities s) := by
  unfold checkActivities
  simp only
  have g := ((checkActLoop_good μ s.updActs s).withF (P := P)
    (fun o i hi _ h => checkActLoop_feas s.updActs h i hi o)).weakenF (I' := Clean) (J' := NoCols) (fun _ h => h.2) (fun _ h => h)
  split
  · rename_i h
    exact g.weaken (fun _ h => h) (fun _ _ hf => absurd (h ▸ hf) not_fine_infeasible)
  · refine .of_good (g.trans (delRows_goodF μ P _ _ _ (fun _ hi d => ⟨d.noRows, ?_, ?_⟩)))
    · rw [d.fixedCols]; exact hi.1
    · rw [d.subCols]; exact hi.2

/-- Removal of one empty row. -/
def rowOut (s : St) (row : ℕ) : St :=
  let s := s.check (decide (s.rowSize row = 0))
  { s with rtag := upd s.rtag row { s.rtag row with inactive := true }
           rowSize := upd s.rowSize row (-1)
           log := Rec.deletedRow row 0 :: s.log }

theorem rowOut_key {row : ℕ} {rest : List ℕ} (i : Inv s) (hi : RowsLeft (row :: rest) s)
    (hz : decide (s.rowSize row = 0) = true) : (s.rtag row).inactive = false ∧ s.A row = [] := by
  rw [decide_eq_true_eq] at hz
  refine ⟨?_, ?_⟩
  · cases h : (s.rtag row).inactive
    · rfl
    · have := i.gi.rowPend row h (by rw [hz]; decide)
      rw [hi.1.1] at this; cases this
  · have := i.gi.rowSz row (by rw [hz]; decide)
    rw [hz] at this
    exact List.eq_nil_of_length_eq_zero (by omega)

theorem rowOut_ok {row : ℕ} (o : Ok μ (rowOut s row)) : Ok μ s ∧ decide (s.rowSize row = 0) = true :=
  Ok.check (μ := μ) (s := s) ⟨o.1, o.2⟩

theorem rowOut_goodF (μ : Mode) (P : LP) (s : St) (row : ℕ) (rest : List ℕ)
    (hx : ¬ ((!(s.rtag row).lhsInf && D.le (.fin FEAS_TOL) (s.lhs row)) ||
       (!(s.rtag row).rhsInf && D.le (s.rhs row) (.fin (-FEAS_TOL)))) = true) :
    Good μ (Fz P (RowsLeft (row :: rest))) (Fz P (RowsLeft rest)) s (rowOut s row) := by
  refine Good.withF (.of (fun o => (rowOut_ok o).1) (fun o i hi => ?_)) (fun o i hi _ h => ?_)
  · obtain ⟨hact, hA⟩ := rowOut_key i hi (rowOut_ok o).2
    refine ⟨.of_raw (.emptyRow row hact hA (by constructor <;> rfl)) i.gi rfl rfl rfl, hi.1, fun r hr => ?_⟩
    show r ∈ rest ∨ (upd s.rtag row _ r).inactive = true
    by_cases e : r = row
    · right; rw [e, upd_same]
    · rw [upd_ne _ _ e]
      exact (hi.2 r hr).imp_left (fun h => (List.mem_cons.mp h).resolve_left e)
  · obtain ⟨hact, hA⟩ := rowOut_key i hi (rowOut_ok o).2
    exact emptyRow_feas h i.gi hact hA hx _

theorem emptyRowLoop_goodF (μ : Mode) (P : LP) (L : List ℕ) (s : St) :
    Good μ (Fz P (RowsLeft L)) (Fz P (fun t => Clean t ∧ ((emptyRowLoop L s).2 ≠ INFEASIBLE → RowsLeft [] t))) s
      (emptyRowLoop L s).1 := by
  induction L generalizing s with
  | nil => exact (Good.reflF μ P _ s).weakenF (fun _ h => h) (fun _ h => ⟨h.1, fun _ => h⟩)
  | cons row rest ih =>
    unfold emptyRowLoop
    simp only
    split
    · exact .checkF s _ (fun _ h => ⟨h.1, fun h' => absurd rfl h'⟩)
    · rename_i hx
      exact (rowOut_goodF μ P s row rest hx).trans (ih _)

theorem removeEmptyRows_goodF (μ : Mode) (P : LP) (s : St) : Good μ (Fz P Clean) (Fz P Clean) s (removeEmptyRows s).1 := by
  unfold removeEmptyRows
  simp only
  have g := (emptyRowLoop_goodF μ P s.emptyRows s).weakenF (I' := Clean)
    (J' := fun t => Clean t ∧ ((emptyRowLoop s.emptyRows s).2 ≠ INFEASIBLE → RowsLeft [] t))
    (fun _ h => ⟨h, fun _ hr => .inl hr⟩) (fun _ h => h)
  split
  · exact g.weakenF (fun _ h => h) (fun _ h => h.1)
  · rename_i hst
    refine g.trans (Good.withF ?_ (fun _ _ _ _ h => h.core (by constructor <;> rfl) (fun _ => .refl _)))
    refine .of (fun o => o) (fun _ i h => ⟨⟨.single (.same (by constructor <;> rfl)), fun _ h => Or.inl h,
      fun _ h => Or.inl h, rfl, fun e => ⟨fun j hj ha hA => ?_, e.2⟩⟩, h.1⟩)
    rcases (h.2 hst).2 j (e.1 j hj ha hA) with h | h
    · cases h
    · exact absurd (ha.symm.trans h) (by simp)

/-- Removal of one empty column. -/
def colOut (s : St) (k : ℕ) (v : D) : St :=
  let s := s.check (decide (s.colSize k = 0) && !(s.ctag k).inactive)
  { s with lb := if s.c k < 0 then upd s.lb k (s.ub k) else s.lb
           ub := if 0 < s.c k then upd s.ub k (s.lb k) else s.ub
           off := D.add s.off (D.smul (s.c k) v)
           ctag := upd s.ctag k { s.ctag k with fixed := true }
           colSize := upd s.colSize k (-1)
           log := Rec.fixedCol k v (s.c k) [] :: s.log }

theorem colOut_key {k : ℕ} (i : Inv s) (hz : (decide (s.colSize k = 0) && !(s.ctag k).inactive) = true) :
    (s.ctag k).inactive = false ∧ s.AT k = [] := by
  rw [Bool.and_eq_true, decide_eq_true_eq, Bool.not_eq_true'] at hz
  refine ⟨hz.2, ?_⟩
  have := i.gi.colSz k hz.2
  rw [hz.1] at this
  exact List.eq_nil_of_length_eq_zero (by omega)

theorem colOut_ok {k : ℕ} {v : D} (o : Ok μ (colOut s k v)) :
    Ok μ s ∧ (decide (s.colSize k = 0) && !(s.ctag k).inactive) = true :=
  Ok.check (μ := μ) (s := s) ⟨o.1, o.2⟩

theorem colOut_goodF (μ : Mode) (P : LP) (s : St) (k : ℕ) (rest : List ℕ) (v : D)
    (hv : emptyColVal (s.c k) (s.lb k) (s.ub k) (s.ctag k) = some v) :
    Good μ (Fz P (ColsLeft (k :: rest))) (Fz P (ColsLeft rest)) s (colOut s k v) := by
  refine Good.withF (.of (fun o => (colOut_ok o).1) (fun o i hi => ?_)) (fun o i hi _ h => ?_)
  · obtain ⟨hc, hT⟩ := colOut_key i (colOut_ok o).2
    refine ⟨.of_raw (.emptyCol k v hc hT (by constructor <;> rfl)) i.gi rfl rfl rfl, hi.1, fun r hr => ?_⟩
    show r ∈ rest ∨ (upd s.ctag k _ r).inactive = true
    by_cases e : r = k
    · right; rw [e, upd_same]; rfl
    · rw [upd_ne _ _ e]
      exact (hi.2 r hr).imp_left (fun h => (List.mem_cons.mp h).resolve_left e)
  · obtain ⟨hc, hT⟩ := colOut_key i (colOut_ok o).2
    exact emptyCol_feas h i.gi hc hT hv _ _

theorem emptyColLoop_goodF (μ : Mode) (P : LP) (L : List ℕ) (s : St) :
    Good μ (Fz P (ColsLeft L)) (Fz P (fun t => Clean t ∧ ((emptyColLoop L s).2 ≠ UNBNDORINFEAS → ColsLeft [] t))) s
      (emptyColLoop L s).1 := by
  induction L generalizing s with
  | nil => exact (Good.reflF μ P _ s).weakenF (fun _ h => h) (fun _ h => ⟨h.1, fun _ => h⟩)
  | cons k rest ih =>
    unfold emptyColLoop
    simp only
    split
    · exact .checkF s _ (fun _ h => ⟨h.1, fun h' => absurd rfl h'⟩)
    · rename_i v hv
      exact (colOut_goodF μ P s k rest v hv).trans (ih _)

theorem removeEmptyCols_goodF (μ : Mode) (P : LP) (s : St) : Good μ (Fz P Clean) (Fz P Clean) s (removeEmptyCols s).1 := by
  unfold removeEmptyCols
  simp only
  have g := (emptyColLoop_goodF μ P s.emptyCols s).weakenF (I' := Clean)
    (J' := fun t => Clean t ∧ ((emptyColLoop s.emptyCols s).2 ≠ UNBNDORINFEAS → ColsLeft [] t))
    (fun _ h => ⟨h, fun _ hr => .inl hr⟩) (fun _ h => h)
  split
  · exact g.weakenF (fun _ h => h) (fun _ h => h.1)
  · rename_i hst
    refine g.trans (Good.withF ?_ (fun _ _ _ _ h => h.core (by constructor <;> rfl) (fun _ => .refl _)))
    refine .of (fun o => o) (fun _ i h => ⟨⟨.single (.same (by constructor <;> rfl)), fun _ h => Or.inl h,
      fun _ h => Or.inl h, rfl, fun e => ⟨e.1, fun j hj ha hA => ?_⟩⟩, h.1⟩)
    rcases (h.2 hst).2 j (e.2 j hj ha hA) with h | h
    · cases h
    · exact absurd (ha.symm.trans h) (by simp)

/-! ### Close bounds and dual fixing -/

theorem fixCol_goodF (μ : Mode) (P : LP) (I : St → Prop) (hI : FixStable I) (hN : ∀ s, I s → NoRows s) (s : St)
    (k : ℕ) (val : D) (hv : GI s → Feas P s → (s.ctag k).inactive = false → ∃ q, val = .fin q) :
    Good μ (Fz P I) (Fz P I) s (fixCol s k val (s.c k)).1 := by
  refine (fixCol_good μ I hI hN s k val).withF (fun o i _ _ h => ?_)
  have hc := (fixCol_le μ s k val _ o).2.1
  obtain ⟨q, rfl⟩ := hv i.gi h hc
  exact fixCol_keep h i.gi hc q _

theorem Feas.lbFin (h : Feas P s) (g : GI s) {k : ℕ} (hc : (s.ctag k).inactive = false)
    (hf : (s.ctag k).lbInf = false) : ∃ q, s.lb k = .fin q :=
  (h.col k (h.rng g hc)).lbF (CTag.inactive_false.mp hc).1 hf

theorem Feas.ubFin (h : Feas P s) (g : GI s) {k : ℕ} (hc : (s.ctag k).inactive = false)
    (hf : (s.ctag k).ubInf = false) : ∃ q, s.ub k = .fin q :=
  (h.col k (h.rng g hc)).ubF (CTag.inactive_false.mp hc).1 hf

theorem closeBoundsLoop_goodF (μ : Mode) (P : LP) (L : List ℕ) (s : St) :
    Good μ (Fz P NoRows) (Fz P NoRows) s (closeBoundsLoop L s).1 := by
  induction L generalizing s with
  | nil => exact .reflF μ P _ s
  | cons k rest ih =>
    unfold closeBoundsLoop
    split
    · exact ih s
    · rename_i hb
      simp only [Bool.or_eq_true, not_or, Bool.not_eq_true] at hb
      simp only
      have g1 : Good μ (Fz P NoRows) (Fz P NoRows) s (s.check (!(s.ctag k).inactive)) := .checkF s _ (fun _ h => h)
      split
      · have g2 : Good μ (Fz P NoRows) (Fz P NoRows) (s.check (!(s.ctag k).inactive))
            ((s.check (!(s.ctag k).inactive)).fuzz (!D.eqb (s.lb k) (s.ub k))) :=
          (Good.fuzz _ _ (fun h => h)).withF (fun _ _ _ _ h => h.core (by constructor <;> rfl) (fun _ => .refl _))
        exact ((g1.trans g2).trans (fixCol_goodF μ P _ noRows_fixStable (fun _ h => h) _ k _
          (fun g h hc => h.lbFin g hc hb.1.2))).trans (ih _)
      · split
        · exact g1
        · exact g1.trans (ih _)

theorem closeBounds_goodF (μ : Mode) (P : LP) (s : St) : GoodX μ (Fz P Clean) (Fz P Clean) s (closeBounds s) := by
  unfold closeBounds
  simp only
  have g := (closeBoundsLoop_goodF μ P (List.range s.n) s).weakenF (I' := Clean) (J' := NoRows) (fun _ h => h.1) (fun _ h => h)
  split
  · rename_i h
    exact g.weaken (fun _ h => h) (fun _ _ hf => absurd (h ▸ hf) not_fine_infeasible)
  · exact .of_good (g.trans (delCols_goodF μ P _ _ _ id (fun _ _ d => ⟨d.noRows, d.noFixed, d.noSub⟩)))

theorem dualFixDecide_lower {ck : ℚ} {u d : ℤ} {t : CTag} (h : dualFixDecide ck u d t = .atLower) : t.lbInf = false := by
  unfold dualFixDecide at h
  cases hl : t.lbInf with
  | false => rfl
  | true => rw [hl] at h; split_ifs at h <;> simp_all

theorem dualFixDecide_upper {ck : ℚ} {u d : ℤ} {t : CTag} (h : dualFixDecide ck u d t = .atUpper) : t.ubInf = false := by
  unfold dualFixDecide at h
  cases hl : t.ubInf with
  | false => rfl
  | true => rw [hl] at h; split_ifs at h <;> simp_all

theorem dualFixStep_goodF (μ : Mode) (P : LP) (s : St) (q : List (ℕ × Bool)) (st : Status) (k : ℕ) :
    Good μ (Fz P (fun s => NoRows s ∧ ZeroCost q s))
      (Fz P (fun s' => NoRows s' ∧ ZeroCost (dualFixStep (s, q, st) k).2.1 s')) s (dualFixStep (s, q, st) k).1 := by
  unfold dualFixStep
  simp only
  split
  · exact .reflF μ P _ s
  · split
    · exact .reflF μ P _ s
    · exact .reflF μ P _ s
    · rename_i hd
      have hl := dualFixDecide_lower hd
      exact .trans (.checkF s _ (fun _ h => h)) (fixCol_goodF μ P _ (zeroCost_fixStable q) (fun _ h => h.1) _ k _
        (fun g h hc => h.lbFin g hc hl))
    · rename_i hd
      have hl := dualFixDecide_upper hd
      exact .trans (.checkF s _ (fun _ h => h)) (fixCol_goodF μ P _ (zeroCost_fixStable q) (fun _ h => h.1) _ k _
        (fun g h hc => h.ubFin g hc hl))
    · rename_i h
      refine Good.withF (.of id (fun _ _ hi => ⟨.refl μ s, hi.1, fun p hp => ?_⟩)) (fun _ _ _ _ h => h)
      rcases List.mem_append.mp hp with hp | hp
      · exact hi.2 p hp
      · rw [List.mem_singleton.mp hp]; exact dualFixDecide_inf (Or.inl h)
    · rename_i h
      refine Good.withF (.of id (fun _ _ hi => ⟨.refl μ s, hi.1, fun p hp => ?_⟩)) (fun _ _ _ _ h => h)
      rcases List.mem_append.mp hp with hp | hp
      · exact hi.2 p hp
      · rw [List.mem_singleton.mp hp]; exact dualFixDecide_inf (Or.inr h)

theorem dualFixFold_goodF (μ : Mode) (P : LP) (L : List ℕ) (s : St) (q : List (ℕ × Bool)) (st : Status) :
    Good μ (Fz P (fun s => NoRows s ∧ ZeroCost q s))
      (Fz P (fun s' => NoRows s' ∧ ZeroCost (L.foldl dualFixStep (s, q, st)).2.1 s')) s
      (L.foldl dualFixStep (s, q, st)).1 := by
  induction L generalizing s q st with
  | nil => exact .reflF μ P _ s
  | cons k L ih =>
    rw [List.foldl_cons]
    exact (dualFixStep_goodF μ P s q st k).trans (ih _ _ _)

theorem fixColInf_log (s : St) (p : ℕ × Bool) :
    ∃ pos k b rows l, (if p.2 then fixColPosInf s p.1 else fixColNegInf s p.1).log =
      l ++ Rec.fixedColInf pos k b rows :: s.log := by
  have hd : ∀ (cells : List Cell) (t : St), ∃ l, (deactivateRows t cells).log = l ++ t.log := by
    intro cells
    induction cells with
    | nil => exact fun t => ⟨[], rfl⟩
    | cons c cells ih =>
      intro t
      unfold deactivateRows
      rw [List.foldl_cons]
      split
      · exact ih t
      · obtain ⟨l, e⟩ := ih (setRowToInactive t c.1 0)
        refine ⟨l ++ [Rec.deletedRow c.1 0], ?_⟩
        unfold deactivateRows at e
        rw [e, List.append_assoc]
        rfl
  have key : ∀ (t : St) (k : ℕ) (pos : Bool) (bound v : D), ∃ l, (fixColInfTail t k pos bound v).log =
      l ++ fixedColInfRec t k pos bound :: t.log := by
    intro t k pos bound v
    unfold fixColInfTail
    obtain ⟨l, e⟩ := hd ((saveFixedColInf t k pos bound).AT k) (saveFixedColInf t k pos bound)
    refine ⟨l, ?_⟩
    simp only
    rw [e]
    rfl
  split
  · obtain ⟨l, e⟩ := key (((s.check (!(s.ctag p.1).inactive)).check (s.ctag p.1).ubInf).check (decide (s.up p.1 = 0)))
      p.1 true (s.lb p.1) .pinf
    exact ⟨_, _, _, _, l, e⟩
  · obtain ⟨l, e⟩ := key (((s.check (!(s.ctag p.1).inactive)).check (s.ctag p.1).lbInf).check (decide (s.down p.1 = 0)))
      p.1 false (s.ub p.1) .ninf
    exact ⟨_, _, _, _, l, e⟩

theorem fixInfFold_goodF (μ : Mode) (P : LP) (q L : List (ℕ × Bool)) (hL : ∀ p ∈ L, p ∈ q) (s : St) :
    Good μ (Fz P (ZeroCost q)) (Fz P (ZeroCost q)) s
      (L.foldl (fun s p => if p.2 then fixColPosInf s p.1 else fixColNegInf s p.1) s) := by
  induction L generalizing s with
  | nil => exact .reflF μ P _ s
  | cons p L ih =>
    rw [List.foldl_cons]
    refine ((fixColInf_good μ q s p (hL p List.mem_cons_self)).withF (fun _ _ _ hp _ => ?_)).trans
      (ih (fun x hx => hL x (List.mem_cons_of_mem _ hx)) _)
    obtain ⟨pos, k, b, rows, l, e⟩ := fixColInf_log s p
    have := hp (Rec.fixedColInf pos k b rows) (by rw [e]; exact List.mem_append_right _ List.mem_cons_self)
    cases this

theorem simpleDualFix_goodF (μ : Mode) (P : LP) (s : St) : Good μ (Fz P Clean) (Fz P Clean) s (simpleDualFix s).1 := by
  unfold simpleDualFix
  simp only
  generalize hs1 : s.check (decide (s.emptyCols = [])) = s1
  have g0 : Good μ (Fz P Clean) (Fz P (fun s => NoRows s ∧ ZeroCost [] s)) s s1 := by
    rw [← hs1]
    exact .checkF s _ (fun _ h => ⟨h.1, fun p hp => by cases hp⟩)
  have g1 := dualFixFold_goodF μ P (List.range s1.n) s1 [] UNCHANGED
  refine (g0.trans g1).trans ?_
  have g2 := fixInfFold_goodF μ P ((List.range s1.n).foldl dualFixStep (s1, [], UNCHANGED)).2.1
    ((List.range s1.n).foldl dualFixStep (s1, [], UNCHANGED)).2.1 (fun p hp => hp)
    ((List.range s1.n).foldl dualFixStep (s1, [], UNCHANGED)).1
  refine (g2.weakenF (fun _ h => h.2) (fun _ h => h)).trans ?_
  exact delBoth_goodF μ P _ _

/-! ### All of them -/

theorem trivialHead_goodF (μ : Mode) (P : LP) (stgs : Settings) (s : St) :
    Good μ (Fz P Clean) (fun t => (trivialHead stgs s).2 ≠ INFEASIBLE → Fz P Clean t) s (trivialHead stgs s).1 := by
  unfold trivialHead
  simp only
  have g := closeBounds_goodF μ P s
  split
  · rename_i h
    exact Good.weaken g (fun _ h => h) (fun _ _ hn => absurd h hn)
  · rename_i h
    have g1 := GoodX.to_good g (fine_of_two (closeBounds_st s) h)
    split
    · exact ((g1.trans (removeEmptyCols_goodF μ P _)).trans (simpleDualFix_goodF μ P _)).weaken (fun _ h => h) (fun _ h _ => h)
    · exact g1.weaken (fun _ h => h) (fun _ h _ => h)

theorem clean_check3F (μ : Mode) (P : LP) (s : St) (a b c : Bool) :
    Good μ (Fz P Clean) (Fz P Clean) s (((s.check a).check b).check c) := by
  refine Good.trans (J := Fz P Clean) (b := (s.check a).check b) (Good.trans (J := Fz P Clean) (b := s.check a) ?_ ?_) ?_
  · exact .checkF s a (fun _ h => h)
  · exact .checkF _ b (fun _ h => h)
  · exact .checkF _ c (fun _ h => h)

theorem runTrivial_goodF (μ : Mode) (P : LP) (stgs : Settings) (s : St) :
    GoodX μ (Fz P Clean) (Fz P Clean) s (runTrivial stgs s) := by
  unfold runTrivial
  simp only
  have g := trivialHead_goodF μ P stgs s
  split
  · rename_i h
    exact g.weaken (fun _ h => h) (fun _ _ hf => absurd (h ▸ hf) not_fine_infeasible)
  · rename_i h1
    have g1 : Good μ (Fz P Clean) (Fz P Clean) s (trivialHead stgs s).1 := g.weaken (fun _ h => h) (fun _ h => h h1)
    split
    · exact g1.weaken (fun _ h => h) (fun _ h _ => h)
    · generalize (trivialHead stgs s).1 = t at g1
      have g2 : GoodX μ (Fz P Clean) (Fz P Clean) s (stonRowsLoop (t.m + 2) t) :=
        g1.trans ((stonRowsLoop_goodF μ P (t.m + 2) t).weaken
          (fun _ h => ⟨⟨h.1, Or.inr (by have := long_le t; omega)⟩, h.2⟩) (fun _ h => h))
      split
      · exact g2
      · rename_i h2
        have g3 := (g2.to_good (fine_of_two (stonRowsLoop_st _ _) h2)).trans (removeEmptyRows_goodF μ P _)
        split
        · exact g3.weaken (fun _ h => h) (fun _ h _ => h)
        · have g4 := g3.trans (removeEmptyCols_goodF μ P _)
          split
          · exact g4.weaken (fun _ h => h) (fun _ h _ => h)
          · exact .of_good (g4.trans (clean_check3F μ P _ _ _ _))

end

end Verif
