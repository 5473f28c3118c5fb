import Verif.Inv.FeasPropRow
import Verif.Inv.FeasDel

/-!
# The explorers keep `Feas`, one by one
-/

namespace Verif

/-! ### The log only grows -/

theorem PropRun.logLe {i num : ℕ} {s t : St} (h : PropRun i s num t) : ∀ r ∈ s.log, r ∈ t.log := by
  induction h with
  | nil => exact fun _ h => h
  | same h e ih => intro r hr; rw [e.log]; exact ih r hr
  | bound j lb ub tag im o low h hj hcell htag e ih =>
    intro r hr; rw [e.log]; exact List.mem_cons_of_mem _ (ih r hr)
  | fix k val h hk hrows e ih => intro r hr; rw [e.log]; exact List.mem_cons_of_mem _ (ih r hr)

theorem eqToIneqSide_log (s : St) (i : ℕ) (q : ℚ) (b : D) (upper : Bool) :
    (eqToIneqSide s i q b upper).log = s.log := by
  unfold eqToIneqSide
  cases upper
  · rw [if_neg (by simp)]
    simp only
    rw [locksEqToIneq_only]
  · rw [if_pos rfl]
    simp only
    rw [locksEqToIneq_only]

theorem Raw.logLe {μ : Mode} {s t : St} (h : Raw μ s t) (g : GI s) : ∀ r ∈ s.log, r ∈ t.log := by
  intro r hr
  cases h with
  | same h => rw [h.log]; exact hr
  | fix k val hk hrows h => rw [h.log]; exact List.mem_cons_of_mem _ hr
  | fixInf k pos bound v hk hc h =>
    rw [h.log]; exact List.mem_append_right _ (List.mem_cons_of_mem _ hr)
  | deact i hi h => rw [h.log]; exact List.mem_cons_of_mem _ hr
  | sides i t l r u d hi ht hl h => rw [h.log]; exact hr
  | sideRec i other t l r u d rc hi ho hne hcols ht hl hrec hμ h => rw [h.log]; exact List.mem_cons_of_mem _ hr
  | stonEq row k a val hi hk hrow hrows h =>
    rw [h.log]; exact List.mem_cons_of_mem _ (List.mem_cons_of_mem _ (List.mem_cons_of_mem _ hr))
  | emptyRow i hi hA h => rw [h.log]; exact List.mem_cons_of_mem _ hr
  | emptyCol k v hk hT h => rw [h.log]; exact List.mem_cons_of_mem _ hr
  | freeSton i k q side hi hk hT hcols h =>
    rw [h.log]
    unfold freeColIneq
    simp only
    rw [subVarInObj_eq]
    exact List.mem_cons_of_mem _ (List.mem_cons_of_mem _ hr)
  | half i k q b upper hi hk hT hs hcols h =>
    rw [h.log]
    unfold halfStep
    simp only
    rw [eqToIneqSide_log, subVarInObj_eq]
    exact List.mem_cons_of_mem _ (List.mem_cons_of_mem _ hr)
  | fixSton i k q v hi hk hT h => rw [h.log]; exact List.mem_cons_of_mem _ hr
  | prop i num t' hi hnum hrun h => rw [h.log]; exact List.mem_cons_of_mem _ (hrun.logLe r hr)
  | dton i j k aij aik b h =>
    rw [h.log]
    exact List.mem_cons_of_mem _ (List.mem_cons_of_mem _ (List.mem_append_right _ hr))
  | merge j k ratio hjk hj hk hμ hex h => rw [h.log]; exact List.mem_cons_of_mem _ hr
  | relax k t' ht h => rw [h.log]; exact hr
  | delRows h =>
    rw [h.log]
    have e := congrArg St.log (deleteInactiveRows_deleted g).eq
    rw [e]; exact hr
  | delCols hd h =>
    rw [h.log]
    obtain ⟨l, r', a, o, b, e⟩ := deleteFixedCols_eq s
    have g1 : GI (deleteFixedCols s) := by
      rw [e]
      exact g.of_eq rfl rfl rfl rfl rfl (fun _ => rfl) rfl rfl rfl rfl rfl rfl rfl rfl
    have d := congrArg St.log (deleteInactiveCols_deleted g1 (by rw [e]; exact hd)).eq
    rw [d]
    show r ∈ (deleteFixedCols s).log
    rw [e]; exact hr

theorem Steps.logLe {μ : Mode} {s t : St} (h : Steps μ s t) (g : GI s) : ∀ r ∈ s.log, r ∈ t.log := by
  induction h with
  | refl => exact fun _ h => h
  | tail h r ih => exact fun x hx => r.logLe (h.gi g) x (ih x hx)

theorem Run.plain {μ : Mode} {s t : St} (h : Run μ s t) (g : GI s) (hp : PlainLog t) : PlainLog s :=
  fun r hr => hp r (h.steps.logLe g r hr)

/-! ### Combinator -/

/-- `I`, and `Feas P` as long as the log is plain. -/
def Fz (P : LP) (I : St → Prop) (s : St) : Prop := I s ∧ FeasP P s

section
variable {μ : Mode} {P : LP} {I J : St → Prop} {a b : St}

theorem Good.withF (g : Good μ I J a b)
    (h : Ok μ b → Inv a → I a → PlainLog b → Feas P a → Feas P b) : Good μ (Fz P I) (Fz P J) a b := by
  intro o
  obtain ⟨o', k⟩ := g o
  refine ⟨o', fun i hi => ?_⟩
  obtain ⟨r, hj⟩ := k i hi.1
  exact ⟨r, hj, fun hp => h o i hi.1 hp (hi.2 (r.plain i.gi hp))⟩

theorem GoodX.withF {r : St × Status} (g : GoodX μ I J a r)
    (h : Ok μ r.1 → Inv a → I a → PlainLog r.1 → Feas P a → Feas P r.1) : GoodX μ (Fz P I) (Fz P J) a r := by
  have := Good.withF (P := P) g h
  exact this.weaken (fun _ => id) (fun _ hj hf => ⟨hj.1 hf, hj.2⟩)

end

/-! ### Rows that the bounds imply -/

section
variable {P : LP} {s : St} {i : ℕ}

theorem Feas.impliedHi (h : Feas P s) (g : GI s) (ha : (s.rtag i).inactive = false)
    (hr : (s.rtag i).rhsInf = false → FinMax i s ∧ ∀ r, s.rhs i = .fin r →
      ((s.A i).map (maxTerm s.lb s.ub)).sum ≤ r + FEAS_TOL * (1 + norm1 (P.A i))) :
    ∀ B, P.rhs i = .fin B → DropHi s (P.A i) B := by
  intro B hB
  have hi := h.rrng i ha
  have hrow := h.row i hi
  cases hf : (s.rtag i).rhsInf with
  | true => exact hrow.rhsD (.inr hf) B hB
  | false =>
    obtain ⟨B', e1, e2⟩ := hrow.rhs ha hf
    have : B' = B := by rw [e1] at hB; cases hB; rfl
    subst this
    obtain ⟨h1, h2⟩ := hr hf
    have := h.dropHi g hi ha h1 (h2 _ e2)
    rwa [sub_add_cancel] at this

theorem Feas.impliedLo (h : Feas P s) (g : GI s) (ha : (s.rtag i).inactive = false)
    (hr : (s.rtag i).lhsInf = false → FinMin i s ∧ ∀ r, s.lhs i = .fin r →
      r - FEAS_TOL * (1 + norm1 (P.A i)) ≤ ((s.A i).map (minTerm s.lb s.ub)).sum) :
    ∀ B, P.lhs i = .fin B → DropLo s (P.A i) B := by
  intro B hB
  have hi := h.rrng i ha
  have hrow := h.row i hi
  cases hf : (s.rtag i).lhsInf with
  | true => exact hrow.lhsD (.inr hf) B hB
  | false =>
    obtain ⟨B', e1, e2⟩ := hrow.lhs ha hf
    have : B' = B := by rw [e1] at hB; cases hB; rfl
    subst this
    obtain ⟨h1, h2⟩ := hr hf
    have := h.dropLo g hi ha h1 (h2 _ e2)
    rwa [sub_add_cancel] at this

/-- A row is marked for deletion. -/
theorem Feas.deact (h : Feas P s) (ha : (s.rtag i).inactive = false)
    (hD : ∀ B, P.rhs i = .fin B → DropHi s (P.A i) B) (lD : ∀ B, P.lhs i = .fin B → DropLo s (P.A i) B) :
    Feas P (setRowToInactive s i 0) :=
  h.rowOut (h.rrng i ha) rfl rfl rfl (fun _ _ => rfl) rfl rfl rfl rfl rfl rfl
    (by show (upd s.rtag i _ i).inactive = true; rw [upd_same]) (fun j hj => upd_ne _ _ hj) (fun _ => rfl)
    (fun _ => .refl _) hD lD

/-! ### Singleton rows -/

theorem norm1_cell {k : ℕ} {a : ℚ} (h : Feas P s) (ha : (s.rtag i).inactive = false) (hA : s.A i = [(k, a)]) :
    |a| ≤ norm1 (P.A i) := by
  have h1 : (k, a) ∈ P.A i := by
    have hm : (k, a) ∈ s.A i := by rw [hA]; exact List.mem_singleton_self _
    rw [(h.row i (h.rrng i ha)).cells ha] at hm
    exact (List.mem_filter.mp hm).1
  have h2 := norm1_mem h1
  simp only at h2
  exact h2

theorem fixCol_gi {k : ℕ} (g : GI s) (hc : (s.ctag k).inactive = false) (v : D) (ck : ℚ) : GI (fixCol s k v ck).1 := by
  rcases fixCol_eq s k v ck with ⟨b, e, -⟩ | ⟨b, a, u, e, -⟩
  · rw [e]
    exact (SameCore.gi (s := s) (by constructor <;> rfl) g)
  · rw [e]
    exact (SameCore.gi (s := fixStep s k v ck) (by constructor <;> rfl) (fixStep_gi g hc v ck))

theorem removeStonRow_eq_feas {μ : Mode} {row : ℕ} (heq : (s.rtag row).eq = true) (hlen : (s.A row).length ≤ 1)
    (g : GI s) (h : Feas P s) (o : Ok μ (removeStonRow s row).1) : Feas P (removeStonRow s row).1 := by
  unfold removeStonRow at *
  split
  · exact h
  · rename_i k aik rest hA
    rw [hA] at o hlen
    simp only at o ⊢
    have hrest : rest = [] := by
      cases rest with
      | nil => rfl
      | cons => simp at hlen
    subst hrest
    generalize hs1 : s.check (!(s.rtag row).inactive && !(s.ctag k).subst) = s1 at o ⊢
    have hc1 : s1.ctag = s.ctag := by rw [← hs1]; rfl
    have hr1 : s1.rtag = s.rtag := by rw [← hs1]; rfl
    have h1 : Feas P s1 := by rw [← hs1]; exact h.check _
    rw [hc1] at o ⊢
    by_cases hf : (s.ctag k).fixed = true
    · rw [if_pos hf]; exact h1
    · rw [if_neg hf] at o ⊢
      have heq2 : ((s1.check (!(s.ctag k).inactive)).rtag row).eq = true := by
        show (s1.rtag row).eq = true
        rw [hr1]; exact heq
      rw [if_pos heq2] at o ⊢
      have hs2 : ∃ b, (s1.check (!(s.ctag k).inactive)).check (D.eqb (s.lhs row) (s.rhs row)) =
          { s with asrt := b } ∧ (b = true → s.asrt = true ∧ (s.rtag row).inactive = false ∧
            (s.ctag k).inactive = false ∧ D.eqb (s.lhs row) (s.rhs row) = true) := by
        refine ⟨s.asrt && (!(s.rtag row).inactive && !(s.ctag k).subst) && (!(s.ctag k).inactive) &&
          D.eqb (s.lhs row) (s.rhs row), by rw [← hs1]; rfl, fun h => ?_⟩
        simp only [Bool.and_eq_true] at h
        obtain ⟨⟨⟨h1, h2, -⟩, h3⟩, h4⟩ := h
        exact ⟨h1, by simpa using h2, by simpa using h3, h4⟩
      obtain ⟨b, hs2, hb⟩ := hs2
      rw [hs2] at o ⊢
      have sc : SameCore s { s with asrt := b } := by constructor <;> rfl
      have h2 : Feas P { s with asrt := b } := h.core sc (fun _ => .refl _)
      have g2 : GI { s with asrt := b } := sc.gi g
      have o1 : Ok μ (fixCol { s with asrt := b } k (D.divq (s.rhs row) aik) (s.c k)).1 := by
        split at o
        · exact o
        · exact ⟨o.1, o.2⟩
      have hbt : b = true := (fixCol_le μ { s with asrt := b } k _ _ o1).1.1
      obtain ⟨-, ha, hc, he⟩ := hb hbt
      have hrow := h.row row (h.rrng row ha)
      obtain ⟨B, -, er⟩ := hrow.rhs ha (hrow.eq ha heq).2
      obtain ⟨B', -, el⟩ := hrow.lhs ha (hrow.eq ha heq).1
      have hq : aik ≠ 0 := (g.rowRange row (k, aik) (by rw [hA]; exact List.mem_cons_self)).2.2
      have hlr : B' - gone P s row = B - gone P s row := by
        rw [er, el] at he
        have := D.eqb_fin_iff.mp he
        rw [D.fin.injEq] at this
        exact this.symm
      rw [er, D.divq_fin hq] at o1 ⊢
      generalize B - gone P s row = r at er hlr o1
      have h3 := fixCol_keep h2 g2 (k := k) hc (r / aik) (s.c k)
      have g3 := fixCol_gi (k := k) g2 hc (.fin (r / aik)) (s.c k)
      split
      · exact h3
      · rename_i hst
        rcases fixCol_eq { s with asrt := b } k (.fin (r / aik)) (s.c k) with ⟨b', e, -⟩ | ⟨b', a, u, e, -⟩
        · rw [e] at hst; exact absurd rfl hst
        · generalize hx : (fixCol { s with asrt := b } k (.fin (r / aik)) (s.c k)).1 = x at h3 g3 ⊢
          rw [e] at hx
          have e1 : x.rtag = s.rtag := by rw [← hx]; rfl
          have e2 : x.A = s.A := by rw [← hx]; rfl
          have e3 : x.lb k = .fin (r / aik) := by rw [← hx]; exact upd_same _ _ _
          have e4 : x.ub k = .fin (r / aik) := by rw [← hx]; exact upd_same _ _ _
          have e5 : (x.ctag k).fixed = true := by
            rw [← hx]
            show (upd s.ctag k _ k).fixed = true
            rw [upd_same]
          have e6 : x.rhs = s.rhs := by rw [← hx]; rfl
          have e7 : x.lhs = s.lhs := by rw [← hx]; rfl
          have hax : (x.rtag row).inactive = false := by rw [e1]; exact ha
          have hAx : x.A row = [(k, aik)] := by rw [e2]; exact hA
          have hn := norm1_cell h ha hA
          have hav : aik * (r / aik) = r := mul_div_cancel₀ r hq
          have ht : FEAS_TOL * (1 + norm1 (P.A row)) ≥ 0 :=
            mul_nonneg FEAS_TOL_pos.le (by have := norm1_nonneg (P.A row); linarith)
          have hef : effTags x k = effTag (x.ctag k) := rfl
          refine h3.rowOut (i := row) (h.rrng row ha) rfl rfl rfl (fun j hj => upd_ne _ _ hj) rfl rfl rfl rfl rfl rfl
            (by show (upd x.rtag row _ row).inactive = true; rw [upd_same]) (fun j hj => upd_ne _ _ hj) (fun _ => rfl)
            (fun _ => .refl _) ?_ ?_
          · refine h3.impliedHi g3 hax (fun _ => ⟨fun p hp => ?_, fun r' hr' => ?_⟩)
            · rw [hAx, List.mem_singleton] at hp
              subst hp
              unfold unbMax
              rw [hef]; unfold effTag; rw [e5]; split <;> rfl
            · rw [hAx, List.map_cons, List.map_nil, List.sum_cons, List.sum_nil, add_zero]
              have : r' = r := by rw [e6, er] at hr'; cases hr'; rfl
              subst this
              unfold maxTerm
              rw [e3, e4]
              split <;> simp only [D.toQ_fin, hav] <;> linarith
          · refine h3.impliedLo g3 hax (fun _ => ⟨fun p hp => ?_, fun r' hr' => ?_⟩)
            · rw [hAx, List.mem_singleton] at hp
              subst hp
              unfold unbMin
              rw [hef]; unfold effTag; rw [e5]; split <;> rfl
            · rw [hAx, List.map_cons, List.map_nil, List.sum_cons, List.sum_nil, add_zero]
              have : r' = r := by
                rw [e7, el] at hr'
                rw [← hlr]; cases hr'; rfl
              subst this
              unfold minTerm
              rw [e3, e4]
              split <;> simp only [D.toQ_fin, hav] <;> linarith

/-- What the two bound changes of a singleton inequality leave behind. -/
structure StonMid (P : LP) (s t : St) (k : ℕ) : Prop where
  feas : Feas P t
  gi : GI t
  act : (t.ctag k).inactive = false
  A : t.A = s.A
  rtag : t.rtag = s.rtag
  rhs : t.rhs = s.rhs
  lhs : t.lhs = s.lhs

theorem updateLb_gi {k : ℕ} (g : GI s) (hc : (s.ctag k).inactive = false) (v : D) (row : ℕ) : GI (updateLb s k v row).1 := by
  rcases updateLb_eq s k v row with ⟨st, e⟩ | ⟨a, u, e⟩
  · rw [e]; exact (sameCore_check s _).gi g
  · rw [e]
    have ht : ({ s.ctag k with lbInf := false } : CTag).inactive = false := hc
    exact SameCore.gi (s := boundStep s k v (s.ub k) { s.ctag k with lbInf := false } v (s.ub k) false |>.save
      (.boundChangeTheRow row (s.A row) 1)) (by constructor <;> rfl) ((boundStep_gi g hc ht).save _)

theorem updateUb_gi {k : ℕ} (g : GI s) (hc : (s.ctag k).inactive = false) (v : D) (row : ℕ) : GI (updateUb s k v row).1 := by
  rcases updateUb_eq s k v row with ⟨st, e⟩ | ⟨a, u, e⟩
  · rw [e]; exact (sameCore_check s _).gi g
  · rw [e]
    have ht : ({ s.ctag k with ubInf := false } : CTag).inactive = false := hc
    exact SameCore.gi (s := boundStep s k (s.lb k) v { s.ctag k with ubInf := false } v (s.lb k) true |>.save
      (.boundChangeTheRow row (s.A row) 1)) (by constructor <;> rfl) ((boundStep_gi g hc ht).save _)

theorem updateLb_asrt {k : ℕ} {v : D} {row : ℕ} (h : (updateLb s k v row).1.asrt = true) : s.asrt = true := by
  rcases updateLb_eq s k v row with ⟨st, e⟩ | ⟨a, u, e⟩
  · rw [e] at h
    exact (Bool.and_eq_true_iff.mp h).1
  · rw [e] at h
    exact (Bool.and_eq_true_iff.mp h).1

theorem updateUb_asrt {k : ℕ} {v : D} {row : ℕ} (h : (updateUb s k v row).1.asrt = true) : s.asrt = true := by
  rcases updateUb_eq s k v row with ⟨st, e⟩ | ⟨a, u, e⟩
  · rw [e] at h
    exact (Bool.and_eq_true_iff.mp h).1
  · rw [e] at h
    exact (Bool.and_eq_true_iff.mp h).1

theorem ubPart {k row : ℕ} (h : Feas P s) (g : GI s) (hc : (s.ctag k).inactive = false) (cond : Bool) {v : D} {b : ℚ}
    (hv : cond = false → v = .fin b) {r : St × Status} (hr : r = if cond then (s, UNCHANGED) else updateUb s k v row) :
    StonMid P s r.1 k ∧ r.1.lb = s.lb ∧ (∀ j, (r.1.ctag j).lbInf = (s.ctag j).lbInf) ∧
      (r.1.asrt = true → s.asrt = true) ∧
      (r.2 ≠ INFEASIBLE → cond = false → (r.1.ctag k).ubInf = false ∧ ∃ u, r.1.ub k = .fin u ∧ u ≤ b + FEAS_TOL) := by
  cases cond with
  | true =>
    rw [if_pos rfl] at hr
    subst hr
    exact ⟨⟨h, g, hc, rfl, rfl, rfl, rfl⟩, rfl, fun _ => rfl, id, fun _ h => absurd h (by simp)⟩
  | false =>
    rw [if_neg Bool.false_ne_true, hv rfl] at hr
    subst hr
    obtain ⟨h1, h2, h3, h4, h5, h6, h7, h8, h9⟩ := updateUb_feas h g hc b row
    exact ⟨⟨h1, updateUb_gi g hc _ _, h4, h5, h6, h7, h8⟩, h2, h3, updateUb_asrt, fun hst _ => h9 hst⟩

theorem lbPart {k row : ℕ} (h : Feas P s) (g : GI s) (hc : (s.ctag k).inactive = false) (cond : Bool) {v : D} {b : ℚ}
    (hv : cond = false → v = .fin b) {r : St × Status} (hr : r = if cond then (s, UNCHANGED) else updateLb s k v row) :
    StonMid P s r.1 k ∧ r.1.ub = s.ub ∧ (∀ j, (r.1.ctag j).ubInf = (s.ctag j).ubInf) ∧
      (r.1.asrt = true → s.asrt = true) ∧
      (r.2 ≠ INFEASIBLE → cond = false → (r.1.ctag k).lbInf = false ∧ ∃ l, r.1.lb k = .fin l ∧ b ≤ l + FEAS_TOL) := by
  cases cond with
  | true =>
    rw [if_pos rfl] at hr
    subst hr
    exact ⟨⟨h, g, hc, rfl, rfl, rfl, rfl⟩, rfl, fun _ => rfl, id, fun _ h => absurd h (by simp)⟩
  | false =>
    rw [if_neg Bool.false_ne_true, hv rfl] at hr
    subst hr
    obtain ⟨h1, h2, h3, h4, h5, h6, h7, h8, h9⟩ := updateLb_feas h g hc b row
    exact ⟨⟨h1, updateLb_gi g hc _ _, h4, h5, h6, h7, h8⟩, h2, h3, updateLb_asrt, fun hst _ => h9 hst⟩

theorem ston_deact {row k : ℕ} {a : ℚ} (h : Feas P s) (g : GI s) (ha : (s.rtag row).inactive = false)
    (hA : s.A row = [(k, a)])
    (hr : (s.rtag row).rhsInf = false → unbMax (effTags s) (k, a) = false ∧ ∀ r, s.rhs row = .fin r →
      maxTerm s.lb s.ub (k, a) ≤ r + FEAS_TOL * |a|)
    (hl : (s.rtag row).lhsInf = false → unbMin (effTags s) (k, a) = false ∧ ∀ r, s.lhs row = .fin r →
      r - FEAS_TOL * |a| ≤ minTerm s.lb s.ub (k, a)) : Feas P (setRowToInactive s row 0) := by
  have hn := norm1_cell h ha hA
  have h1 : FEAS_TOL * |a| ≤ FEAS_TOL * norm1 (P.A row) := mul_le_mul_of_nonneg_left hn FEAS_TOL_pos.le
  have h2 := FEAS_TOL_pos
  refine h.deact ha (h.impliedHi g ha (fun hf => ⟨fun p hp => ?_, fun r hr' => ?_⟩))
    (h.impliedLo g ha (fun hf => ⟨fun p hp => ?_, fun r hr' => ?_⟩))
  · rw [hA, List.mem_singleton] at hp
    subst hp; exact (hr hf).1
  · rw [hA, List.map_cons, List.map_nil, List.sum_cons, List.sum_nil, add_zero]
    have := (hr hf).2 r hr'
    linarith
  · rw [hA, List.mem_singleton] at hp
    subst hp; exact (hl hf).1
  · rw [hA, List.map_cons, List.map_nil, List.sum_cons, List.sum_nil, add_zero]
    have := (hl hf).2 r hr'
    linarith

theorem removeStonRow_ineq_feas {μ : Mode} {row : ℕ} (heq : (s.rtag row).eq = false) (hlen : (s.A row).length ≤ 1)
    (g : GI s) (h : Feas P s) (o : Ok μ (removeStonRow s row).1) : Feas P (removeStonRow s row).1 := by
  unfold removeStonRow at *
  split
  · exact h
  · rename_i k a rest hA
    rw [hA] at o hlen
    simp only at o ⊢
    have hrest : rest = [] := by
      cases rest with
      | nil => rfl
      | cons => simp at hlen
    subst hrest
    generalize hs1 : s.check (!(s.rtag row).inactive && !(s.ctag k).subst) = s1 at o ⊢
    have hc1 : s1.ctag = s.ctag := by rw [← hs1]; rfl
    have hr1 : s1.rtag = s.rtag := by rw [← hs1]; rfl
    have h1 : Feas P s1 := by rw [← hs1]; exact h.check _
    rw [hc1] at o ⊢
    by_cases hf : (s.ctag k).fixed = true
    · rw [if_pos hf]; exact h1
    · rw [if_neg hf] at o ⊢
      have heq2 : ((s1.check (!(s.ctag k).inactive)).rtag row).eq = false := by
        show (s1.rtag row).eq = false
        rw [hr1]; exact heq
      rw [heq2, if_neg Bool.false_ne_true] at o ⊢
      have hs2 : ∃ b, s1.check (!(s.ctag k).inactive) =
          { s with asrt := b } ∧ (b = true → s.asrt = true ∧ (s.rtag row).inactive = false ∧
            (s.ctag k).inactive = false) := by
        refine ⟨s.asrt && (!(s.rtag row).inactive && !(s.ctag k).subst) && (!(s.ctag k).inactive),
          by rw [← hs1]; rfl, fun h => ?_⟩
        simp only [Bool.and_eq_true] at h
        obtain ⟨⟨h1, h2, -⟩, h3⟩ := h
        exact ⟨h1, by simpa using h2, by simpa using h3⟩
      obtain ⟨b, hs2, hb⟩ := hs2
      rw [hs2] at o ⊢
      have sc : SameCore s { s with asrt := b } := by constructor <;> rfl
      have h2 : Feas P { s with asrt := b } := h.core sc (fun _ => .refl _)
      have g2 : GI { s with asrt := b } := sc.gi g
      have hq : a ≠ 0 := (g.rowRange row (k, a) (by rw [hA]; exact List.mem_cons_self)).2.2
      clear hs1 h1 hc1 hr1 heq2 hs2
      -- the assertions held
      have hbt : b = true := by
        have hu : ∀ (t : St) (c : Bool) (v : D), ((if c then (t, UNCHANGED) else updateUb t k v row).1.asrt = true) →
            t.asrt = true := by
          intro t c v ht
          cases c
          · exact updateUb_asrt ht
          · exact ht
        have hl : ∀ (t : St) (c : Bool) (v : D), ((if c then (t, UNCHANGED) else updateLb t k v row).1.asrt = true) →
            t.asrt = true := by
          intro t c v ht
          cases c
          · exact updateLb_asrt ht
          · exact ht
        have key : ∀ f g : St → St × Status, (∀ t, (f t).1.asrt = true → t.asrt = true) →
            (∀ t, (g t).1.asrt = true → t.asrt = true) → ∀ t,
            (if (f t).2 = INFEASIBLE then ((f t).1, INFEASIBLE)
             else if (g (f t).1).2 = INFEASIBLE then ((g (f t).1).1, INFEASIBLE)
             else (setRowToInactive (g (f t).1).1 row 0, REDUCED)).1.asrt = true → t.asrt = true := by
          intro f g hf hg t ht
          split at ht
          · exact hf _ ht
          · split at ht
            · exact hf _ (hg _ ht)
            · exact hf _ (hg _ (Bool.and_eq_true_iff.mp ht).1)
        have o := o.1
        by_cases hpos : 0 < a
        · rw [if_pos hpos] at o
          exact key (fun t => if (s.rtag row).rhsInf then (t, UNCHANGED) else updateUb t k (D.divq (s.rhs row) a) row)
            (fun t => if (s.rtag row).lhsInf then (t, UNCHANGED) else updateLb t k (D.divq (s.lhs row) a) row)
            (fun t => hu t _ _) (fun t => hl t _ _) _ o
        · rw [if_neg hpos] at o
          exact key (fun t => if (s.rtag row).rhsInf then (t, UNCHANGED) else updateLb t k (D.divq (s.rhs row) a) row)
            (fun t => if (s.rtag row).lhsInf then (t, UNCHANGED) else updateUb t k (D.divq (s.lhs row) a) row)
            (fun t => hl t _ _) (fun t => hu t _ _) _ o
      obtain ⟨-, ha, hc⟩ := hb hbt
      have hrow := h.row row (h.rrng row ha)
      have hR : ∃ r, (s.rtag row).rhsInf = false → s.rhs row = .fin r := by
        cases hi : (s.rtag row).rhsInf with
        | true => exact ⟨0, fun h => absurd h (by simp)⟩
        | false => obtain ⟨B, -, e⟩ := hrow.rhs ha hi; exact ⟨_, fun _ => e⟩
      have hL : ∃ r, (s.rtag row).lhsInf = false → s.lhs row = .fin r := by
        cases hi : (s.rtag row).lhsInf with
        | true => exact ⟨0, fun h => absurd h (by simp)⟩
        | false => obtain ⟨B, -, e⟩ := hrow.lhs ha hi; exact ⟨_, fun _ => e⟩
      obtain ⟨R, hR⟩ := hR
      obtain ⟨L, hL⟩ := hL
      have hvR : (s.rtag row).rhsInf = false → D.divq (s.rhs row) a = .fin (R / a) := fun hi => by
        rw [hR hi, D.divq_fin hq]
      have hvL : (s.rtag row).lhsInf = false → D.divq (s.lhs row) a = .fin (L / a) := fun hi => by
        rw [hL hi, D.divq_fin hq]
      clear o
      rw [show ({ s with asrt := b } : St).rtag = s.rtag from rfl]
      have hinact : ∀ t : St, (t.ctag k).inactive = false → effTags t k = t.ctag k := fun t ht =>
        effTags_active (CTag.inactive_false.mp ht).1
      split
      · rename_i hpos
        have habs : |a| = a := abs_of_pos hpos
        generalize e1 : (if (s.rtag row).rhsInf then (({ s with asrt := b } : St), UNCHANGED) else
          updateUb { s with asrt := b } k (D.divq (s.rhs row) a) row) = r1
        obtain ⟨m1, l1, t1, -, n1⟩ := ubPart h2 g2 hc _ hvR e1.symm
        split
        · exact m1.feas
        · rename_i st1
          generalize e2 : (if (s.rtag row).lhsInf then (r1.1, UNCHANGED) else
            updateLb r1.1 k (D.divq (s.lhs row) a) row) = r2
          obtain ⟨m2, l2, t2, -, n2⟩ := lbPart m1.feas m1.gi m1.act _ hvL e2.symm
          split
          · exact m2.feas
          · rename_i st2
            have ert : r2.1.rtag = s.rtag := by rw [m2.rtag, m1.rtag]
            refine ston_deact (k := k) (a := a) m2.feas m2.gi (by rw [ert]; exact ha) (by rw [m2.A, m1.A]; exact hA)
              (fun hi => ?_) (fun hi => ?_)
            · rw [ert] at hi
              obtain ⟨f1, u, f2, f3⟩ := n1 st1 hi
              refine ⟨?_, fun r hr => ?_⟩
              · unfold unbMax
                simp only [if_pos hpos]
                rw [hinact _ m2.act, t2, f1]
              · have : r = R := by rw [m2.rhs, m1.rhs, show ({ s with asrt := b } : St).rhs = s.rhs from rfl, hR hi] at hr; cases hr; rfl
                subst this
                unfold maxTerm
                simp only [if_pos hpos]
                rw [l2, f2, D.toQ_fin, habs]
                have := mul_le_mul_of_nonneg_left f3 hpos.le
                rw [mul_add, mul_div_cancel₀ _ hq] at this
                linarith
            · rw [ert] at hi
              obtain ⟨f1, u, f2, f3⟩ := n2 st2 hi
              refine ⟨?_, fun r hr => ?_⟩
              · unfold unbMin
                simp only [if_pos hpos]
                rw [hinact _ m2.act, f1]
              · have : r = L := by rw [m2.lhs, m1.lhs, show ({ s with asrt := b } : St).lhs = s.lhs from rfl, hL hi] at hr; cases hr; rfl
                subst this
                unfold minTerm
                simp only [if_pos hpos]
                rw [f2, D.toQ_fin, habs]
                have := mul_le_mul_of_nonneg_left f3 hpos.le
                rw [mul_add, mul_div_cancel₀ _ hq] at this
                linarith
      · rename_i hpos
        have hneg : a < 0 := lt_of_le_of_ne (not_lt.mp hpos) hq
        have habs : |a| = -a := abs_of_neg hneg
        generalize e1 : (if (s.rtag row).rhsInf then (({ s with asrt := b } : St), UNCHANGED) else
          updateLb { s with asrt := b } k (D.divq (s.rhs row) a) row) = r1
        obtain ⟨m1, l1, t1, -, n1⟩ := lbPart h2 g2 hc _ hvR e1.symm
        split
        · exact m1.feas
        · rename_i st1
          generalize e2 : (if (s.rtag row).lhsInf then (r1.1, UNCHANGED) else
            updateUb r1.1 k (D.divq (s.lhs row) a) row) = r2
          obtain ⟨m2, l2, t2, -, n2⟩ := ubPart m1.feas m1.gi m1.act _ hvL e2.symm
          split
          · exact m2.feas
          · rename_i st2
            have ert : r2.1.rtag = s.rtag := by rw [m2.rtag, m1.rtag]
            refine ston_deact (k := k) (a := a) m2.feas m2.gi (by rw [ert]; exact ha) (by rw [m2.A, m1.A]; exact hA)
              (fun hi => ?_) (fun hi => ?_)
            · rw [ert] at hi
              obtain ⟨f1, u, f2, f3⟩ := n1 st1 hi
              refine ⟨?_, fun r hr => ?_⟩
              · unfold unbMax
                simp only [if_neg hpos]
                rw [hinact _ m2.act, t2, f1]
              · have : r = R := by rw [m2.rhs, m1.rhs, show ({ s with asrt := b } : St).rhs = s.rhs from rfl, hR hi] at hr; cases hr; rfl
                subst this
                unfold maxTerm
                simp only [if_neg hpos]
                rw [l2, f2, D.toQ_fin, habs]
                have := mul_le_mul_of_nonpos_left f3 hneg.le
                rw [mul_add, mul_div_cancel₀ _ hq] at this
                linarith
            · rw [ert] at hi
              obtain ⟨f1, u, f2, f3⟩ := n2 st2 hi
              refine ⟨?_, fun r hr => ?_⟩
              · unfold unbMin
                simp only [if_neg hpos]
                rw [hinact _ m2.act, f1]
              · have : r = L := by rw [m2.lhs, m1.lhs, show ({ s with asrt := b } : St).lhs = s.lhs from rfl, hL hi] at hr; cases hr; rfl
                subst this
                unfold minTerm
                simp only [if_neg hpos]
                rw [f2, D.toQ_fin, habs]
                have := mul_le_mul_of_nonpos_left f3 hneg.le
                rw [mul_add, mul_div_cancel₀ _ hq] at this
                linarith

end

end Verif
