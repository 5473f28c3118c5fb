import Verif.Inv.AsrtTriv

/-!
# The assertions of the singleton rows, the activities, the empty rows and the empty columns
-/

namespace Verif

section
variable {P : LP} {s t : St} {I J : St → Prop}

theorem W.stepM (w : W P s) (u : Up s t) (hp : PlainLog t) (g : Good μT (Fz P I) (Fz P J) s t) (hI : I s)
    (ha : t.asrt = true) (he : ELists t) : (W P t ∧ J t) ∧ Mono s t :=
  ⟨w.step u hp g hI ha he, ((g (.ofT ha)).2 w.inv ⟨hI, fun _ => w.feas⟩).1.mono w.inv⟩

theorem W.sides (w : W P s) {row : ℕ} (hact : (s.rtag row).inactive = false) (heq : (s.rtag row).eq = true) :
    D.eqb (s.lhs row) (s.rhs row) = true := by
  obtain ⟨B, hl, hr⟩ := w.eqT row heq
  have f := w.feas.row row (w.feas.rrng row hact)
  obtain ⟨h1, h2⟩ := f.eq hact heq
  obtain ⟨B1, e1, f1⟩ := f.lhs hact h1
  obtain ⟨B2, e2, f2⟩ := f.rhs hact h2
  rw [hl] at e1
  rw [hr] at e2
  cases e1
  cases e2
  rw [f1, f2, D.eqb_fin]
  exact decide_eq_true rfl

theorem W.cell (w : W P s) {row k : ℕ} {a : ℚ} (hact : (s.rtag row).inactive = false) (hA : (k, a) ∈ s.A row) :
    (s.ctag k).subst = false ∧ s.AT k ≠ [] := by
  have g := w.inv.gi
  have hn := (g.rowRange row _ hA).2.1
  refine ⟨(w.feas.col k (by rw [← w.feas.n]; exact hn)).sub, fun e => ?_⟩
  have := (g.agree row k a (g.rowActive hact) (g.rowIn row hact _ hA)).mp hA
  rw [e] at this; cases this

theorem removeStonRow_fwd (w : W P s) {row : ℕ} (hact : (s.rtag row).inactive = false) :
    (removeStonRow s row).1.asrt = true ∧ ELists (removeStonRow s row).1 := by
  unfold removeStonRow
  split
  · exact ⟨w.asrt, w.el⟩
  · rename_i k aik rest hA
    have hrow : row ∉ s.emptyRows := fun h => by have := (w.el.row row h).2; rw [hA] at this; cases this
    obtain ⟨hs, hT⟩ := w.cell hact (hA ▸ List.mem_cons_self : (k, aik) ∈ s.A row)
    simp only
    have c1 : s.check (!(s.rtag row).inactive && !(s.ctag k).subst) = s := by
      rw [hact, hs]; exact check_true s
    rw [c1]
    split
    · exact ⟨w.asrt, w.el⟩
    · rename_i hf
      have hc : (s.ctag k).inactive = false := CTag.inactive_false.mpr ⟨by simpa using hf, hs⟩
      have c2 : s.check (!(s.ctag k).inactive) = s := by rw [hc]; exact check_true s
      rw [c2]
      split
      · rename_i heq
        have c3 : s.check (D.eqb (s.lhs row) (s.rhs row)) = s := by rw [w.sides hact heq]; exact check_true s
        rw [c3]
        have ha : (fixCol s k (D.divq (s.rhs row) aik) (s.c k)).1.asrt = true := by
          rw [fixCol_asrt s k _ _ hc (w.colPos hc hT), w.asrt]
        have he : ELists (fixCol s k (D.divq (s.rhs row) aik) (s.c k)).1 := fixCol_el w hT
        have fr := fixCol_fr s k (D.divq (s.rhs row) aik) (s.c k)
        generalize fixCol s k (D.divq (s.rhs row) aik) (s.c k) = r at ha he fr
        split
        · exact ⟨ha, he⟩
        · refine ⟨ha, ?_⟩
          refine he.of rfl rfl (fun i hi => ?_) (fun _ _ => ⟨rfl, rfl⟩)
          have : i ≠ row := fun e => hrow (by rw [← fr.er, ← e]; exact hi)
          refine ⟨?_, ?_⟩
          · show RTag.inactive (upd _ row _ i) = _
            rw [upd_ne _ _ this]
          · show upd _ row _ i = _
            rw [upd_ne _ _ this]
      · have tail : ∀ t, Quiet s t → (setRowToInactive t row 0).asrt = true ∧ ELists (setRowToInactive t row 0) := by
          intro t q
          have c4 : t.check (!(t.rtag row).inactive) = t := by rw [q.rtag, hact]; exact check_true t
          unfold setRowToInactive
          simp only [c4]
          refine ⟨q.asrt.trans w.asrt, ?_⟩
          refine (q.el w.el).of rfl rfl (fun i hi => ⟨?_, rfl⟩) (fun _ _ => ⟨rfl, rfl⟩)
          have : i ≠ row := fun e => hrow (by rw [← q.er, ← e]; exact hi)
          show RTag.inactive (upd _ row _ i) = _
          rw [upd_ne _ _ this]
        have done : ∀ t, Quiet s t → t.asrt = true ∧ ELists t := fun t q => ⟨q.asrt.trans w.asrt, q.el w.el⟩
        have qU : ∀ t, Quiet s t → ∀ (b : Bool) (v : D), Quiet s (if b then (t, UNCHANGED) else updateUb t k v row).1 := by
          intro t q b v
          split
          · exact q
          · exact q.trans (updateUb_quiet t k v row (by rw [q.cin]; exact hc))
        have qL : ∀ t, Quiet s t → ∀ (b : Bool) (v : D), Quiet s (if b then (t, UNCHANGED) else updateLb t k v row).1 := by
          intro t q b v
          split
          · exact q
          · exact q.trans (updateLb_quiet t k v row (by rw [q.cin]; exact hc))
        split
        · have q1 := qU s (.refl s) (s.rtag row).rhsInf (D.divq (s.rhs row) aik)
          generalize (if (s.rtag row).rhsInf = true then (s, UNCHANGED) else updateUb s k (D.divq (s.rhs row) aik) row) = r1 at q1
          split
          · exact done _ q1
          · have q2 := qL r1.1 q1 (s.rtag row).lhsInf (D.divq (s.lhs row) aik)
            generalize (if (s.rtag row).lhsInf = true then (r1.1, UNCHANGED) else updateLb r1.1 k (D.divq (s.lhs row) aik) row) = r2 at q2
            split
            · exact done _ q2
            · exact tail _ q2
        · have q1 := qL s (.refl s) (s.rtag row).rhsInf (D.divq (s.rhs row) aik)
          generalize (if (s.rtag row).rhsInf = true then (s, UNCHANGED) else updateLb s k (D.divq (s.rhs row) aik) row) = r1 at q1
          split
          · exact done _ q1
          · have q2 := qU r1.1 q1 (s.rtag row).lhsInf (D.divq (s.lhs row) aik)
            generalize (if (s.rtag row).lhsInf = true then (r1.1, UNCHANGED) else updateUb r1.1 k (D.divq (s.lhs row) aik) row) = r2 at q2
            split
            · exact done _ q2
            · exact tail _ q2

theorem stonEqLoop_safe (L : List ℕ) (w : W P s) (hN : NoRows s) (hL : Short L s) (hp : PlainLog (stonEqLoop L s).1) :
    W P (stonEqLoop L s).1 ∧ Mono s (stonEqLoop L s).1 := by
  induction L generalizing s with
  | nil => exact ⟨w, .refl s⟩
  | cons row rest ih =>
    have hL' : Short rest s := fun i hi => hL i (List.mem_cons_of_mem _ hi)
    unfold stonEqLoop at hp ⊢
    split
    · rename_i hc
      rw [if_pos hc] at hp
      exact ih w hN hL' hp
    · rename_i hc
      rw [if_neg hc] at hp
      simp only [Bool.or_eq_true, Bool.not_eq_true', not_or, Bool.not_eq_false, Bool.not_eq_true] at hc
      obtain ⟨ha, he⟩ := removeStonRow_fwd w hc.2
      have hpl : PlainLog (removeStonRow s row).1 := by
        simp only at hp
        split at hp
        · exact hp
        · exact (stonEqLoop_up _ _).plain hp
      have hst := w.stepM (removeStonRow_up s row) hpl
        ((removeStonRow_eq_good μT s row hc.1).withF (fun o i hi _ h => removeStonRow_eq_feas hc.1 hi.2 i.gi h o))
        ⟨hN, hL row List.mem_cons_self⟩ ha he
      simp only at hp ⊢
      split
      · exact ⟨hst.1.1, hst.2⟩
      · rename_i hst'
        rw [if_neg hst'] at hp
        obtain ⟨w', m'⟩ := ih hst.1.1 hst.1.2 (hL'.mono hst.2) hp
        exact ⟨w', hst.2.trans m'⟩

theorem stonIneqLoop_safe (L : List ℕ) (w : W P s) (hL : Short L s) (hp : PlainLog (stonIneqLoop L s).1)
    (hs : (stonIneqLoop L s).2 ≠ INFEASIBLE) : W P (stonIneqLoop L s).1 ∧ Mono s (stonIneqLoop L s).1 := by
  induction L generalizing s with
  | nil => exact ⟨w, .refl s⟩
  | cons row rest ih =>
    have hL' : Short rest s := fun i hi => hL i (List.mem_cons_of_mem _ hi)
    unfold stonIneqLoop at hp hs ⊢
    split
    · rename_i hc
      rw [if_pos hc] at hp hs
      exact ih w hL' hp hs
    · rename_i hc
      rw [if_neg hc] at hp hs
      simp only [Bool.or_eq_true, not_or, Bool.not_eq_true] at hc
      obtain ⟨ha, he⟩ := removeStonRow_fwd w hc.1
      simp only at hp hs ⊢
      split
      · rename_i h
        rw [if_pos h] at hs
        exact absurd rfl hs
      · rename_i h
        rw [if_neg h] at hp hs
        have g := ((removeStonRow_ineq_good μT s row hc.2).weaken (I' := Short (row :: rest)) (J' := fun _ => True)
          (fun _ _ => trivial) (fun _ _ => trivial)).withF (P := P)
          (fun o i hi _ h => removeStonRow_ineq_feas hc.2 (hi row List.mem_cons_self) i.gi h o)
        have hst := w.stepM (removeStonRow_up s row) ((stonIneqLoop_up _ _).plain hp) g hL ha he
        obtain ⟨w', m'⟩ := ih hst.1.1 (hL'.mono hst.2) hp hs
        exact ⟨w', hst.2.trans m'⟩

theorem W.clearSton (w : W P s) : W P { s with stonRows := [] } := by
  have sc : SameCore s { s with stonRows := [] } := by constructor <;> rfl
  have g : Good μT (Fz P (fun _ => True)) (Fz P (fun _ => True)) s { s with stonRows := [] } := by
    refine Good.withF (.of (fun o => o) (fun _ i hi => ⟨⟨.single (.same sc), ?_, fun _ h => Or.inl h, rfl, id⟩, trivial⟩))
      (fun _ _ _ _ h => h.core sc (fun _ => .refl _))
    intro _ h; cases h
  have u : Up s { s with stonRows := [] } := .of (List.suffix_refl _) id rfl rfl rfl rfl
  have hi := (g (.ofT w.asrt)).2 w.inv ⟨trivial, fun _ => w.feas⟩
  exact ⟨w.asrt, hi.1.inv w.inv, w.feas.core sc (fun _ => .refl _), w.em, w.el.same rfl rfl rfl rfl rfl rfl, w.upd, w.gap, w.eqT⟩

theorem removeStonRows_safe (w : W P s) (hC : Clean s) (hp : PlainLog (removeStonRows s).1)
    (hs : (removeStonRows s).2 ≠ INFEASIBLE) :
    W P (removeStonRows s).1 ∧ Clean (removeStonRows s).1 ∧ StonLess (long s) (removeStonRows s).1 := by
  have main : (removeStonRows s).1.asrt = true ∧ ELists (removeStonRows s).1 ∧ fine (removeStonRows s).2 := by
    unfold removeStonRows at hp hs ⊢
    split
    · exact ⟨w.asrt, w.el, fine_unchanged⟩
    · rename_i h0
      rw [if_neg h0] at hp hs
      simp only at hp hs ⊢
      split
      · rename_i h1
        rw [if_pos h1] at hs
        exact absurd h1 hs
      · rename_i h1
        rw [if_neg h1] at hp hs
        split
        · rename_i h2
          rw [if_pos h2] at hs
          exact absurd h2 hs
        · rename_i h2
          rw [if_neg h2] at hp hs
          have p2 : PlainLog (stonIneqLoop s.stonRows (stonEqLoop s.stonRows s).1).1 := by
            refine (Up.trans ?_ (delBoth_up _)).plain hp
            exact .of (List.suffix_refl _) id rfl rfl rfl rfl
          have p1 := (stonIneqLoop_up _ _).plain p2
          obtain ⟨w1, m1⟩ := stonEqLoop_safe s.stonRows w hC.1 w.inv.ston p1
          obtain ⟨w2, -⟩ := stonIneqLoop_safe s.stonRows w1 (Short.mono m1 w.inv.ston) p2 h2
          obtain ⟨w3, -⟩ := delBoth_safe w2.clearSton hp
          exact ⟨w3.asrt, w3.el, fine_reduced⟩
  have h := w.stepX (removeStonRows_up s) hp (removeStonRows_goodF μT P (long s) s) ⟨hC, le_refl _⟩ main.2.2 main.1 main.2.1
  exact ⟨h.1, h.2⟩

theorem removeStonRows_done (h : (removeStonRows s).2 ≠ INFEASIBLE) (h' : (removeStonRows s).2 ≠ REDUCED) :
    s.stonRows = [] ∧ (removeStonRows s).1 = s := by
  unfold removeStonRows at h h' ⊢
  split
  · rename_i e; exact ⟨e, rfl⟩
  · rename_i h0
    exfalso
    rw [if_neg h0] at h h'
    simp only at h h'
    split at h
    · rename_i e; exact h e
    · rename_i e
      rw [if_neg e] at h'
      split at h
      · rename_i e; exact h e
      · rename_i e
        rw [if_neg e] at h'
        exact h' rfl

theorem stonRowsLoop_safe (fuel : ℕ) (w : W P s) (hC : Clean s)
    (hf : (s.stonRows = [] ∧ 1 ≤ fuel) ∨ long s + 2 ≤ fuel) (hp : PlainLog (stonRowsLoop fuel s).1)
    (hs : (stonRowsLoop fuel s).2 ≠ INFEASIBLE) :
    W P (stonRowsLoop fuel s).1 ∧ Clean (stonRowsLoop fuel s).1 ∧ (stonRowsLoop fuel s).1.stonRows = [] := by
  induction fuel generalizing s with
  | zero => exfalso; omega
  | succ fuel ih =>
    unfold stonRowsLoop at hp hs ⊢
    simp only at hp hs ⊢
    split
    · rename_i h
      rw [if_pos h] at hs
      exact absurd h hs
    · rename_i h
      rw [if_neg h] at hp hs
      split
      · rename_i h2
        rw [if_pos h2] at hp hs
        obtain ⟨w1, c1, l1⟩ := removeStonRows_safe w hC ((stonRowsLoop_up _ _).plain hp) h
        have hne : s.stonRows ≠ [] := by
          intro e
          unfold removeStonRows at h2
          rw [if_pos e] at h2
          cases h2
        refine ih w1 c1 ?_ hp hs
        have hl : long s + 2 ≤ fuel + 1 := by
          rcases hf with h | h
          · exact absurd h.1 hne
          · exact h
        rcases l1 with e | e
        · exact Or.inl ⟨e, by omega⟩
        · exact Or.inr (by omega)
      · rename_i h2
        obtain ⟨e, e'⟩ := removeStonRows_done h h2
        rw [e']
        exact ⟨w, hC, e⟩

/-! ### Empty rows -/

theorem emptyRowLoop_fr (L : List ℕ) (s : St) :
    (emptyRowLoop L s).1.emptyCols = s.emptyCols ∧ (emptyRowLoop L s).1.ctag = s.ctag ∧ (emptyRowLoop L s).1.AT = s.AT ∧
      (emptyRowLoop L s).1.stonRows = s.stonRows := by
  induction L generalizing s with
  | nil => exact ⟨rfl, rfl, rfl, rfl⟩
  | cons row rest ih =>
    unfold emptyRowLoop
    simp only
    split
    · exact ⟨rfl, rfl, rfl, rfl⟩
    · exact ih _

theorem emptyRowLoop_fwd (L : List ℕ) (s : St) (ha : s.asrt = true) (hL : L.Nodup) (h0 : ∀ i ∈ L, s.rowSize i = 0) :
    (emptyRowLoop L s).1.asrt = true := by
  induction L generalizing s with
  | nil => exact ha
  | cons row rest ih =>
    have c : s.check (decide (s.rowSize row = 0)) = s := by
      rw [decide_eq_true (h0 row List.mem_cons_self)]; exact check_true s
    unfold emptyRowLoop
    simp only [c]
    split
    · exact ha
    · rw [List.nodup_cons] at hL
      refine ih _ ha hL.2 (fun i hi => ?_)
      have : i ≠ row := fun e => hL.1 (e ▸ hi)
      show upd _ row _ i = 0
      rw [upd_ne _ _ this]
      exact h0 i (List.mem_cons_of_mem _ hi)

theorem removeEmptyRows_fr (s : St) : (removeEmptyRows s).1.emptyCols = s.emptyCols ∧
    (removeEmptyRows s).1.stonRows = s.stonRows := by
  have h := emptyRowLoop_fr s.emptyRows s
  unfold removeEmptyRows
  simp only
  split
  · exact ⟨h.1, h.2.2.2⟩
  · exact ⟨h.1, h.2.2.2⟩

theorem removeEmptyRows_safe (w : W P s) (hC : Clean s) (hp : PlainLog (removeEmptyRows s).1)
    (hs : (removeEmptyRows s).2 ≠ INFEASIBLE) :
    W P (removeEmptyRows s).1 ∧ Clean (removeEmptyRows s).1 ∧ (removeEmptyRows s).1.emptyRows = [] := by
  have h0 : ∀ i ∈ s.emptyRows, s.rowSize i = 0 := fun i hi => by
    obtain ⟨h1, h2⟩ := w.el.row i hi
    rw [w.inv.gi.rowSz i (w.inv.gi.rowActive h1), h2]; rfl
  have h1 := emptyRowLoop_fwd s.emptyRows s w.asrt w.el.rnd h0
  obtain ⟨f1, f2, f3, -⟩ := emptyRowLoop_fr s.emptyRows s
  have he : (removeEmptyRows s).1 = { (emptyRowLoop s.emptyRows s).1 with emptyRows := [] } := by
    unfold removeEmptyRows at hs ⊢
    simp only at hs ⊢
    split
    · rename_i h
      rw [if_pos h] at hs
      exact absurd h hs
    · rfl
  have hel : ELists (removeEmptyRows s).1 := by
    rw [he]
    refine ⟨List.nodup_nil, ?_, fun i hi => ?_, fun k hk => ?_⟩
    · show (emptyRowLoop s.emptyRows s).1.emptyCols.Nodup
      rw [f1]; exact w.el.cnd
    · cases hi
    · have hk : k ∈ (emptyRowLoop s.emptyRows s).1.emptyCols := hk
      rw [f1] at hk
      show ((emptyRowLoop s.emptyRows s).1.ctag k).inactive = false ∧ (emptyRowLoop s.emptyRows s).1.AT k = []
      rw [f2, f3]
      exact w.el.col k hk
  have h := w.step (removeEmptyRows_up s) hp (removeEmptyRows_goodF μT P s) hC (by rw [he]; exact h1) hel
  exact ⟨h.1, h.2, by rw [he]⟩

/-! ### Empty columns -/

theorem emptyColLoop_fr (L : List ℕ) (s : St) :
    (emptyColLoop L s).1.emptyRows = s.emptyRows ∧ (emptyColLoop L s).1.rtag = s.rtag ∧ (emptyColLoop L s).1.A = s.A ∧
      (emptyColLoop L s).1.stonRows = s.stonRows := by
  induction L generalizing s with
  | nil => exact ⟨rfl, rfl, rfl, rfl⟩
  | cons k rest ih =>
    unfold emptyColLoop
    simp only
    split
    · exact ⟨rfl, rfl, rfl, rfl⟩
    · exact ih _

theorem emptyColLoop_fwd (L : List ℕ) (s : St) (ha : s.asrt = true) (hL : L.Nodup)
    (h0 : ∀ k ∈ L, s.colSize k = 0 ∧ (s.ctag k).inactive = false) : (emptyColLoop L s).1.asrt = true := by
  induction L generalizing s with
  | nil => exact ha
  | cons k rest ih =>
    obtain ⟨a1, a2⟩ := h0 k List.mem_cons_self
    have c : s.check (decide (s.colSize k = 0) && !(s.ctag k).inactive) = s := by
      rw [decide_eq_true a1, a2]; exact check_true s
    unfold emptyColLoop
    simp only [c]
    split
    · exact ha
    · rw [List.nodup_cons] at hL
      refine ih _ ha hL.2 (fun j hj => ?_)
      have : j ≠ k := fun e => hL.1 (e ▸ hj)
      show upd _ k _ j = 0 ∧ CTag.inactive (upd _ k _ j) = false
      rw [upd_ne _ _ this, upd_ne _ _ this]
      exact h0 j (List.mem_cons_of_mem _ hj)

theorem removeEmptyCols_safe (w : W P s) (hC : Clean s) (hp : PlainLog (removeEmptyCols s).1)
    (hs : (removeEmptyCols s).2 ≠ UNBNDORINFEAS) :
    W P (removeEmptyCols s).1 ∧ Clean (removeEmptyCols s).1 ∧ (removeEmptyCols s).1.emptyCols = [] ∧
      (removeEmptyCols s).1.emptyRows = s.emptyRows ∧ (removeEmptyCols s).1.stonRows = s.stonRows := by
  have h0 : ∀ k ∈ s.emptyCols, s.colSize k = 0 ∧ (s.ctag k).inactive = false := fun k hk => by
    obtain ⟨h1, h2⟩ := w.el.col k hk
    exact ⟨by rw [w.inv.gi.colSz k h1, h2]; rfl, h1⟩
  have h1 := emptyColLoop_fwd s.emptyCols s w.asrt w.el.cnd h0
  obtain ⟨f1, f2, f3, f4⟩ := emptyColLoop_fr s.emptyCols s
  have he : (removeEmptyCols s).1 = { (emptyColLoop s.emptyCols s).1 with emptyCols := [] } := by
    unfold removeEmptyCols at hs ⊢
    simp only at hs ⊢
    split
    · rename_i h
      rw [if_pos h] at hs
      exact absurd h hs
    · rfl
  have hel : ELists (removeEmptyCols s).1 := by
    rw [he]
    refine ⟨?_, List.nodup_nil, fun i hi => ?_, fun k hk => ?_⟩
    · show (emptyColLoop s.emptyCols s).1.emptyRows.Nodup
      rw [f1]; exact w.el.rnd
    · have hi : i ∈ (emptyColLoop s.emptyCols s).1.emptyRows := hi
      rw [f1] at hi
      show ((emptyColLoop s.emptyCols s).1.rtag i).inactive = false ∧ (emptyColLoop s.emptyCols s).1.A i = []
      rw [f2, f3]
      exact w.el.row i hi
    · cases hk
  have h := w.step (removeEmptyCols_up s) hp (removeEmptyCols_goodF μT P s) hC (by rw [he]; exact h1) hel
  exact ⟨h.1, h.2, by rw [he], by rw [he]; exact f1, by rw [he]; exact f4⟩

/-! ### Activities -/

/-- What `check_activities` leaves alone. -/
structure ActFr (s t : St) : Prop where
  act : t.act = s.act
  upd : t.updActs = s.updActs
  er : t.emptyRows = s.emptyRows
  ec : t.emptyCols = s.emptyCols
  sr : t.stonRows = s.stonRows
  A : t.A = s.A
  AT : t.AT = s.AT
  ctag : t.ctag = s.ctag

theorem ActFr.refl (s : St) : ActFr s s := ⟨rfl, rfl, rfl, rfl, rfl, rfl, rfl, rfl⟩

theorem ActFr.trans {u : St} (h : ActFr s t) (h' : ActFr t u) : ActFr s u :=
  ⟨h'.act.trans h.act, h'.upd.trans h.upd, h'.er.trans h.er, h'.ec.trans h.ec, h'.sr.trans h.sr, h'.A.trans h.A,
    h'.AT.trans h.AT, h'.ctag.trans h.ctag⟩

theorem locksEqToIneq_fr (s : St) (cells : List Cell) (b : Bool) :
    ActFr s (locksEqToIneq s cells b) ∧ (locksEqToIneq s cells b).rtag = s.rtag ∧ (locksEqToIneq s cells b).asrt = s.asrt := by
  have e := locksEqToIneq_only s cells b
  unfold OnlyLocks at e
  rw [e]
  exact ⟨⟨rfl, rfl, rfl, rfl, rfl, rfl, rfl, rfl⟩, rfl, rfl⟩

theorem checkActRow_fwd (w : W P s) (row : ℕ) (hu : Cnt (s.act row)) :
    (checkActRow s row).1.asrt = true ∧ ELists (checkActRow s row).1 ∧ ActFr s (checkActRow s row).1 := by
  unfold checkActRow
  split
  · exact ⟨w.asrt, w.el, .refl s⟩
  · rename_i hc
    simp only [Bool.or_eq_true, not_or, Bool.not_eq_true, decide_eq_true_eq, not_le] at hc
    have hrow : row ∉ s.emptyRows := fun h => by
      have := (w.el.row row h).2
      have h2 := w.inv.gi.rowSz row (by omega)
      rw [this] at h2
      simp at h2
      omega
    have c : s.check (decide ((s.act row).nInfMin = 0 ∨ (s.act row).nInfMax = 0)) = s := by
      have hu : (s.act row).nInfMin = 0 ∨ (s.act row).nInfMax = 0 := hu
      rw [decide_eq_true hu]; exact check_true s
    simp only [c]
    have key : ∀ t : St, ActFr s t → t.asrt = s.asrt → (∀ i, i ≠ row → t.rtag i = s.rtag i) →
        t.asrt = true ∧ ELists t ∧ ActFr s t := by
      intro t f ha hr
      refine ⟨ha.trans w.asrt, w.el.of f.er f.ec (fun i hi => ?_) (fun k _ => ?_), f⟩
      · rw [hr i (fun e => hrow (e ▸ hi)), f.A]; exact ⟨rfl, rfl⟩
      · rw [f.ctag, f.AT]; exact ⟨rfl, rfl⟩
    split
    · have c4 : s.check (!(s.rtag row).inactive) = s := by rw [hc.1.1]; exact check_true s
      refine key (setRowToInactive s row 0) ?_ ?_ ?_
      · exact ⟨rfl, rfl, rfl, rfl, rfl, rfl, rfl, rfl⟩
      · unfold setRowToInactive
        simp only [c4]
      · exact fun i h => upd_ne _ _ h
    · split
      · obtain ⟨f, h1, h2⟩ := locksEqToIneq_fr { s with rtag := upd s.rtag row { lhsInf := true } } (s.A row) true
        refine key _ ?_ h2 (fun i h => ?_)
        · exact ⟨f.act, f.upd, f.er, f.ec, f.sr, f.A, f.AT, f.ctag⟩
        show (locksEqToIneq { s with rtag := upd s.rtag row { lhsInf := true } } (s.A row) true).rtag i = _
        rw [h1]
        exact upd_ne _ _ h
      · split
        · obtain ⟨f, h1, h2⟩ := locksEqToIneq_fr { s with rtag := upd s.rtag row { rhsInf := true } } (s.A row) false
          refine key _ ?_ h2 (fun i h => ?_)
          · exact ⟨f.act, f.upd, f.er, f.ec, f.sr, f.A, f.AT, f.ctag⟩
          show (locksEqToIneq { s with rtag := upd s.rtag row { rhsInf := true } } (s.A row) false).rtag i = _
          rw [h1]
          exact upd_ne _ _ h
        · exact ⟨w.asrt, w.el, .refl s⟩

theorem checkActLoop_safe (L : List ℕ) (w : W P s) (hN : NoCols s) (hL : ∀ i ∈ L, Cnt (s.act i))
    (hp : PlainLog (checkActLoop L s).1) :
    W P (checkActLoop L s).1 ∧ NoCols (checkActLoop L s).1 ∧ ActFr s (checkActLoop L s).1 := by
  induction L generalizing s with
  | nil => exact ⟨w, hN, .refl s⟩
  | cons row rest ih =>
    obtain ⟨ha, he, f⟩ := checkActRow_fwd w row (hL row List.mem_cons_self)
    unfold checkActLoop at hp ⊢
    simp only at hp ⊢
    have hpl : PlainLog (checkActRow s row).1 := by
      split at hp
      · exact hp
      · exact (checkActLoop_up _ _).plain hp
    have h := w.step (checkActRow_up s row) hpl
      ((checkActRow_good μT s row).withF (fun _ i _ _ h => checkActRow_feas h i.gi row)) hN ha he
    split
    · exact ⟨h.1, h.2, f⟩
    · rename_i hx
      rw [if_neg hx] at hp
      obtain ⟨w', n', f'⟩ := ih h.1 h.2 (fun i hi => by rw [f.act]; exact hL i (List.mem_cons_of_mem _ hi)) hp
      exact ⟨w', n', f.trans f'⟩

theorem checkActivities_safe (w : W P s) (hC : Clean s) (hp : PlainLog (checkActivities s).1)
    (hs : (checkActivities s).2 ≠ INFEASIBLE) :
    W P (checkActivities s).1 ∧ Clean (checkActivities s).1 ∧ (checkActivities s).1.emptyRows = s.emptyRows ∧
      (checkActivities s).1.stonRows = s.stonRows := by
  unfold checkActivities at hp hs ⊢
  simp only at hp hs ⊢
  split
  · rename_i h
    rw [if_pos h] at hs
    exact absurd h hs
  · rename_i h
    rw [if_neg h] at hp hs
    obtain ⟨w1, n1, f1⟩ := checkActLoop_safe s.updActs w hC.2 w.upd ((deleteInactiveRows_up _).plain hp)
    obtain ⟨w2, d⟩ := delRows_safe w1 hp
    exact ⟨w2, ⟨d.noRows, by rw [d.fixedCols]; exact n1.1, by rw [d.subCols]; exact n1.2⟩,
      by rw [d.eq]; exact f1.er, by rw [d.eq]; exact f1.sr⟩

end
end Verif
