import Verif.Inv.AsrtSton
import Verif.Inv.LiveTriv

/-!
# The assertions of close bounds, dual fixing and of all the simple reductions

`remove_variables_with_close_bounds` may fix a column without entries.  The assertion in `fix_col`
fails then, and the column is recorded a second time when empty columns are removed.
-/

namespace Verif

/-- The columns with a record of kind `FIXED_COL`, newest first. -/
def fixedNames (log : List Rec) : List ℕ :=
  log.filterMap (fun r => match r with
    | .fixedCol k _ _ _ => some k
    | _ => none)

/-- Some column was recorded twice. -/
def Dup (s : St) : Prop := ¬ (fixedNames s.log).Nodup

/-- Some column on the list of empty columns was recorded already. -/
def Bad (s : St) : Prop := ∃ k ∈ s.emptyCols, k ∈ fixedNames s.log

theorem fixedNames_append (a b : List Rec) : fixedNames (a ++ b) = fixedNames a ++ fixedNames b :=
  List.filterMap_append

theorem fixedNames_cons (k : ℕ) (v : D) (c : ℚ) (cells : List Cell) (l : List Rec) :
    fixedNames (.fixedCol k v c cells :: l) = k :: fixedNames l := rfl

section
variable {P : LP} {s t : St} {I J : St → Prop}

theorem Up.names (u : Up s t) {k : ℕ} (h : k ∈ fixedNames s.log) : k ∈ fixedNames t.log := by
  obtain ⟨l, e⟩ := u.log
  rw [← e, fixedNames_append]
  exact List.mem_append_right _ h

theorem Up.dup (u : Up s t) (h : Dup s) : Dup t := by
  obtain ⟨l, e⟩ := u.log
  unfold Dup
  rw [← e, fixedNames_append]
  exact fun hn => h (List.nodup_append.mp hn).2.1

theorem Up.bad (u : Up s t) (hk : ∀ k ∈ s.emptyCols, k ∈ t.emptyCols) (h : Bad s) : Bad t := by
  obtain ⟨k, h1, h2⟩ := h
  exact ⟨k, hk k h1, u.names h2⟩

/-! ### Empty columns stay on the list -/

theorem closeBoundsLoop_ec (L : List ℕ) (s : St) : (closeBoundsLoop L s).1.emptyCols = s.emptyCols := by
  induction L generalizing s with
  | nil => rfl
  | cons k rest ih =>
    unfold closeBoundsLoop
    split
    · exact ih s
    · simp only
      split
      · rw [ih, (fixCol_fr _ k _ _).ec]; rfl
      · split
        · rfl
        · exact ih _

theorem delOneCol_ec (L : List ℕ) (s : St) : (L.foldl delOneCol s).emptyCols = s.emptyCols := by
  induction L generalizing s with
  | nil => rfl
  | cons r L ih => exact ih (delOneCol s r)

theorem delCompactRow_ec (s : St) (row : ℕ) : (delCompactRow s row).emptyCols = s.emptyCols := by
  unfold delCompactRow
  split
  · rfl
  · simp only
    split_ifs <;> rfl

theorem delCompactRow_foldEc (L : List ℕ) (s : St) : (L.foldl delCompactRow s).emptyCols = s.emptyCols := by
  induction L generalizing s with
  | nil => rfl
  | cons r L ih => rw [List.foldl_cons, ih, delCompactRow_ec]

theorem delCols_ec (s : St) : (deleteInactiveCols (deleteFixedCols s)).emptyCols = s.emptyCols := by
  have h : ∀ t : St, (deleteInactiveCols t).emptyCols = t.emptyCols := by
    intro t
    unfold deleteInactiveCols
    simp only
    rw [delCompactRow_foldEc, delOneCol_ec, delOneCol_ec]
  rw [h]
  obtain ⟨l, r, a, o, b, e⟩ := deleteFixedCols_eq s
  rw [e]

theorem delOneRow_ec (L : List ℕ) (s : St) : (L.foldl delOneRow s).emptyCols = s.emptyCols := by
  have hc : ∀ (t : RTag) (cells : List Cell) (s : St), (cells.foldl (delRowCell t) s).emptyCols = s.emptyCols := by
    intro t cells
    induction cells with
    | nil => exact fun _ => rfl
    | cons p cells ih =>
      intro s
      rw [List.foldl_cons, ih]
      unfold delRowCell
      split_ifs <;> rfl
  induction L generalizing s with
  | nil => rfl
  | cons r L ih =>
    rw [List.foldl_cons, ih]
    unfold delOneRow
    simp only
    split
    · rfl
    · exact hc _ _ _

theorem delRows_ec (s : St) : ∀ k ∈ s.emptyCols, k ∈ (deleteInactiveRows s).emptyCols := by
  intro k hk
  unfold deleteInactiveRows
  split
  · exact hk
  · simp only
    refine (delCompactCol_fold _ _).1 k ?_
    rw [delOneRow_ec]
    exact hk

theorem removeStonRow_ec (s : St) (row : ℕ) : (removeStonRow s row).1.emptyCols = s.emptyCols := by
  have hU : ∀ (t : St) (b : Bool) (k : ℕ) (v : D),
      (if b then (t, UNCHANGED) else updateUb t k v row).1.emptyCols = t.emptyCols := by
    intro t b k v
    split
    · rfl
    · unfold updateUb
      simp only
      split_ifs
      · rfl
      · exact (updActsBoundChange_only _ _ _ _ _ _).quiet.ec
      · rfl
  have hL : ∀ (t : St) (b : Bool) (k : ℕ) (v : D),
      (if b then (t, UNCHANGED) else updateLb t k v row).1.emptyCols = t.emptyCols := by
    intro t b k v
    split
    · rfl
    · unfold updateLb
      simp only
      split_ifs
      · rfl
      · exact (updActsBoundChange_only _ _ _ _ _ _).quiet.ec
      · rfl
  unfold removeStonRow
  split
  · rfl
  · rename_i k aik rest hA
    simp only
    split
    · rfl
    · generalize hs1 : (s.check (!(s.rtag row).inactive && !(s.ctag k).subst)).check
        (!((s.check (!(s.rtag row).inactive && !(s.ctag k).subst)).ctag k).inactive) = s1
      have e1 : s1.emptyCols = s.emptyCols := by rw [← hs1]; rfl
      split
      · split
        · exact (fixCol_fr _ k _ _).ec.trans e1
        · exact (fixCol_fr _ k _ _).ec.trans e1
      · split
        · have q1 := hU s1 (s1.rtag row).rhsInf k (D.divq (s.rhs row) aik)
          generalize (if (s1.rtag row).rhsInf = true then (s1, UNCHANGED) else updateUb s1 k (D.divq (s.rhs row) aik) row) = r1 at q1 ⊢
          split
          · exact q1.trans e1
          · have q2 := hL r1.1 (s1.rtag row).lhsInf k (D.divq (s.lhs row) aik)
            generalize (if (s1.rtag row).lhsInf = true then (r1.1, UNCHANGED) else updateLb r1.1 k (D.divq (s.lhs row) aik) row) = r2 at q2 ⊢
            split
            · exact q2.trans (q1.trans e1)
            · exact q2.trans (q1.trans e1)
        · have q1 := hL s1 (s1.rtag row).rhsInf k (D.divq (s.rhs row) aik)
          generalize (if (s1.rtag row).rhsInf = true then (s1, UNCHANGED) else updateLb s1 k (D.divq (s.rhs row) aik) row) = r1 at q1 ⊢
          split
          · exact q1.trans e1
          · have q2 := hU r1.1 (s1.rtag row).lhsInf k (D.divq (s.lhs row) aik)
            generalize (if (s1.rtag row).lhsInf = true then (r1.1, UNCHANGED) else updateUb r1.1 k (D.divq (s.lhs row) aik) row) = r2 at q2 ⊢
            split
            · exact q2.trans (q1.trans e1)
            · exact q2.trans (q1.trans e1)

theorem stonEqLoop_ec (L : List ℕ) (s : St) : (stonEqLoop L s).1.emptyCols = s.emptyCols := by
  induction L generalizing s with
  | nil => rfl
  | cons row rest ih =>
    unfold stonEqLoop
    split
    · exact ih s
    · simp only
      split
      · exact removeStonRow_ec s row
      · rw [ih, removeStonRow_ec]

theorem stonIneqLoop_ec (L : List ℕ) (s : St) : (stonIneqLoop L s).1.emptyCols = s.emptyCols := by
  induction L generalizing s with
  | nil => rfl
  | cons row rest ih =>
    unfold stonIneqLoop
    split
    · exact ih s
    · simp only
      split
      · exact removeStonRow_ec s row
      · rw [ih, removeStonRow_ec]

theorem removeStonRows_ec (s : St) : ∀ k ∈ s.emptyCols, k ∈ (removeStonRows s).1.emptyCols := by
  intro k hk
  unfold removeStonRows
  split
  · exact hk
  · simp only
    split
    · rw [stonEqLoop_ec]; exact hk
    · split
      · rw [stonIneqLoop_ec, stonEqLoop_ec]; exact hk
      · show k ∈ (deleteInactiveCols (deleteFixedCols _)).emptyCols
        rw [delCols_ec]
        refine delRows_ec _ k ?_
        show k ∈ (stonIneqLoop _ _).1.emptyCols
        rw [stonIneqLoop_ec, stonEqLoop_ec]; exact hk

theorem stonRowsLoop_ec (fuel : ℕ) (s : St) : ∀ k ∈ s.emptyCols, k ∈ (stonRowsLoop fuel s).1.emptyCols := by
  induction fuel generalizing s with
  | zero => exact fun _ h => h
  | succ fuel ih =>
    intro k hk
    unfold stonRowsLoop
    simp only
    split
    · exact removeStonRows_ec s k hk
    · split
      · exact ih _ k (removeStonRows_ec s k hk)
      · exact removeStonRows_ec s k hk

theorem emptyColLoop_names (L : List ℕ) (s : St) (h : (emptyColLoop L s).2 ≠ UNBNDORINFEAS) :
    ∃ l, (emptyColLoop L s).1.log = l ++ s.log ∧ ∀ k ∈ L, k ∈ fixedNames l := by
  induction L generalizing s with
  | nil => exact ⟨[], rfl, fun _ h => (by cases h)⟩
  | cons k rest ih =>
    unfold emptyColLoop at h ⊢
    simp only at h ⊢
    split
    · rename_i e
      simp only [e] at h
      exact absurd rfl h
    · rename_i v e
      simp only [e] at h
      obtain ⟨l, e1, e2⟩ := ih _ h
      refine ⟨l ++ [.fixedCol k v (s.c k) []], ?_, fun j hj => ?_⟩
      · rw [e1, List.append_assoc]; rfl
      · rw [fixedNames_append]
        rcases List.mem_cons.mp hj with e | e
        · rw [e]; exact List.mem_append_right _ (by rw [fixedNames_cons]; exact List.mem_cons_self)
        · exact List.mem_append_left _ (e2 j e)

theorem removeEmptyCols_dup (h : Bad s) (hs : (removeEmptyCols s).2 ≠ UNBNDORINFEAS) : Dup (removeEmptyCols s).1 := by
  obtain ⟨k, h1, h2⟩ := h
  have hs' : (emptyColLoop s.emptyCols s).2 ≠ UNBNDORINFEAS := by
    intro e
    unfold removeEmptyCols at hs
    simp only at hs
    rw [if_pos e] at hs
    exact hs e
  obtain ⟨l, e1, e2⟩ := emptyColLoop_names s.emptyCols s hs'
  have e : (removeEmptyCols s).1.log = l ++ s.log := by
    unfold removeEmptyCols
    simp only
    rw [if_neg hs']
    exact e1
  unfold Dup
  rw [e, fixedNames_append]
  exact fun hn => (List.nodup_append.mp hn).2.2 k (e2 k h1) k h2 rfl

/-! ### Close bounds -/

theorem W.fuzz (w : W P s) (b : Bool) : W P (s.fuzz b) := by
  have sc : SameCore s (s.fuzz b) := by constructor <;> rfl
  have g : Good μT (Fz P (fun _ => True)) (Fz P (fun _ => True)) s (s.fuzz b) := by
    refine Good.withF (.of (fun o => .ofT o.1) (fun _ i hi =>
      ⟨⟨.single (.same sc), fun _ h => Or.inl h, fun _ h => Or.inl h, rfl, id⟩, trivial⟩))
      (fun _ _ _ _ h => h.core sc (fun _ => .refl _))
  have hi := (g (.ofT w.asrt)).2 w.inv ⟨trivial, fun _ => w.feas⟩
  exact ⟨w.asrt, hi.1.inv w.inv, w.feas.core sc (fun _ => .refl _), w.em, w.el.same rfl rfl rfl rfl rfl rfl, w.upd, w.gap, w.eqT⟩

theorem fixCol_records (s : St) (k : ℕ) (l u ck : ℚ) (hl : s.lb k = .fin l) (hu : s.ub k = .fin u)
    (hlu : l < u + FEAS_TOL) : k ∈ fixedNames (fixCol s k (.fin l) ck).1.log := by
  obtain ⟨-, h⟩ := fixCol_cases s k (.fin l) ck
  rcases h with ⟨-, -, -, -, -, -, -, h⟩ | ⟨-, -, -, -, h, -⟩
  · exfalso
    have hp : (0 : ℚ) < FEAS_TOL := by norm_num [FEAS_TOL]
    rw [hl, hu, D.add_fin, D.sub_fin, D.le_fin, D.le_fin] at h
    simp only [Bool.or_eq_true, Bool.and_eq_true, decide_eq_true_eq] at h
    rcases h with h | h
    · linarith [h.2]
    · linarith [h.2]
  · rw [h, fixedNames_cons]; exact List.mem_cons_self

theorem closeBoundsLoop_safe (L : List ℕ) (w : W P s) (hN : NoRows s) (hL : L.Nodup) (hn : ∀ k ∈ L, k < s.n)
    (hact : ∀ k ∈ L, 0 ≤ s.colSize k → (s.ctag k).inactive = false) (hp : PlainLog (closeBoundsLoop L s).1) :
    (W P (closeBoundsLoop L s).1 ∧ NoRows (closeBoundsLoop L s).1) ∨ Bad (closeBoundsLoop L s).1 := by
  induction L generalizing s with
  | nil => exact .inl ⟨w, hN⟩
  | cons k rest ih =>
    have hL' := List.nodup_cons.mp hL
    have hn' : ∀ j ∈ rest, j < s.n := fun j hj => hn j (List.mem_cons_of_mem _ hj)
    have ha' : ∀ j ∈ rest, 0 ≤ s.colSize j → (s.ctag j).inactive = false := fun j hj => hact j (List.mem_cons_of_mem _ hj)
    unfold closeBoundsLoop at hp ⊢
    split
    · rename_i hb
      rw [if_pos hb] at hp
      exact ih w hN hL'.2 hn' ha' hp
    · rename_i hb
      rw [if_neg hb] at hp
      simp only [Bool.or_eq_true, not_or, Bool.not_eq_true, decide_eq_true_eq, not_lt] at hb
      obtain ⟨⟨hsz, hlI⟩, huI⟩ := hb
      have hc := hact k List.mem_cons_self hsz
      have c : s.check (!(s.ctag k).inactive) = s := by rw [hc]; exact check_true s
      simp only [c] at hp ⊢
      split
      · rename_i he
        rw [if_pos he] at hp
        obtain ⟨l, hl⟩ := w.feas.lbFin w.inv.gi hc hlI
        obtain ⟨u, hu⟩ := w.feas.ubFin w.inv.gi hc huI
        generalize (!D.eqb (s.lb k) (s.ub k)) = b at hp ⊢
        have hfr := fixCol_fr (s.fuzz b) k (s.lb k) (s.c k)
        by_cases hT : s.AT k = []
        · right
          refine (closeBoundsLoop_up rest _).bad (fun j hj => by rw [closeBoundsLoop_ec]; exact hj) ⟨k, ?_, ?_⟩
          · rw [hfr.ec]
            exact w.em.2 k (hn k List.mem_cons_self) hc hT
          · rw [hl]
            exact fixCol_records (s.fuzz b) k l u (s.c k) hl hu (w.gap k hc hlI huI l u hl hu)
        · obtain ⟨w1, n1⟩ := fixCol_safe (w.fuzz b) hN k hc hT (s.lb k) ⟨l, hl⟩ ((closeBoundsLoop_up rest _).plain hp)
          refine ih w1 n1 hL'.2 (fun j hj => by rw [hfr.n]; exact hn' j hj) (fun j hj => ?_) hp
          have hj' : j ≠ k := fun e => hL'.1 (e ▸ hj)
          rw [hfr.size, hfr.ctag j hj']
          exact ha' j hj
      · rename_i he
        rw [if_neg he] at hp
        split
        · exact .inl ⟨w, hN⟩
        · rename_i hx
          rw [if_neg hx] at hp
          exact ih w hN hL'.2 hn' ha' hp

theorem closeBounds_safe (w : W P s) (hC : Clean s) (hp : PlainLog (closeBounds s).1) (hs : (closeBounds s).2 ≠ INFEASIBLE) :
    (W P (closeBounds s).1 ∧ Clean (closeBounds s).1) ∨ Bad (closeBounds s).1 := by
  unfold closeBounds at hp hs ⊢
  simp only at hp hs ⊢
  split
  · rename_i h
    rw [if_pos h] at hs
    exact absurd h hs
  · rename_i h
    rw [if_neg h] at hp
    have hact : ∀ k ∈ List.range s.n, 0 ≤ s.colSize k → (s.ctag k).inactive = false := by
      intro k _ hk
      cases hc : (s.ctag k).inactive
      · rfl
      · have := w.inv.gi.colPendIn k hc (by omega)
        rw [hC.2.1, hC.2.2] at this
        cases this
    rcases closeBoundsLoop_safe (List.range s.n) w hC.1 List.nodup_range (fun k hk => List.mem_range.mp hk) hact
      ((delCols_up _).plain hp) with ⟨w1, n1⟩ | hb
    · obtain ⟨w2, d⟩ := delCols_safe w1 n1 hp
      exact .inl ⟨w2, d.noRows, d.noFixed, d.noSub⟩
    · exact .inr ((delCols_up _).bad (fun j hj => by rw [delCols_ec]; exact hj) hb)

/-! ### Dual fixing -/

theorem dualFixStep_safe (w : W P s) (hN : NoRows s) (he : s.emptyCols = []) (q : List (ℕ × Bool)) (st : Status) (k : ℕ)
    (hk : k < s.n) (hp : PlainLog (dualFixStep (s, q, st) k).1) :
    W P (dualFixStep (s, q, st) k).1 ∧ NoRows (dualFixStep (s, q, st) k).1 ∧ (dualFixStep (s, q, st) k).1.emptyCols = [] ∧
      (dualFixStep (s, q, st) k).1.n = s.n := by
  unfold dualFixStep at hp ⊢
  simp only at hp ⊢
  split
  · exact ⟨w, hN, he, rfl⟩
  · rename_i h0
    rw [if_neg h0] at hp
    simp only [Bool.or_eq_true, not_or, Bool.not_eq_true] at h0
    have hc := h0.1
    have hT : s.AT k ≠ [] := fun e => by
      have := w.em.2 k hk hc e
      rw [he] at this; cases this
    have done : ∀ (v : D), (∃ x, v = .fin x) → PlainLog (fixCol (s.check (!D.isInf v)) k v (s.c k)).1 →
        W P (fixCol (s.check (!D.isInf v)) k v (s.c k)).1 ∧ NoRows (fixCol (s.check (!D.isInf v)) k v (s.c k)).1 ∧
          (fixCol (s.check (!D.isInf v)) k v (s.c k)).1.emptyCols = [] ∧
          (fixCol (s.check (!D.isInf v)) k v (s.c k)).1.n = s.n := by
      intro v hv hp
      have c : s.check (!D.isInf v) = s := by
        obtain ⟨x, rfl⟩ := hv
        exact check_true s
      rw [c] at hp ⊢
      obtain ⟨w1, n1⟩ := fixCol_safe w hN k hc hT v hv hp
      have f := fixCol_fr s k v (s.c k)
      exact ⟨w1, n1, f.ec.trans he, f.n⟩
    split
    · exact ⟨w, hN, he, rfl⟩
    · exact ⟨w, hN, he, rfl⟩
    · rename_i hd
      simp only [hd] at hp
      exact done _ (w.feas.lbFin w.inv.gi hc (dualFixDecide_lower hd)) hp
    · rename_i hd
      simp only [hd] at hp
      exact done _ (w.feas.ubFin w.inv.gi hc (dualFixDecide_upper hd)) hp
    · exact ⟨w, hN, he, rfl⟩
    · exact ⟨w, hN, he, rfl⟩

theorem dualFixFold_safe (L : List ℕ) (w : W P s) (hN : NoRows s) (he : s.emptyCols = []) (q : List (ℕ × Bool)) (st : Status)
    (hL : ∀ k ∈ L, k < s.n) (hp : PlainLog (L.foldl dualFixStep (s, q, st)).1) :
    W P (L.foldl dualFixStep (s, q, st)).1 := by
  induction L generalizing s q st with
  | nil => exact w
  | cons k L ih =>
    rw [List.foldl_cons] at hp ⊢
    obtain ⟨w1, n1, e1, m1⟩ := dualFixStep_safe w hN he q st k (hL k List.mem_cons_self) ((dualFixFold_up L _).plain hp)
    exact ih w1 n1 e1 _ _ (fun j hj => by rw [m1]; exact hL j (List.mem_cons_of_mem _ hj)) hp

theorem fixInfFold_none (q : List (ℕ × Bool)) (s : St)
    (hp : PlainLog (q.foldl (fun s p => if p.2 then fixColPosInf s p.1 else fixColNegInf s p.1) s)) : q = [] := by
  cases q with
  | nil => rfl
  | cons p q =>
    exfalso
    rw [List.foldl_cons] at hp
    have hp' := (Up.foldl _ fixColInf_up q _).plain hp
    obtain ⟨pos, k, b, rows, l, e⟩ := fixColInf_log s p
    have := hp' (Rec.fixedColInf pos k b rows) (by rw [e]; exact List.mem_append_right _ List.mem_cons_self)
    cases this

theorem simpleDualFix_safe (w : W P s) (hC : Clean s) (he : s.emptyCols = []) (hp : PlainLog (simpleDualFix s).1) :
    W P (simpleDualFix s).1 ∧ Clean (simpleDualFix s).1 := by
  unfold simpleDualFix at hp ⊢
  simp only at hp ⊢
  have c : s.check (decide (s.emptyCols = [])) = s := by rw [decide_eq_true he]; exact check_true s
  rw [c] at hp ⊢
  have hp1 := (delBoth_up _).plain hp
  have hq := fixInfFold_none _ _ hp1
  rw [hq] at hp hp1 ⊢
  rw [List.foldl_nil] at hp hp1 ⊢
  exact delBoth_safe (dualFixFold_safe (List.range s.n) w hC.1 he [] UNCHANGED (fun k hk => List.mem_range.mp hk) hp1) hp

/-! ### All of them -/

theorem or_unchanged {a b : Status} (h : a ||| b = UNCHANGED) : a = UNCHANGED ∧ b = UNCHANGED := by
  have h : a ||| b = (0 : ℕ) := h
  exact Nat.or_eq_zero_iff.mp h

theorem trivialHead_safe (stgs : Settings) (w : W P s) (hC : Clean s) (hp : PlainLog (trivialHead stgs s).1)
    (hs : (trivialHead stgs s).2 = UNCHANGED) :
    (W P (trivialHead stgs s).1 ∧ Clean (trivialHead stgs s).1) ∨ Bad (trivialHead stgs s).1 ∨ Dup (trivialHead stgs s).1 := by
  unfold trivialHead at hp hs ⊢
  simp only at hp hs ⊢
  split
  · rename_i h
    rw [if_pos h, h] at hs
    cases hs
  · rename_i h
    rw [if_neg h] at hp hs
    split
    · rename_i hd
      rw [if_pos hd] at hp hs
      obtain ⟨h1, h2⟩ := or_unchanged hs
      obtain ⟨h3, h4⟩ := or_unchanged h1
      have he : (removeEmptyCols (closeBounds s).1).2 ≠ UNBNDORINFEAS := by rw [h4]; decide
      have p1 := (simpleDualFix_up _).plain hp
      have p0 := (removeEmptyCols_up _).plain p1
      rcases closeBounds_safe w hC p0 h with ⟨w1, c1⟩ | hb
      · obtain ⟨w2, c2, e2, -⟩ := removeEmptyCols_safe w1 c1 p1 he
        exact .inl (simpleDualFix_safe w2 c2 e2 hp)
      · exact .inr (.inr ((simpleDualFix_up _).dup (removeEmptyCols_dup hb he)))
    · rename_i hd
      rw [if_neg hd] at hp hs
      exact (closeBounds_safe w hC hp h).imp id .inl

theorem trivialHead_zero (stgs : Settings) (s : St) (h : (trivialHead stgs s).2 ≠ INFEASIBLE)
    (h' : ¬ (stgs.dualFix = true ∧ (trivialHead stgs s).2 = UNBNDORINFEAS)) : (trivialHead stgs s).2 = UNCHANGED := by
  unfold trivialHead at h h' ⊢
  simp only at h h' ⊢
  split at h
  · rename_i hx; exact absurd hx h
  · rename_i hx
    rw [if_neg hx] at h' ⊢
    have hc : (closeBounds s).2 = UNCHANGED := (closeBounds_st s).resolve_right hx
    split at h
    · rename_i hd
      rw [if_pos hd] at h' ⊢
      have hz : ZeroOrSix ((closeBounds s).2 ||| (removeEmptyCols (closeBounds s).1).2 |||
          (simpleDualFix (removeEmptyCols (closeBounds s).1).1).2) := by
        refine ZeroOrSix.or (.or (.inl hc) (removeEmptyCols_st _)) ?_
        unfold simpleDualFix
        exact dualFixFold_st _ _ _ (.inl rfl)
      rcases hz with e | e
      · exact e
      · exact absurd ⟨hd, e⟩ h'
    · rename_i hd
      rw [if_neg hd]
      exact hc

/-- Nothing is left for the simple reductions. -/
structure Done (s : St) : Prop where
  clean : Clean s
  sr : s.stonRows = []
  er : s.emptyRows = []
  ec : s.emptyCols = []

theorem runTrivial_safe (stgs : Settings) (w : W P s) (hC : Clean s) (hp : PlainLog (runTrivial stgs s).1)
    (hs : (runTrivial stgs s).2 = UNCHANGED) :
    (W P (runTrivial stgs s).1 ∧ Done (runTrivial stgs s).1) ∨ Dup (runTrivial stgs s).1 := by
  unfold runTrivial at hp hs ⊢
  simp only at hp hs ⊢
  split
  · rename_i h
    rw [if_pos h, h] at hs
    cases hs
  · rename_i h1
    rw [if_neg h1] at hp hs
    split
    · rename_i h
      rw [if_pos h, h.2] at hs
      cases hs
    · rename_i h2
      rw [if_neg h2] at hp hs
      have hst : (trivialHead stgs s).2 = UNCHANGED := trivialHead_zero stgs s h1 h2
      have hw := trivialHead_safe stgs w hC (P := P)
      generalize (trivialHead stgs s) = r0 at hp hs hw hst ⊢
      split
      · rename_i h
        rw [if_pos h, h] at hs
        cases hs
      · rename_i h3
        rw [if_neg h3] at hp hs
        split
        · rename_i h
          rw [if_pos h, h] at hs
          cases hs
        · rename_i h4
          rw [if_neg h4] at hp hs
          split
          · rename_i h
            rw [if_pos h, h] at hs
            cases hs
          · rename_i h5
            rw [if_neg h5] at hp hs
            have p3 : PlainLog (removeEmptyCols (removeEmptyRows (stonRowsLoop (r0.1.m + 2) r0.1).1).1).1 :=
              (Up.check _ _).plain ((Up.check _ _).plain ((Up.check _ _).plain hp))
            have p2 := (removeEmptyCols_up _).plain p3
            have p1 := (removeEmptyRows_up _).plain p2
            have p0 := (stonRowsLoop_up _ _).plain p1
            rcases hw p0 hst with ⟨w1, c1⟩ | hb | hd
            · left
              obtain ⟨w2, c2, s2⟩ := stonRowsLoop_safe (r0.1.m + 2) w1 c1 (.inr (by have := long_le r0.1; omega)) p1 h3
              obtain ⟨w3, c3, e3⟩ := removeEmptyRows_safe w2 c2 p2 h4
              obtain ⟨w4, c4, e4, f4, g4⟩ := removeEmptyCols_safe w3 c3 p3 h5
              have s4 := g4.trans ((removeEmptyRows_fr _).2.trans s2)
              have r4 := f4.trans e3
              generalize (removeEmptyCols (removeEmptyRows (stonRowsLoop (r0.1.m + 2) r0.1).1).1).1 = t at *
              have c : ((t.check (decide (t.stonRows = []))).check (decide (t.emptyRows = []))).check
                  (decide (t.emptyCols = [])) = t := by
                rw [decide_eq_true s4, decide_eq_true r4, decide_eq_true e4, check_true, check_true, check_true]
              rw [c]
              exact ⟨w4, c4, s4, r4, e4⟩
            · right
              have b1 := Up.bad (stonRowsLoop_up (r0.1.m + 2) r0.1) (stonRowsLoop_ec (r0.1.m + 2) r0.1) hb
              have b2 := Up.bad (removeEmptyRows_up (stonRowsLoop (r0.1.m + 2) r0.1).1)
                (fun k hk => by rw [(removeEmptyRows_fr _).1]; exact hk) b1
              exact (Up.check _ _).dup ((Up.check _ _).dup ((Up.check _ _).dup (removeEmptyCols_dup b2 h5)))
            · right
              have d := (removeEmptyCols_up _).dup ((removeEmptyRows_up _).dup ((stonRowsLoop_up (r0.1.m + 2) r0.1).dup hd))
              exact (Up.check _ _).dup ((Up.check _ _).dup ((Up.check _ _).dup d))

end
end Verif
