import Verif.Inv.DtonGood
import Verif.Inv.StatStep
import Verif.Inv.CompSton
import Verif.Inv.ListedDton
import Verif.Props.C06_BoundChange

/-!
# Optimality conditions through the elimination of doubleton equalities
-/

namespace Verif

/-- The optimality conditions of the problem that is left in state `s`, except for the feasibility of the point:
the values of the active columns are numbers, the reduced costs of the active columns are `c - Aᵀ y` over the
active rows, a positive dual of a row needs the left side to be met, a negative one the right side, a positive
reduced cost needs the lower bound to be met, a negative one the upper bound.  All without tolerance. -/
structure KktAt (s : St) (σ : Sol) : Prop where
  num : ∀ k, (s.ctag k).inactive = false → ∃ q, σ.x k = .fin q
  stat : StatAt s σ
  lhs : ∀ i, (s.rtag i).inactive = false → 0 < (σ.y i).toQ →
    (s.rtag i).lhsInf = false ∧ s.lhs i = .fin (dot (s.A i) (fun k => (σ.x k).toQ))
  rhs : ∀ i, (s.rtag i).inactive = false → (σ.y i).toQ < 0 →
    (s.rtag i).rhsInf = false ∧ s.rhs i = .fin (dot (s.A i) (fun k => (σ.x k).toQ))
  lb : ∀ k, (s.ctag k).inactive = false → 0 < (σ.z k).toQ → (s.ctag k).lbInf = false ∧ s.lb k = σ.x k
  ub : ∀ k, (s.ctag k).inactive = false → (σ.z k).toQ < 0 → (s.ctag k).ubInf = false ∧ s.ub k = σ.x k

/-- The values satisfy the active rows; the sides that are present are numbers. -/
def RowsIn (s : St) (σ : Sol) : Prop :=
  ∀ i, (s.rtag i).inactive = false →
    ((s.rtag i).lhsInf = false → ∃ l, s.lhs i = .fin l ∧ l ≤ dot (s.A i) (fun k => (σ.x k).toQ)) ∧
    ((s.rtag i).rhsInf = false → ∃ r, s.rhs i = .fin r ∧ dot (s.A i) (fun k => (σ.x k).toQ) ≤ r)

/-- The row tags fit the sides of the rows. -/
def RowTags (s : St) : Prop := Weak s ∧ TagOK s

/-- Postsolve takes the optimality conditions from `t` back to `s`, and the rows if they are satisfied, and keeps
the values of the active columns. -/
def KktBack (s t : St) : Prop :=
  ∀ σ, KktAt t σ → ∃ σ1, replay none t.log σ = replay none s.log σ1 ∧ KktAt s σ1 ∧ (RowsIn t σ → RowsIn s σ1) ∧
    ∀ k, (t.ctag k).inactive = false → σ1.x k = σ.x k

section
variable {s t u : St} {σ : Sol} {i j k : ℕ} {aij aik b : ℚ}

theorem KktBack.refl (s : St) : KktBack s s := fun σ h => ⟨σ, rfl, h, id, fun _ _ => rfl⟩

theorem KktBack.trans (h : KktBack s t) (h' : KktBack t u)
    (hc : ∀ k, (u.ctag k).inactive = false → (t.ctag k).inactive = false) : KktBack s u := by
  intro σ hσ
  obtain ⟨σ1, e1, k1, r1, x1⟩ := h' σ hσ
  obtain ⟨σ2, e2, k2, r2, x2⟩ := h σ1 k1
  exact ⟨σ2, e1.trans e2, k2, fun hr => r2 (r1 hr), fun k hk => (x2 k (hc k hk)).trans (x1 k hk)⟩

theorem KktAt.core (h : KktAt t σ) (c : SameCore s t) : KktAt s σ := by
  refine ⟨?_, h.stat.frame rfl rfl c.m (fun i _ => by rw [c.A]) c.c (fun i => by rw [c.rtag]) (fun k => by rw [c.ctag]),
    ?_, ?_, ?_, ?_⟩
  · rw [← c.ctag]; exact h.num
  · rw [← c.rtag, ← c.lhs, ← c.A]; exact h.lhs
  · rw [← c.rtag, ← c.rhs, ← c.A]; exact h.rhs
  · rw [← c.ctag, ← c.lb]; exact h.lb
  · rw [← c.ctag, ← c.ub]; exact h.ub

/-- Rows, sides and values are the same. -/
theorem RowsIn.of_eq {τ : Sol} (h : RowsIn t σ) (hr : t.rtag = s.rtag) (hA : t.A = s.A) (hl : t.lhs = s.lhs)
    (hu : t.rhs = s.rhs) (hx : τ.x = σ.x) : RowsIn s τ := by
  unfold RowsIn at *
  rw [hx, ← hr, ← hA, ← hl, ← hu]; exact h

theorem KktBack.core (c : SameCore s t) : KktBack s t :=
  fun σ h => ⟨σ, by rw [c.log], h.core c, fun hr => hr.of_eq c.rtag c.A c.lhs c.rhs rfl, fun _ _ => rfl⟩

theorem newSide_back {inf : Bool} {a w : ℚ} {d : D} (hi : inf = false) (h : newSide inf aik b a d = .fin w) :
    d = .fin (w + a / aik * b) := by
  subst hi
  unfold newSide at h
  by_cases hb : b = 0
  · rw [if_pos (.inl hb)] at h
    rw [h, hb]; congr 1; ring
  · rw [if_neg (by simp [hb])] at h
    cases d with
    | fin q => rw [D.sub_fin] at h; injection h with h; congr 1; linarith
    | _ => cases h

theorem solveFor_two {x : ℕ → ℚ} (hjk : j ≠ k) {cells : List Cell}
    (hc : cells = [(j, aij), (k, aik)] ∨ cells = [(k, aik), (j, aij)]) :
    solveFor cells k aik b x = partner aij aik b (x j) := by
  rcases hc with e | e
  · have := solveFor_split (l1 := [(j, aij)]) (l2 := []) (k := k) (q := aik) (b := b) (x := x)
      (by intro p hp; simp at hp; subst hp; exact hjk) (by intro p hp; cases hp)
    rw [e]
    show solveFor ([(j, aij)] ++ (k, aik) :: []) k aik b x = _
    rw [this]; unfold partner; simp [dot]
  · have := solveFor_split (l1 := []) (l2 := [(j, aij)]) (k := k) (q := aik) (b := b) (x := x)
      (by intro p hp; cases hp) (by intro p hp; simp at hp; subst hp; exact hjk)
    rw [e]
    show solveFor ([] ++ (k, aik) :: [(j, aij)]) k aik b x = _
    rw [this]; unfold partner; simp [dot]

/-- The records of `execute_substitution`. -/
theorem KktAt.dton (g : GI s) (hr : InRng s) (hd : DtonOut s t i j k aij aik b)
    (hv : ∀ q a, q ≠ i → (q, a) ∈ s.AT k →
      |newCoef j k (aij / aik) (s.A q)| ≤ ZERO_TOL → newCoef j k (aij / aik) (s.A q) = 0)
    (hlhs : s.lhs i = .fin b) (htag : (s.rtag i).lhsInf = false ∧ (s.rtag i).rhsInf = false) (h : KktAt t σ) :
    ∃ τ, replay none t.log σ = replay none s.log τ ∧ KktAt s τ ∧ (RowsIn t σ → RowsIn s τ) ∧
      dot (s.A i) (fun p => (τ.x p).toQ) = b ∧ τ.x = upd σ.x k (.fin (partner aij aik b (σ.x j).toQ)) := by
  have hstat := StatAt.dton g hr hd hv h.stat
  have hmem : (k, aik) ∈ s.A i := by rcases hd.cells with e | e <;> rw [e] <;> simp
  have hjk : j ≠ k := by
    rintro rfl
    have hnd := (g.rowSorted i).nodup
    rcases hd.cells with e | e <;> rw [e] at hnd <;> simp at hnd
  have hq : aik ≠ 0 := (g.rowRange i _ hmem).2.2
  have hrt : ∀ r, r ≠ i → t.rtag r = s.rtag r := fun r hr => by rw [hd.rtag, upd_ne _ _ hr]
  have hct : ∀ p, p ≠ k → t.ctag p = s.ctag p := fun p hp => by rw [hd.ctag, upd_ne _ _ hp]
  set L := (s.AT k).filter (fun p => decide (p.1 ≠ i)) with hL
  have hLne : ∀ p ∈ L, p.1 ≠ i := fun p hp => by simpa using (List.mem_filter.mp hp).2
  have hLfin : ∀ p ∈ L, ∃ q, σ.y p.1 = .fin q := fun p hp =>
    h.stat.y p.1 (by rw [hrt _ (hLne p hp)]; exact hd.rows p (List.mem_filter.mp hp).1)
  set new := Rec.deletedRow i (s.c k / aik) :: .subCol k (s.A i) (.fin b) i (s.c k) ::
      (L.map (fun p => Rec.addedRow i p.1 (-p.2 / aik))).reverse with hnew
  have hrep : replay none t.log σ = replay none s.log (new.foldl retRec σ) := by
    rw [hd.log, ← replay_fold (new := new)]
    · rfl
    · intro r hr
      rw [hnew] at hr
      simp only [List.mem_cons, List.mem_reverse, List.mem_map] at hr
      rcases hr with rfl | rfl | ⟨p, -, rfl⟩ <;> rfl
  refine ⟨new.foldl retRec σ, hrep, ?_⟩
  -- the point
  set σ2 := retRec (retRec σ (.deletedRow i (s.c k / aik))) (.subCol k (s.A i) (.fin b) i (s.c k)) with hσ2
  have y2 : σ2.y = upd σ.y i (.fin (s.c k / aik)) := rfl
  have hfold := addedRows_fold i aik L.reverse (fun p hp => hLne p (List.mem_reverse.mp hp)) σ2 (fun p hp => by
    rw [y2, upd_ne _ _ (hLne p (List.mem_reverse.mp hp))]
    exact hLfin p (List.mem_reverse.mp hp)) (s.c k / aik) (by rw [y2, upd_same])
  have e0 : new.foldl retRec σ = (L.reverse.map (fun p => Rec.addedRow i p.1 (-p.2 / aik))).foldl retRec σ2 := by
    rw [hnew, List.foldl_cons, List.foldl_cons, ← List.map_reverse]
  obtain ⟨q0, hq0⟩ := h.num j (by rw [hct j hjk]; exact hd.colj)
  set τ := new.foldl retRec σ with hτ
  have ex : τ.x = upd σ.x k (.fin (partner aij aik b (σ.x j).toQ)) := by
    rw [e0, hfold]
    show (retSubCol (retRec σ (.deletedRow i (s.c k / aik))) k (s.A i) (.fin b) i (s.c k)).x = _
    rw [retSubCol_value (g.rowSorted i).nodup hmem hq _ (fun p => (σ.x p).toQ), solveFor_two hjk hd.cells]
    · rfl
    · intro p hp hpk
      have : p.1 = j := by
        rcases hd.cells with e | e <;> rw [e] at hp <;> simp at hp <;> rcases hp with rfl | rfl <;>
          first | rfl | exact absurd rfl hpk
      show σ.x p.1 = _
      rw [this, hq0]; rfl
  have eyr : ∀ r, r ≠ i → τ.y r = σ.y r := fun r hr => by
    rw [e0, hfold]
    show upd σ2.y i _ r = _
    rw [upd_ne _ _ hr, y2, upd_ne _ _ hr]
  have ezr : ∀ p, p ≠ k → τ.z p = σ.z p := fun p hp => by
    rw [e0, hfold]
    show upd σ.z k _ p = _
    rw [upd_ne _ _ hp]
  have ezk : (τ.z k).toQ = 0 := by
    rw [e0, hfold]
    show (upd σ.z k (D.sub (.fin (s.c k)) (D.smul (scanCoef k 0 (s.A i)) ((upd σ.y i (.fin (s.c k / aik))) i))) k).toQ = 0
    rw [upd_same, scan_coef g hmem, upd_same, D.smul_fin, D.sub_fin, D.toQ_fin]
    field_simp; ring
  have exr : ∀ p, p ≠ k → τ.x p = σ.x p := fun p hp => by rw [ex, upd_ne _ _ hp]
  have exq : (fun p => (τ.x p).toQ) = setAt (fun p => (σ.x p).toQ) k (partner aij aik b (σ.x j).toQ) := by
    funext p
    by_cases e : p = k
    · subst e; rw [setAt_same, ex, upd_same]; rfl
    · rw [setAt_ne _ _ e, exr p e]
  -- rows
  have hrowi : dot (s.A i) (fun p => (τ.x p).toQ) = b := by
    rw [exq]
    rcases hd.cells with e | e <;> rw [e] <;>
      simp only [dot, List.map_cons, List.map_nil, List.sum_cons, List.sum_nil, setAt_same, setAt_ne _ _ hjk] <;>
      unfold partner <;> field_simp <;> ring
  have hside : ∀ r, r ≠ i → (s.rtag r).inactive = false → ∃ δ,
      dot (s.A r) (fun p => (τ.x p).toQ) = dot (t.A r) (fun p => (σ.x p).toQ) + δ ∧
      ((s.rtag r).lhsInf = false → ∀ w, t.lhs r = .fin w → s.lhs r = .fin (w + δ)) ∧
      ((s.rtag r).rhsInf = false → ∀ w, t.rhs r = .fin w → s.rhs r = .fin (w + δ)) := by
    intro r hri hra
    rw [exq]
    by_cases hh : ∃ a, (r, a) ∈ s.AT k
    · obtain ⟨a, ha⟩ := hh
      have hcell : (k, a) ∈ s.A r := (g.agree r k a (g.rowActive hra) (g.colActive hd.colk)).mpr ha
      have hcoef : coefAt k (s.A r) = a := coefAt_cell (g.rowSorted r) hcell
      obtain ⟨h1, h2, h3⟩ := hd.hit r a hri ha
      refine ⟨a / aik * b, ?_, fun hi w hw => newSide_back hi (by rw [← h2]; exact hw),
        fun hi w hw => newSide_back hi (by rw [← h3]; exact hw)⟩
      rw [h1, dot_newRow hjk (hv r a hri ha)]
      have g1 := dot_without k (s.A r) (fun p => (σ.x p).toQ)
      have g2 := dot_without k (s.A r) (setAt (fun p => (σ.x p).toQ) k (partner aij aik b (σ.x j).toQ))
      have g3 : dot (without k (s.A r)) (setAt (fun p => (σ.x p).toQ) k (partner aij aik b (σ.x j).toQ)) =
          dot (without k (s.A r)) (fun p => (σ.x p).toQ) :=
        dot_congr (fun p hp => setAt_ne _ _ (mem_without.mp hp).2)
      rw [g2, g3, setAt_same, g1, hcoef]
      unfold partner
      field_simp
      ring
    · have hh' : ∀ a, (r, a) ∉ s.AT k := fun a ha => hh ⟨a, ha⟩
      obtain ⟨h1, h2, h3⟩ := hd.miss r hri hh'
      refine ⟨0, ?_, fun _ w hw => by rw [← h2, hw, add_zero], fun _ w hw => by rw [← h3, hw, add_zero]⟩
      rw [h1, add_zero]
      exact dot_congr (fun p hp => setAt_ne _ _ (g.noCol hra hd.colk hh' p hp))
  have hrows : RowsIn t σ → RowsIn s τ := by
    intro hin r hra
    by_cases e : r = i
    · subst e
      rw [hrowi]
      exact ⟨fun _ => ⟨b, hlhs, le_refl _⟩, fun _ => ⟨b, hd.rhs, le_refl _⟩⟩
    · obtain ⟨δ, e1, e2, e3⟩ := hside r e hra
      have := hin r (by rw [hrt r e]; exact hra)
      rw [hrt r e] at this
      rw [e1]
      refine ⟨fun hi => ?_, fun hi => ?_⟩
      · obtain ⟨l, hl, hle⟩ := this.1 hi
        exact ⟨_, e2 hi l hl, by linarith⟩
      · obtain ⟨l, hl, hle⟩ := this.2 hi
        exact ⟨_, e3 hi l hl, by linarith⟩
  refine ⟨⟨?_, hstat, ?_, ?_, ?_, ?_⟩, hrows, hrowi, ex⟩
  · intro p hp
    by_cases e : p = k
    · subst e; rw [ex, upd_same]; exact ⟨_, rfl⟩
    · rw [exr p e]; exact h.num p (by rw [hct p e]; exact hp)
  · intro r hra hy
    by_cases e : r = i
    · subst e; rw [hrowi]; exact ⟨htag.1, hlhs⟩
    · rw [eyr r e] at hy
      have := h.lhs r (by rw [hrt r e]; exact hra) hy
      rw [hrt r e] at this
      obtain ⟨δ, e1, e2, -⟩ := hside r e hra
      rw [e1]
      exact ⟨this.1, e2 this.1 _ this.2⟩
  · intro r hra hy
    by_cases e : r = i
    · subst e; rw [hrowi]; exact ⟨htag.2, hd.rhs⟩
    · rw [eyr r e] at hy
      have := h.rhs r (by rw [hrt r e]; exact hra) hy
      rw [hrt r e] at this
      obtain ⟨δ, e1, -, e3⟩ := hside r e hra
      rw [e1]
      exact ⟨this.1, e3 this.1 _ this.2⟩
  · intro p hp hz
    by_cases e : p = k
    · subst e; rw [ezk] at hz; exact absurd hz (lt_irrefl _)
    · rw [ezr p e] at hz
      have := h.lb p (by rw [hct p e]; exact hp) hz
      rw [exr p e, ← hct p e, ← hd.lb]; exact this
  · intro p hp hz
    by_cases e : p = k
    · subst e; rw [ezk] at hz; exact absurd hz (lt_irrefl _)
    · rw [ezr p e] at hz
      have := h.ub p (by rw [hct p e]; exact hp) hz
      rw [exr p e, ← hct p e, ← hd.ub]; exact this

/-- What taking back a bound change moves: nothing or the whole reduced cost. -/
theorem retBoundChange_moved {cells : List Cell} {zj q : ℚ} {implied other : D} {low : Bool}
    (hnd : (cells.map Prod.fst).Nodup) (hm : (j, aij) ∈ cells) (ha : aij ≠ 0) (hz : σ.z j = .fin zj)
    (hx : σ.x j = .fin q) (himp : (if low then zj < 0 else 0 < zj) → implied = .fin q)
    (hoth : (if low then 0 < zj else zj < 0) → other = .fin q) :
    ∃ d, Moved σ (retBoundChange σ i cells j implied other low) i j cells aij d ∧ (d = 0 ∨ d = zj) ∧
      ((if low then zj < 0 else 0 < zj) → d = zj) ∧ ((if low then 0 < zj else zj < 0) → d = 0) := by
  have hall : Moved σ _ i j cells aij zj := moved_all hnd hm ha hz
  unfold retBoundChange
  split
  · rename_i hc
    refine ⟨0, .refl _ _ _ _ _, .inl rfl, fun h => ?_, fun _ => rfl⟩
    exfalso
    rw [hz] at hc
    simp only [Bool.and_eq_true, Bool.or_eq_true, D.le_fin, decide_eq_true_eq, Bool.not_eq_true'] at hc
    cases low with
    | true =>
      have h : zj < 0 := h
      rcases hc.2 with ⟨-, e⟩ | ⟨e, -⟩
      · linarith
      · cases e
    | false =>
      have h : 0 < zj := h
      rcases hc.2 with ⟨e, -⟩ | ⟨-, e⟩
      · cases e
      · linarith
  · rename_i hc
    split
    · rename_i hc2
      refine ⟨0, .refl _ _ _ _ _, .inl rfl, fun h => ?_, fun _ => rfl⟩
      exfalso
      rw [hx, himp h, isEqualFeasTol_self] at hc2
      cases hc2
    · refine ⟨zj, hall, .inr rfl, fun _ => rfl, fun h => ?_⟩
      exfalso
      refine hc ?_
      rw [hx, hz, hoth h, isEqualFeasTol_self, D.le_fin, D.le_fin]
      cases low with
      | true => have h : 0 < zj := h; simp [h.le]
      | false => have h : zj < 0 := h; simp [h.le]

/-- One bound of column `j` that the equality in row `i` implies from a bound of column `k`. -/
theorem KktAt.bound (g : GI s) (hrng : InRng s) (hi : (s.rtag i).inactive = false)
    (hj : (s.ctag j).inactive = false)
    (hc : s.A i = [(j, aij), (k, aik)] ∨ s.A i = [(k, aik), (j, aij)]) (hlhs : s.lhs i = .fin b) (hrhs : s.rhs i = .fin b)
    (htag : (s.rtag i).lhsInf = false ∧ (s.rtag i).rhsInf = false)
    {implied other : D} {low : Bool} (h : KktAt t σ)
    (hrow : dot (s.A i) (fun p => (σ.x p).toQ) = b) (tm : t.m = s.m) (tA : t.A = s.A) (tc : t.c = s.c)
    (tl : t.lhs = s.lhs) (tr : t.rhs = s.rhs) (trt : t.rtag = s.rtag)
    (tct : ∀ p, p ≠ j → t.ctag p = s.ctag p) (tcj : (t.ctag j).inactive = false)
    (tlb : ∀ p, p ≠ j → t.lb p = s.lb p) (tub : ∀ p, p ≠ j → t.ub p = s.ub p)
    (hlow : if low then t.ub j = implied ∧ t.lb j = s.lb j ∧ s.lb j = other ∧ (t.ctag j).lbInf = (s.ctag j).lbInf
      else t.lb j = implied ∧ t.ub j = s.ub j ∧ s.ub j = other ∧ (t.ctag j).ubInf = (s.ctag j).ubInf)
    (htight : σ.x j = implied → if decide (0 < aik * aij) == low then (s.ctag k).lbInf = false ∧ s.lb k = σ.x k
      else (s.ctag k).ubInf = false ∧ s.ub k = σ.x k) :
    KktAt s (retBoundChange σ i (s.A i) j implied other low) ∧
      (retBoundChange σ i (s.A i) j implied other low).x = σ.x := by
  have hmemj : (j, aij) ∈ s.A i := by rcases hc with e | e <;> rw [e] <;> simp
  have hmemk : (k, aik) ∈ s.A i := by rcases hc with e | e <;> rw [e] <;> simp
  have hnd := (g.rowSorted i).nodup
  have hjk : j ≠ k := by
    rintro rfl
    rcases hc with e | e <;> rw [e] at hnd <;> simp at hnd
  have ha : aij ≠ 0 := (g.rowRange i _ hmemj).2.2
  have hta : ∀ p, (t.ctag p).inactive = (s.ctag p).inactive := fun p => by
    by_cases e : p = j
    · subst e; rw [tcj, hj]
    · rw [tct p e]
  have hstat : StatAt s σ := h.stat.frame rfl rfl tm (fun i _ => by rw [tA]) tc (fun _ => by rw [trt]) hta
  obtain ⟨q, hxj⟩ := h.num j tcj
  have hzj := hstat.z j hj
  set Z := s.c j - colSum s (fun i => (σ.y i).toQ) j with hZ
  have hlbj : 0 < Z → t.lb j = σ.x j := fun hp => (h.lb j tcj (by rw [hzj]; exact hp)).2
  have hubj : Z < 0 → t.ub j = σ.x j := fun hp => (h.ub j tcj (by rw [hzj]; exact hp)).2
  have himp : (if low then Z < 0 else 0 < Z) → implied = σ.x j := by
    cases low with
    | true => exact fun hp => hlow.1.symm.trans (hubj hp)
    | false => exact fun hp => hlow.1.symm.trans (hlbj hp)
  have hoth : (if low then 0 < Z else Z < 0) → other = σ.x j := by
    cases low with
    | true => exact fun hp => (hlow.2.1.trans hlow.2.2.1).symm.trans (hlbj hp)
    | false => exact fun hp => (hlow.2.1.trans hlow.2.2.1).symm.trans (hubj hp)
  obtain ⟨d, hM, hd, hd1, hd2⟩ := retBoundChange_moved (i := i) (implied := implied) (other := other) (low := low) hnd hmemj
    ha hzj hxj (fun hp => (himp hp).trans hxj) (fun hp => (hoth hp).trans hxj)
  have hst := StatAt.bound (t := s) (implied := implied) (other := other) (low := low) g hrng hi hj ⟨aij, hmemj⟩ hstat
  generalize retBoundChange σ i (s.A i) j implied other low = τ at hM hst ⊢
  refine ⟨?_, hM.x⟩
  have exq : (fun p => (τ.x p).toQ) = fun p => (σ.x p).toQ := by rw [hM.x]
  have zj' : (τ.z j).toQ = Z - d := by rw [hM.zCol _ hzj]; rfl
  have hoff : ∀ p, p ≠ j → p ≠ k → τ.z p = σ.z p := by
    intro p h1 h2
    refine hM.zOther p (fun hm => ?_)
    rcases hc with e | e <;> rw [e] at hm <;> simp at hm <;> rcases hm with e | e <;> contradiction
  have zk' : (s.ctag k).inactive = false → (τ.z k).toQ = (σ.z k).toQ - aik * (d / aij) := by
    intro hk
    rw [hM.zCell k aik _ hmemk hjk.symm (hstat.z k hk), hstat.z k hk]; rfl
  -- the reduced cost that column `k` gains
  have hgain : d ≠ 0 → if decide (0 < aik * aij) == low then ((s.ctag k).lbInf = false ∧ s.lb k = σ.x k) ∧ 0 ≤ -(aik * (d / aij))
      else ((s.ctag k).ubInf = false ∧ s.ub k = σ.x k) ∧ -(aik * (d / aij)) ≤ 0 := by
    intro hne
    have hdZ : d = Z := hd.resolve_left hne
    have e1 : aik * (d / aij) = aik * aij * (d / (aij * aij)) := by field_simp
    have hsq : 0 < aij * aij := mul_self_pos.mpr ha
    have hside : if low then Z < 0 else 0 < Z := by
      cases low with
      | true =>
        by_contra hn
        have hn : ¬ Z < 0 := hn
        exact hne (hd2 (lt_of_le_of_ne (not_lt.mp hn) (fun e => hne (hdZ.trans e.symm))))
      | false =>
        by_contra hn
        have hn : ¬ 0 < Z := hn
        exact hne (hd2 (lt_of_le_of_ne (not_lt.mp hn) (fun e => hne (hdZ.trans e))))
    have ht := htight (himp hside).symm
    rw [e1, hdZ]
    by_cases hp : 0 < aik * aij
    · rw [decide_eq_true hp] at ht ⊢
      cases low with
      | true =>
        have hside : Z < 0 := hside
        refine ⟨ht, ?_⟩
        have := mul_neg_of_pos_of_neg hp (div_neg_of_neg_of_pos hside hsq)
        linarith
      | false =>
        have hside : 0 < Z := hside
        refine ⟨ht, ?_⟩
        have := mul_pos hp (div_pos hside hsq)
        linarith
    · have hp' := not_lt.mp hp
      rw [decide_eq_false hp] at ht ⊢
      cases low with
      | true =>
        have hside : Z < 0 := hside
        refine ⟨ht, ?_⟩
        have := mul_nonneg_of_nonpos_of_nonpos hp' (div_neg_of_neg_of_pos hside hsq).le
        linarith
      | false =>
        have hside : 0 < Z := hside
        refine ⟨ht, ?_⟩
        have := mul_nonpos_of_nonpos_of_nonneg hp' (div_pos hside hsq).le
        linarith
  refine ⟨?_, hst, ?_, ?_, ?_, ?_⟩
  · rw [hM.x]; exact fun p hp => h.num p (by rw [hta]; exact hp)
  · intro r hr hy
    rw [exq]
    by_cases e : r = i
    · subst e; rw [hrow]; exact ⟨htag.1, hlhs⟩
    · rw [hM.yOther r e] at hy
      have := h.lhs r (by rw [trt]; exact hr) hy
      rwa [trt, tl, tA] at this
  · intro r hr hy
    rw [exq]
    by_cases e : r = i
    · subst e; rw [hrow]; exact ⟨htag.2, hrhs⟩
    · rw [hM.yOther r e] at hy
      have := h.rhs r (by rw [trt]; exact hr) hy
      rwa [trt, tr, tA] at this
  · intro p hp hz
    rw [hM.x]
    by_cases e : p = j
    · subst e
      rw [zj'] at hz
      have hd0 : d = 0 := by
        rcases hd with e | e
        · exact e
        · exfalso; linarith
      have hZp : 0 < Z := by linarith
      cases low with
      | true =>
        have := h.lb p tcj (by rw [hzj]; exact hZp)
        rw [hlow.2.2.2, hlow.2.1] at this; exact this
      | false => exact absurd (hd1 hZp) (by linarith)
    · by_cases ek : p = k
      · subst ek
        rw [zk' hp] at hz
        by_cases hzk : 0 < (σ.z p).toQ
        · have := h.lb p (by rw [hta]; exact hp) hzk
          rwa [tct p e, tlb p e] at this
        · have hne : d ≠ 0 := by
            intro e0; rw [e0] at hz; simp at hz; exact hzk hz
          have hg := hgain hne
          by_cases hb : (decide (0 < aik * aij) == low) = true
          · rw [if_pos hb] at hg; exact hg.1
          · rw [if_neg hb] at hg; linarith [hg.2]
      · rw [hoff p e ek] at hz
        have := h.lb p (by rw [hta]; exact hp) hz
        rwa [tct p e, tlb p e] at this
  · intro p hp hz
    rw [hM.x]
    by_cases e : p = j
    · subst e
      rw [zj'] at hz
      have hd0 : d = 0 := by
        rcases hd with e | e
        · exact e
        · exfalso; linarith
      have hZp : Z < 0 := by linarith
      cases low with
      | false =>
        have := h.ub p tcj (by rw [hzj]; exact hZp)
        rw [hlow.2.2.2, hlow.2.1] at this; exact this
      | true => exact absurd (hd1 hZp) (by linarith)
    · by_cases ek : p = k
      · subst ek
        rw [zk' hp] at hz
        by_cases hzk : (σ.z p).toQ < 0
        · have := h.ub p (by rw [hta]; exact hp) hzk
          rwa [tct p e, tub p e] at this
        · have hne : d ≠ 0 := by
            intro e0; rw [e0] at hz; simp at hz; exact hzk hz
          have hg := hgain hne
          by_cases hb : (decide (0 < aik * aij) == low) = true
          · rw [if_pos hb] at hg; linarith [hg.2]
          · rw [if_neg hb] at hg; exact hg.1
      · rw [hoff p e ek] at hz
        have := h.ub p (by rw [hta]; exact hp) hz
        rwa [tct p e, tub p e] at this

/-- The situation between the two bounds. -/
structure DualMid (i j k : ℕ) (aij aik b : ℚ) (lbk ubk : D) (tag : CTag) (s : St) : Prop where
  mid : DtonMid i j k aij aik b s
  inv : Inv s
  rng : InRng s
  lhs : s.lhs i = .fin b
  tags : (s.rtag i).lhsInf = false ∧ (s.rtag i).rhsInf = false
  lbk : s.lb k = lbk
  ubk : s.ub k = ubk
  tag : s.ctag k = tag

theorem DualMid.gi {i j k : ℕ} {aij aik b : ℚ} {lbk ubk : D} {tag : CTag} {s : St}
    (h : DualMid i j k aij aik b lbk ubk tag s) : GI s := h.inv.gi

/-- Postsolve takes the optimality conditions back to `s` at points that satisfy row `i`. -/
def KktBackAt (i : ℕ) (b : ℚ) (s t : St) : Prop :=
  ∀ σ, KktAt t σ → dot (s.A i) (fun p => (σ.x p).toQ) = b →
    ∃ σ1, replay none t.log σ = replay none s.log σ1 ∧ KktAt s σ1 ∧ (RowsIn t σ → RowsIn s σ1) ∧ σ1.x = σ.x

variable {lbk ubk cand : D} {tag : CTag}

theorem D.smul_notFin {a : ℚ} {d : D} (h : ∀ v, d ≠ .fin v) (v : ℚ) : D.smul a d ≠ .fin v := by
  cases d with
  | fin q => exact absurd rfl (h q)
  | _ =>
    unfold D.smul
    repeat' split
    all_goals first | (simp_all; done) | (unfold D.infOf; repeat' split <;> simp)

theorem D.sub_notFin {c : ℚ} {d : D} (h : ∀ v, d ≠ .fin v) (v : ℚ) : D.sub (.fin c) d ≠ .fin v := by
  cases d with
  | fin q => exact absurd rfl (h q)
  | _ => simp [D.sub, D.add, D.neg]

theorem D.divq_notFin {a : ℚ} {d : D} (h : ∀ v, d ≠ .fin v) (v : ℚ) : D.divq d a ≠ .fin v := by
  cases d with
  | fin q => exact absurd rfl (h q)
  | _ =>
    unfold D.divq
    repeat' split
    all_goals simp_all

theorem implied_tight {q w : ℚ} {d : D} (hj0 : aij ≠ 0) (hk0 : aik ≠ 0) (hrow : aij * q + aik * w = b)
    (h : (.fin q : D) = D.divq (D.sub (.fin b) (D.smul aik d)) aij) : d = .fin w := by
  cases d with
  | fin v =>
    rw [D.smul_fin, D.sub_fin, D.divq_fin hj0] at h
    injection h with h
    congr 1
    rw [eq_div_iff hj0] at h
    have : aik * v = aik * w := by linarith
    exact mul_left_cancel₀ hk0 this
  | pinf =>
    exact absurd h.symm (D.divq_notFin (D.sub_notFin (D.smul_notFin (fun v e => by cases e))) q)
  | ninf =>
    exact absurd h.symm (D.divq_notFin (D.sub_notFin (D.smul_notFin (fun v e => by cases e))) q)
  | nan =>
    exact absurd h.symm (D.divq_notFin (D.sub_notFin (D.smul_notFin (fun v e => by cases e))) q)

theorem dot_two {x : ℕ → ℚ} {cells : List Cell} (hc : cells = [(j, aij), (k, aik)] ∨ cells = [(k, aik), (j, aij)]) :
    dot cells x = aij * x j + aik * x k := by
  rcases hc with e | e <;> rw [e] <;> simp [dot]; ring

theorem updateUb_kkt (h : DualMid i j k aij aik b lbk ubk tag s) {d : D}
    (hd : if 0 < aik * aij then d = lbk ∧ tag.lbInf = false else d = ubk ∧ tag.ubInf = false)
    (hcand : cand = D.divq (D.sub (.fin b) (D.smul aik d)) aij) : KktBackAt i b s (updateUb s j cand i).1 := by
  intro σ hσ hrow
  have hjk : j ≠ k := by
    have hnd := (h.gi.rowSorted i).nodup
    rintro rfl
    rcases h.mid.cells with e | e <;> rw [e] at hnd <;> simp at hnd
  rcases updateUb_eq s j cand i with ⟨st, e⟩ | ⟨a, u, e⟩
  · rw [e] at hσ ⊢
    exact ⟨σ, rfl, hσ.core (by constructor <;> rfl), fun h => h.of_eq rfl rfl rfl rfl rfl, rfl⟩
  · rw [e] at hσ ⊢
    have := KktAt.bound (s := s) (i := i) (j := j) (k := k) (aij := aij) (aik := aik) (b := b) (implied := cand)
      (other := s.lb j) (low := true) h.gi h.rng h.mid.row h.mid.colj h.mid.cells h.lhs h.mid.rhs h.tags hσ hrow rfl rfl rfl
      rfl rfl rfl (fun p hp => upd_ne _ _ hp) (by show (upd s.ctag j _ j).inactive = false; rw [upd_same]; exact h.mid.colj)
      (fun p hp => upd_ne _ _ hp) (fun p hp => upd_ne _ _ hp)
      ⟨upd_same _ _ _, upd_same _ _ _, rfl, by show (upd s.ctag j _ j).lbInf = _; rw [upd_same]⟩ ?_
    · exact ⟨_, rfl, this.1, fun h => h.of_eq rfl rfl rfl rfl this.2, this.2⟩
    · intro hx
      obtain ⟨q, hq⟩ := hσ.num j (by show (upd s.ctag j _ j).inactive = false; rw [upd_same]; exact h.mid.colj)
      obtain ⟨w, hw⟩ := hσ.num k (by show (upd s.ctag j _ k).inactive = false; rw [upd_ne _ _ hjk.symm]; exact h.mid.colk)
      rw [dot_two h.mid.cells, hq, hw] at hrow
      have ht := implied_tight (h.gi.rowRange i _ h.mid.memj).2.2 (h.gi.rowRange i _ h.mid.memk).2.2 hrow
        (d := d) (by rw [← hcand, ← hx, hq]; rfl)
      by_cases hp : 0 < aik * aij
      · rw [if_pos hp] at hd
        rw [decide_eq_true hp, h.lbk, h.tag, ← hd.1, hw, ht]
        exact ⟨hd.2, rfl⟩
      · rw [if_neg hp] at hd
        rw [decide_eq_false hp, h.ubk, h.tag, ← hd.1, hw, ht]
        exact ⟨hd.2, rfl⟩

theorem updateLb_kkt (h : DualMid i j k aij aik b lbk ubk tag s) {d : D}
    (hd : if 0 < aik * aij then d = ubk ∧ tag.ubInf = false else d = lbk ∧ tag.lbInf = false)
    (hcand : cand = D.divq (D.sub (.fin b) (D.smul aik d)) aij) : KktBackAt i b s (updateLb s j cand i).1 := by
  intro σ hσ hrow
  have hjk : j ≠ k := by
    have hnd := (h.gi.rowSorted i).nodup
    rintro rfl
    rcases h.mid.cells with e | e <;> rw [e] at hnd <;> simp at hnd
  rcases updateLb_eq s j cand i with ⟨st, e⟩ | ⟨a, u, e⟩
  · rw [e] at hσ ⊢
    exact ⟨σ, rfl, hσ.core (by constructor <;> rfl), fun h => h.of_eq rfl rfl rfl rfl rfl, rfl⟩
  · rw [e] at hσ ⊢
    have := KktAt.bound (s := s) (i := i) (j := j) (k := k) (aij := aij) (aik := aik) (b := b) (implied := cand)
      (other := s.ub j) (low := false) h.gi h.rng h.mid.row h.mid.colj h.mid.cells h.lhs h.mid.rhs h.tags hσ hrow rfl rfl rfl
      rfl rfl rfl (fun p hp => upd_ne _ _ hp) (by show (upd s.ctag j _ j).inactive = false; rw [upd_same]; exact h.mid.colj)
      (fun p hp => upd_ne _ _ hp) (fun p hp => upd_ne _ _ hp)
      ⟨upd_same _ _ _, upd_same _ _ _, rfl, by show (upd s.ctag j _ j).ubInf = _; rw [upd_same]⟩ ?_
    · exact ⟨_, rfl, this.1, fun h => h.of_eq rfl rfl rfl rfl this.2, this.2⟩
    · intro hx
      obtain ⟨q, hq⟩ := hσ.num j (by show (upd s.ctag j _ j).inactive = false; rw [upd_same]; exact h.mid.colj)
      obtain ⟨w, hw⟩ := hσ.num k (by show (upd s.ctag j _ k).inactive = false; rw [upd_ne _ _ hjk.symm]; exact h.mid.colk)
      rw [dot_two h.mid.cells, hq, hw] at hrow
      have ht := implied_tight (h.gi.rowRange i _ h.mid.memj).2.2 (h.gi.rowRange i _ h.mid.memk).2.2 hrow
        (d := d) (by rw [← hcand, ← hx, hq]; rfl)
      by_cases hp : 0 < aik * aij
      · rw [if_pos hp] at hd
        rw [decide_eq_true hp, h.ubk, h.tag, ← hd.1, hw, ht]
        exact ⟨hd.2, rfl⟩
      · rw [if_neg hp] at hd
        rw [decide_eq_false hp, h.lbk, h.tag, ← hd.1, hw, ht]
        exact ⟨hd.2, rfl⟩

theorem DualMid.ne (h : DualMid i j k aij aik b lbk ubk tag s) : j ≠ k := by
  have hnd := (h.gi.rowSorted i).nodup
  rintro rfl
  rcases h.mid.cells with e | e <;> rw [e] at hnd <;> simp at hnd

variable {μ : Mode}

theorem DualMid.updateUb (h : DualMid i j k aij aik b lbk ubk tag s) (o : Ok μ (Verif.updateUb s j cand i).1) :
    DualMid i j k aij aik b lbk ubk tag (Verif.updateUb s j cand i).1 ∧ (Verif.updateUb s j cand i).1.A i = s.A i := by
  obtain ⟨r, m⟩ := ((updateUb_good μ _ (DtonMid.stable i j k aij aik b) s j cand i
    (fun _ h => ⟨h.row, _, h.memj⟩)) o).2 h.inv h.mid
  have hf : (Verif.updateUb s j cand i).1.A = s.A ∧ (Verif.updateUb s j cand i).1.lhs = s.lhs ∧
      (Verif.updateUb s j cand i).1.rtag = s.rtag ∧ (Verif.updateUb s j cand i).1.lb k = s.lb k ∧
      (Verif.updateUb s j cand i).1.ub k = s.ub k ∧ (Verif.updateUb s j cand i).1.ctag k = s.ctag k := by
    rcases updateUb_eq s j cand i with ⟨st, e⟩ | ⟨a, u, e⟩
    · rw [e]; exact ⟨rfl, rfl, rfl, rfl, rfl, rfl⟩
    · rw [e]; exact ⟨rfl, rfl, rfl, upd_ne _ _ h.ne.symm, upd_ne _ _ h.ne.symm, upd_ne _ _ h.ne.symm⟩
  obtain ⟨f1, f2, f3, f4, f5, f6⟩ := hf
  exact ⟨⟨m, r.inv h.inv, r.steps.inRng h.gi h.rng, by rw [f2]; exact h.lhs, by rw [f3]; exact h.tags,
    by rw [f4]; exact h.lbk, by rw [f5]; exact h.ubk, by rw [f6]; exact h.tag⟩, by rw [f1]⟩

theorem DualMid.updateLb (h : DualMid i j k aij aik b lbk ubk tag s) (o : Ok μ (Verif.updateLb s j cand i).1) :
    DualMid i j k aij aik b lbk ubk tag (Verif.updateLb s j cand i).1 ∧ (Verif.updateLb s j cand i).1.A i = s.A i := by
  obtain ⟨r, m⟩ := ((updateLb_good μ _ (DtonMid.stable i j k aij aik b) s j cand i
    (fun _ h => ⟨h.row, _, h.memj⟩)) o).2 h.inv h.mid
  have hf : (Verif.updateLb s j cand i).1.A = s.A ∧ (Verif.updateLb s j cand i).1.lhs = s.lhs ∧
      (Verif.updateLb s j cand i).1.rtag = s.rtag ∧ (Verif.updateLb s j cand i).1.lb k = s.lb k ∧
      (Verif.updateLb s j cand i).1.ub k = s.ub k ∧ (Verif.updateLb s j cand i).1.ctag k = s.ctag k := by
    rcases updateLb_eq s j cand i with ⟨st, e⟩ | ⟨a, u, e⟩
    · rw [e]; exact ⟨rfl, rfl, rfl, rfl, rfl, rfl⟩
    · rw [e]; exact ⟨rfl, rfl, rfl, upd_ne _ _ h.ne.symm, upd_ne _ _ h.ne.symm, upd_ne _ _ h.ne.symm⟩
  obtain ⟨f1, f2, f3, f4, f5, f6⟩ := hf
  exact ⟨⟨m, r.inv h.inv, r.steps.inRng h.gi h.rng, by rw [f2]; exact h.lhs, by rw [f3]; exact h.tags,
    by rw [f4]; exact h.lbk, by rw [f5]; exact h.ubk, by rw [f6]; exact h.tag⟩, by rw [f1]⟩

theorem KktBackAt.refl (i : ℕ) (b : ℚ) (s : St) : KktBackAt i b s s := fun σ h _ => ⟨σ, rfl, h, id, rfl⟩

theorem KktBackAt.trans (h : KktBackAt i b s t) (h' : KktBackAt i b t u) (hA : t.A i = s.A i) : KktBackAt i b s u := by
  intro σ hσ hrow
  obtain ⟨σ1, e1, k1, r1, x1⟩ := h' σ hσ (by rw [hA]; exact hrow)
  obtain ⟨σ2, e2, k2, r2, x2⟩ := h σ1 k1 (by rw [x1]; exact hrow)
  exact ⟨σ2, e1.trans e2, k2, fun hr => r2 (r1 hr), x2.trans x1⟩

/-- `modify_bounds`. -/
theorem modifyBounds_kkt (h : DualMid i j k aij aik b lbk ubk tag s)
    (o : Ok μ (modifyBounds s i aij aik (.fin b) lbk ubk j tag)) :
    KktBackAt i b s (modifyBounds s i aij aik (.fin b) lbk ubk j tag) ∧
      DualMid i j k aij aik b lbk ubk tag (modifyBounds s i aij aik (.fin b) lbk ubk j tag) ∧
      (modifyBounds s i aij aik (.fin b) lbk ubk j tag).A i = s.A i := by
  have okU : ∀ (s : St) (v : D), Ok μ (Verif.updateUb s j v i).1 → Ok μ s := fun s v =>
    (updateUb_good μ _ (DtonMid.stable i j k aij aik b) s j v i (fun _ h => ⟨h.row, _, h.memj⟩)).ok
  have okL : ∀ (s : St) (v : D), Ok μ (Verif.updateLb s j v i).1 → Ok μ s := fun s v =>
    (updateLb_good μ _ (DtonMid.stable i j k aij aik b) s j v i (fun _ h => ⟨h.row, _, h.memj⟩)).ok
  unfold modifyBounds at o ⊢
  simp only at o ⊢
  by_cases hp : 0 < aik * aij
  · rw [if_pos hp] at o ⊢
    have first : Ok μ (if tag.lbInf then s else (Verif.updateUb s j (((D.fin b).sub (D.smul aik lbk)).divq aij) i).1) →
        KktBackAt i b s (if tag.lbInf then s else (Verif.updateUb s j (((D.fin b).sub (D.smul aik lbk)).divq aij) i).1) ∧
        DualMid i j k aij aik b lbk ubk tag
          (if tag.lbInf then s else (Verif.updateUb s j (((D.fin b).sub (D.smul aik lbk)).divq aij) i).1) ∧
        (if tag.lbInf then s else (Verif.updateUb s j (((D.fin b).sub (D.smul aik lbk)).divq aij) i).1).A i = s.A i := by
      intro o
      split at o
      · rename_i e
        rw [if_pos e]
        exact ⟨.refl _ _ _, h, rfl⟩
      · rename_i e
        rw [if_neg e]
        exact ⟨updateUb_kkt h (d := lbk) (by rw [if_pos hp]; exact ⟨rfl, by simpa using e⟩) rfl, h.updateUb o⟩
    generalize (if tag.lbInf then s else (Verif.updateUb s j (((D.fin b).sub (D.smul aik lbk)).divq aij) i).1) = v
      at first o ⊢
    split at o
    · rename_i e
      rw [if_pos e]; exact first o
    · rename_i e
      rw [if_neg e]
      split at o
      · rename_i e'
        rw [if_pos e']; exact first o
      · rename_i e'
        rw [if_neg e']
        obtain ⟨f1, f2, f3⟩ := first (okL _ _ o)
        obtain ⟨g1, g2⟩ := f2.updateLb o
        exact ⟨f1.trans (updateLb_kkt f2 (d := ubk) (by rw [if_pos hp]; exact ⟨rfl, by simpa using e'⟩) rfl) f3, g1,
          g2.trans f3⟩
  · rw [if_neg hp] at o ⊢
    have first : Ok μ (if tag.lbInf then s else (Verif.updateLb s j (((D.fin b).sub (D.smul aik lbk)).divq aij) i).1) →
        KktBackAt i b s (if tag.lbInf then s else (Verif.updateLb s j (((D.fin b).sub (D.smul aik lbk)).divq aij) i).1) ∧
        DualMid i j k aij aik b lbk ubk tag
          (if tag.lbInf then s else (Verif.updateLb s j (((D.fin b).sub (D.smul aik lbk)).divq aij) i).1) ∧
        (if tag.lbInf then s else (Verif.updateLb s j (((D.fin b).sub (D.smul aik lbk)).divq aij) i).1).A i = s.A i := by
      intro o
      split at o
      · rename_i e
        rw [if_pos e]
        exact ⟨.refl _ _ _, h, rfl⟩
      · rename_i e
        rw [if_neg e]
        exact ⟨updateLb_kkt h (d := lbk) (by rw [if_neg hp]; exact ⟨rfl, by simpa using e⟩) rfl, h.updateLb o⟩
    generalize (if tag.lbInf then s else (Verif.updateLb s j (((D.fin b).sub (D.smul aik lbk)).divq aij) i).1) = v
      at first o ⊢
    split at o
    · rename_i e
      rw [if_pos e]; exact first o
    · rename_i e
      rw [if_neg e]
      split at o
      · rename_i e'
        rw [if_pos e']; exact first o
      · rename_i e'
        rw [if_neg e']
        obtain ⟨f1, f2, f3⟩ := first (okU _ _ o)
        obtain ⟨g1, g2⟩ := f2.updateUb o
        exact ⟨f1.trans (updateUb_kkt f2 (d := ubk) (by rw [if_neg hp]; exact ⟨rfl, by simpa using e'⟩) rfl) f3, g1,
          g2.trans f3⟩

/-- One substitution after the bounds have been modified. -/
theorem dtonExec_kkt (hμ : μ.round = false) (buf : List ℕ) (h : DualMid i j k aij aik b lbk ubk tag s)
    (o : Ok μ (dtonExecute (dtonPrep s i j k aij aik) i ((s.A i).take 2) j k aij aik buf
      ((dtonPrep s i j k aij aik).c k)).1) (hu : KktBackAt i b u s) (hA : s.A i = u.A i) :
    ∀ σ, KktAt (dtonExecute (dtonPrep s i j k aij aik) i ((s.A i).take 2) j k aij aik buf
        ((dtonPrep s i j k aij aik).c k)).1 σ →
      ∃ σ1, replay none (dtonExecute (dtonPrep s i j k aij aik) i ((s.A i).take 2) j k aij aik buf
        ((dtonPrep s i j k aij aik).c k)).1.log σ = replay none u.log σ1 ∧ KktAt u σ1 ∧
        (RowsIn (dtonExecute (dtonPrep s i j k aij aik) i ((s.A i).take 2) j k aij aik buf
          ((dtonPrep s i j k aij aik).c k)).1 σ → RowsIn u σ1) ∧
        σ1.x = upd σ.x k (.fin (partner aij aik b (σ.x j).toQ)) := by
  obtain ⟨-, -, -, -, out, hv⟩ := dtonExec_run buf h.inv h.mid o
  rw [hμ] at hv
  intro σ hσ
  obtain ⟨τ, e1, k1, r1, w1, x1⟩ := hσ.dton h.gi h.rng out (hv.resolve_left (by simp)) h.lhs h.tags
  obtain ⟨σ1, e2, k2, r2, x2⟩ := hu τ k1 (by rw [← hA]; exact w1)
  exact ⟨σ1, e1.trans e2, k2, fun hr => r2 (r1 hr), x2.trans x1⟩

theorem RowTags.lup (h : RowTags s) (l : Lup s t) (o : t.asrt = true) : RowTags t :=
  ⟨l.weak h.1, l.tag o h.1 h.2⟩

/-- A row with two sides that are numbers is not tagged otherwise. -/
theorem RowTags.both (h : RowTags s) (hl : s.lhs i = .fin b) (hr : s.rhs i = .fin b) :
    (s.rtag i).lhsInf = false ∧ (s.rtag i).rhsInf = false := by
  constructor
  · by_contra hc
    have := (h.2 i).lInf (by simpa using hc)
    rw [hl] at this; cases this
  · by_contra hc
    have := (h.2 i).rInf (by simpa using hc)
    rw [hr] at this; cases this

theorem modifyBounds_rtag (s : St) (i : ℕ) (aij aik : ℚ) (rhs lbk ubk : D) (j : ℕ) (tag : CTag) :
    (modifyBounds s i aij aik rhs lbk ubk j tag).rtag = s.rtag := by
  have hU : ∀ (s : St) (v : D), (Verif.updateUb s j v i).1.rtag = s.rtag := fun s v => by
    rcases updateUb_eq s j v i with ⟨st, e⟩ | ⟨a, u, e⟩ <;> rw [e] <;> rfl
  have hL : ∀ (s : St) (v : D), (Verif.updateLb s j v i).1.rtag = s.rtag := fun s v => by
    rcases updateLb_eq s j v i with ⟨st, e⟩ | ⟨a, u, e⟩ <;> rw [e] <;> rfl
  unfold modifyBounds
  simp only
  repeat' split
  all_goals simp only [hU, hL]

/-- What `dtonStep` does when a substitution is found. -/
theorem dtonStep_subst (hμ : μ.round = false) (env : Env) (buf : List ℕ) (red : Bool) (inv : Inv s) (rng : InRng s)
    (cl : Clean s) (two : (s.A i).length = 2) (he : RowTags s) {s1 : St}
    (hf : findSubst env s i = (s1, .subst j k aij aik)) (o : Ok μ (dtonStep env (s, buf, red) i).1) :
    ∃ b, s.lhs i = .fin b ∧ s.rhs i = .fin b ∧
      (s.A i = [(j, aij), (k, aik)] ∨ s.A i = [(k, aik), (j, aij)]) ∧
      (∀ σ, KktAt (dtonStep env (s, buf, red) i).1 σ →
        ∃ σ1, replay none (dtonStep env (s, buf, red) i).1.log σ = replay none s.log σ1 ∧ KktAt s σ1 ∧
          (RowsIn (dtonStep env (s, buf, red) i).1 σ → RowsIn s σ1) ∧
          σ1.x = upd σ.x k (.fin (partner aij aik b (σ.x j).toQ))) ∧
      (dtonStep env (s, buf, red) i).1.rtag = upd s.rtag i { inactive := true } ∧
      (dtonStep env (s, buf, red) i).1.ctag k = { fixed := true, subst := true } := by
  have hsc : ∃ t, s1 = { dtonChecked s i with tick := t } := by
    rcases findSubst_out env s i with h | ⟨_, ⟨h, hl⟩ | ⟨t, plan', h⟩⟩
    · rw [hf] at h; cases h
    · omega
    · rw [hf] at h; obtain ⟨e, -⟩ := Prod.mk.inj h; exact ⟨t, e⟩
  obtain ⟨tk, hs1⟩ := hsc
  obtain ⟨_, hcells, hj, hk, _⟩ := findSubst_subst hf two
  have sc : SameCore s s1 := by rw [hs1]; exact dtonChecked_same s i tk
  generalize hr : dtonStep env (s, buf, red) i = r at o ⊢
  unfold dtonStep at hr
  simp only at hr
  rw [hf] at hr
  simp only at hr
  generalize hs2 : modifyBounds s1 i aij aik (s1.rhs i) (s1.lb k) (s1.ub k) j (s1.ctag k) = s2 at hr
  have hok2 : Ok μ s2 := by
    split at hr
    · subst hr; exact o
    · subst hr
      exact (Le.trans (t := dtonPrep s2 i j k aij aik) (.eq rfl rfl) (dtonExecute_le _ _ _ _ _ _ _ _ _)).ok o
  have hok1 : Ok μ s1 := by rw [← hs2] at hok2; exact modifyBounds_ok hok2
  have hchk : Ok μ (dtonChecked s i) := by rw [hs1] at hok1; exact ⟨hok1.1, hok1.2⟩
  obtain ⟨-, hrow, b, hb⟩ := dtonChecked_ok hchk
  have hasrt : ((s.asrt && ((s.rtag i).eq && !(s.rtag i).inactive)) && (D.eqb (s.lhs i) (s.rhs i) && !D.isInf (s.rhs i)))
      = true := hchk.1
  simp only [Bool.and_eq_true] at hasrt
  have hl : s.lhs i = .fin b := by
    have := hasrt.2.1
    rw [hb] at this
    cases hs : s.lhs i <;> rw [hs] at this <;> simp [D.eqb] at this
    rw [this]
  have htags := he.both hl hb
  have dm : DualMid i j k aij aik b (s1.lb k) (s1.ub k) (s1.ctag k) s1 := by
    have run : Run μ s s1 := by
      rw [hs1]; exact .of_same (dtonChecked_same s i tk) rfl rfl rfl
    refine ⟨⟨sc.clean cl, by rw [sc.rtag]; exact hrow, by rw [sc.A]; exact hcells, by rw [sc.ctag]; exact hj,
      by rw [sc.ctag]; exact hk, by rw [sc.rhs]; exact hb⟩, run.inv inv, run.steps.inRng inv.gi rng,
      by rw [sc.lhs]; exact hl, by rw [sc.rtag]; exact htags, rfl, rfl, rfl⟩
  have hb1 : s1.rhs i = .fin b := dm.mid.rhs
  rw [hb1] at hs2
  have hmb := modifyBounds_kkt (μ := μ) dm (by rw [hs2]; exact hok2)
  have hrt2 := modifyBounds_rtag s1 i aij aik (.fin b) (s1.lb k) (s1.ub k) j (s1.ctag k)
  rw [hs2] at hmb hrt2
  obtain ⟨m1, m2, m3⟩ := hmb
  rw [if_neg (by rw [m2.mid.colj]; simp)] at hr
  change ((dtonExecute (dtonPrep s2 i j k aij aik) i ((s2.A i).take 2) j k aij aik buf
        ((dtonPrep s2 i j k aij aik).c k)).1,
        (dtonExecute (dtonPrep s2 i j k aij aik) i ((s2.A i).take 2) j k aij aik buf
        ((dtonPrep s2 i j k aij aik).c k)).2, true) = r at hr
  subst hr
  have out := (dtonExec_run buf m2.inv m2.mid o).2.2.2.2.1
  refine ⟨b, hl, hb, hcells, fun σ hσ => ?_, by rw [out.rtag, hrt2, sc.rtag], by rw [out.ctag, upd_same]⟩
  obtain ⟨σ1, e1, k1, r1, x1⟩ := dtonExec_kkt hμ buf m2 o m1 m3 σ hσ
  exact ⟨σ1, e1.trans (by rw [sc.log]), k1.core sc, fun hr => (r1 hr).of_eq sc.rtag sc.A sc.lhs sc.rhs rfl, x1⟩

theorem dtonStep_kkt (hμ : μ.round = false) (env : Env) {L : List ℕ} {N : ℕ} (buf : List ℕ) (red : Bool) (inv : Inv s)
    (rng : InRng s) (hi : i ∈ L) (hI : DtonInv L buf red N s) (he : RowTags s) (o : Ok μ (dtonStep env (s, buf, red) i).1) :
    KktBack s (dtonStep env (s, buf, red) i).1 ∧ RowTags (dtonStep env (s, buf, red) i).1 := by
  refine ⟨?_, he.lup (dtonStep_lup env (s, buf, red) i) o.1⟩
  rcases hf : findSubst env s i with ⟨s1, plan⟩
  have hsame : plan ≠ .skip → SameCore s s1 ∧ (s.A i).length = 2 := by
    intro hp
    rcases findSubst_out env s i with h | ⟨hsz, ⟨h, hl⟩ | ⟨t, plan', h⟩⟩
    · rw [hf] at h; exact absurd (Prod.mk.inj h).2 hp
    · rw [hf] at h; exact absurd (Prod.mk.inj h).2 hp
    · rw [hf] at h
      obtain ⟨rfl, -⟩ := Prod.mk.inj h
      have h1 := inv.gi.rowSz i (by omega)
      have h2 := hI.short i hi
      exact ⟨dtonChecked_same s i t, by omega⟩
  cases plan with
  | skip =>
    have hs : SameCore s s1 := by
      rcases findSubst_out env s i with h | ⟨hsz, ⟨h, hl⟩ | ⟨t, plan', h⟩⟩
      · rw [hf] at h; obtain ⟨rfl, -⟩ := Prod.mk.inj h; constructor <;> rfl
      · have := inv.gi.rowSz i (by omega)
        omega
      · rw [hf] at h; obtain ⟨rfl, -⟩ := Prod.mk.inj h; exact dtonChecked_same s i t
    have e : (dtonStep env (s, buf, red) i).1 = s1 := by unfold dtonStep; simp only; rw [hf]
    rw [e]
    exact .core hs
  | retry =>
    have hs := (hsame (by simp)).1
    have e : (dtonStep env (s, buf, red) i).1 = s1 := by unfold dtonStep; simp only; rw [hf]
    rw [e]
    exact .core hs
  | subst j k aij aik =>
    obtain ⟨b, -, -, -, hk, hrt, hct⟩ := dtonStep_subst hμ env buf red inv rng hI.clean (hsame (by simp)).2 he hf o
    intro σ hσ
    obtain ⟨σ1, e1, k1, r1, x1⟩ := hk σ hσ
    refine ⟨σ1, e1, k1, r1, fun p hp => ?_⟩
    have : p ≠ k := by rintro rfl; rw [hct] at hp; cases hp
    rw [x1, upd_ne _ _ this]

theorem KktBack.run {s t u : St} (h : KktBack s t) (h' : KktBack t u) (r : Run μ t u) (inv : Inv t) : KktBack s u :=
  h.trans h' (fun k hk => by
    by_contra hc
    have := (r.mono inv).colIn k (by simpa using hc)
    rw [hk] at this; cases this)

theorem dtonSteps_kkt (hμ : μ.round = false) (env : Env) (L : List ℕ) (N : ℕ) (M : List ℕ) (hM : ∀ i ∈ M, i ∈ L)
    (s : St) (buf : List ℕ) (red : Bool) (inv : Inv s) (rng : InRng s) (hI : DtonInv L buf red N s) (he : RowTags s)
    (o : Ok μ (M.foldl (dtonStep env) (s, buf, red)).1) :
    KktBack s (M.foldl (dtonStep env) (s, buf, red)).1 ∧ RowTags (M.foldl (dtonStep env) (s, buf, red)).1 := by
  induction M generalizing s buf red with
  | nil => exact ⟨.refl _, he⟩
  | cons i M ih =>
    have hg := dtonSteps_good μ env L N M (fun i hi => hM i (List.mem_cons_of_mem _ hi)) (dtonStep env (s, buf, red) i).1
      (dtonStep env (s, buf, red) i).2.1 (dtonStep env (s, buf, red) i).2.2
    rw [List.foldl_cons] at o ⊢
    have o1 : Ok μ (dtonStep env (s, buf, red) i).1 := hg.ok o
    obtain ⟨k1, he1⟩ := dtonStep_kkt hμ env buf red inv rng (hM i List.mem_cons_self) hI he o1
    obtain ⟨r1, hI1⟩ := (dtonStep_good μ env L buf red N i (hM i List.mem_cons_self) s o1).2 inv hI
    have inv1 := r1.inv inv
    have rng1 := r1.steps.inRng inv.gi rng
    obtain ⟨k2, he2⟩ := ih (fun i hi => hM i (List.mem_cons_of_mem _ hi)) _ _ _ inv1 rng1 hI1 he1 o
    exact ⟨k1.run k2 ((hg o).2 inv1 hI1).1 inv1, he2⟩

theorem dtonRound_kkt (hμ : μ.round = false) (env : Env) (s : St) (inv : Inv s) (rng : InRng s) (cl : Clean s)
    (he : RowTags s) (o : Ok μ (dtonRound env s).1) : KktBack s (dtonRound env s).1 ∧ RowTags (dtonRound env s).1 := by
  refine ⟨?_, he.lup (dtonRound_lup env s) o.1⟩
  unfold dtonRound at o ⊢
  simp only at o ⊢
  have hI : DtonInv s.dtonRows [] false (live s) s := ⟨cl, inv.dton, by simp, le_refl _, by simp⟩
  have o' : Ok μ (s.dtonRows.foldl (dtonStep env) (s, [], false)).1 := ⟨o.1, o.2⟩
  obtain ⟨k1, he1⟩ := dtonSteps_kkt hμ env s.dtonRows (live s) s.dtonRows (fun _ h => h) s [] false inv rng hI he o'
  generalize s.dtonRows.foldl (dtonStep env) (s, [], false) = r at k1 he1
  have sc : SameCore r.1 { r.1 with dtonRows := r.2.1 } := by constructor <;> rfl
  exact k1.trans (.core sc) (fun _ h => h)

theorem dtonLoop_kkt (hμ : μ.round = false) (env : Env) (fuel : ℕ) (s : St) (inv : Inv s) (rng : InRng s)
    (cl : Clean s) (hl : live s < fuel) (he : RowTags s) (o : Ok μ (dtonLoop env fuel s)) :
    KktBack s (dtonLoop env fuel s) := by
  induction fuel generalizing s with
  | zero => omega
  | succ fuel ih =>
    have hg := fun s1 => dtonLoop_good μ env fuel s1
    unfold dtonLoop at o ⊢
    split
    · exact .refl _
    · rename_i hne
      rw [if_neg hne] at o
      have hround := dtonRound_good μ env fuel s
      have hk := dtonRound_kkt hμ env s inv rng cl he
      simp only at o ⊢
      generalize dtonRound env s = r at hround hk o
      obtain ⟨s1, red⟩ := r
      simp only at hround hk o ⊢
      split
      · rename_i hr
        rw [if_pos hr] at o
        have o1 := (hg s1).ok o
        obtain ⟨r1, c1, -, l1⟩ := (hround o1).2 inv ⟨cl, by omega⟩
        obtain ⟨k1, he1⟩ := hk o1
        have inv1 := r1.inv inv
        have rng1 := r1.steps.inRng inv.gi rng
        exact k1.run (ih s1 inv1 rng1 c1 (l1 hr) he1 o) ((hg s1 o).2 inv1 ⟨c1, l1 hr⟩).1 inv1
      · rename_i hr
        rw [if_neg hr] at o
        exact (hk o).1

/-- `remove_dton_eq_rows`. -/
theorem removeDtonRows_kkt (hμ : μ.round = false) (env : Env) (s : St) (inv : Inv s) (rng : InRng s) (cl : Clean s)
    (he : RowTags s) (o : Ok μ (removeDtonRows env s)) : KktBack s (removeDtonRows env s) := by
  unfold removeDtonRows at o ⊢
  simp only at o ⊢
  generalize hs1 : ((s.check (decide (s.stonRows = []))).check (decide (s.emptyRows = []))).check
    (decide (s.emptyCols = [])) = s1 at o ⊢
  have sc : SameCore s s1 := by rw [← hs1]; constructor <;> rfl
  have run : Run μ s s1 := by rw [← hs1]; exact .of_same (by constructor <;> rfl) rfl rfl rfl
  have inv1 := run.inv inv
  have rng1 := run.steps.inRng inv.gi rng
  have hl : live s1 < s1.m + 1 := by
    have : live s1 ≤ s1.m := (Finset.card_filter_le _ _).trans (by simp)
    omega
  have hg := dtonLoop_good μ env (s1.m + 1) s1
  have hk : Ok μ (dtonLoop env (s1.m + 1) s1) → KktBack s1 (dtonLoop env (s1.m + 1) s1) := fun o =>
    dtonLoop_kkt hμ env (s1.m + 1) s1 inv1 rng1 (sc.clean cl) hl
      (he.lup (by rw [← hs1]; exact ((Lup.check _ _).trans (.check _ _)).trans (.check _ _)) (hg.ok o).1) o
  generalize dtonLoop env (s1.m + 1) s1 = s2 at o hg hk ⊢
  have o2 : Ok μ s2 := by
    split at o
    · exact o
    · exact (delCols_good μ Clean Clean s2 (fun h => h.1) (fun _ _ h => ⟨h.noRows, h.noFixed, h.noSub⟩)).ok o
  obtain ⟨r2, c2⟩ := (hg o2).2 inv1 ⟨sc.clean cl, hl⟩
  rw [if_pos c2.2.1]
  exact (KktBack.core sc).run (hk o2) r2 inv1

end
end Verif
