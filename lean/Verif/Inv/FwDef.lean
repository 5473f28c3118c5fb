import Verif.Inv.PtDton
import Verif.Inv.LiveEnd
import Verif.Props.C32_Dton

/-!
# Points and rays of the problem that is left

`FeasPt s` is about the problem that is left in `s`.  `Fwd s t` compares two such problems: a feasible point of the
first leads to one of the second that is no worse, and a direction of the second in which the objective falls for
ever leads to one of the first.  Nothing refers to the original problem or to the records, so the notion also covers
substitutions.
-/

namespace Verif

/-- The objective of the problem that is left, with the offset. -/
def costAt (s : St) (x : ℕ → ℚ) : ℚ := s.off.toQ + objP s x

/-- The offset is a number; columns that wait for deletion have equal bounds and are not substituted. -/
structure Ef (s : St) : Prop where
  off : ∃ o, s.off = .fin o
  fix : ∀ k ∈ s.fixedCols, (∃ q, s.lb k = .fin q ∧ s.ub k = .fin q) ∧ (s.ctag k).subst = false

/-- A direction of the problem that is left in which the objective falls. -/
structure RayAt (s : St) (d : ℕ → ℚ) : Prop where
  lhs : ∀ i, (s.rtag i).inactive = false → (s.rtag i).lhsInf = false → 0 ≤ dot (s.A i) d
  rhs : ∀ i, (s.rtag i).inactive = false → (s.rtag i).rhsInf = false → dot (s.A i) d ≤ 0
  lb : ∀ k, (s.ctag k).inactive = false → (s.ctag k).lbInf = false → 0 ≤ d k
  ub : ∀ k, (s.ctag k).inactive = false → (s.ctag k).ubInf = false → d k ≤ 0
  off : ∀ k, (s.ctag k).inactive = true → d k = 0
  cost : objective s d < 0

/-- From `s` to `t`. -/
structure Fwd (s t : St) : Prop where
  ef : Ef t
  down : ∀ w, FeasPt s w → ∃ w', FeasPt t w' ∧ costAt t w' ≤ costAt s w
  ray : (∃ d, RayAt t d) → ∃ d, RayAt s d

/-- What a status says about the problem in `s`, provided that it is feasible. -/
def Fair (s : St) (st : Status) : Prop := fine st ∨ (hasStatus st 4 = true ∧ ∃ d, RayAt s d)

/-- A part of the presolver keeps the points. -/
structure KeepsF (μ : Mode) (I J : St → Prop) (a : St) (r : St × Status) : Prop where
  pts : KeepsP μ I J a r
  run : Ok μ r.1 → Bs a → Ef a → I a → (∃ w, FeasPt a w) → Fair a r.2 ∧ (fine r.2 → Fwd a r.1)

/-- All rows and bounds hold up to `ε`. -/
structure NearPt (ε : ℚ) (s : St) (x : ℕ → ℚ) : Prop where
  row : ∀ i < s.m, (s.rtag i).inactive = false → SidesTol ε (s.rtag i) (s.lhs i) (s.rhs i) (dot (s.A i) x)
  col : ∀ k < s.n, s.colSize k ≠ -1 → (s.ctag k).subst = false → ColInTol ε s k (x k)

/-- The point `τ` steps along `d` from `x`. -/
def along (x d : ℕ → ℚ) (τ : ℚ) : ℕ → ℚ := fun k => x k + τ * d k

section
variable {μ : Mode} {I J K I' J' : St → Prop} {a b s t u : St} {r q : St × Status} {st : Status} {k i : ℕ}
  {w x d : ℕ → ℚ}

theorem dot_along (L : List Cell) (x d : ℕ → ℚ) (τ : ℚ) : dot L (along x d τ) = dot L x + τ * dot L d := by
  induction L with
  | nil => simp
  | cons p L ih => rw [dot_cons, dot_cons, dot_cons, ih]; unfold along; ring

theorem objective_along (s : St) (x d : ℕ → ℚ) (τ : ℚ) :
    objective s (along x d τ) = objective s x + τ * objective s d := by
  unfold objective along
  rw [Finset.mul_sum, ← Finset.sum_add_distrib]
  exact Finset.sum_congr rfl (fun j _ => by ring)

/-- A linear function that is bounded below on a half line does not fall. -/
theorem slope_nonneg {a b c : ℚ} (h : ∀ τ : ℚ, 0 ≤ τ → c ≤ a + τ * b) : 0 ≤ b := by
  by_contra hb
  have hb := not_le.mp hb
  have h1 := h ((|a - c| + 1) / (-b)) (div_nonneg (by positivity) (by linarith))
  have h2 : (|a - c| + 1) / (-b) * b = -(|a - c| + 1) := by
    have := hb.ne
    field_simp
  rw [h2] at h1
  have := le_abs_self (a - c)
  linarith

/-- A feasible point may be moved along a ray. -/
theorem FeasPt.along (h : FeasPt s x) (hd : RayAt s d) {τ : ℚ} (hτ : 0 ≤ τ) : FeasPt s (along x d τ) := by
  refine ⟨fun i hi ha => ?_, fun k hk hs hb => ?_⟩
  · have := h.1 i hi ha
    unfold RowOK Sides at *
    rw [dot_along]
    refine ⟨?_, ?_⟩
    · cases hl : (s.rtag i).lhsInf with
      | true => exact .inl rfl
      | false =>
        have h1 := this.1
        rw [hl] at h1
        exact h1.mono (by have := mul_nonneg hτ (hd.lhs i ha hl); linarith)
    · cases hl : (s.rtag i).rhsInf with
      | true => exact .inl rfl
      | false =>
        have h1 := this.2
        rw [hl] at h1
        exact h1.mono (by have := mul_nonneg hτ (neg_nonneg.mpr (hd.rhs i ha hl)); linarith)
  · have := h.2 k hk hs hb
    cases hc : (s.ctag k).inactive with
    | true =>
      show ColIn s k (x k + τ * d k)
      rw [hd.off k hc, mul_zero, add_zero]; exact this
    | false =>
      unfold ColIn at *
      rw [effTag_active hc] at *
      show Lo _ _ (x k + τ * d k) ∧ Hi _ _ (x k + τ * d k)
      refine ⟨?_, ?_⟩
      · cases hl : (s.ctag k).lbInf with
        | true => exact .inl rfl
        | false =>
          have h1 := this.1
          rw [hl] at h1
          exact h1.mono (by have := mul_nonneg hτ (hd.lb k hc hl); linarith)
      · cases hl : (s.ctag k).ubInf with
        | true => exact .inl rfl
        | false =>
          have h1 := this.2
          rw [hl] at h1
          exact h1.mono (by have := mul_nonneg hτ (neg_nonneg.mpr (hd.ub k hc hl)); linarith)

/-- A half line of nearly feasible points gives a ray. -/
theorem RayAt.of_near (g : GI s) (hr : InRng s) {ε : ℚ} (h : ∀ τ : ℚ, 0 ≤ τ → NearPt ε s (Verif.along x d τ))
    (off : ∀ k, (s.ctag k).inactive = true → d k = 0) (cost : objective s d < 0) : RayAt s d := by
  have row : ∀ i, (s.rtag i).inactive = false → ∀ τ : ℚ, 0 ≤ τ →
      SidesTol ε (s.rtag i) (s.lhs i) (s.rhs i) (dot (s.A i) x + τ * dot (s.A i) d) := by
    intro i ha τ hτ
    rw [← dot_along]
    exact (h τ hτ).row i (hr.1 i (g.rowActive ha)) ha
  have col : ∀ k, (s.ctag k).inactive = false → ∀ τ : ℚ, 0 ≤ τ →
      Lo (s.ctag k).lbInf (s.lb k) (x k + τ * d k + ε) ∧ Hi (s.ctag k).ubInf (s.ub k) (x k + τ * d k - ε) := by
    intro k hk τ hτ
    have := (h τ hτ).col k (g.colLt hr hk) (g.colActive hk) (CTag.inactive_false.mp hk).2
    unfold ColInTol at this
    rw [effTag_active hk] at this
    exact this
  refine ⟨fun i ha hl => ?_, fun i ha hl => ?_, fun k hk hl => ?_, fun k hk hl => ?_, off, cost⟩
  · obtain ⟨b, hb, -⟩ := (row i ha 0 le_rfl).1.resolve_left (by rw [hl]; simp)
    refine slope_nonneg (c := b) (a := dot (s.A i) x + ε) (fun τ hτ => ?_)
    have := (row i ha τ hτ).1
    rw [hl, hb, Lo_fin] at this
    linarith
  · obtain ⟨b, hb, -⟩ := (row i ha 0 le_rfl).2.resolve_left (by rw [hl]; simp)
    have : 0 ≤ -dot (s.A i) d := by
      refine slope_nonneg (c := -b) (a := -dot (s.A i) x + ε) (fun τ hτ => ?_)
      have := (row i ha τ hτ).2
      rw [hl, hb, Hi_fin] at this
      linarith
    linarith
  · obtain ⟨b, hb, -⟩ := (col k hk 0 le_rfl).1.resolve_left (by rw [hl]; simp)
    refine slope_nonneg (c := b) (a := x k + ε) (fun τ hτ => ?_)
    have := (col k hk τ hτ).1
    rw [hl, hb, Lo_fin] at this
    linarith
  · obtain ⟨b, hb, -⟩ := (col k hk 0 le_rfl).2.resolve_left (by rw [hl]; simp)
    have : 0 ≤ -d k := by
      refine slope_nonneg (c := -b) (a := -x k + ε) (fun τ hτ => ?_)
      have := (col k hk τ hτ).2
      rw [hl, hb, Hi_fin] at this
      linarith
    linarith

theorem RayAt.core (h : RayAt t d) (c : SameCore s t) : RayAt s d := by
  refine ⟨?_, ?_, ?_, ?_, ?_, ?_⟩
  · rw [← c.rtag, ← c.A]; exact h.lhs
  · rw [← c.rtag, ← c.A]; exact h.rhs
  · rw [← c.ctag]; exact h.lb
  · rw [← c.ctag]; exact h.ub
  · rw [← c.ctag]; exact h.off
  · have := h.cost
    unfold objective at *
    rw [← c.n, ← c.c]; exact this

theorem Ef.core (h : Ef s) (c : SameCore s t) : Ef t := by
  refine ⟨by rw [c.off]; exact h.off, ?_⟩
  rw [c.fixedCols, c.lb, c.ub, c.ctag]; exact h.fix

theorem costAt_core (c : SameCore s t) : costAt t w = costAt s w := by
  unfold costAt objP
  rw [c.off, c.n, c.colSize, c.c]

theorem Fwd.refl (h : Ef s) : Fwd s s := ⟨h, fun w hw => ⟨w, hw, le_rfl⟩, id⟩

theorem Fwd.trans (h : Fwd s t) (h' : Fwd t u) : Fwd s u := by
  refine ⟨h'.ef, fun w hw => ?_, fun hd => h.ray (h'.ray hd)⟩
  obtain ⟨w1, f1, c1⟩ := h.down w hw
  obtain ⟨w2, f2, c2⟩ := h'.down w1 f1
  exact ⟨w2, f2, c2.trans c1⟩

theorem Fwd.core (h : Ef s) (c : SameCore s t) : Fwd s t :=
  ⟨h.core c, fun w hw => ⟨w, hw.core c, (costAt_core c).le⟩, fun ⟨d, hd⟩ => ⟨d, hd.core c⟩⟩

theorem Fwd.some (h : Fwd s t) (hw : ∃ w, FeasPt s w) : ∃ w, FeasPt t w := by
  obtain ⟨w, hw⟩ := hw
  obtain ⟨w', h', -⟩ := h.down w hw
  exact ⟨w', h'⟩

theorem Fair.fine (h : fine st) : Fair s st := .inl h

theorem not_fair_infeasible : ¬ Fair s INFEASIBLE := by
  rintro (h | h)
  · exact absurd h (by decide)
  · exact absurd h.1 (by decide)

theorem Fair.back (h : Fwd s t) (h' : Fair t st) : Fair s st := h'.imp id (fun e => ⟨e.1, h.ray e.2⟩)

theorem Fair.or {st st' : Status} (h : Fair s st) (h' : Fair s st') : Fair s (st ||| st') := by
  rcases h with h | h
  · rcases h' with h' | h'
    · exact .inl (fine_or.mpr ⟨h, h'⟩)
    · exact .inr ⟨by rw [hasStatus_or, h'.1, Bool.or_true], h'.2⟩
  · exact .inr ⟨by rw [hasStatus_or, h.1, Bool.true_or], h.2⟩

/-- One part after the other, the statuses are combined. -/
theorem KeepsF.trans (h : KeepsF μ I J a r) (h' : KeepsF μ J K r.1 q) : KeepsF μ I K a (q.1, r.2 ||| q.2) := by
  refine ⟨h.pts.trans h'.pts, fun o c e hi hw => ?_⟩
  have o1 := h'.pts.good.1 o
  obtain ⟨f1, w1⟩ := h.run o1 c e hi hw
  by_cases f : fine r.2
  · obtain ⟨c', j⟩ := h.pts.base f o1 c hi
    have w1 := w1 f
    obtain ⟨f2, w2⟩ := h'.run o c' w1.ef j (w1.some hw)
    exact ⟨f1.or (f2.back w1), fun f' => w1.trans (w2 (fine_or.mp f').2)⟩
  · refine ⟨.inr ?_, fun f' => absurd (fine_or.mp f').1 f⟩
    rcases f1 with f1 | f1
    · exact absurd f1 f
    · exact ⟨by rw [hasStatus_or, f1.1, Bool.true_or], f1.2⟩

/-- One part after the other, the first status is harmless. -/
theorem KeepsF.then (h : KeepsF μ I J a r) (f : fine r.2) (h' : KeepsF μ J K r.1 q) : KeepsF μ I K a q := by
  refine ⟨h.pts.then f h'.pts, fun o c e hi hw => ?_⟩
  have o1 := h'.pts.good.1 o
  have w1 := (h.run o1 c e hi hw).2 f
  obtain ⟨c', j⟩ := h.pts.base f o1 c hi
  obtain ⟨f2, w2⟩ := h'.run o c' w1.ef j (w1.some hw)
  exact ⟨f2.back w1, fun f' => w1.trans (w2 f')⟩

theorem KeepsF.next (h : KeepsF μ I J a (b, UNCHANGED)) (h' : KeepsF μ J K b q) : KeepsF μ I K a q :=
  KeepsF.then (r := (b, UNCHANGED)) h fine_unchanged h'

theorem KeepsF.weakenI (h : KeepsF μ I J a r) (hI : Inv a → I' a → I a) (hJ : J r.1 → J' r.1) : KeepsF μ I' J' a r :=
  ⟨h.pts.weakenI hI hJ, fun o c e hi hw => h.run o c e (hI c.inv hi) hw⟩

theorem KeepsF.weaken (h : KeepsF μ I J a r) (hI : I' a → I a) (hJ : J r.1 → J' r.1) : KeepsF μ I' J' a r :=
  h.weakenI (fun _ => hI) hJ

theorem KeepsF.keep {F : St → Prop} (h : KeepsF μ I J a r) (hF : Mono a r.1 → F a → F r.1) :
    KeepsF μ (fun s => I s ∧ F s) (fun s => J s ∧ F s) a r :=
  ⟨h.pts.keep hF, fun o c e hi hw => h.run o c e hi.1 hw⟩

theorem KeepsF.refl (μ : Mode) (I : St → Prop) (s : St) : KeepsF μ I I s (s, UNCHANGED) :=
  ⟨.refl μ I s, fun _ _ e _ _ => ⟨.inl fine_unchanged, fun _ => .refl e⟩⟩

/-- The problem has no feasible point. -/
theorem KeepsF.infeasible (ok : Ok μ b → Ok μ a) (h : Ok μ b → Bs a → I a → ∀ w, ¬ FeasPt a w) :
    KeepsF μ I J a (b, INFEASIBLE) :=
  ⟨.infeasible ok, fun o c _ hi ⟨w, hw⟩ => absurd hw (h o c hi w)⟩

theorem KeepsF.of (p : KeepsP μ I J a r) (f : fine r.2)
    (h : Ok μ r.1 → Bs a → Ef a → I a → (∃ w, FeasPt a w) → Fwd a r.1) : KeepsF μ I J a r :=
  ⟨p, fun o c e hi hw => ⟨.inl f, fun _ => h o c e hi hw⟩⟩

theorem KeepsF.core (c : SameCore s t) (g : Good μ I J s t) (f : fine st) : KeepsF μ I J s (t, st) :=
  .of (.core c g) f (fun _ _ e _ _ => .core e c)

theorem KeepsF.check (s : St) (x : Bool) (hj : I s → J (s.check x)) : KeepsF μ I J s (s.check x, UNCHANGED) :=
  .core (sameCore_check s x) (.check s x (fun _ => hj)) fine_unchanged

/-! ### What is known of rows and columns -/

theorem Bs.colLt (c : Bs s) (hc : (s.ctag k).inactive = false) : k < s.n := c.inv.gi.colLt c.rng hc

theorem Bs.rowLt (c : Bs s) (ha : (s.rtag i).inactive = false) : i < s.m := c.rng.1 i (c.inv.gi.rowActive ha)

theorem Bs.colFin (c : Bs s) (hc : (s.ctag k).inactive = false) : ColFin s k :=
  ⟨(c.num.lb k hc).fin, (c.num.ub k hc).fin⟩

theorem Bs.colIn (c : Bs s) (hw : FeasPt s w) (hc : (s.ctag k).inactive = false) :
    Lo (s.ctag k).lbInf (s.lb k) (w k) ∧ Hi (s.ctag k).ubInf (s.ub k) (w k) := by
  have := hw.2 k (c.colLt hc) (c.inv.gi.colActive hc) (CTag.inactive_false.mp hc).2
  unfold ColIn at this
  rwa [effTag_active hc] at this

theorem Bs.rowsOK (c : Bs s) : RowsOK s :=
  fun i => ⟨(c.inv.gi.rowSorted i).nodup, fun p hp => (c.inv.gi.rowRange i p hp).2.2⟩

theorem Bs.notIn (c : Bs s) (hc : (s.ctag k).inactive = false) (hT : s.AT k = []) (ha : (s.rtag i).inactive = false)
    {p : Cell} (hp : p ∈ s.A i) : p.1 ≠ k := by
  rintro rfl
  have := (c.inv.gi.agree i p.1 p.2 (c.inv.gi.rowActive ha) (c.inv.gi.colActive hc)).mp hp
  rw [hT] at this; cases this

/-- The value of an empty column may be changed within its bounds. -/
theorem Bs.emptySet (c : Bs s) (hc : (s.ctag k).inactive = false) (hT : s.AT k = []) (hw : FeasPt s w) {q : ℚ}
    (h1 : Lo (s.ctag k).lbInf (s.lb k) q) (h2 : Hi (s.ctag k).ubInf (s.ub k) q) : FeasPt s (setAt w k q) := by
  refine feas_setAt hw (fun i hi ha => ?_) ?_
  · have := hw.1 i hi ha
    unfold RowOK at *
    unfold setAt
    rw [dot_update_notMem (fun p hp => c.notIn hc hT ha hp)]; exact this
  · unfold ColIn; rw [effTag_active hc]; exact ⟨h1, h2⟩

/-- A column along which the objective has no lower bound is a ray. -/
theorem Bs.ray (c : Bs s) (hk : (s.ctag k).inactive = false)
    (h : ∀ M : ℚ, ∃ q, FeasPt s (setAt w k q) ∧ objective s (setAt w k q) < M) : ∃ d, RayAt s d := by
  have hkn := c.colLt hk
  have hs := c.inv.gi.colActive hk
  obtain ⟨hf, hsb⟩ := CTag.inactive_false.mp hk
  have hc0 : s.c k ≠ 0 := by
    intro e
    obtain ⟨q, -, h2⟩ := h (objective s w)
    rw [objective_setAt s w hkn, e] at h2
    simp at h2
  have far : ∀ T, ∃ q, FeasPt s (setAt w k q) ∧ s.c k * q < T := by
    intro T
    obtain ⟨q, h1, h2⟩ := h (objective s w - s.c k * w k + T)
    rw [objective_setAt s w hkn] at h2
    exact ⟨q, h1, by linarith⟩
  have dz : ∀ L : List Cell, (∀ p ∈ L, p.1 ≠ k) → dot L (setAt (fun _ => 0) k (-s.c k)) = 0 := by
    intro L hL
    induction L with
    | nil => rfl
    | cons p L ih =>
      rw [dot_cons, ih (fun p' hp' => hL p' (List.mem_cons_of_mem _ hp')), setAt_ne _ _ (hL p List.mem_cons_self)]
      ring
  have d0 : ∀ L : List Cell, dot L (fun _ => (0 : ℚ)) = 0 := by
    intro L
    induction L with
    | nil => rfl
    | cons p L ih => rw [dot_cons, ih]; ring
  have nd : ∀ i, ((s.A i).map Prod.fst).Nodup := fun i => (c.inv.gi.rowSorted i).nodup
  refine ⟨setAt (fun _ => 0) k (-s.c k), fun i ha hl => ?_, fun i ha hl => ?_, fun j hj hl => ?_, fun j hj hl => ?_,
    fun j hj => ?_, ?_⟩
  · by_cases hm : ∃ a, (k, a) ∈ s.A i
    · obtain ⟨a, hm⟩ := hm
      obtain ⟨B, hB⟩ := c.num.lhs i ha hl
      have := far_sign (a := -a) (b := -B) (d := -(dot (s.A i) w - a * w k)) hc0 far (fun q hq => by
        have h3 := (hq.1 i (c.rowLt ha) ha).1
        rw [hl, hB, Lo_fin, dot_setAt_mem (nd i) hm] at h3
        linarith)
      rw [dot_setAt_mem (nd i) hm, d0]
      linarith
    · rw [dz _ (fun p hp e => hm ⟨p.2, by rw [← e]; exact hp⟩)]
  · by_cases hm : ∃ a, (k, a) ∈ s.A i
    · obtain ⟨a, hm⟩ := hm
      obtain ⟨B, hB⟩ := c.num.rhs i ha hl
      have := far_sign (a := a) (b := B) (d := (dot (s.A i) w - a * w k)) hc0 far (fun q hq => by
        have h3 := (hq.1 i (c.rowLt ha) ha).2
        rw [hl, hB, Hi_fin, dot_setAt_mem (nd i) hm] at h3
        linarith)
      rw [dot_setAt_mem (nd i) hm, d0]
      linarith
    · rw [dz _ (fun p hp e => hm ⟨p.2, by rw [← e]; exact hp⟩)]
  · by_cases e : j = k
    · subst e
      rw [setAt_same]
      obtain ⟨u, hu⟩ := (c.num.lb j hj).fin hl
      have := far_sign (a := -1) (b := -u) (d := 0) hc0 far (fun q hq => by
        have h2 := (hq.2 j hkn hs hsb).1
        rw [effTag_active hk, hl, hu, Lo_fin, setAt_same] at h2
        linarith)
      linarith
    · rw [setAt_ne _ _ e]
  · by_cases e : j = k
    · subst e
      rw [setAt_same]
      obtain ⟨u, hu⟩ := (c.num.ub j hj).fin hl
      have := far_sign (a := 1) (b := u) (d := 0) hc0 far (fun q hq => by
        have h2 := (hq.2 j hkn hs hsb).2
        rw [effTag_active hk, hl, hu, Hi_fin, setAt_same] at h2
        linarith)
      linarith
    · rw [setAt_ne _ _ e]
  · rw [setAt_ne]
    rintro rfl
    rw [hk] at hj; cases hj
  · rw [objective_setAt s _ hkn]
    have : objective s (fun _ => 0) = 0 := by unfold objective; simp
    rw [this]
    have := mul_self_pos.mpr hc0
    linarith

end

end Verif
