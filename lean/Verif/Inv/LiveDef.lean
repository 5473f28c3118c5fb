import Verif.Inv.FeasEnd
import Verif.Spec.Unbounded
import Verif.Props.C25_Locks
import Verif.Props.C26_SingletonRow
import Verif.Props.C27_Empty
import Verif.Props.C28_DualFix

/-!
# No reduction loses the good points of the original problem

`Live P v s`: the state `s` of a run on `P` still has a feasible point whose objective in `P` is at
most `v`.  `KeepsPt` says that a part of the presolver keeps such a point as long as no column is fixed
because of a tolerance or to an infinite value, and that it reports `UNBNDORINFEAS` only if the
objective of `P` has no lower bound.
-/

namespace Verif

/-! ### The log grows at its front, the cost does not change -/

theorem PropRun.logSuffix {i num : ℕ} {s t : St} (h : PropRun i s num t) : ∃ l, t.log = l ++ s.log := by
  induction h with
  | nil => exact ⟨[], rfl⟩
  | same h e ih => obtain ⟨l, ih⟩ := ih; exact ⟨l, by rw [e.log]; exact ih⟩
  | bound j lb ub tag im o low h hj hcell htag e ih =>
    obtain ⟨l, ih⟩ := ih
    refine ⟨.boundChangeNoRow j im o low :: l, ?_⟩
    rw [e.log, List.cons_append, ← ih]; rfl
  | fix k val h hk hrows e ih =>
    obtain ⟨l, ih⟩ := ih
    exact ⟨_ :: l, by rw [e.log, List.cons_append, ← ih]; rfl⟩

theorem Raw.logSuffix {μ : Mode} {s t : St} (h : Raw μ s t) (g : GI s) : ∃ l, t.log = l ++ s.log := by
  cases h with
  | same h => exact ⟨[], h.log⟩
  | fix k val hk hrows h => exact ⟨[_], h.log⟩
  | fixInf k pos bound v hk hc h =>
    rw [h.log]
    exact ⟨_ ++ [_], by rw [List.append_assoc]; rfl⟩
  | deact i hi h => exact ⟨[_], h.log⟩
  | sides i t l r u d hi ht hl h => exact ⟨[], h.log⟩
  | sideRec i other t l r u d rc hi ho hne hcols ht hl hrec hμ h => exact ⟨[_], h.log⟩
  | stonEq row k a val hi hk hrow hrows h => exact ⟨[_, _, _], h.log⟩
  | emptyRow i hi hA h => exact ⟨[_], h.log⟩
  | emptyCol k v hk hT h => exact ⟨[_], h.log⟩
  | freeSton i k q side hi hk hT hcols h =>
    rw [h.log]
    unfold freeColIneq
    simp only
    rw [subVarInObj_eq]
    exact ⟨[_, _], rfl⟩
  | half i k q b upper hi hk hT hs hcols h =>
    rw [h.log]
    unfold halfStep
    simp only
    rw [eqToIneqSide_log, subVarInObj_eq]
    exact ⟨[_, _], rfl⟩
  | fixSton i k q v hi hk hT h => exact ⟨[_], h.log⟩
  | prop i num t' hi hnum hrun h =>
    obtain ⟨l, e⟩ := hrun.logSuffix
    exact ⟨_ :: l, by rw [h.log, List.cons_append, ← e]; rfl⟩
  | dton i j k aij aik b h =>
    exact ⟨_ :: _ :: _, h.log⟩
  | merge j k ratio hjk hj hk hμ hex h => exact ⟨[_], h.log⟩
  | relax k t' ht h => exact ⟨[], h.log⟩
  | delRows h =>
    refine ⟨[], ?_⟩
    have d := congrArg St.log (deleteInactiveRows_deleted g).eq
    rw [h.log]; exact d
  | delCols hd h =>
    refine ⟨[], ?_⟩
    rw [h.log]
    obtain ⟨l, r', a, o, b, e⟩ := deleteFixedCols_eq s
    have g1 : GI (deleteFixedCols s) := by
      rw [e]
      exact g.of_eq rfl rfl rfl rfl rfl (fun _ => rfl) rfl rfl rfl rfl rfl rfl rfl rfl
    have d := congrArg St.log (deleteInactiveCols_deleted g1 (by rw [e]; exact hd)).eq
    rw [d]
    show (deleteFixedCols s).log = _
    rw [e]; rfl

theorem Steps.logSuffix {μ : Mode} {s t : St} (h : Steps μ s t) (g : GI s) : ∃ l, t.log = l ++ s.log := by
  induction h with
  | refl => exact ⟨[], rfl⟩
  | tail h r ih =>
    obtain ⟨l, e⟩ := ih
    obtain ⟨l', e'⟩ := r.logSuffix (h.gi g)
    exact ⟨l' ++ l, by rw [e', e, List.append_assoc]⟩

theorem logVal_suffix {l l' : List Rec} {k : ℕ} {v : D} (h : logVal l k = some v) :
    logVal (l' ++ l) k = some v := by
  rw [logVal_append, h]; rfl

theorem Raw.cost {μ : Mode} {s t : St} (h : Raw μ s t) (g : GI s) (hp : PlainLog t) : t.c = s.c := by
  cases h with
  | same h => exact h.c
  | fix k val hk hrows h => exact h.c
  | fixInf k pos bound v hk hc h => exact h.c
  | deact i hi h => exact h.c
  | sides i t l r u d hi ht hl h => exact h.c
  | sideRec i other t l r u d rc hi ho hne hcols ht hl hrec hμ h => exact h.c
  | stonEq row k a val hi hk hrow hrows h => exact h.c
  | emptyRow i hi hA h => exact h.c
  | emptyCol k v hk hT h => exact h.c
  | freeSton i k q side hi hk hT hcols h =>
    exfalso
    unfold PlainLog at hp
    rw [h.log] at hp
    unfold freeColIneq at hp
    simp only at hp
    rw [subVarInObj_eq] at hp
    have := hp _ (List.mem_cons_of_mem _ List.mem_cons_self)
    simp [Rec.plain] at this
  | half i k q b upper hi hk hT hs hcols h =>
    exfalso
    unfold PlainLog at hp
    rw [h.log] at hp
    unfold halfStep at hp
    simp only at hp
    rw [eqToIneqSide_log, subVarInObj_eq] at hp
    have := hp _ List.mem_cons_self
    simp [Rec.plain] at this
  | fixSton i k q v hi hk hT h => exact h.c
  | prop i num t' hi hnum hrun h => rw [h.c]; exact hrun.frame.c
  | dton i j k aij aik b h =>
    exfalso
    unfold PlainLog at hp
    rw [h.log] at hp
    have := hp _ (List.mem_cons_of_mem _ List.mem_cons_self)
    simp [Rec.plain] at this
  | merge j k ratio hjk hj hk hμ hex h =>
    exfalso
    unfold PlainLog at hp
    rw [h.log] at hp
    have := hp _ List.mem_cons_self
    simp [Rec.plain] at this
  | relax k t' ht h => exact h.c
  | delRows h =>
    have d := congrArg St.c (deleteInactiveRows_deleted g).eq
    rw [h.c]; exact d
  | delCols hd h =>
    rw [h.c]
    obtain ⟨l, r', a, o, b, e⟩ := deleteFixedCols_eq s
    have g1 : GI (deleteFixedCols s) := by
      rw [e]
      exact g.of_eq rfl rfl rfl rfl rfl (fun _ => rfl) rfl rfl rfl rfl rfl rfl rfl rfl
    have d := congrArg St.c (deleteInactiveCols_deleted g1 (by rw [e]; exact hd)).eq
    rw [d]
    show (deleteFixedCols s).c = _
    rw [e]

theorem Steps.cost {μ : Mode} {s t : St} (h : Steps μ s t) (g : GI s) (hp : PlainLog t) : t.c = s.c := by
  induction h with
  | refl => rfl
  | tail h r ih =>
    have hp' : PlainLog _ := fun x hx => hp x (r.logLe (h.gi g) x hx)
    rw [r.cost (h.gi g) hp, ih hp']

/-! ### Live points -/

/-- `w` is a feasible point of the state; the columns that are gone have their recorded value. -/
structure LiveAt (P : LP) (s : St) (w : ℕ → ℚ) : Prop where
  pt : FeasPt s w
  old : ∀ k < P.n, s.colSize k = -1 → logVal s.log k = some (.fin (w k))

/-- There is a live point whose objective in the original problem is at most `v`. -/
def Live (P : LP) (v : ℚ) (s : St) : Prop := ∃ w, LiveAt P s w ∧ P.obj w ≤ v

/-- The status is harmless, or it reports unboundedness and the problem, if it is feasible, is unbounded. -/
def Verdict (P : LP) (st : Status) : Prop := fine st ∨ (hasStatus st 4 = true ∧ ((∃ w, P.Feasible w) → P.Unbounded))

theorem Verdict.fine {P : LP} {st : Status} (h : fine st) : Verdict P st := .inl h

theorem not_verdict_infeasible {P : LP} : ¬ Verdict P INFEASIBLE := by
  rintro (h | h)
  · exact absurd h (by decide)
  · exact absurd h.1 (by decide)

theorem hasStatus_or (a b m : Status) : hasStatus (a ||| b) m = (hasStatus a m || hasStatus b m) := by
  unfold hasStatus
  rw [Nat.and_or_distrib_right]
  rcases Nat.eq_zero_or_pos (a &&& m) with h | h
  · rw [h]; simp
  · have h1 : a &&& m ≠ 0 := Nat.pos_iff_ne_zero.mp h
    have h2 : (a &&& m) ||| (b &&& m) ≠ 0 := by
      intro h3
      exact h1 (Nat.or_eq_zero_iff.mp h3).1
    simp [h1, h2]

theorem Verdict.or {P : LP} {a b : Status} (h : Verdict P a) (h' : Verdict P b) : Verdict P (a ||| b) := by
  rcases h with h | h
  · rcases h' with h' | h'
    · left
      unfold Verif.fine at *
      rw [hasStatus_or, h, h']; rfl
    · right
      exact ⟨by rw [hasStatus_or, h'.1, Bool.or_true], h'.2⟩
  · right
    exact ⟨by rw [hasStatus_or, h.1, Bool.true_or], h.2⟩

/-- What is known of a state during a run. -/
structure Cur (P : LP) (v : ℚ) (s : St) : Prop where
  reg : P.Regular
  plain : PlainLog s
  inv : Inv s
  feas : Feas P s
  cost : s.c = P.c
  live : Live P v s

/-- A part of the presolver keeps the live point. -/
structure KeepsPt (μ : Mode) (P : LP) (v : ℚ) (I J : St → Prop) (a : St) (r : St × Status) : Prop where
  good : GoodR μ (Fz P I) (Fz P J) a r
  live : Ok μ r.1 → Cur P v a → I a → Verdict P r.2 ∧ (fine r.2 → PlainLog r.1 ∧ Live P v r.1)

section
variable {μ : Mode} {P : LP} {v : ℚ} {I J K I' J' : St → Prop} {a b s t : St} {r q : St × Status} {st : Status}
  {w : ℕ → ℚ}

theorem Cur.next (c : Cur P v s) (g : Good μ (Fz P I) (Fz P J) s t) (o : Ok μ t) (hi : I s) (hp : PlainLog t)
    (hl : Live P v t) : Cur P v t ∧ J t := by
  obtain ⟨r, j, fz⟩ := (g o).2 c.inv ⟨hi, fun _ => c.feas⟩
  exact ⟨⟨c.reg, hp, r.inv c.inv, fz hp, (r.steps.cost c.inv.gi hp).trans c.cost, hl⟩, j⟩

theorem KeepsPt.cur (h : KeepsPt μ P v I J a r) (o : Ok μ r.1) (c : Cur P v a) (hi : I a) :
    Verdict P r.2 ∧ (fine r.2 → Cur P v r.1 ∧ J r.1) := by
  obtain ⟨h1, h2⟩ := h.live o c hi
  exact ⟨h1, fun f => c.next (h.good.2 f) o hi (h2 f).1 (h2 f).2⟩

/-- One part after the other, the statuses are combined. -/
theorem KeepsPt.trans (h : KeepsPt μ P v I J a r) (h' : KeepsPt μ P v J K r.1 q) :
    KeepsPt μ P v I K a (q.1, r.2 ||| q.2) := by
  refine ⟨h.good.trans' h'.good, fun o c hi => ?_⟩
  obtain ⟨hv, hc⟩ := h.cur (h'.good.1 o) c hi
  by_cases f : fine r.2
  · obtain ⟨c', j⟩ := hc f
    obtain ⟨h1, h2⟩ := h'.live o c' j
    exact ⟨hv.or h1, fun f' => h2 (fine_or.mp f').2⟩
  · refine ⟨.inr ?_, fun f' => absurd (fine_or.mp f').1 f⟩
    rcases hv with hv | hv
    · exact absurd hv f
    · exact ⟨by rw [hasStatus_or, hv.1, Bool.true_or], hv.2⟩

/-- One part after the other, the first status is harmless. -/
theorem KeepsPt.then (h : KeepsPt μ P v I J a r) (f : fine r.2) (h' : KeepsPt μ P v J K r.1 q) : KeepsPt μ P v I K a q := by
  refine ⟨⟨fun o => h.good.1 (h'.good.1 o), fun f' => (h.good.2 f).trans (h'.good.2 f')⟩, fun o c hi => ?_⟩
  obtain ⟨c', j⟩ := (h.cur (h'.good.1 o) c hi).2 f
  exact h'.live o c' j

theorem KeepsPt.next (h : KeepsPt μ P v I J a (b, UNCHANGED)) (h' : KeepsPt μ P v J K b q) : KeepsPt μ P v I K a q :=
  KeepsPt.then (r := (b, UNCHANGED)) h fine_unchanged h'

theorem KeepsPt.weaken (h : KeepsPt μ P v I J a r) (hI : Inv a → I' a → I a) (hJ : Inv r.1 → J r.1 → J' r.1) :
    KeepsPt μ P v I' J' a r :=
  ⟨⟨h.good.1, fun f => (h.good.2 f).weakenF hI hJ⟩, fun o c hi => h.live o c (hI c.inv hi)⟩

/-- The status may be replaced by another harmless one. -/
theorem KeepsPt.status (h : KeepsPt μ P v I J a (b, st)) (f : fine st) {st' : Status} (f' : fine st') :
    KeepsPt μ P v I J a (b, st') :=
  ⟨⟨h.good.1, fun _ => h.good.2 f⟩, fun o c hi => ⟨.inl f', fun _ => (h.live o c hi).2 f⟩⟩

theorem KeepsPt.refl (μ : Mode) (P : LP) (v : ℚ) (I : St → Prop) (s : St) : KeepsPt μ P v I I s (s, UNCHANGED) :=
  ⟨Good.toR (.refl _ _ _), fun _ c _ => ⟨.inl fine_unchanged, fun _ => ⟨c.plain, c.live⟩⟩⟩

/-- A bad status. -/
theorem KeepsPt.bad (f : ¬ fine r.2) (ok : Ok μ r.1 → Ok μ a) (h : Ok μ r.1 → Cur P v a → I a → Verdict P r.2) :
    KeepsPt μ P v I J a r :=
  ⟨⟨ok, fun f' => absurd f' f⟩, fun o c hi => ⟨h o c hi, fun f' => absurd f' f⟩⟩

theorem KeepsPt.infeasible (ok : Ok μ b → Ok μ a)
    (h : Ok μ b → Cur P v a → I a → ∀ w, LiveAt P a w → False) : KeepsPt μ P v I J a (b, INFEASIBLE) :=
  .bad not_fine_infeasible ok (fun o c hi => by
    obtain ⟨w, hw, -⟩ := c.live
    exact (h o c hi w hw).elim)

/-- The point may change. -/
theorem KeepsPt.of (g : Good μ (Fz P I) (Fz P J) s t) (f : fine st)
    (h : Ok μ t → Cur P v s → I s → PlainLog t ∧
      ∀ w, LiveAt P s w → P.obj w ≤ v → ∃ w', LiveAt P t w' ∧ P.obj w' ≤ P.obj w) :
    KeepsPt μ P v I J s (t, st) := by
  refine ⟨g.toR, fun o c hi => ⟨.inl f, fun _ => ?_⟩⟩
  obtain ⟨hp, h⟩ := h o c hi
  obtain ⟨w, hw, hv⟩ := c.live
  obtain ⟨w', h1, h2⟩ := h w hw hv
  exact ⟨hp, w', h1, h2.trans hv⟩

theorem LiveAt.to (h : LiveAt P s w) (pt : FeasPt t w) {l : List Rec} (hl : t.log = l ++ s.log)
    (hn : ∀ k < P.n, t.colSize k = -1 → s.colSize k = -1 ∨ logVal t.log k = some (.fin (w k))) : LiveAt P t w := by
  refine ⟨pt, fun k hk hs => ?_⟩
  rcases hn k hk hs with h1 | h1
  · rw [hl]; exact logVal_suffix (h.old k hk h1)
  · exact h1

/-- The log only gains plain records and no column disappears. -/
structure Grow (s t : St) : Prop where
  log : ∃ l, t.log = l ++ s.log ∧ ∀ r ∈ l, r.plain = true
  colSize : t.colSize = s.colSize

theorem Grow.refl (s : St) : Grow s s := ⟨⟨[], rfl, fun _ h => by cases h⟩, rfl⟩

theorem Grow.trans {u : St} (h : Grow s t) (h' : Grow t u) : Grow s u := by
  obtain ⟨l, h1, h2⟩ := h.log
  obtain ⟨l', h3, h4⟩ := h'.log
  refine ⟨⟨l' ++ l, by rw [h3, h1, List.append_assoc], fun r hr => ?_⟩, h'.colSize.trans h.colSize⟩
  rcases List.mem_append.mp hr with hr | hr
  · exact h4 r hr
  · exact h2 r hr

theorem Grow.same (hl : t.log = s.log) (hc : t.colSize = s.colSize) : Grow s t :=
  ⟨⟨[], hl, fun _ h => by cases h⟩, hc⟩

theorem Grow.one {r : Rec} (hl : t.log = r :: s.log) (hr : r.plain = true) (hc : t.colSize = s.colSize) : Grow s t :=
  ⟨⟨[r], hl, fun _ h => by rw [List.mem_singleton.mp h]; exact hr⟩, hc⟩

theorem Grow.plain (h : Grow s t) (hp : PlainLog s) : PlainLog t := by
  obtain ⟨l, h1, h2⟩ := h.log
  intro r hr
  rw [h1] at hr
  rcases List.mem_append.mp hr with hr | hr
  · exact h2 r hr
  · exact hp r hr

theorem LiveAt.grow (h : LiveAt P s w) (g : Grow s t) (pt : FeasPt t w) : LiveAt P t w := by
  obtain ⟨l, hl, -⟩ := g.log
  exact h.to pt hl (fun k _ hs => .inl (by rw [← g.colSize]; exact hs))

/-- The point stays and so do the columns. -/
theorem KeepsPt.stay (g : Good μ (Fz P I) (Fz P J) s t) (f : fine st) (gr : Grow s t)
    (h : Ok μ t → Cur P v s → I s → ∀ w, LiveAt P s w → FeasPt t w) : KeepsPt μ P v I J s (t, st) :=
  .of g f (fun o c hi => ⟨gr.plain c.plain, fun w hw _ => ⟨w, hw.grow gr (h o c hi w hw), le_refl _⟩⟩)

/-- Nothing that matters changes. -/
theorem FeasPt.core (h : FeasPt s w) (c : SameCore s t) : FeasPt t w := by
  refine ⟨fun i hi ha => ?_, fun k hk hs hb => ?_⟩
  · have := h.1 i (c.m ▸ hi) (by rw [← c.rtag]; exact ha)
    unfold RowOK at *
    rw [c.rtag, c.lhs, c.rhs, c.A]; exact this
  · have := h.2 k (c.n ▸ hk) (by rw [← c.colSize]; exact hs) (by rw [← c.ctag]; exact hb)
    unfold ColIn at *
    rw [c.ctag, c.lb, c.ub]; exact this

theorem KeepsPt.core (c : SameCore s t) (g : Good μ (Fz P I) (Fz P J) s t) (f : fine st) : KeepsPt μ P v I J s (t, st) :=
  KeepsPt.stay g f (.same c.log c.colSize) (fun _ _ _ _ hw => hw.pt.core c)

theorem KeepsPt.check (s : St) (x : Bool) (hj : x = true → I s → J (s.check x)) :
    KeepsPt μ P v I J s (s.check x, UNCHANGED) :=
  .core (sameCore_check s x) (.checkF s x hj) fine_unchanged

end

end Verif
