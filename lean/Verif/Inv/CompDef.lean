import Verif.Inv.LiveMain
import Verif.Inv.StatStep
import Verif.Spec.Kkt

/-!
# Complementarity along a run and back through postsolve

`Comp P X s σ`: during postsolve of a run on `P` whose final point is `X`, the values `σ` retrieved so far
meet the optimality conditions in the state `s`.  Rows are compared with the sides of `P` at the final point,
so nothing has to be said about the columns that are gone.
-/

namespace Verif

/-- The values `σ` meet the optimality conditions of the active rows and columns of `s`. -/
structure Comp (P : LP) (X : ℕ → D) (s : St) (σ : Sol) : Prop where
  stat : StatAt s σ
  here : ∀ k, (s.ctag k).inactive = false → σ.x k = X k
  num : ∀ k < P.n, ∃ q, X k = .fin q
  old : ∀ k v, logVal s.log k = some v → X k = v
  lhs : ∀ i, (s.rtag i).inactive = false → 0 < (σ.y i).toQ →
    (s.rtag i).lhsInf = false ∧ P.lhs i = .fin (dot (P.A i) (fun k => (X k).toQ))
  rhs : ∀ i, (s.rtag i).inactive = false → (σ.y i).toQ < 0 →
    (s.rtag i).rhsInf = false ∧ P.rhs i = .fin (dot (P.A i) (fun k => (X k).toQ))
  lb : ∀ k, (s.ctag k).inactive = false → 0 < (σ.z k).toQ → s.lb k = X k
  ub : ∀ k, (s.ctag k).inactive = false → (σ.z k).toQ < 0 → s.ub k = X k

/-- The point `X` has the recorded values. -/
def Agrees (X : ℕ → D) (s : St) : Prop := ∀ k v, logVal s.log k = some v → X k = v

/-- The point `X` is within the bounds of the active columns. -/
def Boxed (X : ℕ → D) (s : St) : Prop :=
  ∀ k, (s.ctag k).inactive = false →
    Lo (s.ctag k).lbInf (s.lb k) (X k).toQ ∧ Hi (s.ctag k).ubInf (s.ub k) (X k).toQ

/-- The active columns of `t` are active in `s` and have the same bounds. -/
def SameBox (s t : St) : Prop :=
  ∀ k, (t.ctag k).inactive = false → (s.ctag k).inactive = false ∧ (t.ctag k).lbInf = (s.ctag k).lbInf ∧
    (t.ctag k).ubInf = (s.ctag k).ubInf ∧ t.lb k = s.lb k ∧ t.ub k = s.ub k

/-- Postsolve takes the optimality conditions from `t` back to `s`; with the flag `b` this is only said of final
points that are feasible for the original problem.  Such points stay within the bounds. -/
structure Back (P : LP) (b : Bool) (s t : St) : Prop where
  suf : ∃ l, t.log = l ++ s.log
  fwd : ∀ X, P.Feasible (fun k => (X k).toQ) → Agrees X t → Boxed X s → Boxed X t
  back : ∀ X σ, (b = true → P.Feasible (fun k => (X k).toQ) ∧ Boxed X s) → Comp P X t σ →
    ∃ σ1, replay none t.log σ = replay none s.log σ1 ∧ Comp P X s σ1

theorem SameBox.boxed {X : ℕ → D} {s t : St} (h : SameBox s t) (hb : Boxed X s) : Boxed X t := by
  intro k hk
  obtain ⟨h1, h2, h3, h4, h5⟩ := h k hk
  rw [h2, h3, h4, h5]; exact hb k h1

theorem SameBox.eq {s t : St} (hc : t.ctag = s.ctag) (hl : t.lb = s.lb) (hu : t.ub = s.ub) : SameBox s t := by
  intro k hk
  rw [hc] at hk
  rw [hc, hl, hu]; exact ⟨hk, rfl, rfl, rfl, rfl⟩

/-- Column `k` goes, the others stay. -/
theorem SameBox.off {s t : St} {k : ℕ} (hk : (t.ctag k).inactive = true) (hc : ∀ j, j ≠ k → t.ctag j = s.ctag j)
    (hl : ∀ j, j ≠ k → t.lb j = s.lb j) (hu : ∀ j, j ≠ k → t.ub j = s.ub j) : SameBox s t := by
  intro j hj
  have e : j ≠ k := by rintro rfl; rw [hk] at hj; cases hj
  rw [hc j e] at hj
  rw [hc j e, hl j e, hu j e]; exact ⟨hj, rfl, rfl, rfl, rfl⟩

theorem CTag.inactive_fixed (t : CTag) : ({ t with fixed := true } : CTag).inactive = true := rfl

theorem replay_fold {new rest : List Rec} (hn : ∀ r ∈ new, r.isHead = false) (σ : Sol) :
    replay none (new ++ rest) σ = replay none rest (new.foldl retRec σ) := by
  induction new generalizing σ with
  | nil => rfl
  | cons r new ih =>
    have h := hn r List.mem_cons_self
    have ih := ih (fun r hr => hn r (List.mem_cons_of_mem _ hr))
    rw [List.foldl_cons, ← ih, List.cons_append]
    cases r <;> first | rfl | (cases h)

section
variable {P : LP} {b : Bool} {X : ℕ → D} {s t u : St} {σ τ : Sol} {k i : ℕ}

theorem Back.refl (P : LP) (b : Bool) (s : St) : Back P b s s :=
  ⟨⟨[], rfl⟩, fun _ _ _ h => h, fun _ σ _ h => ⟨σ, rfl, h⟩⟩

theorem Agrees.suffix (h : Agrees X t) (hl : ∃ l, t.log = l ++ s.log) : Agrees X s := by
  obtain ⟨l, e⟩ := hl
  exact fun k v hv => h k v (by rw [e]; exact logVal_suffix hv)

theorem Back.trans (h : Back P b s t) (h' : Back P b t u) : Back P b s u := by
  refine ⟨?_, fun X hX ha hb => ?_, fun X σ hX hc => ?_⟩
  · obtain ⟨l, e⟩ := h.suf
    obtain ⟨l', e'⟩ := h'.suf
    exact ⟨l' ++ l, by rw [e', e, List.append_assoc]⟩
  · exact h'.fwd X hX ha (h.fwd X hX (ha.suffix h'.suf) hb)
  · have ha : Agrees X t := Agrees.suffix (fun k v => hc.old k v) h'.suf
    obtain ⟨σ1, e1, c1⟩ := h'.back X σ (fun e => ⟨(hX e).1, h.fwd X (hX e).1 ha (hX e).2⟩) hc
    obtain ⟨σ2, e2, c2⟩ := h.back X σ1 hX c1
    exact ⟨σ2, e1.trans e2, c2⟩

theorem Back.log {new : List Rec} (hl : t.log = new ++ s.log) (hn : ∀ r ∈ new, r.isHead = false) (hb : SameBox s t)
    (h : ∀ X σ, Comp P X t σ → Comp P X s (new.foldl retRec σ)) : Back P b s t :=
  ⟨⟨new, hl⟩, fun _ _ _ h => hb.boxed h, fun X σ _ hc => ⟨_, by rw [hl]; exact replay_fold hn σ, h X σ hc⟩⟩

/-- What was recorded stays recorded. -/
theorem Comp.oldSuffix (h : Comp P X t σ) {l : List Rec} (hl : t.log = l ++ s.log) :
    ∀ k v, logVal s.log k = some v → X k = v :=
  fun k v hv => h.old k v (by rw [hl]; exact logVal_suffix hv)

theorem Comp.core (h : Comp P X t σ) (c : SameCore s t) : Comp P X s σ := by
  refine ⟨h.stat.frame rfl rfl c.m (fun i _ => by rw [c.A]) c.c (fun i => by rw [c.rtag]) (fun k => by rw [c.ctag]),
    ?_, h.num, ?_, ?_, ?_, ?_, ?_⟩
  · rw [← c.ctag]; exact h.here
  · rw [← c.log]; exact h.old
  · rw [← c.rtag]; exact h.lhs
  · rw [← c.rtag]; exact h.rhs
  · rw [← c.ctag, ← c.lb]; exact h.lb
  · rw [← c.ctag, ← c.ub]; exact h.ub

theorem Back.core (c : SameCore s t) : Back P b s t :=
  ⟨⟨[], c.log⟩, fun _ _ _ h => (SameBox.eq c.ctag c.lb c.ub).boxed h, fun _ σ _ h => ⟨σ, by rw [c.log], h.core c⟩⟩

/-- A row comes back with dual zero. -/
theorem Comp.deact (h : Comp P X t σ) (hm : t.m = s.m) (hA : ∀ r, r ≠ i → t.A r = s.A r) (hc : t.c = s.c)
    (hct : t.ctag = s.ctag) (hlb : t.lb = s.lb) (hub : t.ub = s.ub)
    (hr : ∀ r, r ≠ i → t.rtag r = s.rtag r) (hi : (t.rtag i).inactive = true) {l : List Rec} (hl : t.log = l ++ s.log) :
    Comp P X s (retDeletedRow σ i 0) := by
  have ey : ∀ r, r ≠ i → (retDeletedRow σ i 0).y r = σ.y r := fun r hr => upd_ne _ _ hr
  have ei : (retDeletedRow σ i 0).y i = .fin 0 := upd_same _ _ _
  refine ⟨h.stat.addRow (i := i) (q := 0) rfl rfl (.inl rfl) hm (fun r hr _ => hA r hr) hc
    (fun r e => by rw [hr r e]) hi (fun _ => by rw [hct]), by rw [← hct]; exact h.here, h.num, h.oldSuffix hl,
    fun r hr' hy => ?_, fun r hr' hy => ?_, by rw [← hct, ← hlb]; exact h.lb, by rw [← hct, ← hub]; exact h.ub⟩
  · by_cases e : r = i
    · subst e; rw [ei] at hy; exact absurd hy (lt_irrefl _)
    · rw [ey r e] at hy
      have := h.lhs r (by rw [hr r e]; exact hr') hy
      rw [hr r e] at this; exact this
  · by_cases e : r = i
    · subst e; rw [ei] at hy; exact absurd hy (lt_irrefl _)
    · rw [ey r e] at hy
      have := h.rhs r (by rw [hr r e]; exact hr') hy
      rw [hr r e] at this; exact this

/-- The reduced cost of a column that is fixed at `val` has the right sign for all duals that respect the
open sides of the rows. -/
def SignAt (s : St) (k : ℕ) (val : D) : Prop :=
  ∀ Y : ℕ → ℚ, (∀ i, (s.rtag i).inactive = false → 0 < Y i → (s.rtag i).lhsInf = false) →
    (∀ i, (s.rtag i).inactive = false → Y i < 0 → (s.rtag i).rhsInf = false) →
    (0 < s.c k - dot (s.AT k) Y → s.lb k = val) ∧ (s.c k - dot (s.AT k) Y < 0 → s.ub k = val)

theorem logVal_new {l : List Rec} (hn : logVal l k = none) (v : D) (ck : ℚ) (cells : List Cell) :
    logVal (.fixedCol k v ck cells :: l) k = some v := by
  show (logVal l k).or (if k = k then some v else none) = _
  rw [hn, if_pos rfl]; rfl

/-- Column `k` comes back. -/
theorem Comp.col (h : Comp P X t σ) (hz : StatAt s τ) (hy : τ.y = σ.y) {val : D} (hx : τ.x = upd σ.x k val)
    (hzj : ∀ j, j ≠ k → τ.z j = σ.z j)
    (hrt : t.rtag = s.rtag) (hct : ∀ j, j ≠ k → t.ctag j = s.ctag j) (hlb : ∀ j, j ≠ k → t.lb j = s.lb j)
    (hub : ∀ j, j ≠ k → t.ub j = s.ub j) {l : List Rec} (hl : t.log = l ++ s.log)
    (hv : logVal t.log k = some val) (h1 : 0 < (τ.z k).toQ → s.lb k = val) (h2 : (τ.z k).toQ < 0 → s.ub k = val) :
    Comp P X s τ := by
  have hX := h.old k val hv
  refine ⟨hz, fun j hj => ?_, h.num, h.oldSuffix hl, by rw [hy, ← hrt]; exact h.lhs, by rw [hy, ← hrt]; exact h.rhs,
    fun j hj hp => ?_, fun j hj hp => ?_⟩
  · rw [hx]
    by_cases e : j = k
    · subst e; rw [upd_same, hX]
    · rw [upd_ne _ _ e]; exact h.here j (by rw [hct j e]; exact hj)
  · by_cases e : j = k
    · subst e; rw [h1 hp, hX]
    · rw [hzj j e] at hp
      rw [← hlb j e]; exact h.lb j (by rw [hct j e]; exact hj) hp
  · by_cases e : j = k
    · subst e; rw [h2 hp, hX]
    · rw [hzj j e] at hp
      rw [← hub j e]; exact h.ub j (by rw [hct j e]; exact hj) hp

theorem Comp.fix (g : GI s) {val : D} (hk : (s.ctag k).inactive = false) (hN : NoRows s)
    (hnew : logVal s.log k = none) (hs : SignAt s k val) (h : Comp P X (fixStep s k val (s.c k)) σ) :
    Comp P X s (retFixCol σ k val (s.c k) (s.AT k)) := by
  have hrows : ∀ p ∈ s.AT k, (s.rtag p.1).inactive = false := fun p hp => g.rowsActive hN hk p hp
  have hz := h.stat.fix g hk hrows
  have hzk : (retFixCol σ k val (s.c k) (s.AT k)).z k = .fin (s.c k - dot (s.AT k) (fun i => (σ.y i).toQ)) := by
    rw [hz.z k hk, colSum_col g hk hrows]; rfl
  have hs := hs (fun i => (σ.y i).toQ) (fun i hi hp => (h.lhs i hi hp).1) (fun i hi hp => (h.rhs i hi hp).1)
  refine h.col (k := k) (val := val) (l := [_]) hz rfl rfl (fun j hj => upd_ne _ _ hj) rfl (fun j hj => upd_ne _ _ hj)
    (fun j hj => upd_ne _ _ hj) (fun j hj => upd_ne _ _ hj) rfl (logVal_new hnew _ _ _) (fun hp => ?_) (fun hp => ?_)
  · exact hs.1 (by have : 0 < ((retFixCol σ k val (s.c k) (s.AT k)).z k).toQ := hp
                   rwa [hzk] at this)
  · exact hs.2 (by have : ((retFixCol σ k val (s.c k) (s.AT k)).z k).toQ < 0 := hp
                   rwa [hzk] at this)

theorem Back.fix (g : GI s) {val : D} (hk : (s.ctag k).inactive = false) (hN : NoRows s)
    (hnew : logVal s.log k = none) (hs : SignAt s k val) : Back P b s (fixStep s k val (s.c k)) :=
  .log (new := [.fixedCol k val (s.c k) (s.AT k)]) rfl (by simp [Rec.isHead])
    (.off (k := k) (by show (upd s.ctag k _ k).inactive = true; rw [upd_same]; rfl) (fun j hj => upd_ne _ _ hj)
      (fun j hj => upd_ne _ _ hj) (fun j hj => upd_ne _ _ hj)) (fun _ _ h => h.fix g hk hN hnew hs)

theorem Back.fixCol (g : GI s) {val : D} (hk : (s.ctag k).inactive = false) (hN : NoRows s)
    (hnew : logVal s.log k = none) (hs : SignAt s k val) : Back P b s (fixCol s k val (s.c k)).1 := by
  rcases fixCol_eq s k val (s.c k) with ⟨b', e, -⟩ | ⟨b', a, u, e, -⟩
  · rw [e]; exact .core (by constructor <;> rfl)
  · rw [e]; exact (Back.fix g hk hN hnew hs).trans (.core (by constructor <;> rfl))

theorem Back.delRows (g : GI s) : Back P b s (deleteInactiveRows s) := by
  have d := deleteInactiveRows_deleted g
  generalize deleteInactiveRows s = t at *
  have tlg : t.log = s.log := by rw [d.eq]
  have trt : t.rtag = s.rtag := by rw [d.eq]
  have tct : t.ctag = s.ctag := by rw [d.eq]
  have tm : t.m = s.m := by rw [d.eq]
  have tc : t.c = s.c := by rw [d.eq]
  have tlb : t.lb = s.lb := by rw [d.eq]
  have tub : t.ub = s.ub := by rw [d.eq]
  refine ⟨⟨[], tlg⟩, fun _ _ _ h => (SameBox.eq tct tlb tub).boxed h, fun X σ _ h => ⟨σ, by rw [tlg], ?_⟩⟩
  refine ⟨h.stat.frame rfl rfl tm (fun i hi => ?_) tc (fun _ => by rw [trt]) (fun _ => by rw [tct]),
    by rw [← tct]; exact h.here, h.num, by rw [← tlg]; exact h.old, by rw [← trt]; exact h.lhs,
    by rw [← trt]; exact h.rhs, by rw [← tct, ← tlb]; exact h.lb, by rw [← tct, ← tub]; exact h.ub⟩
  rw [d.A, if_neg]
  intro hm
  have := (g.rowsDel i hm).1
  rw [this] at hi; cases hi

theorem Back.delCols (g : GI s) (hN : NoRows s) : Back P b s (deleteInactiveCols (deleteFixedCols s)) := by
  obtain ⟨l, r, a, o', b', e⟩ := deleteFixedCols_eq s
  rw [e]
  have d := deleteInactiveCols_deleted
    (s := { s with lhs := l, rhs := r, act := a, off := o', asrt := b' })
    (g.of_eq rfl rfl rfl rfl rfl (fun _ => rfl) rfl rfl rfl rfl rfl rfl rfl rfl) hN
  generalize deleteInactiveCols { s with lhs := l, rhs := r, act := a, off := o', asrt := b' } = t at *
  have tlg : t.log = s.log := by rw [d.eq]
  have trt : t.rtag = s.rtag := by rw [d.eq]
  have tct : t.ctag = s.ctag := by rw [d.eq]
  have tm : t.m = s.m := by rw [d.eq]
  have tc : t.c = s.c := by rw [d.eq]
  have tlb : t.lb = s.lb := by rw [d.eq]
  have tub : t.ub = s.ub := by rw [d.eq]
  refine ⟨⟨[], tlg⟩, fun _ _ _ h => (SameBox.eq tct tlb tub).boxed h, fun X σ _ h => ⟨σ, by rw [tlg], ?_⟩⟩
  refine ⟨⟨fun i hi => h.stat.y i (by rw [trt]; exact hi), fun k hk => ?_⟩,
    by rw [← tct]; exact h.here, h.num, by rw [← tlg]; exact h.old, by rw [← trt]; exact h.lhs,
    by rw [← trt]; exact h.rhs, by rw [← tct, ← tlb]; exact h.lb, by rw [← tct, ← tub]; exact h.ub⟩
  rw [h.stat.z k (by rw [tct]; exact hk), tc]
  congr 2
  refine (colSum_congr tm (fun i _ => ?_)).symm
  unfold rowTerm
  rw [trt, d.A i]
  rw [coefAt_offCols (fun hm => by
    have := (g.colsDel k hm).1
    rw [this] at hk; cases hk)]

end

end Verif
