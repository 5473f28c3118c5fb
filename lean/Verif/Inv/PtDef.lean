import Verif.Inv.DtonDual
import Verif.Lemmas.ParRow

/-!
# Optimality conditions of the problem that is left, with columns waiting for deletion

`KktAt` looks at the point in the active columns only.  Between the fixing of a column and its deletion the rows still
contain its cells; `KktP` takes the stored value for them.
-/

namespace Verif

/-- The point, with the stored values in the columns that are no longer active. -/
def pt (s : St) (σ : Sol) (k : ℕ) : ℚ := if (s.ctag k).inactive then (s.ub k).toQ else (σ.x k).toQ

/-- The optimality conditions of the problem that is left in `s`. -/
structure KktP (s : St) (σ : Sol) : Prop where
  num : ∀ k, (s.ctag k).inactive = false → ∃ q, σ.x k = .fin q
  stat : StatAt s σ
  lhs : ∀ i, (s.rtag i).inactive = false → 0 < (σ.y i).toQ →
    (s.rtag i).lhsInf = false ∧ s.lhs i = .fin (dot (s.A i) (pt s σ))
  rhs : ∀ i, (s.rtag i).inactive = false → (σ.y i).toQ < 0 →
    (s.rtag i).rhsInf = false ∧ s.rhs i = .fin (dot (s.A i) (pt s σ))
  lb : ∀ k, (s.ctag k).inactive = false → 0 < (σ.z k).toQ → (s.ctag k).lbInf = false ∧ s.lb k = σ.x k
  ub : ∀ k, (s.ctag k).inactive = false → (σ.z k).toQ < 0 → (s.ctag k).ubInf = false ∧ s.ub k = σ.x k

/-- Sides and bounds that are present are numbers. -/
structure Num (s : St) : Prop where
  lhs : ∀ i, (s.rtag i).inactive = false → FinIf (s.rtag i).lhsInf (s.lhs i)
  rhs : ∀ i, (s.rtag i).inactive = false → FinIf (s.rtag i).rhsInf (s.rhs i)
  eq : ∀ i, (s.rtag i).inactive = false → (s.rtag i).eq = true → (s.rtag i).lhsInf = false ∧ (s.rtag i).rhsInf = false
  lb : ∀ k, (s.ctag k).inactive = false → LoForm (s.ctag k).lbInf (s.lb k)
  ub : ∀ k, (s.ctag k).inactive = false → HiForm (s.ctag k).ubInf (s.ub k)
  pend : ∀ k ∈ s.fixedCols, ∃ q, s.ub k = .fin q
  subs : s.subCols = []

/-- Postsolve takes the optimality conditions from `t` back to `s`. -/
def PtBack (s t : St) : Prop :=
  ∀ σ, KktP t σ → ∃ σ1, replay none t.log σ = replay none s.log σ1 ∧ KktP s σ1

section
variable {s t u : St} {σ τ : Sol} {i k : ℕ}

theorem PtBack.refl (s : St) : PtBack s s := fun σ h => ⟨σ, rfl, h⟩

theorem PtBack.trans (h : PtBack s t) (h' : PtBack t u) : PtBack s u := by
  intro σ hσ
  obtain ⟨σ1, e1, k1⟩ := h' σ hσ
  obtain ⟨σ2, e2, k2⟩ := h σ1 k1
  exact ⟨σ2, e1.trans e2, k2⟩

theorem PtBack.log {new : List Rec} (hl : t.log = new ++ s.log) (hn : ∀ r ∈ new, r.isHead = false)
    (h : ∀ σ, KktP t σ → KktP s (new.foldl retRec σ)) : PtBack s t :=
  fun σ hσ => ⟨_, by rw [hl]; exact replay_fold hn σ, h σ hσ⟩

/-- Nothing is pending: the columns in the rows are active. -/
theorem pt_clean (g : GI s) (c : Clean s) (hi : (s.rtag i).inactive = false) :
    dot (s.A i) (pt s σ) = dot (s.A i) (fun k => (σ.x k).toQ) := by
  refine dot_congr (fun p hp => ?_)
  unfold pt
  rw [if_neg]
  intro ha
  have := g.colPendIn p.1 ha (g.rowIn i hi p hp)
  rw [c.2.1, c.2.2] at this; cases this

theorem KktP.at (g : GI s) (c : Clean s) (h : KktP s σ) : KktAt s σ :=
  ⟨h.num, h.stat, fun i hi hy => by rw [← pt_clean g c hi]; exact h.lhs i hi hy,
    fun i hi hy => by rw [← pt_clean g c hi]; exact h.rhs i hi hy, h.lb, h.ub⟩

theorem KktAt.toP (g : GI s) (c : Clean s) (h : KktAt s σ) : KktP s σ :=
  ⟨h.num, h.stat, fun i hi hy => by rw [pt_clean g c hi]; exact h.lhs i hi hy,
    fun i hi hy => by rw [pt_clean g c hi]; exact h.rhs i hi hy, h.lb, h.ub⟩

theorem KktBack.toP (h : KktBack s t) (g : GI s) (c : Clean s) (g' : GI t) (c' : Clean t) : PtBack s t := by
  intro σ hσ
  obtain ⟨σ1, e1, k1, -, -⟩ := h σ (hσ.at g' c')
  exact ⟨σ1, e1, k1.toP g c⟩

theorem pt_eq (hc : t.ctag = s.ctag) (hu : t.ub = s.ub) (hx : τ.x = σ.x) : pt t σ = pt s τ := by
  funext k; unfold pt; rw [hc, hu, hx]

theorem KktP.core (h : KktP t σ) (c : SameCore s t) : KktP s σ := by
  have e : pt t σ = pt s σ := pt_eq c.ctag c.ub rfl
  refine ⟨?_, h.stat.frame rfl rfl c.m (fun i _ => by rw [c.A]) c.c (fun i => by rw [c.rtag]) (fun k => by rw [c.ctag]),
    ?_, ?_, ?_, ?_⟩
  · rw [← c.ctag]; exact h.num
  · rw [← c.rtag, ← c.lhs, ← c.A, ← e]; exact h.lhs
  · rw [← c.rtag, ← c.rhs, ← c.A, ← e]; exact h.rhs
  · rw [← c.ctag, ← c.lb]; exact h.lb
  · rw [← c.ctag, ← c.ub]; exact h.ub

theorem PtBack.core (c : SameCore s t) : PtBack s t := fun σ h => ⟨σ, by rw [c.log], h.core c⟩

theorem Num.core (h : Num s) (c : SameCore s t) : Num t := by
  refine ⟨?_, ?_, ?_, ?_, ?_, ?_, c.subCols.trans h.subs⟩
  · rw [c.rtag, c.lhs]; exact h.lhs
  · rw [c.rtag, c.rhs]; exact h.rhs
  · rw [c.rtag]; exact h.eq
  · rw [c.ctag, c.lb]; exact h.lb
  · rw [c.ctag, c.ub]; exact h.ub
  · rw [c.fixedCols, c.ub]; exact h.pend

/-- A row goes. -/
theorem Num.deact (h : Num s) (hr : ∀ r, r ≠ i → t.rtag r = s.rtag r) (hi : (t.rtag i).inactive = true)
    (hl : t.lhs = s.lhs) (hu : t.rhs = s.rhs) (hct : t.ctag = s.ctag) (hlb : t.lb = s.lb) (hub : t.ub = s.ub)
    (hf : t.fixedCols = s.fixedCols) (hs : t.subCols = s.subCols) : Num t := by
  have ne : ∀ r, (t.rtag r).inactive = false → r ≠ i := fun r h e => by subst e; rw [hi] at h; cases h
  refine ⟨fun r h' => ?_, fun r h' => ?_, fun r h' => ?_, ?_, ?_, ?_, hs.trans h.subs⟩
  · have e := ne r h'
    rw [hr r e] at h' ⊢; rw [hl]; exact h.lhs r h'
  · have e := ne r h'
    rw [hr r e] at h' ⊢; rw [hu]; exact h.rhs r h'
  · have e := ne r h'
    rw [hr r e] at h' ⊢; exact h.eq r h'
  · rw [hct, hlb]; exact h.lb
  · rw [hct, hub]; exact h.ub
  · rw [hf, hub]; exact h.pend

/-- A row comes back with dual zero. -/
theorem KktP.deact (h : KktP t σ) (hm : t.m = s.m) (hA : ∀ r, r ≠ i → t.A r = s.A r) (hc : t.c = s.c)
    (hct : t.ctag = s.ctag) (hlb : t.lb = s.lb) (hub : t.ub = s.ub) (hl : t.lhs = s.lhs) (hu : t.rhs = s.rhs)
    (hr : ∀ r, r ≠ i → t.rtag r = s.rtag r) (hi : (t.rtag i).inactive = true) : KktP s (retDeletedRow σ i 0) := by
  have ey : ∀ r, r ≠ i → (retDeletedRow σ i 0).y r = σ.y r := fun r hr => upd_ne _ _ hr
  have ei : (retDeletedRow σ i 0).y i = .fin 0 := upd_same _ _ _
  have ep : pt t σ = pt s (retDeletedRow σ i 0) := pt_eq hct hub rfl
  refine ⟨by rw [← hct]; exact h.num, h.stat.addRow (i := i) (q := 0) rfl rfl (.inl rfl) hm (fun r hr _ => hA r hr) hc
    (fun r e => by rw [hr r e]) hi (fun _ => by rw [hct]),
    fun r hr' hy => ?_, fun r hr' hy => ?_, by rw [← hct, ← hlb]; exact h.lb, by rw [← hct, ← hub]; exact h.ub⟩
  · by_cases e : r = i
    · subst e; rw [ei] at hy; exact absurd hy (lt_irrefl _)
    · rw [ey r e] at hy
      have := h.lhs r (by rw [hr r e]; exact hr') hy
      rw [hr r e, hl, hA r e, ep] at this; exact this
  · by_cases e : r = i
    · subst e; rw [ei] at hy; exact absurd hy (lt_irrefl _)
    · rw [ey r e] at hy
      have := h.rhs r (by rw [hr r e]; exact hr') hy
      rw [hr r e, hu, hA r e, ep] at this; exact this

/-! ### Fixing -/

/-- The reduced cost of a column that is fixed at `val` has the right sign for all duals that respect the
open sides of the rows. -/
def SignP (s : St) (k : ℕ) (val : D) : Prop :=
  ∀ Y : ℕ → ℚ, (∀ i, (s.rtag i).inactive = false → 0 < Y i → (s.rtag i).lhsInf = false) →
    (∀ i, (s.rtag i).inactive = false → Y i < 0 → (s.rtag i).rhsInf = false) →
    (0 < s.c k - dot (s.AT k) Y → (s.ctag k).lbInf = false ∧ s.lb k = val) ∧
    (s.c k - dot (s.AT k) Y < 0 → (s.ctag k).ubInf = false ∧ s.ub k = val)

/-- Column `k` comes back. -/
theorem KktP.col (h : KktP t σ) (hz : StatAt s τ) (hy : τ.y = σ.y) {val : D} (hv : ∃ q, val = .fin q)
    (hx : τ.x = upd σ.x k val) (hzj : ∀ j, j ≠ k → τ.z j = σ.z j)
    (hrt : t.rtag = s.rtag) (hlh : t.lhs = s.lhs) (hrh : t.rhs = s.rhs)
    (hdot : ∀ i, (s.rtag i).inactive = false → dot (t.A i) (pt t σ) = dot (s.A i) (pt s τ))
    (hct : ∀ j, j ≠ k → t.ctag j = s.ctag j) (hlb : ∀ j, j ≠ k → t.lb j = s.lb j)
    (hub : ∀ j, j ≠ k → t.ub j = s.ub j) (h1 : 0 < (τ.z k).toQ → (s.ctag k).lbInf = false ∧ s.lb k = val)
    (h2 : (τ.z k).toQ < 0 → (s.ctag k).ubInf = false ∧ s.ub k = val) : KktP s τ := by
  refine ⟨fun j hj => ?_, hz, fun i hi hp => ?_, fun i hi hp => ?_, fun j hj hp => ?_, fun j hj hp => ?_⟩
  · rw [hx]
    by_cases e : j = k
    · subst e; rw [upd_same]; exact hv
    · rw [upd_ne _ _ e]; exact h.num j (by rw [hct j e]; exact hj)
  · have := h.lhs i (by rw [hrt]; exact hi) (by rw [← hy]; exact hp)
    rw [hrt, hlh, hdot i hi] at this; exact this
  · have := h.rhs i (by rw [hrt]; exact hi) (by rw [← hy]; exact hp)
    rw [hrt, hrh, hdot i hi] at this; exact this
  · by_cases e : j = k
    · subst e; rw [hx, upd_same]; exact h1 hp
    · rw [hzj j e] at hp
      rw [hx, upd_ne _ _ e, ← hct j e, ← hlb j e]; exact h.lb j (by rw [hct j e]; exact hj) hp
  · by_cases e : j = k
    · subst e; rw [hx, upd_same]; exact h2 hp
    · rw [hzj j e] at hp
      rw [hx, upd_ne _ _ e, ← hct j e, ← hub j e]; exact h.ub j (by rw [hct j e]; exact hj) hp

theorem KktP.fix (g : GI s) {val : D} (hv : ∃ q, val = .fin q) (hk : (s.ctag k).inactive = false) (hN : NoRows s)
    (hs : SignP s k val) (h : KktP (fixStep s k val (s.c k)) σ) : KktP s (retFixCol σ k val (s.c k) (s.AT k)) := by
  have hrows : ∀ p ∈ s.AT k, (s.rtag p.1).inactive = false := fun p hp => g.rowsActive hN hk p hp
  have hz := h.stat.fix g hk hrows
  have hzk : (retFixCol σ k val (s.c k) (s.AT k)).z k = .fin (s.c k - dot (s.AT k) (fun i => (σ.y i).toQ)) := by
    rw [hz.z k hk, colSum_col g hk hrows]; rfl
  have hs := hs (fun i => (σ.y i).toQ) (fun i hi hp => (h.lhs i hi hp).1) (fun i hi hp => (h.rhs i hi hp).1)
  refine h.col (k := k) (val := val) hz rfl hv rfl (fun j hj => upd_ne _ _ hj) rfl rfl rfl (fun i _ => ?_)
    (fun j hj => upd_ne _ _ hj) (fun j hj => upd_ne _ _ hj) (fun j hj => upd_ne _ _ hj) (fun hp => ?_) (fun hp => ?_)
  · refine congrArg (dot (s.A i)) (funext fun j => ?_)
    unfold pt
    show (if (upd s.ctag k _ j).inactive then (upd s.ub k val j).toQ else _) =
      if (s.ctag j).inactive then _ else (upd σ.x k val j).toQ
    by_cases e : j = k
    · subst e
      rw [upd_same, upd_same, upd_same, if_pos (CTag.inactive_fixed _), hk]; rfl
    · rw [upd_ne _ _ e, upd_ne _ _ e, upd_ne _ _ e]
  · exact hs.1 (by have : 0 < ((retFixCol σ k val (s.c k) (s.AT k)).z k).toQ := hp
                   rwa [hzk] at this)
  · exact hs.2 (by have : ((retFixCol σ k val (s.c k) (s.AT k)).z k).toQ < 0 := hp
                   rwa [hzk] at this)

theorem PtBack.fix (g : GI s) {val : D} (hv : ∃ q, val = .fin q) (hk : (s.ctag k).inactive = false) (hN : NoRows s)
    (hs : SignP s k val) : PtBack s (fixStep s k val (s.c k)) :=
  .log (new := [.fixedCol k val (s.c k) (s.AT k)]) rfl (by simp [Rec.isHead]) (fun _ h => h.fix g hv hk hN hs)

/-- A column goes. -/
theorem Num.off (h : Num s) (hk : (t.ctag k).inactive = true) (hc : ∀ j, j ≠ k → t.ctag j = s.ctag j)
    (hlb : ∀ j, j ≠ k → t.lb j = s.lb j) (hub : ∀ j, j ≠ k → t.ub j = s.ub j) (hr : t.rtag = s.rtag)
    (hl : t.lhs = s.lhs) (hu : t.rhs = s.rhs) (hf : ∀ j ∈ t.fixedCols, j ∈ s.fixedCols ∨ j = k)
    (hp : k ∈ t.fixedCols → ∃ q, t.ub k = .fin q) (hs : t.subCols = s.subCols) : Num t := by
  have ne : ∀ r, (t.ctag r).inactive = false → r ≠ k := fun r h e => by subst e; rw [hk] at h; cases h
  refine ⟨by rw [hr, hl]; exact h.lhs, by rw [hr, hu]; exact h.rhs, by rw [hr]; exact h.eq, fun j hj => ?_,
    fun j hj => ?_, fun j hj => ?_, hs.trans h.subs⟩
  · have e := ne j hj
    rw [hc j e] at hj ⊢; rw [hlb j e]; exact h.lb j hj
  · have e := ne j hj
    rw [hc j e] at hj ⊢; rw [hub j e]; exact h.ub j hj
  · by_cases e : j = k
    · subst e; exact hp hj
    · rw [hub j e]; exact h.pend j ((hf j hj).resolve_right e)

theorem Num.fix (h : Num s) {val : D} (hv : ∃ q, val = .fin q) (ck : ℚ) : Num (fixStep s k val ck) := by
  refine h.off (k := k) (by show (upd s.ctag k _ k).inactive = true; rw [upd_same]; rfl) (fun j hj => upd_ne _ _ hj)
    (fun j hj => upd_ne _ _ hj) (fun j hj => upd_ne _ _ hj) rfl rfl rfl (fun j hj => ?_) (fun _ => ?_) rfl
  · have hj : j ∈ s.fixedCols ++ [k] := hj
    simpa using hj
  · show ∃ q, upd s.ub k val k = _
    rw [upd_same]; exact hv

theorem fixCol_pt (g : GI s) (n : Num s) {val : D} (hv : ∃ q, val = .fin q) (hk : (s.ctag k).inactive = false)
    (hN : NoRows s) (hs : SignP s k val) : Num (fixCol s k val (s.c k)).1 ∧ PtBack s (fixCol s k val (s.c k)).1 := by
  rcases fixCol_eq s k val (s.c k) with ⟨b', e, -⟩ | ⟨b', a, u, e, -⟩
  · rw [e]; exact ⟨n.core (by constructor <;> rfl), .core (by constructor <;> rfl)⟩
  · rw [e]
    have sc : SameCore (fixStep s k val (s.c k)) { fixStep s k val (s.c k) with act := a, updActs := u, asrt := b' } := by
      constructor <;> rfl
    exact ⟨(n.fix hv _).core sc, (PtBack.fix g hv hk hN hs).trans (.core sc)⟩

/-! ### Deletion of rows -/

theorem delRows_pt (g : GI s) (n : Num s) : Num (deleteInactiveRows s) ∧ PtBack s (deleteInactiveRows s) := by
  have d := deleteInactiveRows_deleted g
  generalize deleteInactiveRows s = t at *
  have tlg : t.log = s.log := by rw [d.eq]
  have trt : t.rtag = s.rtag := by rw [d.eq]
  have tct : t.ctag = s.ctag := by rw [d.eq]
  have tm : t.m = s.m := by rw [d.eq]
  have tc : t.c = s.c := by rw [d.eq]
  have tlb : t.lb = s.lb := by rw [d.eq]
  have tub : t.ub = s.ub := by rw [d.eq]
  have tl : t.lhs = s.lhs := by rw [d.eq]
  have tr : t.rhs = s.rhs := by rw [d.eq]
  have tf : t.fixedCols = s.fixedCols := by rw [d.eq]
  have ts : t.subCols = s.subCols := by rw [d.eq]
  have tA : ∀ i, (s.rtag i).inactive = false → t.A i = s.A i := by
    intro i hi
    rw [d.A, if_neg]
    intro hm
    have := (g.rowsDel i hm).1
    rw [this] at hi; cases hi
  constructor
  · refine ⟨?_, ?_, ?_, ?_, ?_, ?_, ts.trans n.subs⟩
    · rw [trt, tl]; exact n.lhs
    · rw [trt, tr]; exact n.rhs
    · rw [trt]; exact n.eq
    · rw [tct, tlb]; exact n.lb
    · rw [tct, tub]; exact n.ub
    · rw [tf, tub]; exact n.pend
  · intro σ h
    have ep : pt t σ = pt s σ := pt_eq tct tub rfl
    refine ⟨σ, by rw [tlg], by rw [← tct]; exact h.num,
      h.stat.frame rfl rfl tm (fun i hi => tA i hi) tc (fun _ => by rw [trt]) (fun _ => by rw [tct]),
      fun i hi hy => ?_, fun i hi hy => ?_, by rw [← tct, ← tlb]; exact h.lb, by rw [← tct, ← tub]; exact h.ub⟩
    · have := h.lhs i (by rw [trt]; exact hi) hy
      rw [trt, tl, tA i hi, ep] at this; exact this
    · have := h.rhs i (by rw [trt]; exact hi) hy
      rw [trt, tr, tA i hi, ep] at this; exact this

/-! ### Deletion of columns -/

/-- Contribution of the columns of `K` to row `i`. -/
def movedUb (s : St) (K : List ℕ) (i : ℕ) : ℚ :=
  (((s.A i).filter (fun p => decide (p.1 ∈ K))).map (fun p => p.2 * (s.ub p.1).toQ)).sum

/-- The sides of row `i` in `t` are those in `s` less the columns of `K`. -/
structure SideShift (s t : St) (K : List ℕ) (i : ℕ) : Prop where
  rhs : (s.rtag i).rhsInf = false → ∀ r, s.rhs i = .fin r → t.rhs i = .fin (r - movedUb s K i)
  lhs : (s.rtag i).lhsInf = false → ∀ r, s.lhs i = .fin r → t.lhs i = .fin (r - movedUb s K i)

theorem SideShift.step (g : GI s) (hi : (s.rtag i).inactive = false) {K : List ℕ} (hkD : k ∉ K) {v : ℚ}
    (hu : s.ub k = .fin v) (hcs : s.colSize k ≠ -1)
    (e : ∃ l r a o b, t = { s with lhs := l, rhs := r, act := a, off := o, asrt := b })
    (hs : SideShift s t K i) : SideShift s (delFixedCol t k) (K ++ [k]) i := by
  have etag : t.rtag = s.rtag := by obtain ⟨l, r, a, o, b, rfl⟩ := e; rfl
  have eAT : t.AT = s.AT := by obtain ⟨l, r, a, o, b, rfl⟩ := e; rfl
  have eub : t.ub = s.ub := by obtain ⟨l, r, a, o, b, rfl⟩ := e; rfl
  unfold delFixedCol
  simp only
  have hu2 : (((t.check (t.ctag k).fixed).check (!D.isInf (t.ub k))).check (D.eqb (t.lb k) (t.ub k))).ub k =
      .fin v := (congrFun eub k).trans hu
  have hus : SideShift s (((t.check (t.ctag k).fixed).check (!D.isInf (t.ub k))).check
      (D.eqb (t.lb k) (t.ub k))) K i := ⟨hs.rhs, hs.lhs⟩
  have urt : (((t.check (t.ctag k).fixed).check (!D.isInf (t.ub k))).check (D.eqb (t.lb k) (t.ub k))).rtag =
      s.rtag := etag
  have uAT : (((t.check (t.ctag k).fixed).check (!D.isInf (t.ub k))).check (D.eqb (t.lb k) (t.ub k))).AT =
      s.AT := eAT
  generalize (((t.check (t.ctag k).fixed).check (!D.isInf (t.ub k))).check (D.eqb (t.lb k) (t.ub k))) = u
    at hu2 hus urt uAT ⊢
  rw [hu2]
  rcases g.cellCases hi hcs with ⟨q, hq1, hq2, -⟩ | ⟨hn1, hn2⟩
  · have hmv : movedUb s (K ++ [k]) i = movedUb s K i + q * v := by
      unfold movedUb
      rw [moved_snoc hkD, mids_of_mem (g.rowSorted i) hq2]
      simp only [List.map_cons, List.map_nil, List.sum_cons, List.sum_nil, hu, D.toQ_fin, add_zero]
    by_cases hv0 : v = 0
    · subst hv0
      rw [if_pos (by simp [D.eqb])]
      refine ⟨?_, ?_⟩
      · intro h1 r h2; rw [hmv, hus.rhs h1 r h2]; simp
      · intro h1 r h2; rw [hmv, hus.lhs h1 r h2]; simp
    · rw [if_neg (by simp [D.eqb, hv0]), uAT]
      obtain ⟨f1, f2, f3⟩ := (shiftFold (.fin v) (s.AT k) (g.colSorted k).nodup u i).1 q hq1
      refine ⟨?_, ?_⟩
      · intro h1 r h2
        unfold fixVarInObj
        simp only; rw [f2]
        unfold shiftSides
        simp only [urt, hi, h1, Bool.false_eq_true, if_false, upd_same]
        rw [hus.rhs h1 r h2, D.smul_fin, D.sub_fin, hmv]
        congr 1; ring
      · intro h1 r h2
        unfold fixVarInObj
        simp only; rw [f1]
        unfold shiftSides
        simp only [urt, hi, h1, Bool.false_eq_true, if_false, upd_same]
        rw [hus.lhs h1 r h2, D.smul_fin, D.sub_fin, hmv]
        congr 1; ring
  · have hmv : movedUb s (K ++ [k]) i = movedUb s K i := by
      unfold movedUb
      rw [moved_snoc hkD]
      have : mids k (s.A i) = [] := List.filter_eq_nil_iff.mpr (fun p hp => by simpa using hn2 p hp)
      rw [this]; simp
    split
    · exact ⟨by rw [hmv]; exact hus.rhs, by rw [hmv]; exact hus.lhs⟩
    · rw [uAT]
      obtain ⟨f1, f2, f3⟩ := (shiftFold (.fin v) (s.AT k) (g.colSorted k).nodup u i).2 hn1
      unfold fixVarInObj
      refine ⟨?_, ?_⟩
      · simp only; rw [hmv, f2]; exact hus.rhs
      · simp only; rw [hmv, f1]; exact hus.lhs

theorem sideShiftFold (g : GI s) (hi : (s.rtag i).inactive = false) (K : List ℕ) (hnd : K.Nodup)
    (hK : ∀ k ∈ K, (∃ q, s.ub k = .fin q) ∧ s.colSize k ≠ -1) :
    (∃ l r a o b, K.foldl delFixedCol s = { s with lhs := l, rhs := r, act := a, off := o, asrt := b }) ∧
      SideShift s (K.foldl delFixedCol s) K i := by
  induction K using List.reverseRecOn with
  | nil =>
    refine ⟨⟨_, _, _, _, _, rfl⟩, ?_, ?_⟩
    · intro _ r hr; simpa [movedUb] using hr
    · intro _ r hr; simpa [movedUb] using hr
  | append_singleton K k ih =>
    rw [List.nodup_append] at hnd
    obtain ⟨e, hs⟩ := ih hnd.1 (fun j hj => hK j (List.mem_append_left _ hj))
    obtain ⟨⟨q, h1⟩, h2⟩ := hK k (by simp)
    rw [List.foldl_append, List.foldl_cons, List.foldl_nil]
    refine ⟨?_, hs.step g hi (fun hk => hnd.2.2 k hk k (by simp) rfl) h1 h2 e⟩
    obtain ⟨l, r, a, o, b, e⟩ := e
    obtain ⟨l', r', a', o', b', e'⟩ := delFixedCol_eq (K.foldl delFixedCol s) k
    exact ⟨l', r', a', o', b', by rw [e', e]⟩

theorem delCols_pt (g : GI s) (n : Num s) (hN : NoRows s) :
    Num (deleteInactiveCols (deleteFixedCols s)) ∧ PtBack s (deleteInactiveCols (deleteFixedCols s)) := by
  have hcd : ∀ k ∈ s.fixedCols, (s.ctag k).inactive = true ∧ s.colSize k ≠ -1 :=
    fun k hk => g.colsDel k (List.mem_append_left _ hk)
  have hnd : s.fixedCols.Nodup := by
    have := g.colsNodup
    rw [n.subs, List.append_nil] at this; exact this
  have hsh : ∀ i, (s.rtag i).inactive = false → SideShift s (deleteFixedCols s) s.fixedCols i :=
    fun i hi => (sideShiftFold g hi s.fixedCols hnd (fun k hk => ⟨n.pend k hk, (hcd k hk).2⟩)).2
  obtain ⟨l, r, a, o, b, e⟩ := deleteFixedCols_eq s
  have g1 : GI (deleteFixedCols s) := by
    rw [e]
    exact g.of_eq rfl rfl rfl rfl rfl (fun _ => rfl) rfl rfl rfl rfl rfl rfl rfl rfl
  have d := deleteInactiveCols_deleted g1 (by rw [e]; exact hN)
  generalize hu : deleteFixedCols s = u at *
  generalize deleteInactiveCols u = t at *
  have eF : u.fixedCols ++ u.subCols = s.fixedCols := by rw [e]; simp [n.subs]
  have eA : u.A = s.A := by rw [e]
  have tA : ∀ i, t.A i = offCols s.fixedCols (s.A i) := fun i => by rw [d.A, eF, eA]
  have tlb : t.lb = s.lb := by rw [d.eq, e]
  have tub : t.ub = s.ub := by rw [d.eq, e]
  have tct : t.ctag = s.ctag := by rw [d.eq, e]
  have trt : t.rtag = s.rtag := by rw [d.eq, e]
  have tlg : t.log = s.log := by rw [d.eq, e]
  have tm : t.m = s.m := by rw [d.eq, e]
  have tc : t.c = s.c := by rw [d.eq, e]
  have tr : t.rhs = u.rhs := by rw [d.eq]
  have tl : t.lhs = u.lhs := by rw [d.eq]
  have hdot : ∀ i σ, dot (s.A i) (pt s σ) = dot (t.A i) (pt t σ) + movedUb s s.fixedCols i := by
    intro i σ
    have ep : pt t σ = pt s σ := pt_eq tct tub rfl
    rw [ep, tA]
    unfold Verif.dot movedUb offCols
    rw [sum_filter_split _ (fun p => decide (p.1 ∈ s.fixedCols)), add_comm]
    congr 1
    · congr 2
      refine List.filter_congr (fun p _ => ?_)
      by_cases h : p.1 ∈ s.fixedCols <;> simp [h]
    · congr 1
      refine List.map_congr_left (fun p hp => ?_)
      have hm : p.1 ∈ s.fixedCols := by simpa using (List.mem_filter.mp hp).2
      unfold pt
      rw [if_pos (hcd _ hm).1]
  constructor
  · refine ⟨fun i hi hf => ?_, fun i hi hf => ?_, ?_, ?_, ?_, fun k hk => ?_, by rw [d.eq]⟩
    · rw [trt] at hi hf
      obtain ⟨q, hq⟩ := n.lhs i hi hf
      exact ⟨_, by rw [tl]; exact (hsh i hi).lhs hf q hq⟩
    · rw [trt] at hi hf
      obtain ⟨q, hq⟩ := n.rhs i hi hf
      exact ⟨_, by rw [tr]; exact (hsh i hi).rhs hf q hq⟩
    · rw [trt]; exact n.eq
    · rw [tct, tlb]; exact n.lb
    · rw [tct, tub]; exact n.ub
    · rw [d.eq] at hk; cases hk
  · intro σ h
    refine ⟨σ, by rw [tlg], by rw [← tct]; exact h.num,
      ⟨fun i hi => h.stat.y i (by rw [trt]; exact hi), fun k hk => ?_⟩, fun i hi hy => ?_, fun i hi hy => ?_,
      by rw [← tct, ← tlb]; exact h.lb, by rw [← tct, ← tub]; exact h.ub⟩
    · rw [h.stat.z k (by rw [tct]; exact hk), tc]
      congr 2
      refine (colSum_congr tm (fun i _ => ?_)).symm
      unfold rowTerm
      rw [trt, tA i]
      rw [coefAt_offCols (fun hm => by
        have := (hcd k hm).1
        rw [this] at hk; cases hk)]
    · obtain ⟨h1, h2⟩ := h.lhs i (by rw [trt]; exact hi) hy
      rw [trt] at h1
      obtain ⟨q, hq⟩ := n.lhs i hi h1
      have := (hsh i hi).lhs h1 q hq
      rw [tl, this, D.fin.injEq] at h2
      refine ⟨h1, ?_⟩
      rw [hdot, hq, ← h2]; congr 1; ring
    · obtain ⟨h1, h2⟩ := h.rhs i (by rw [trt]; exact hi) hy
      rw [trt] at h1
      obtain ⟨q, hq⟩ := n.rhs i hi h1
      have := (hsh i hi).rhs h1 q hq
      rw [tr, this, D.fin.injEq] at h2
      refine ⟨h1, ?_⟩
      rw [hdot, hq, ← h2]; congr 1; ring

end

end Verif
