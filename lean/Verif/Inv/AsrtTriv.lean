import Verif.Inv.AsrtDel

/-!
# The assertions of the singleton rows, empty rows and empty columns

`W P s` collects what is known about a state of a run on `P` in which no assertion has failed.
-/

namespace Verif

/-- All records may be present. -/
def μT : Mode := ⟨true, true, true, true, true⟩

theorem Ok.ofT {s : St} (h : s.asrt = true) : Ok μT s :=
  ⟨h, fun e => absurd e (by decide), fun e => absurd e (by decide)⟩

structure W (P : LP) (s : St) : Prop where
  asrt : s.asrt = true
  inv : Inv s
  feas : Feas P s
  em : Em s
  el : ELists s
  upd : UpdFin s
  gap : SGap s
  eqT : ∀ i, (s.rtag i).eq = true → ∃ B, P.lhs i = .fin B ∧ P.rhs i = .fin B

section
variable {P : LP} {s t : St} {I J : St → Prop}

theorem W.step (w : W P s) (u : Up s t) (hp : PlainLog t) (g : Good μT (Fz P I) (Fz P J) s t) (hI : I s)
    (ha : t.asrt = true) (he : ELists t) : W P t ∧ J t := by
  obtain ⟨r, hj, hf⟩ := (g (.ofT ha)).2 w.inv ⟨hI, fun _ => w.feas⟩
  exact ⟨⟨ha, r.inv w.inv, hf hp, r.em w.em, he, u.upd w.upd, u.gap w.gap, fun i h => w.eqT i (u.eq i h)⟩, hj⟩

theorem W.stepX {r : St × Status} (w : W P s) (u : Up s r.1) (hp : PlainLog r.1) (g : GoodX μT (Fz P I) (Fz P J) s r)
    (hI : I s) (hf : fine r.2) (ha : r.1.asrt = true) (he : ELists r.1) : W P r.1 ∧ J r.1 :=
  w.step u hp (GoodX.to_good g hf) hI ha he

/-- The work lists and the matrix stay, and no assertion fails. -/
structure Quiet (s t : St) : Prop where
  asrt : t.asrt = s.asrt
  er : t.emptyRows = s.emptyRows
  ec : t.emptyCols = s.emptyCols
  A : t.A = s.A
  AT : t.AT = s.AT
  rtag : t.rtag = s.rtag
  cin : ∀ k, (t.ctag k).inactive = (s.ctag k).inactive
  sr : t.stonRows = s.stonRows
  size : t.colSize = s.colSize

theorem Quiet.refl (s : St) : Quiet s s := ⟨rfl, rfl, rfl, rfl, rfl, rfl, fun _ => rfl, rfl, rfl⟩

theorem Quiet.trans {u : St} (h : Quiet s t) (h' : Quiet t u) : Quiet s u :=
  ⟨h'.asrt.trans h.asrt, h'.er.trans h.er, h'.ec.trans h.ec, h'.A.trans h.A, h'.AT.trans h.AT, h'.rtag.trans h.rtag,
    fun k => (h'.cin k).trans (h.cin k), h'.sr.trans h.sr, h'.size.trans h.size⟩

theorem Quiet.el (h : Quiet s t) (e : ELists s) : ELists t :=
  e.of h.er h.ec (fun i _ => by rw [h.rtag, h.A]; exact ⟨rfl, rfl⟩) (fun k _ => by rw [h.cin, h.AT]; exact ⟨rfl, rfl⟩)

theorem ActOnly.quiet (h : ActOnly s t) : Quiet s t := by
  obtain ⟨a, u, rfl⟩ := h
  exact ⟨rfl, rfl, rfl, rfl, rfl, rfl, fun _ => rfl, rfl, rfl⟩

theorem inactive_upd_lb (t : CTag) (b : Bool) : ({ t with lbInf := b } : CTag).inactive = t.inactive := rfl
theorem inactive_upd_ub (t : CTag) (b : Bool) : ({ t with ubInf := b } : CTag).inactive = t.inactive := rfl

theorem cin_upd (f : ℕ → CTag) (k : ℕ) (c : CTag) (h : c.inactive = (f k).inactive) (j : ℕ) :
    (upd f k c j).inactive = (f j).inactive := by
  by_cases e : j = k
  · rw [e, upd_same, h]
  · rw [upd_ne _ _ e]

theorem updateLb_quiet (s : St) (k : ℕ) (v : D) (row : ℕ) (hc : (s.ctag k).inactive = false) :
    Quiet s (updateLb s k v row).1 := by
  unfold updateLb
  simp only [hc, Bool.not_false, check_true]
  split
  · exact .refl s
  · split
    · have q1 : Quiet s { s with lb := upd s.lb k v } := ⟨rfl, rfl, rfl, rfl, rfl, rfl, fun _ => rfl, rfl, rfl⟩
      refine (q1.trans (updActsBoundChange_only _ (s.AT k) (s.lb k) v (!(s.ctag k).lbInf) true).quiet).trans ?_
      exact ⟨rfl, rfl, rfl, rfl, rfl, rfl, fun j => (by refine cin_upd _ k _ ?_ j; rfl), rfl, rfl⟩
    · exact .refl s

theorem updateUb_quiet (s : St) (k : ℕ) (v : D) (row : ℕ) (hc : (s.ctag k).inactive = false) :
    Quiet s (updateUb s k v row).1 := by
  unfold updateUb
  simp only [hc, Bool.not_false, check_true]
  split
  · exact .refl s
  · split
    · have q1 : Quiet s { s with ub := upd s.ub k v } := ⟨rfl, rfl, rfl, rfl, rfl, rfl, fun _ => rfl, rfl, rfl⟩
      refine (q1.trans (updActsBoundChange_only _ (s.AT k) (s.ub k) v (!(s.ctag k).ubInf) false).quiet).trans ?_
      exact ⟨rfl, rfl, rfl, rfl, rfl, rfl, fun j => (by refine cin_upd _ k _ ?_ j; rfl), rfl, rfl⟩
    · exact .refl s

/-! ### Fixing a column -/

theorem fixCol_asrt (s : St) (k : ℕ) (val : D) (ck : ℚ) (hc : (s.ctag k).inactive = false) (hk : 0 < s.colSize k) :
    (fixCol s k val ck).1.asrt = s.asrt := by
  have h1 : (s.check (decide (0 < s.colSize k))).check (!(s.ctag k).inactive) = s := by
    rw [decide_eq_true hk, check_true, hc]; exact check_true s
  unfold fixCol
  simp only
  rw [h1]
  split
  · rfl
  · simp only
    rw [(updActsFixedCol_only _ _ _ _ _ _ _ _ _).quiet.asrt]
    unfold setColToFixed
    simp [St.save, St.check, hc]

/-- What `fixCol` leaves alone. -/
structure FixFr (s : St) (k : ℕ) (t : St) : Prop where
  er : t.emptyRows = s.emptyRows
  ec : t.emptyCols = s.emptyCols
  A : t.A = s.A
  AT : t.AT = s.AT
  rtag : t.rtag = s.rtag
  ctag : ∀ j, j ≠ k → t.ctag j = s.ctag j
  sr : t.stonRows = s.stonRows
  size : t.colSize = s.colSize
  n : t.n = s.n
  down : t.down = s.down
  up : t.up = s.up

theorem fixCol_fr (s : St) (k : ℕ) (val : D) (ck : ℚ) : FixFr s k (fixCol s k val ck).1 := by
  rcases fixCol_eq s k val ck with ⟨b, e, -⟩ | ⟨b, a, u, e, -⟩
  · rw [e]; exact ⟨rfl, rfl, rfl, rfl, rfl, fun _ _ => rfl, rfl, rfl, rfl, rfl, rfl⟩
  · rw [e]; exact ⟨rfl, rfl, rfl, rfl, rfl, fun j h => upd_ne _ _ h, rfl, rfl, rfl, rfl, rfl⟩

theorem W.colPos (w : W P s) {k : ℕ} (hc : (s.ctag k).inactive = false) (hT : s.AT k ≠ []) : 0 < s.colSize k := by
  rw [w.inv.gi.colSz k hc]
  have := List.length_pos_of_ne_nil hT
  omega

theorem W.notEmptyCol (w : W P s) {k : ℕ} (hT : s.AT k ≠ []) : k ∉ s.emptyCols := fun h => hT (w.el.col k h).2

theorem fixCol_el (w : W P s) {k : ℕ} {val : D} {ck : ℚ} (hT : s.AT k ≠ []) : ELists (fixCol s k val ck).1 := by
  have f := fixCol_fr s k val ck
  refine w.el.of f.er f.ec (fun i _ => by rw [f.rtag, f.A]; exact ⟨rfl, rfl⟩) (fun j hj => ?_)
  have : j ≠ k := fun e => w.notEmptyCol hT (e ▸ hj)
  rw [f.ctag j this, f.AT]; exact ⟨rfl, rfl⟩

theorem fixCol_safe (w : W P s) (hN : NoRows s) (k : ℕ) (hc : (s.ctag k).inactive = false) (hT : s.AT k ≠ [])
    (val : D) (hv : ∃ q, val = .fin q) (hp : PlainLog (fixCol s k val (s.c k)).1) :
    W P (fixCol s k val (s.c k)).1 ∧ NoRows (fixCol s k val (s.c k)).1 :=
  w.step (fixCol_up s k val _) hp (fixCol_goodF μT P NoRows noRows_fixStable (fun _ h => h) s k val (fun _ _ _ => hv)) hN
    (by rw [fixCol_asrt s k val _ hc (w.colPos hc hT), w.asrt]) (fixCol_el w hT)

/-! ### Deletions -/

theorem delRows_safe (w : W P s) (hp : PlainLog (deleteInactiveRows s)) :
    W P (deleteInactiveRows s) ∧ RowsDeleted s (deleteInactiveRows s) := by
  have h := delRows_fwd w.inv.gi w.el
  exact w.step (I := fun _ => True) (deleteInactiveRows_up s) hp
    (delRows_goodF μT P _ (fun t => RowsDeleted s t) s (fun _ _ d => d)) trivial (h.1.trans w.asrt) h.2

theorem delCols_safe (w : W P s) (hN : NoRows s) (hp : PlainLog (deleteInactiveCols (deleteFixedCols s))) :
    W P (deleteInactiveCols (deleteFixedCols s)) ∧ ColsDel s (deleteInactiveCols (deleteFixedCols s)) := by
  have h1 : (deleteFixedCols s).asrt = s.asrt := by
    refine deleteFixedCols_fwd (fun k hk => ?_)
    obtain ⟨hi, hsz⟩ := w.inv.gi.colsDel k (List.mem_append_left _ hk)
    have c := w.feas.col k (w.feas.crng k hsz)
    have hf : (s.ctag k).fixed = true := by
      have := c.sub
      unfold CTag.inactive at hi
      rw [this, Bool.or_false] at hi
      exact hi
    obtain ⟨v, -, hv⟩ := c.old hf
    exact ⟨hf, v, hv hsz⟩
  obtain ⟨l, r, a, o, b, e⟩ := deleteFixedCols_eq s
  have hb : b = s.asrt := by rw [e] at h1; exact h1
  have g1 : GI (deleteFixedCols s) := by rw [e]; exact w.inv.gi.of_eq rfl rfl rfl rfl rfl (fun _ => rfl) rfl rfl rfl rfl rfl rfl rfl rfl
  have e1 : ELists (deleteFixedCols s) := by
    rw [e]; exact w.el.same rfl rfl rfl rfl rfl rfl
  have h2 := delCols_fwd g1 (by rw [e]; exact hN) e1 (by rw [e]; exact w.inv.ston) (by rw [e]; exact w.inv.dton)
    (h1.trans w.asrt)
  exact w.step (I := NoRows) (delCols_up s) hp
    (delCols_goodF μT P _ (fun t => ColsDel s t) s id (fun _ _ d => d)) hN h2.1 h2.2

theorem delBoth_safe (w : W P s) (hp : PlainLog (deleteInactiveCols (deleteFixedCols (deleteInactiveRows s)))) :
    W P (deleteInactiveCols (deleteFixedCols (deleteInactiveRows s))) ∧
      Clean (deleteInactiveCols (deleteFixedCols (deleteInactiveRows s))) := by
  obtain ⟨w1, d1⟩ := delRows_safe w ((delCols_up _).plain hp)
  obtain ⟨w2, d⟩ := delCols_safe w1 d1.noRows hp
  exact ⟨w2, d.noRows, d.noFixed, d.noSub⟩

end
end Verif
