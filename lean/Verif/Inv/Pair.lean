import Verif.Inv.Mark

/-!
# What postsolve returns does not depend on entries that have not been retrieved

Postsolve is run on two solutions that agree on the rows and columns of the reduced problem.
-/

namespace Verif

/-- Both solutions are treated alike; columns fixed at infinity are not covered. -/
def pairInterp : Interp (Sol × Sol) where
  record := fun a r => match r with
    | .fixedColInf _ _ _ _ => none
    | r => some (retRec a.1 r, retRec a.2 r)
  bound := fun a i cells j im ot low =>
    some (retBoundChange a.1 i cells j im ot low, retBoundChange a.2 i cells j im ot low)

def Rec.isInf : Rec → Bool
  | .fixedColInf _ _ _ _ => true
  | _ => false

theorem pairInterp_replay (g : Option Group) (l : List Rec) (h : ∀ r ∈ l, r.isInf = false) {a b σ τ : Sol}
    (ha : replay g l a = some σ) (hb : replay g l b = some τ) : pairInterp.replay g l (a, b) = some (σ, τ) := by
  induction l generalizing g a b with
  | nil =>
    cases g with
    | none => cases ha; cases hb; rfl
    | some g => cases ha
  | cons r l ih =>
    have hr := h r List.mem_cons_self
    have ih := fun g a b => ih g (fun r hr => h r (List.mem_cons_of_mem _ hr)) (a := a) (b := b)
    cases g with
    | none => cases r <;> first | exact ih _ _ _ ha hb | cases hr
    | some g =>
      obtain ⟨i, cells, k⟩ := g
      cases r <;> first | exact ih _ _ _ ha hb | cases ha

/-- The two solutions agree on the active rows and columns. -/
structure AgreeOn (s : St) (a b : Sol) : Prop where
  x : ∀ k, (s.ctag k).inactive = false → a.x k = b.x k
  y : ∀ i, (s.rtag i).inactive = false → a.y i = b.y i
  z : ∀ k, (s.ctag k).inactive = false → a.z k = b.z k

def PairRel (Post : Sol × Sol → Prop) (s : St) (a : Sol × Sol) (o : Option (Sol × Sol)) : Prop :=
  ∀ a', o = some a' → AgreeOn s a.1 a.2 → Post a'

theorem pairRel_tr {Post : Sol × Sol → Prop} {new : List Rec} {s t : St} (hn : ∀ r ∈ new, r.isInf = false)
    (h : ∀ a b, AgreeOn t a b → AgreeOn s (new.foldl retRec a) (new.foldl retRec b)) :
    Tr pairInterp (PairRel Post) new s t := by
  have hrun : ∀ (l : List Rec) (a : Sol × Sol), (∀ r ∈ l, r.isInf = false) →
      pairInterp.run l a = some (l.foldl retRec a.1, l.foldl retRec a.2) := by
    intro l
    induction l with
    | nil => intro a _; rfl
    | cons r l ih =>
      intro a hl
      have e : pairInterp.record a r = some (retRec a.1 r, retRec a.2 r) := by
        have := hl r List.mem_cons_self
        cases r <;> first | rfl | cases this
      show (pairInterp.record a r).bind _ = _
      rw [e]
      exact ih _ (fun r hr => hl r (List.mem_cons_of_mem _ hr))
  intro a
  rw [hrun _ _ hn]
  refine ⟨fun b o hb hr a' ho hf => ?_, fun hb => by cases hb⟩
  cases hb
  exact hr a' ho (h _ _ hf)

theorem AgreeOn.frame {s t : St} {a b : Sol} (h : AgreeOn t a b) (hr : ∀ i, (t.rtag i).inactive = (s.rtag i).inactive)
    (hc : ∀ k, (t.ctag k).inactive = (s.ctag k).inactive) : AgreeOn s a b :=
  ⟨fun k hk => h.x k (by rw [hc]; exact hk), fun i hi => h.y i (by rw [hr]; exact hi),
    fun k hk => h.z k (by rw [hc]; exact hk)⟩

/-- Column `k` gets the same values in both. -/
theorem AgreeOn.col {s t : St} {a b a' b' : Sol} {k : ℕ} (h : AgreeOn t a b)
    (hr : ∀ i, (t.rtag i).inactive = (s.rtag i).inactive)
    (hc : ∀ j, j ≠ k → (t.ctag j).inactive = (s.ctag j).inactive)
    (ya : a'.y = a.y) (yb : b'.y = b.y) (xa : ∀ j, j ≠ k → a'.x j = a.x j) (xb : ∀ j, j ≠ k → b'.x j = b.x j)
    (za : ∀ j, j ≠ k → a'.z j = a.z j) (zb : ∀ j, j ≠ k → b'.z j = b.z j)
    (hx : a'.x k = b'.x k) (hz : a'.z k = b'.z k) : AgreeOn s a' b' := by
  refine ⟨fun j hj => ?_, fun i hi => ?_, fun j hj => ?_⟩
  · by_cases e : j = k
    · subst e; exact hx
    · rw [xa j e, xb j e]; exact h.x j (by rw [hc j e]; exact hj)
  · rw [ya, yb]; exact h.y i (by rw [hr]; exact hi)
  · by_cases e : j = k
    · subst e; exact hz
    · rw [za j e, zb j e]; exact h.z j (by rw [hc j e]; exact hj)

/-- Row `i` gets the same value in both. -/
theorem AgreeOn.row {s t : St} {a b a' b' : Sol} {i : ℕ} (h : AgreeOn t a b)
    (hr : ∀ r, r ≠ i → (t.rtag r).inactive = (s.rtag r).inactive)
    (hc : ∀ j, (t.ctag j).inactive = (s.ctag j).inactive)
    (xa : a'.x = a.x) (xb : b'.x = b.x) (za : a'.z = a.z) (zb : b'.z = b.z)
    (ya : ∀ r, r ≠ i → a'.y r = a.y r) (yb : ∀ r, r ≠ i → b'.y r = b.y r) (hy : a'.y i = b'.y i) : AgreeOn s a' b' := by
  refine ⟨fun j hj => ?_, fun r hr' => ?_, fun j hj => ?_⟩
  · rw [xa, xb]; exact h.x j (by rw [hc]; exact hj)
  · by_cases e : r = i
    · subst e; exact hy
    · rw [ya r e, yb r e]; exact h.y r (by rw [hr r e]; exact hr')
  · rw [za, zb]; exact h.z j (by rw [hc]; exact hj)

theorem foldl_congr_mem {α β : Type} {f g : β → α → β} (l : List α) (b : β) (h : ∀ p ∈ l, ∀ b, f b p = g b p) :
    l.foldl f b = l.foldl g b := by
  induction l generalizing b with
  | nil => rfl
  | cons p l ih =>
    rw [List.foldl_cons, List.foldl_cons, h p List.mem_cons_self]
    exact ih _ (fun p hp => h p (List.mem_cons_of_mem _ hp))

theorem AgreeOn.retFix {s t : St} {a b : Sol} {k : ℕ} {val : D} {ck : ℚ} {cells : List Cell} (h : AgreeOn t a b)
    (hr : ∀ i, (t.rtag i).inactive = (s.rtag i).inactive)
    (hc : ∀ j, j ≠ k → (t.ctag j).inactive = (s.ctag j).inactive)
    (hcells : ∀ p ∈ cells, (s.rtag p.1).inactive = false) :
    AgreeOn s (retFixCol a k val ck cells) (retFixCol b k val ck cells) := by
  refine h.col (k := k) hr hc rfl rfl (fun j hj => upd_ne _ _ hj) (fun j hj => upd_ne _ _ hj)
    (fun j hj => upd_ne _ _ hj) (fun j hj => upd_ne _ _ hj) ?_ ?_
  · show upd a.x k val k = upd b.x k val k
    rw [upd_same, upd_same]
  · show upd a.z k _ k = upd b.z k _ k
    rw [upd_same, upd_same]
    exact foldl_congr_mem _ _ (fun p hp v => by rw [h.y p.1 (by rw [hr]; exact hcells p hp)])

theorem AgreeOn.retSub {s t : St} {a b : Sol} {k i : ℕ} {side : D} {ck : ℚ} {cells : List Cell} (h : AgreeOn t a b)
    (hr : ∀ i, (t.rtag i).inactive = (s.rtag i).inactive)
    (hc : ∀ j, j ≠ k → (t.ctag j).inactive = (s.ctag j).inactive) (hi : (s.rtag i).inactive = false)
    (hcells : ∀ p ∈ cells, (s.ctag p.1).inactive = false) :
    AgreeOn s (retSubCol a k cells side i ck) (retSubCol b k cells side i ck) := by
  refine h.col (k := k) hr hc rfl rfl (fun j hj => upd_ne _ _ hj) (fun j hj => upd_ne _ _ hj)
    (fun j hj => upd_ne _ _ hj) (fun j hj => upd_ne _ _ hj) ?_ ?_
  · show upd a.x k (D.divq _ _) k = upd b.x k (D.divq _ _) k
    rw [upd_same, upd_same]
    congr 1
    refine foldl_congr_mem _ _ (fun p hp v => ?_)
    by_cases e : p.1 = k
    · rw [if_pos e, if_pos e]
    · rw [if_neg e, if_neg e, h.x p.1 (by rw [hc _ e]; exact hcells p hp)]
  · show upd a.z k _ k = upd b.z k _ k
    rw [upd_same, upd_same, h.y i (by rw [hr]; exact hi)]

theorem AgreeOn.retBound {s : St} {a b : Sol} {i j : ℕ} {cells : List Cell} {im ot : D} {low : Bool} (h : AgreeOn s a b)
    (hi : (s.rtag i).inactive = false) (hj : (s.ctag j).inactive = false) :
    AgreeOn s (retBoundChange a i cells j im ot low) (retBoundChange b i cells j im ot low) := by
  unfold retBoundChange
  rw [h.x j hj, h.z j hj]
  split
  · exact h
  split
  · exact h
  have hfold : ∀ (l : List Cell) (z z' : ℕ → D), (∀ k, (s.ctag k).inactive = false → z k = z' k) →
      ∀ k, (s.ctag k).inactive = false →
        (l.foldl (fun z p => if p.1 = j then z else if D.eqb (z p.1) .pinf then z
          else upd z p.1 (D.sub (z p.1) (D.smul (p.2 / findCoef j cells) (b.z j)))) z) k =
        (l.foldl (fun z p => if p.1 = j then z else if D.eqb (z p.1) .pinf then z
          else upd z p.1 (D.sub (z p.1) (D.smul (p.2 / findCoef j cells) (b.z j)))) z') k := by
    intro l
    induction l with
    | nil => intro z z' hz k hk; exact hz k hk
    | cons p l ih =>
      intro z z' hz
      rw [List.foldl_cons, List.foldl_cons]
      refine ih _ _ (fun k hk => ?_)
      by_cases e : p.1 = j
      · rw [if_pos e, if_pos e]; exact hz k hk
      · rw [if_neg e, if_neg e]
        by_cases e2 : k = p.1
        · subst e2
          rw [hz _ hk]
          split
          · exact hz _ hk
          · rw [upd_same, upd_same]
        · have h1 : ∀ (z : ℕ → D) v, (if D.eqb (z p.1) .pinf then z else upd z p.1 v) k = z k := by
            intro z v
            split
            · rfl
            · exact upd_ne _ _ e2
          rw [h1, h1]; exact hz k hk
  refine ⟨h.x, fun r hr => ?_, fun k hk => ?_⟩
  · show upd a.y i _ r = upd b.y i _ r
    by_cases e : r = i
    · subst e; rw [upd_same, upd_same, h.y _ hi]
    · rw [upd_ne _ _ e, upd_ne _ _ e]; exact h.y r hr
  · show upd _ j _ k = upd _ j _ k
    by_cases e : k = j
    · subst e; rw [upd_same, upd_same]
    · rw [upd_ne _ _ e, upd_ne _ _ e]
      exact hfold cells a.z b.z h.z k hk

theorem residual_agree {s : St} {a b : Sol} (h : AgreeOn s a b) {cells : List Cell}
    (hcols : ∀ p ∈ cells, (s.ctag p.1).inactive = false) (side : D) : residual a cells side = residual b cells side := by
  unfold residual
  exact foldl_congr_mem _ _ (fun p hp v => by rw [h.x p.1 (hcols p hp)])

theorem AgreeOn.setTwo {s : St} {a b : Sol} (h : AgreeOn s a b) (i j : ℕ) (v w : D) :
    AgreeOn s { a with y := upd (upd a.y j v) i w } { b with y := upd (upd b.y j v) i w } := by
  refine ⟨h.x, fun r hr => ?_, h.z⟩
  show upd (upd a.y j v) i w r = upd (upd b.y j v) i w r
  by_cases e : r = i
  · subst e; rw [upd_same, upd_same]
  · rw [upd_ne _ _ e, upd_ne _ _ e]
    by_cases e2 : r = j
    · subst e2; rw [upd_same, upd_same]
    · rw [upd_ne _ _ e2, upd_ne _ _ e2]; exact h.y r hr

theorem AgreeOn.setOne {s : St} {a b : Sol} (h : AgreeOn s a b) (j : ℕ) (v : D) :
    AgreeOn s { a with y := upd a.y j v } { b with y := upd b.y j v } := by
  refine ⟨h.x, fun r hr => ?_, h.z⟩
  show upd a.y j v r = upd b.y j v r
  by_cases e2 : r = j
  · subst e2; rw [upd_same, upd_same]
  · rw [upd_ne _ _ e2, upd_ne _ _ e2]; exact h.y r hr

theorem AgreeOn.retSide {s : St} {a b : Sol} (h : AgreeOn s a b) {i j : ℕ} {cells : List Cell} {side : D} {ratio : ℚ}
    (hi : (s.rtag i).inactive = false) (hcols : ∀ p ∈ cells, (s.ctag p.1).inactive = false) :
    AgreeOn s (retLhsChange a i j cells side ratio) (retLhsChange b i j cells side ratio) ∧
    AgreeOn s (retRhsChange a i j cells side ratio) (retRhsChange b i j cells side ratio) := by
  unfold retLhsChange retRhsChange
  rw [residual_agree h hcols, h.y i hi]
  constructor
  · split
    · exact h
    · simp only
      split
      · exact h.setOne _ _
      · exact h.setTwo _ _ _ _
  · split
    · exact h
    · simp only
      split
      · exact h.setOne _ _
      · exact h.setTwo _ _ _ _

theorem AgreeOn.deleted {s t : St} {a b : Sol} {i : ℕ} {v : ℚ} (h : AgreeOn t a b)
    (hr : ∀ r, r ≠ i → (t.rtag r).inactive = (s.rtag r).inactive)
    (hc : ∀ j, (t.ctag j).inactive = (s.ctag j).inactive) : AgreeOn s (retDeletedRow a i v) (retDeletedRow b i v) :=
  h.row (i := i) hr hc rfl rfl rfl rfl (fun r hr => upd_ne _ _ hr) (fun r hr => upd_ne _ _ hr) (by
    show upd a.y i _ i = upd b.y i _ i
    rw [upd_same, upd_same])

theorem AgreeOn.addedRow {s : St} {a b : Sol} {i j : ℕ} {v : ℚ} (h : AgreeOn s a b)
    (hi : (s.rtag i).inactive = false) (hj : (s.rtag j).inactive = false) :
    AgreeOn s (retAddedRow a i j v) (retAddedRow b i j v) := by
  unfold retAddedRow
  rw [h.y i hi, h.y j hj]
  exact h.setOne _ _

theorem AgreeOn.addedRows {s : St} {a b : Sol} {i : ℕ} {cells : List Cell} {v : ℚ} (h : AgreeOn s a b)
    (hi : (s.rtag i).inactive = false) (hcells : ∀ p ∈ cells, (s.rtag p.1).inactive = false) :
    AgreeOn s (retAddedRows a i cells v) (retAddedRows b i cells v) := by
  unfold retAddedRows
  have : cells.foldl (fun c p => if p.1 = i then c else D.sub c (D.smul (p.2 / v) (a.y p.1))) (a.y i) =
      cells.foldl (fun c p => if p.1 = i then c else D.sub c (D.smul (p.2 / v) (b.y p.1))) (b.y i) := by
    rw [h.y i hi]
    exact foldl_congr_mem _ _ (fun p hp c => by rw [h.y p.1 (hcells p hp)])
  rw [this]
  exact h.setOne _ _

theorem AgreeOn.eqToIneq {s : St} {a b : Sol} {i : ℕ} {v : ℚ} (h : AgreeOn s a b)
    (hi : (s.rtag i).inactive = false) : AgreeOn s (retEqToIneq a i v) (retEqToIneq b i v) := by
  unfold retEqToIneq
  rw [h.y i hi]
  exact h.setOne _ _

theorem pairBackward (Post : Sol × Sol → Prop) (μ : Mode) : Backward pairInterp μ (PairRel Post) where
  core := fun s t h a o hR a' ho he => hR a' ho (he.frame (fun i => by rw [h.rtag]) (fun k => by rw [h.ctag]))
  fix := fun s k val g _ hk hrows => pairRel_tr (by simp [Rec.isInf]) (fun a b h => h.retFix (fun _ => rfl)
    (fun j hj => by show ((upd s.ctag k _) j).inactive = _; rw [upd_ne _ _ hj]) hrows)
  fixInf := fun _ s k pos bound v g hr hk hc a => by
    have hrun : ∀ (l : List Rec) (a : Sol × Sol), (∀ r ∈ l, r.isInf = false) →
        pairInterp.run (l ++ [fixedColInfRec s k pos bound]) a = none := by
      intro l
      induction l with
      | nil => intro a _; rfl
      | cons r l ih =>
        intro a hl
        have := hl r List.mem_cons_self
        have e : pairInterp.record a r = some (retRec a.1 r, retRec a.2 r) := by
          cases r <;> first | rfl | cases this
        show (pairInterp.record a r).bind _ = _
        rw [e]
        exact ih _ (fun r hr => hl r (List.mem_cons_of_mem _ hr))
    rw [hrun _ _ (fun r hr => by
      simp only [List.mem_reverse, List.mem_map] at hr
      obtain ⟨i, _, rfl⟩ := hr; rfl)]
    exact ⟨fun b o hb => (nomatch hb), fun _ a' ho => (nomatch ho)⟩
  deact := fun s i g _ hi => pairRel_tr (by simp [Rec.isInf]) (fun a b h => h.deleted
    (fun r hr => by show ((upd s.rtag i _) r).inactive = _; rw [upd_ne _ _ hr]) (fun _ => rfl))
  sides := fun s i t l r u d g _ hi ht => pairRel_tr (fun _ h => by cases h) (fun a b h => h.frame
    (fun p => by
      show ((upd s.rtag i t) p).inactive = _
      by_cases e : p = i
      · subst e; rw [upd_same, ht, hi]
      · rw [upd_ne _ _ e]) (fun _ => rfl))
  sideRec := fun _ s i other t l r u d rc g _ hi hother hne hcols ht hrc => pairRel_tr
    (by obtain ⟨side, ratio, rfl | rfl⟩ := hrc <;> simp [Rec.isInf]) (fun a b h => by
    have h1 : AgreeOn s a b := h.frame (fun p => by
      show ((upd s.rtag i t) p).inactive = _
      by_cases e : p = i
      · subst e; rw [upd_same, ht, hi]
      · rw [upd_ne _ _ e]) (fun _ => rfl)
    obtain ⟨side, ratio, rfl | rfl⟩ := hrc
    · exact (h1.retSide hi hcols).2
    · exact (h1.retSide hi hcols).1)
  stonEq := fun s row k a' val g _ hi hk hrow hrows => pairRel_tr (by simp [Rec.isInf]) (fun a b h => by
    have h1 := h.deleted (s := { stonEqStep s row k a' val with rtag := s.rtag }) (i := row) (v := s.c k / a')
      (fun r hr => by show ((upd s.rtag row _) r).inactive = _; rw [upd_ne _ _ hr]) (fun _ => rfl)
    have h2 := h1.addedRows (i := row) (cells := s.AT k) (v := a') hi hrows
    exact h2.retFix (s := s) (fun _ => rfl)
      (fun j hj => by show ((upd s.ctag k _) j).inactive = _; rw [upd_ne _ _ hj]) hrows)
  emptyRow := fun s i g _ hi hA => pairRel_tr (by simp [Rec.isInf]) (fun a b h => h.deleted
    (fun r hr => by show ((upd s.rtag i _) r).inactive = _; rw [upd_ne _ _ hr]) (fun _ => rfl))
  emptyCol := fun s k v g _ hk hT => pairRel_tr (by simp [Rec.isInf]) (fun a b h => h.retFix (fun _ => rfl)
    (fun j hj => by show ((upd s.ctag k _) j).inactive = _; rw [upd_ne _ _ hj]) (by simp))
  freeSton := fun _ s i k q side g hr hi hk hT hcols => pairRel_tr (by simp [Rec.isInf]) (fun a b h => by
    have e : freeColIneq s i k q side = setRowToInactive (({ s with
        c := costSub s (s.A i) k q, off := offSub s k q side
        ctag := upd s.ctag k { s.ctag k with subst := true }
        AT := upd s.AT k [], colSize := upd s.colSize k (-1) }).save
          (.subCol k (s.A i) side i (s.c k))) i (s.c k / q) := by
      unfold freeColIneq
      rw [subVarInObj_eq]; rfl
    rw [e] at h
    have h1 := h.deleted (s := { s with ctag := upd s.ctag k { s.ctag k with subst := true } }) (i := i) (v := s.c k / q)
      (fun r hr => by show ((upd s.rtag i _) r).inactive = _; rw [upd_ne _ _ hr]) (fun _ => rfl)
    exact h1.retSub (s := s) (fun _ => rfl)
      (fun j hj => by show ((upd s.ctag k _) j).inactive = _; rw [upd_ne _ _ hj]) hi hcols)
  half := fun _ s i k q b' upper g hr hi hk hT _ hcols => pairRel_tr (by simp [Rec.isInf]) (fun a b h => by
    obtain ⟨l, r, u, d, e, _⟩ := halfStep_eq s i k q b' upper
    rw [e] at h
    have h1 := h.retSub (s := s) (k := k) (i := i) (side := s.rhs i) (ck := 0) (cells := s.A i) (fun p => by
        show ((upd s.rtag i _) p).inactive = _
        by_cases e : p = i
        · subst e; rw [upd_same, hi]; cases upper <;> rfl
        · rw [upd_ne _ _ e])
      (fun j hj => by show ((upd s.ctag k _) j).inactive = _; rw [upd_ne _ _ hj]) hi hcols
    exact h1.eqToIneq hi)
  fixSton := fun s i k q v g hr hi hk hT => pairRel_tr (by simp [Rec.isInf]) (fun a b h => h.retFix (fun _ => rfl)
    (fun j hj => by show ((upd s.ctag k _) j).inactive = _; rw [upd_ne _ _ hj]) (by simpa using hi))
  bound := fun s i j lb ub t implied other low g _ hi hj hcell ht a => by
    refine ⟨fun τ o hτ hR σ' ho hf => ?_, fun h => by cases h⟩
    cases hτ
    refine hR σ' ho (AgreeOn.retBound ?_ hi hj)
    refine hf.frame (fun _ => rfl) (fun k => ?_)
    show ((upd s.ctag j t) k).inactive = _
    by_cases hkj : k = j
    · subst hkj; rw [upd_same, ht, hj]
    · rw [upd_ne _ _ hkj]
  dton := fun s t i j k aij aik b' g hr hd hcols _ => pairRel_tr (by
      intro r hr
      simp only [List.mem_cons, List.mem_reverse, List.mem_map] at hr
      rcases hr with rfl | rfl | ⟨_, _, rfl⟩ <;> rfl) (fun a b h => by
    have h1 := h.deleted (s := { t with rtag := s.rtag }) (i := i) (v := s.c k / aik)
      (fun r hr => by rw [hd.rtag, upd_ne _ _ hr]) (fun _ => rfl)
    have h2 := h1.retSub (s := s) (k := k) (i := i) (side := .fin b') (ck := s.c k) (cells := s.A i) (fun _ => rfl)
      (fun p hp => by show (t.ctag p).inactive = _; rw [hd.ctag, upd_ne _ _ hp]) hd.row hcols
    rw [List.foldl_cons, List.foldl_cons, List.foldl_cons, List.foldl_cons]
    have hfold : ∀ (L : List Rec) (a b : Sol), (∀ r ∈ L, ∃ p v, r = Rec.addedRow i p v ∧ (s.rtag p).inactive = false) →
        AgreeOn s a b → AgreeOn s (L.foldl retRec a) (L.foldl retRec b) := by
      intro L
      induction L with
      | nil => intro a b _ h; exact h
      | cons r L ih =>
        intro a b hL h
        obtain ⟨p, v, rfl, hp⟩ := hL _ List.mem_cons_self
        exact ih _ _ (fun r hr => hL r (List.mem_cons_of_mem _ hr)) (h.addedRow hd.row hp)
    refine hfold _ _ _ (fun r hr => ?_) h2
    simp only [List.mem_reverse, List.mem_map] at hr
    obtain ⟨p, hp, rfl⟩ := hr
    exact ⟨_, _, rfl, hd.rows p (List.mem_filter.mp hp).1⟩)
  merge := fun _ s j k ratio g hr hjk hj hk _ => pairRel_tr (by simp [Rec.isInf]) (fun a b h => by
    have hct : ∀ p, p ≠ k → ((mergeCols s j k ratio).ctag p).inactive = (s.ctag p).inactive := by
      intro p hp
      show ((upd (upd s.ctag j _) k _) p).inactive = _
      rw [upd_ne _ _ hp]
      by_cases e : p = j
      · subst e; rw [upd_same, mergeTag_inactive]
      · rw [upd_ne _ _ e]
    have hjt : ((mergeCols s j k ratio).ctag j).inactive = false := by rw [hct j hjk]; exact hj
    show AgreeOn s (retParallelCol a j k _ _ _ _ _ _ _) (retParallelCol b j k _ _ _ _ _ _ _)
    unfold retParallelCol
    rw [h.x j hjt, h.z j hjt]
    refine ⟨fun p hp => ?_, fun r hr => h.y r hr, fun p hp => ?_⟩
    · show upd (upd a.x j _) k _ p = upd (upd b.x j _) k _ p
      by_cases e : p = k
      · subst e; rw [upd_same, upd_same]
      · rw [upd_ne _ _ e, upd_ne _ _ e]
        by_cases e2 : p = j
        · subst e2; rw [upd_same, upd_same]
        · rw [upd_ne _ _ e2, upd_ne _ _ e2]
          exact h.x p (by rw [hct p e]; exact hp)
    · show upd a.z k _ p = upd b.z k _ p
      by_cases e : p = k
      · subst e; rw [upd_same, upd_same]
      · rw [upd_ne _ _ e, upd_ne _ _ e]
        exact h.z p (by rw [hct p e]; exact hp))
  relax := fun s k t ht => pairRel_tr (fun _ h => by cases h) (fun a b h => h.frame (fun _ => rfl) (fun p => by
    show ((upd s.ctag k t) p).inactive = _
    by_cases e : p = k
    · subst e; rw [upd_same, ht]
    · rw [upd_ne _ _ e]))
  delRows := fun s g _ => pairRel_tr (fun _ h => by cases h) (fun a b h => by
    have e := (deleteInactiveRows_deleted g).eq
    generalize deleteInactiveRows s = t at e h
    have ct : t.ctag = s.ctag := by have h := congrArg St.ctag e; exact h
    have rt : t.rtag = s.rtag := by have h := congrArg St.rtag e; exact h
    exact h.frame (fun _ => by rw [rt]) (fun _ => by rw [ct]))
  delCols := fun s g hr hd => pairRel_tr (fun _ h => by cases h) (fun a b h => by
    obtain ⟨l, r, a', o', b', e⟩ := deleteFixedCols_eq s
    rw [e] at h
    have e := (deleteInactiveCols_deleted
      (s := { s with lhs := l, rhs := r, act := a', off := o', asrt := b' })
      (g.of_eq rfl rfl rfl rfl rfl (fun _ => rfl) rfl rfl rfl rfl rfl rfl rfl rfl) hd).eq
    generalize deleteInactiveCols { s with lhs := l, rhs := r, act := a', off := o', asrt := b' } = t at e h
    have ct : t.ctag = s.ctag := by have h := congrArg St.ctag e; exact h
    have rt : t.rtag = s.rtag := by have h := congrArg St.rtag e; exact h
    exact h.frame (fun _ => by rw [rt]) (fun _ => by rw [ct]))

end Verif
