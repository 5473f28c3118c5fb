import Verif.Inv.Obj

/-!
# Postsolved values are numbers

Going back through the records, the values stay numbers as long as the offset of the objective is a number: a column
that leaves the problem with a value adds a multiple of the value to the offset, and an infinite or undefined value
makes the offset infinite or undefined for good.
-/

namespace Verif

/-- The offset, the values of pending fixed columns and the values of active columns are numbers. -/
structure NumSol (s : St) (σ : Sol) : Prop where
  off : ∃ o, s.off = .fin o
  pend : ∀ k ∈ s.fixedCols, ∃ q, s.ub k = .fin q
  act : ∀ k, (s.ctag k).inactive = false → ∃ q, σ.x k = .fin q

/-- The relation carried through postsolve: from numbers postsolve computes numbers. -/
def NumRel (n : ℕ) (s : St) (σ : Sol) (o : Option Sol) : Prop :=
  NumSol s σ → ∀ σ', o = some σ' → ∀ k < n, ∃ q, σ'.x k = .fin q

theorem numRel_tr {n : ℕ} {new : List Rec} {s t : St} (h : ∀ σ, NumSol t σ → NumSol s (new.foldl retRec σ)) :
    Tr solInterp (NumRel n) new s t := by
  intro σ
  rw [solInterp_run]
  refine ⟨fun b o hb hr hn => ?_, fun hb => by cases hb⟩
  cases hb
  exact hr (h σ hn)

theorem NumSol.frame {s t : St} {σ τ : Sol} (h : NumSol t σ) (hx : τ.x = σ.x) (off : t.off = s.off)
    (hin : ∀ k, (t.ctag k).inactive = (s.ctag k).inactive) (fc : t.fixedCols = s.fixedCols)
    (hb : ∀ k ∈ s.fixedCols, t.ub k = s.ub k) : NumSol s τ := by
  refine ⟨off ▸ h.off, fun k hk => ?_, fun k hk => ?_⟩
  · rw [← hb k hk]; exact h.pend k (fc ▸ hk)
  · rw [hx]; exact h.act k ((hin k).trans hk)

theorem NumSol.toFixed {s t : St} {σ τ : Sol} (g : GI s) {k : ℕ} {val : D} (hk : (s.ctag k).inactive = false)
    (h : NumSol t σ) (hx : τ.x = upd σ.x k val) (off : t.off = s.off)
    (ct : t.ctag = upd s.ctag k { s.ctag k with fixed := true })
    (fc : t.fixedCols = s.fixedCols ++ [k]) (ub : t.ub = upd s.ub k val) : NumSol s τ := by
  refine ⟨off ▸ h.off, fun j hj => ?_, fun j hj => ?_⟩
  · have hne : j ≠ k := by rintro rfl; exact g.notFixed hk hj
    have := h.pend j (by rw [fc]; exact List.mem_append_left _ hj)
    rwa [ub, upd_ne _ _ hne] at this
  · rw [hx]
    by_cases e : j = k
    · subst e
      have := h.pend j (by rw [fc]; simp)
      rw [ub, upd_same] at this
      rw [upd_same]; exact this
    · rw [upd_ne _ _ e]
      exact h.act j (by rw [ct, upd_ne _ _ e]; exact hj)

theorem fin_add {a b : D} {q : ℚ} (h : D.add a b = .fin q) : (∃ x, a = .fin x) ∧ ∃ y, b = .fin y := by
  cases a <;> cases b <;> first | exact ⟨⟨_, rfl⟩, _, rfl⟩ | cases h

theorem fin_infOf {c q : ℚ} : D.infOf c ≠ .fin q := by
  unfold D.infOf
  split
  · simp
  · split <;> simp

theorem fin_smul {c : ℚ} {v : D} {q : ℚ} (h : D.smul c v = .fin q) : ∃ y, v = .fin y := by
  cases v with
  | fin a => exact ⟨a, rfl⟩
  | pinf => exact absurd h fin_infOf
  | ninf => exact absurd h fin_infOf
  | nan => cases h

theorem NumSol.gone {s t : St} {σ τ : Sol} (g : GI s) {k : ℕ} {val : D} (hk : (s.ctag k).inactive = false)
    (h : NumSol t σ) (hx : τ.x = upd σ.x k val) (off : t.off = D.add s.off (D.smul (s.c k) val))
    (hct : ∀ j, j ≠ k → (t.ctag j).inactive = (s.ctag j).inactive)
    (fc : t.fixedCols = s.fixedCols) (ub : ∀ j, j ≠ k → t.ub j = s.ub j) : NumSol s τ := by
  obtain ⟨o, ho⟩ := h.off
  rw [off] at ho
  obtain ⟨h1, y, hy⟩ := fin_add ho
  refine ⟨h1, fun j hj => ?_, fun j hj => ?_⟩
  · have hne : j ≠ k := by rintro rfl; exact g.notFixed hk hj
    rw [← ub j hne]; exact h.pend j (fc ▸ hj)
  · rw [hx]
    by_cases e : j = k
    · subst e; rw [upd_same]; exact fin_smul hy
    · rw [upd_ne _ _ e]
      exact h.act j ((hct j e).trans hj)

theorem shiftSides_fold_off (v : D) (L : List Cell) (s : St) : (L.foldl (shiftSides v) s).off = s.off ∧
    (L.foldl (shiftSides v) s).ub = s.ub := by
  induction L generalizing s with
  | nil => exact ⟨rfl, rfl⟩
  | cons p L ih =>
    rw [List.foldl_cons]
    have hp : (shiftSides v s p).off = s.off ∧ (shiftSides v s p).ub = s.ub := by
      unfold shiftSides; split <;> exact ⟨rfl, rfl⟩
    obtain ⟨a, b⟩ := ih (shiftSides v s p)
    exact ⟨a.trans hp.1, b.trans hp.2⟩

theorem delFixedCol_num (s : St) (k : ℕ) : (delFixedCol s k).ub = s.ub ∧
    ((∃ o, (delFixedCol s k).off = .fin o) → (∃ o, s.off = .fin o) ∧ ∃ q, s.ub k = .fin q) := by
  unfold delFixedCol
  generalize hs : ((s.check (s.ctag k).fixed).check (!D.isInf (s.ub k))).check (D.eqb (s.lb k) (s.ub k)) = r
  have e1 : r.ub = s.ub := by rw [← hs]; rfl
  have e2 : r.off = s.off := by rw [← hs]; rfl
  simp only [e1]
  split
  · rename_i h0
    refine ⟨e1, fun h => ⟨e2 ▸ h, 0, ?_⟩⟩
    cases hu : s.ub k <;> rw [hu] at h0 <;> simp_all [D.eqb]
  · obtain ⟨a, b⟩ := shiftSides_fold_off (s.ub k) (r.AT k) r
    refine ⟨b.trans e1, fun ⟨o, ho⟩ => ?_⟩
    unfold fixVarInObj at ho
    obtain ⟨⟨x, hx⟩, y, hy⟩ := fin_add ho
    exact ⟨⟨x, (e2.symm.trans (a.symm.trans hx))⟩, fin_smul hy⟩

theorem deleteFixedCols_num (s : St) (h : ∃ o, (deleteFixedCols s).off = .fin o) :
    (∃ o, s.off = .fin o) ∧ ∀ k ∈ s.fixedCols, ∃ q, s.ub k = .fin q := by
  unfold deleteFixedCols at h
  generalize s.fixedCols = L at h
  induction L generalizing s with
  | nil => exact ⟨h, fun _ hk => by cases hk⟩
  | cons k L ih =>
    obtain ⟨h1, h2⟩ := ih _ h
    obtain ⟨a, b⟩ := delFixedCol_num s k
    obtain ⟨c, d⟩ := b h1
    refine ⟨c, fun j hj => ?_⟩
    rcases List.mem_cons.mp hj with rfl | hj
    · exact d
    · rw [← a]; exact h2 j hj

theorem NumSol.delCols {s : St} {σ : Sol} (g : GI s) (hd : s.rowsToDelete = [])
    (h : NumSol (deleteInactiveCols (deleteFixedCols s)) σ) : NumSol s σ := by
  have key := deleteFixedCols_num s
  obtain ⟨l, r, a, o', b, e⟩ := deleteFixedCols_eq s
  rw [e] at h key
  have hdel := deleteInactiveCols_deleted
    (s := { s with lhs := l, rhs := r, act := a, off := o', asrt := b })
    (g.of_eq rfl rfl rfl rfl rfl (fun _ => rfl) rfl rfl rfl rfl rfl rfl rfl rfl) hd
  generalize deleteInactiveCols { s with lhs := l, rhs := r, act := a, off := o', asrt := b } = t at hdel h
  have e := hdel.eq
  have ct : t.ctag = s.ctag := by have h := congrArg St.ctag e; exact h
  have off : t.off = o' := by have h := congrArg St.off e; exact h
  obtain ⟨k1, k2⟩ := key (off ▸ h.off)
  exact ⟨k1, k2, fun k hk => h.act k (by rw [ct]; exact hk)⟩

theorem NumSol.dton {s t : St} {σ τ : Sol} (g : GI s) {i j k : ℕ} {aij aik b : ℚ}
    (hd : DtonOut s t i j k aij aik b) (h : NumSol t σ)
    (hx : τ.x = upd σ.x k (D.divq ((s.A i).foldl (fun a p => if p.1 = k then a
      else D.sub a (D.smul p.2 (σ.x p.1))) (.fin b)) (scanCoef k 0 (s.A i)))) : NumSol s τ := by
  have hmem : (k, aik) ∈ s.A i := by rcases hd.cells with e | e <;> rw [e] <;> simp
  have hnd := (g.rowSorted i).nodup
  have hjk : j ≠ k := by
    rintro rfl
    rcases hd.cells with e | e <;> rw [e] at hnd <;> simp at hnd
  have hq : aik ≠ 0 := (g.rowRange i _ hmem).2.2
  have hct : ∀ j, j ≠ k → (t.ctag j).inactive = (s.ctag j).inactive := fun j hj => by
    rw [hd.ctag, upd_ne _ _ hj]
  obtain ⟨xj, hxj⟩ := h.act j ((hct j hjk).trans hd.colj)
  obtain ⟨o, ho⟩ := h.off
  rw [hd.off] at ho
  refine ⟨(fin_add ho).1, fun p hp => ?_, fun p hp => ?_⟩
  · have := h.pend p (by rw [hd.fixedCols]; exact hp)
    rwa [hd.ub] at this
  · rw [hx]
    by_cases e : p = k
    · subst e
      rw [upd_same]
      rcases hd.cells with e | e <;> rw [e] <;>
        simp [scanCoef, hjk, hxj, D.divq_fin hq]
    · rw [upd_ne _ _ e]
      exact h.act p ((hct p e).trans hp)

/-- Every elementary step other than a merge, a fixing at infinity and the substitution of a singleton column carries
numbers over. -/
theorem numBackward (n : ℕ) (μ : Mode) (hm : μ.merge = false) (hn : μ.near = false) (hs : μ.ston = false) :
    Backward solInterp μ (NumRel n) where
  core := fun s t h σ o hR hN => hR (hN.frame rfl h.off (fun k => by rw [h.ctag]) h.fixedCols (fun k _ => by rw [h.ub]))
  fix := fun s k val g _ hk _ => numRel_tr (fun σ h => h.toFixed g hk rfl rfl rfl rfl rfl)
  fixInf := fun h => absurd (hn.symm.trans h) (by decide)
  deact := fun s i g _ hi => numRel_tr (fun σ h => h.frame rfl rfl (fun _ => rfl) rfl (fun _ _ => rfl))
  sides := fun s i t l r u d g _ hi ht => numRel_tr (fun σ h => h.frame rfl rfl (fun _ => rfl) rfl (fun _ _ => rfl))
  sideRec := fun _ s i other t l r u d rc g _ _ _ _ _ _ hrc => numRel_tr (fun σ h => h.frame (by
      obtain ⟨side, ratio, rfl | rfl⟩ := hrc
      · exact retRhsChange_x _ _ _ _ _ _
      · exact retLhsChange_x _ _ _ _ _ _) rfl (fun _ => rfl) rfl (fun _ _ => rfl))
  stonEq := fun s row k a val g _ _ hk _ _ => numRel_tr (fun σ h => h.toFixed g hk rfl rfl rfl rfl rfl)
  emptyRow := fun s i g _ _ _ => numRel_tr (fun σ h => h.frame rfl rfl (fun _ => rfl) rfl (fun _ _ => rfl))
  emptyCol := fun s k v g hr hk _ => numRel_tr (fun σ h => h.gone (t := emptyColStep s k v) g hk rfl rfl
    (fun j hj => by show ((upd s.ctag k _) j).inactive = _; rw [upd_ne _ _ hj]) rfl
    (fun j hj => by
      show (if 0 < s.c k then upd s.ub k (s.lb k) else s.ub) j = _
      split <;> simp [upd_ne _ _ hj]))
  freeSton := fun h => absurd (hs.symm.trans h) (by decide)
  half := fun h => absurd (hs.symm.trans h) (by decide)
  fixSton := fun s i k q v g hr hi hk hT => numRel_tr (fun σ h => h.gone (t := fixColSton s i k q v) g hk rfl rfl
    (fun j hj => by show ((upd s.ctag k _) j).inactive = _; rw [upd_ne _ _ hj]) rfl (fun j hj => rfl))
  bound := fun s i j lb ub t implied other low g _ hi hj _ ht σ => by
    refine ⟨fun τ o hτ hR hN => hR ?_, fun h => by cases h⟩
    cases hτ
    refine hN.frame (t := boundStep s j lb ub t implied other low)
      (retBoundChange_x _ _ _ _ _ _ _) rfl (fun k => ?_) rfl (fun k hk => ?_)
    · show ((upd s.ctag j t) k).inactive = _
      by_cases hkj : k = j
      · subst hkj; rw [upd_same, ht, hj]
      · rw [upd_ne _ _ hkj]
    · exact upd_ne _ _ (by rintro rfl; exact g.notFixed hj hk)
  dton := fun s t i j k aij aik b g hr hd _ _ => numRel_tr (fun σ h => by
    refine h.dton g hd ?_
    rw [List.foldl_cons, List.foldl_cons, foldl_x]
    · rfl
    · intro r hr' σ
      simp only [List.mem_reverse, List.mem_map] at hr'
      obtain ⟨p, _, rfl⟩ := hr'
      rfl)
  merge := fun h => absurd (hm.symm.trans h) (by decide)
  relax := fun s k t ht => numRel_tr (fun σ h => h.frame (t := { s with ctag := upd s.ctag k t }) rfl rfl
    (fun p => by
      show ((upd s.ctag k t) p).inactive = _
      by_cases e : p = k
      · subst e; rw [upd_same, ht]
      · rw [upd_ne _ _ e]) rfl (fun _ _ => rfl))
  delRows := fun s g _ => numRel_tr (fun σ h => by
    have e := (deleteInactiveRows_deleted g).eq
    generalize deleteInactiveRows s = t at e h
    have ct : t.ctag = s.ctag := by have h := congrArg St.ctag e; exact h
    have fc : t.fixedCols = s.fixedCols := by have h := congrArg St.fixedCols e; exact h
    have off : t.off = s.off := by have h := congrArg St.off e; exact h
    have ub : t.ub = s.ub := by have h := congrArg St.ub e; exact h
    exact h.frame rfl off (fun _ => by rw [ct]) fc (fun _ _ => by rw [ub]))
  delCols := fun s g hr hd => numRel_tr (fun σ h => h.delCols g hd)

end Verif
