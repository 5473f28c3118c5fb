import Verif.Inv.Stat

/-!
# Every elementary step carries stationarity back
-/

namespace Verif

theorem findCoef_mem {j : ℕ} {v : ℚ} {l : List Cell} (hnd : (l.map Prod.fst).Nodup) (h : (j, v) ∈ l) :
    findCoef j l = v := by
  induction l with
  | nil => cases h
  | cons p l ih =>
    rw [List.map_cons, List.nodup_cons] at hnd
    unfold findCoef
    by_cases e : p.1 = j
    · rw [List.find?_cons_of_pos (by simp [e])]
      rcases List.mem_cons.mp h with h | h
      · rw [← h]
      · exact absurd (List.mem_map.mpr ⟨_, h, e.symm⟩) hnd.1
    · rw [List.find?_cons_of_neg (by simp [e])]
      rcases List.mem_cons.mp h with h | h
      · rw [← h] at e; exact absurd rfl e
      · exact ih hnd.2 h

theorem coefAt_cons_same {p : Cell} {l : List Cell} (h : p.1 ∉ l.map Prod.fst) : coefAt p.1 (p :: l) = p.2 := by
  have h0 : NoCol p.1 l := fun p' hp' e' => h (List.mem_map.mpr ⟨p', hp', e'⟩)
  have : coefAt p.1 (p :: l) = p.2 + coefAt p.1 l := by simp [coefAt, mids]
  rw [this, coefAt_noCol h0, add_zero]

theorem coefAt_cons_ne {j : ℕ} {p : Cell} {l : List Cell} (h : p.1 ≠ j) : coefAt j (p :: l) = coefAt j l := by
  simp [coefAt, mids, h]

/-- Reduced costs after a bound change has been undone. -/
theorem boundFold_z (j : ℕ) (a w : ℚ) (l : List Cell) (hnd : (l.map Prod.fst).Nodup) (z : ℕ → D)
    {k : ℕ} (hk : k ≠ j) {q : ℚ} (hz : z k = .fin q) :
    (l.foldl (fun z p => if p.1 = j then z else if D.eqb (z p.1) .pinf then z
      else upd z p.1 (D.sub (z p.1) (D.smul (p.2 / a) (.fin w)))) z) k = .fin (q - coefAt k l / a * w) := by
  induction l generalizing z q with
  | nil => simp [coefAt, mids, hz]
  | cons p l ih =>
    rw [List.map_cons, List.nodup_cons] at hnd
    rw [List.foldl_cons]
    by_cases e : p.1 = k
    · subst e
      rw [if_neg hk, hz]
      have : D.eqb (D.fin q) D.pinf = false := rfl
      rw [this, if_neg (by simp), ih hnd.2 (q := q - p.2 / a * w) _ (by rw [upd_same, D.smul_fin, D.sub_fin]), coefAt_cons_same hnd.1]
      have h0 : NoCol p.1 l := fun p' hp' e' => hnd.1 (List.mem_map.mpr ⟨p', hp', e'⟩)
      rw [coefAt_noCol h0]
      congr 1; ring
    · rw [coefAt_cons_ne e]
      refine ih hnd.2 _ ?_
      split
      · exact hz
      · split
        · exact hz
        · rw [upd_ne _ _ (Ne.symm e)]; exact hz

theorem StatAt.bound {s t : St} {σ : Sol} {i j : ℕ} {implied other : D} {low : Bool} (g : GI s) (hr : InRng s)
    (hi : (s.rtag i).inactive = false) (hj : (s.ctag j).inactive = false) (hcell : ∃ v, (j, v) ∈ s.A i)
    (h : StatAt s σ) : StatAt s (retBoundChange σ i (s.A i) j implied other low) := by
  unfold retBoundChange
  split
  · exact h
  split
  · exact h
  obtain ⟨v, hv⟩ := hcell
  have hv0 : v ≠ 0 := (g.rowRange i _ hv).2.2
  have hnd := (g.rowSorted i).nodup
  obtain ⟨y0, hy0⟩ := h.y i hi
  have hzj := h.z j hj
  set w := s.c j - colSum s (fun i => (σ.y i).toQ) j with hw
  have hsum : ∀ k, colSum s (fun r => (upd σ.y i (D.fin (y0 + w / v)) r).toQ) k =
      colSum s (fun r => (σ.y r).toQ) k + coefAt k (s.A i) * (w / v) := by
    intro k
    rw [colSum_one (s := s) (t := s) (Y := fun r => (σ.y r).toQ) (r := i) rfl (g.rowLt hr hi) (fun r _ e => ?_),
      rowTerm_act hi, rowTerm_act hi, upd_same, hy0, D.toQ_fin, D.toQ_fin]
    · ring
    · unfold rowTerm; simp only [upd_ne _ _ e]
  have ey : upd σ.y i (D.add (σ.y i) (D.divq (σ.z j) v)) = upd σ.y i (D.fin (y0 + w / v)) := by
    rw [hy0, hzj, D.divq_fin hv0]; rfl
  simp only [findCoef_mem hnd hv, ey]
  refine ⟨fun r hr' => ?_, fun k hk => ?_⟩
  · show ∃ q, upd σ.y i _ r = _
    by_cases e : r = i
    · subst e; rw [upd_same]; exact ⟨_, rfl⟩
    · rw [upd_ne _ _ e]; exact h.y r hr'
  · show upd _ j _ k = _
    simp only
    rw [hsum]
    by_cases e : k = j
    · subst e
      rw [upd_same, coefAt_cell (g.rowSorted i) hv]
      congr 1
      have : v * (w / v) = w := by field_simp
      rw [this, hw]; ring
    · rw [upd_ne _ _ e, hzj, boundFold_z j v w _ hnd σ.z e (h.z k hk)]
      congr 1; ring

theorem coefAt_offCols {D : List ℕ} {k : ℕ} (h : k ∉ D) (l : List Cell) : coefAt k (offCols D l) = coefAt k l := by
  unfold coefAt mids offCols
  rw [List.filter_filter]
  congr 2
  refine List.filter_congr (fun a _ => ?_)
  by_cases e : a.1 = k <;> simp [e, h]

/-- Rows come back with dual zero. -/
theorem deleted_fold (L : List ℕ) (σ : Sol) :
    (L.map (fun i => Rec.deletedRow i 0)).foldl retRec σ =
      { σ with y := fun i => if i ∈ L then .fin 0 else σ.y i } := by
  induction L generalizing σ with
  | nil => simp
  | cons r L ih =>
    rw [List.map_cons, List.foldl_cons, ih]
    show Sol.mk _ _ _ = Sol.mk _ _ _
    congr 1
    funext i
    show (if i ∈ L then D.fin 0 else upd σ.y r (.fin 0) i) = _
    by_cases e : i = r
    · subst e; simp
    · rw [upd_ne _ _ e]; simp [e]

theorem StatAt.fixInf {s : St} {k : ℕ} {pos : Bool} {bound v : D} {σ : Sol} (g : GI s)
    (hk : (s.ctag k).inactive = false) (hc : s.c k = 0) (h : StatAt (fixInfStep s k pos bound v) σ) :
    StatAt s ((((liveRows s k).map (fun i => Rec.deletedRow i 0)).reverse ++ [fixedColInfRec s k pos bound]).foldl
      retRec σ) := by
  rw [List.foldl_append, ← List.map_reverse, deleted_fold]
  have hl : ∀ i, (s.rtag i).inactive = false → i ∉ liveRows s k → NoCol k (s.A i) := by
    intro i hi hm
    refine g.noCol hi hk (fun v hv => hm ?_)
    unfold liveRows
    rw [List.mem_filter]
    exact ⟨List.mem_map.mpr ⟨_, hv, rfl⟩, by rw [hi]; rfl⟩
  have hrt : ∀ i, i ∉ liveRows s k → ((fixInfStep s k pos bound v).rtag i) = s.rtag i := fun i hi => by
    show (if i ∈ liveRows s k then _ else _) = _
    rw [if_neg hi]
  have hrt' : ∀ i, i ∈ liveRows s k → ((fixInfStep s k pos bound v).rtag i).inactive = true := fun i hi => by
    show (if i ∈ liveRows s k then { s.rtag i with inactive := true } else s.rtag i).inactive = _
    rw [if_pos hi]
  refine ⟨fun i hi => ?_, fun j hj => ?_⟩
  · show ∃ q, (if i ∈ (liveRows s k).reverse then D.fin 0 else σ.y i) = .fin q
    split
    · exact ⟨0, rfl⟩
    · rename_i hm
      rw [List.mem_reverse] at hm
      exact h.y i (by rw [hrt i hm]; exact hi)
  · show upd σ.z k (.fin 0) j = .fin (s.c j - colSum s (fun i => (if i ∈ (liveRows s k).reverse then D.fin 0 else σ.y i).toQ) j)
    by_cases e : j = k
    · subst e
      rw [upd_same, hc]
      have : colSum s (fun i => (if i ∈ (liveRows s j).reverse then D.fin 0 else σ.y i).toQ) j = 0 := by
        refine Finset.sum_eq_zero (fun i _ => ?_)
        by_cases hm : i ∈ liveRows s j
        · exact rowTerm_zero (by simp [hm])
        · cases hi : (s.rtag i).inactive with
          | true => exact rowTerm_gone hi
          | false => exact rowTerm_noCol (hl i hi hm)
      rw [this, sub_zero]
    · have hz := h.z j (by
        show ((upd s.ctag k _) j).inactive = _
        rw [upd_ne _ _ e]; exact hj)
      rw [upd_ne _ _ e, hz]
      show D.fin (s.c j - _) = _
      congr 2
      refine (colSum_congr (s := s) (t := fixInfStep s k pos bound v) rfl (fun i _ => ?_)).symm
      by_cases hm : i ∈ liveRows s k
      · rw [rowTerm_gone (hrt' i hm)]
        exact rowTerm_zero (by simp [hm])
      · unfold rowTerm
        rw [hrt i hm]
        have : i ∉ (liveRows s k).reverse := by simpa using hm
        simp only [this, if_false]
        rfl

/-- Every elementary step carries stationarity back, as long as no rows or columns are merged as
parallel and nothing is rounded. -/
theorem statBackward (Post : Sol → Prop) (μ : Mode) (hm : μ.merge = false) (hs : μ.sideRec = false)
    (hμ : μ.round = false) : Backward solInterp μ (StatRel Post) where
  core := fun s t h σ o hR σ' ho hf => hR σ' ho (hf.frame rfl rfl h.m (fun i _ => by rw [h.A]) h.c
    (fun i => by rw [h.rtag]) (fun k => by rw [h.ctag]))
  fix := fun s k val g _ hk hrows => statRel_tr (fun σ h => h.fix g hk hrows)
  fixInf := fun _ s k pos bound v g hr hk hc => statRel_tr (fun σ h => h.fixInf g hk hc)
  deact := fun s i g _ hi => statRel_tr (fun σ h => h.addRow (i := i) (q := 0) rfl rfl (Or.inl rfl) rfl
    (fun _ _ _ => rfl) rfl (fun r hr => by show ((upd s.rtag i _) r).inactive = _; rw [upd_ne _ _ hr])
    (by show ((upd s.rtag i _) i).inactive = _; rw [upd_same]) (fun _ => rfl))
  sides := fun s i t l r u d g _ hi ht => statRel_tr (fun σ h => h.frame rfl rfl rfl (fun _ _ => rfl) rfl
    (fun p => by
      show ((upd s.rtag i t) p).inactive = _
      by_cases e : p = i
      · subst e; rw [upd_same, ht, hi]
      · rw [upd_ne _ _ e]) (fun _ => rfl))
  sideRec := fun h => by rw [hs] at h; cases h
  stonEq := fun s row k a val g _ hi hk hrow hrows => statRel_tr (fun σ h => h.stonEq g hi hk hrow hrows)
  emptyRow := fun s i g _ hi hA => statRel_tr (fun σ h => h.addRow (i := i) (q := 0) rfl rfl (Or.inl rfl) rfl
    (fun _ _ _ => rfl) rfl (fun r hr => by show ((upd s.rtag i _) r).inactive = _; rw [upd_ne _ _ hr])
    (by show ((upd s.rtag i _) i).inactive = _; rw [upd_same]) (fun _ => rfl))
  emptyCol := fun s k v g _ hk hT => statRel_tr (fun σ h => by
    refine h.addCol (t := emptyColStep s k v) (k := k) rfl (fun j hj => upd_ne _ _ hj) (fun hfin => ?_) rfl
      (fun _ _ _ _ => rfl) rfl (fun _ => rfl)
      (fun j hj => by show ((upd s.ctag k _) j).inactive = _; rw [upd_ne _ _ hj])
    show upd σ.z k (.fin (s.c k)) k = _
    rw [upd_same, colSum_col g hk (by rw [hT]; simp), hT]; simp)
  freeSton := fun _ s i k q side g hr hi hk hT hcols => statRel_tr (fun σ h => by
    have e : freeColIneq s i k q side = setRowToInactive (({ s with
        c := costSub s (s.A i) k q, off := offSub s k q side
        ctag := upd s.ctag k { s.ctag k with subst := true }
        AT := upd s.AT k [], colSize := upd s.colSize k (-1) }).save
          (.subCol k (s.A i) side i (s.c k))) i (s.c k / q) := by
      unfold freeColIneq
      rw [subVarInObj_eq]; rfl
    rw [e] at h
    have hmem : (k, q) ∈ s.A i := (g.agree i k q (g.rowActive hi) (g.colActive hk)).mpr (by rw [hT]; simp)
    have hq : q ≠ 0 := (g.rowRange i _ hmem).2.2
    refine h.sub (y0 := 0) g hr hi hk hT ?_ (fun j hj => upd_ne _ _ hj) ?_ rfl rfl (fun j hj => ?_)
      (fun r _ => rfl) (fun r hr => ?_) (fun j hj => ?_)
    · rw [zero_add]; rfl
    · show upd σ.z k (D.sub (.fin (s.c k)) (D.smul (scanCoef k 0 (s.A i)) ((upd σ.y i (.fin (s.c k / q))) i))) k = _
      rw [upd_same, upd_same, scan_coef g hmem, D.smul_fin, D.sub_fin]
      congr 1; field_simp; ring
    · rw [mul_zero]
      refine rowTerm_gone ?_
      show ((upd s.rtag i _) i).inactive = _
      rw [upd_same]
    · show ((upd s.rtag i _) r).inactive = _
      rw [upd_ne _ _ hr]
    · show ((upd s.ctag k _) j).inactive = _
      rw [upd_ne _ _ hj])
  half := fun _ s i k q b upper g hr hi hk hT _ hcols => statRel_tr (fun σ h => by
    obtain ⟨l, r, u, d, e, _⟩ := halfStep_eq s i k q b upper
    rw [e] at h
    have hmem : (k, q) ∈ s.A i := (g.agree i k q (g.rowActive hi) (g.colActive hk)).mpr (by rw [hT]; simp)
    have hit : ((sidesStep (halfMid s i k q) i (if upper then { lhsInf := true } else { rhsInf := true })
        l r u d []).rtag i).inactive = false := by
      show ((upd s.rtag i _) i).inactive = _
      rw [upd_same]; cases upper <;> rfl
    obtain ⟨y0, hy0⟩ := h.y i hit
    refine h.sub (y0 := y0) g hr hi hk hT ?_ (fun j hj => upd_ne _ _ hj) ?_ rfl rfl (fun j hj => ?_)
      (fun r hr => ?_) (fun r hr => ?_) (fun j hj => ?_)
    · show upd σ.y i (D.add (σ.y i) _) = _
      rw [hy0]; rfl
    · show upd σ.z k (D.sub (.fin 0) (D.smul (scanCoef k 0 (s.A i)) (σ.y i))) k = _
      rw [upd_same, scan_coef g hmem, hy0, D.smul_fin, D.sub_fin, zero_sub]
    · rw [rowTerm_act hit, hy0, D.toQ_fin]
      show coefAt j (upd s.A i _ i) * _ = _
      rw [upd_same, coefAt_dropCell hj]
    · show upd s.A i _ r = _
      rw [upd_ne _ _ hr]
    · show ((upd s.rtag i _) r).inactive = _
      rw [upd_ne _ _ hr]
    · show ((upd s.ctag k _) j).inactive = _
      rw [upd_ne _ _ hj])
  fixSton := fun s i k q v g hr hi hk hT => statRel_tr (fun σ h => by
    refine h.addCol (t := fixColSton s i k q v) (k := k) rfl (fun j hj => upd_ne _ _ hj) (fun hfin => ?_) rfl
      (fun r _ j hj => ?_) rfl (fun _ => rfl)
      (fun j hj => by show ((upd s.ctag k _) j).inactive = _; rw [upd_ne _ _ hj])
    · show upd σ.z k (D.sub (.fin (s.c k)) (D.smul q (σ.y i))) k = _
      obtain ⟨y0, hy0⟩ := hfin i hi
      rw [upd_same, colSum_col g hk (by rw [hT]; simpa using hi), hT, hy0]
      simp [hy0]
    · show coefAt j (upd s.A i (dropCell k (s.A i)) r) = _
      by_cases e : r = i
      · subst e; rw [upd_same, coefAt_dropCell hj]
      · rw [upd_ne _ _ e])
  bound := fun s i j lb ub t implied other low g hr hi hj hcell ht σ => by
    refine ⟨fun τ o hτ hR σ' ho hf => ?_, fun h => by cases h⟩
    cases hτ
    refine hR σ' ho (StatAt.bound (t := s) g hr hi hj hcell ?_)
    refine hf.frame rfl rfl rfl (fun _ _ => rfl) rfl (fun _ => rfl) (fun k => ?_)
    show ((upd s.ctag j t) k).inactive = _
    by_cases hkj : k = j
    · subst hkj; rw [upd_same, ht, hj]
    · rw [upd_ne _ _ hkj]
  dton := fun s t i j k aij aik b g hr hd _ hv => statRel_tr (fun σ h =>
    h.dton g hr hd (hv.resolve_left (by rw [hμ]; decide)))
  merge := fun h => by rw [hm] at h; cases h
  relax := fun s k t ht => statRel_tr (fun σ h => h.frame (t := { s with ctag := upd s.ctag k t }) rfl rfl rfl
    (fun _ _ => rfl) rfl (fun _ => rfl) (fun p => by
      show ((upd s.ctag k t) p).inactive = _
      by_cases e : p = k
      · subst e; rw [upd_same, ht]
      · rw [upd_ne _ _ e]))
  delRows := fun s g _ => statRel_tr (fun σ h => by
    have hd := deleteInactiveRows_deleted g
    generalize deleteInactiveRows s = t at hd h
    have e := hd.eq
    have m : t.m = s.m := by have h := congrArg St.m e; exact h
    have c : t.c = s.c := by have h := congrArg St.c e; exact h
    have ct : t.ctag = s.ctag := by have h := congrArg St.ctag e; exact h
    have rt : t.rtag = s.rtag := by have h := congrArg St.rtag e; exact h
    refine h.frame rfl rfl m (fun i hi => ?_) c (fun _ => by rw [rt]) (fun _ => by rw [ct])
    rw [hd.A, if_neg]
    intro hm
    have := (g.rowsDel i hm).1
    rw [this] at hi; cases hi)
  delCols := fun s g hr hd => statRel_tr (fun σ h => by
    obtain ⟨l, r, a, o', b, e⟩ := deleteFixedCols_eq s
    rw [e] at h
    have hdel := deleteInactiveCols_deleted
      (s := { s with lhs := l, rhs := r, act := a, off := o', asrt := b })
      (g.of_eq rfl rfl rfl rfl rfl (fun _ => rfl) rfl rfl rfl rfl rfl rfl rfl rfl) hd
    generalize deleteInactiveCols { s with lhs := l, rhs := r, act := a, off := o', asrt := b } = t at hdel h
    have e := hdel.eq
    have m : t.m = s.m := by have h := congrArg St.m e; exact h
    have c : t.c = s.c := by have h := congrArg St.c e; exact h
    have ct : t.ctag = s.ctag := by have h := congrArg St.ctag e; exact h
    have rt : t.rtag = s.rtag := by have h := congrArg St.rtag e; exact h
    refine ⟨fun i hi => h.y i (by rw [rt]; exact hi), fun k hk => ?_⟩
    rw [List.foldl_nil, h.z k (by rw [ct]; exact hk), c]
    congr 2
    refine (colSum_congr m (fun i _ => ?_)).symm
    unfold rowTerm
    rw [rt, hdel.A i]
    have hA : ({ s with lhs := l, rhs := r, act := a, off := o', asrt := b } : St).A i = s.A i := rfl
    rw [coefAt_offCols (fun hm => by
      have := (g.colsDel k hm).1
      rw [this] at hk; cases hk)])

end Verif
