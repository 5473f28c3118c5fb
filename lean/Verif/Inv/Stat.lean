import Verif.Inv.Obj

/-!
# Stationarity along a run and back through postsolve
-/

namespace Verif

/-- What row `i` contributes to column `k`. -/
def rowTerm (s : St) (Y : ℕ → ℚ) (k i : ℕ) : ℚ :=
  if (s.rtag i).inactive then 0 else coefAt k (s.A i) * Y i

/-- `(Aᵀ Y)_k` over the active rows. -/
def colSum (s : St) (Y : ℕ → ℚ) (k : ℕ) : ℚ := ∑ i ∈ Finset.range s.m, rowTerm s Y k i

/-- The reduced costs of the active columns are those of the duals of the active rows. -/
structure StatAt (s : St) (σ : Sol) : Prop where
  y : ∀ i, (s.rtag i).inactive = false → ∃ q, σ.y i = .fin q
  z : ∀ k, (s.ctag k).inactive = false → σ.z k = .fin (s.c k - colSum s (fun i => (σ.y i).toQ) k)

/-- The relation carried through postsolve. -/
def StatRel (Post : Sol → Prop) (s : St) (σ : Sol) (o : Option Sol) : Prop :=
  ∀ σ', o = some σ' → StatAt s σ → Post σ'

theorem statRel_tr {Post : Sol → Prop} {new : List Rec} {s t : St}
    (h : ∀ σ, StatAt t σ → StatAt s (new.foldl retRec σ)) : Tr solInterp (StatRel Post) new s t := by
  intro σ
  rw [solInterp_run]
  refine ⟨fun b o hb hr σ' ho hf => ?_, fun hb => by cases hb⟩
  cases hb
  exact hr σ' ho (h σ hf)

theorem colSum_congr {s t : St} {Y Y' : ℕ → ℚ} {k : ℕ} (hm : t.m = s.m)
    (h : ∀ i < s.m, rowTerm s Y' k i = rowTerm t Y k i) : colSum s Y' k = colSum t Y k := by
  unfold colSum
  rw [hm]
  exact Finset.sum_congr rfl (fun i hi => h i (Finset.mem_range.mp hi))

/-- Only row `r` contributes differently. -/
theorem colSum_one {s t : St} {Y Y' : ℕ → ℚ} {k r : ℕ} (hm : t.m = s.m) (hr : r < s.m)
    (h : ∀ i < s.m, i ≠ r → rowTerm s Y' k i = rowTerm t Y k i) :
    colSum s Y' k = colSum t Y k - rowTerm t Y k r + rowTerm s Y' k r := by
  unfold colSum
  have hmem : r ∈ Finset.range s.m := Finset.mem_range.mpr hr
  rw [hm, ← Finset.add_sum_erase _ _ hmem, ← Finset.add_sum_erase (a := r) _ (fun i => rowTerm t Y k i) hmem]
  have : ∑ i ∈ (Finset.range s.m).erase r, rowTerm s Y' k i = ∑ i ∈ (Finset.range s.m).erase r, rowTerm t Y k i :=
    Finset.sum_congr rfl (fun i hi => h i (Finset.mem_range.mp (Finset.mem_of_mem_erase hi))
      (Finset.ne_of_mem_erase hi))
  rw [this]; ring

theorem rowTerm_act {s : St} {Y : ℕ → ℚ} {k i : ℕ} (h : (s.rtag i).inactive = false) :
    rowTerm s Y k i = coefAt k (s.A i) * Y i := by
  unfold rowTerm; rw [h]; rfl

theorem rowTerm_gone {s : St} {Y : ℕ → ℚ} {k i : ℕ} (h : (s.rtag i).inactive = true) :
    rowTerm s Y k i = 0 := by
  unfold rowTerm; rw [h]; rfl

theorem rowTerm_noCol {s : St} {Y : ℕ → ℚ} {k i : ℕ} (h : NoCol k (s.A i)) : rowTerm s Y k i = 0 := by
  unfold rowTerm
  rw [coefAt_noCol h]; simp

theorem rowTerm_zero {s : St} {Y : ℕ → ℚ} {k i : ℕ} (h : Y i = 0) : rowTerm s Y k i = 0 := by
  unfold rowTerm
  rw [h]; simp

/-- An active row without an entry in the column list does not contain the column. -/
theorem GI.noCol {s : St} (g : GI s) {i k : ℕ} (hi : (s.rtag i).inactive = false)
    (hk : (s.ctag k).inactive = false) (h : ∀ v, (i, v) ∉ s.AT k) : NoCol k (s.A i) := by
  rintro ⟨j, v⟩ hp rfl
  exact h v ((g.agree i j v (g.rowActive hi) (g.colActive hk)).mp hp)

theorem GI.coef {s : St} (g : GI s) {i k : ℕ} {v : ℚ} (hi : (s.rtag i).inactive = false)
    (hk : (s.ctag k).inactive = false) (h : (i, v) ∈ s.AT k) : coefAt k (s.A i) = v :=
  coefAt_cell (g.rowSorted i) ((g.agree i k v (g.rowActive hi) (g.colActive hk)).mpr h)

/-- The column sum read off the column list. -/
theorem colSum_col {s : St} (g : GI s) {k : ℕ} (hk : (s.ctag k).inactive = false)
    (hrows : ∀ p ∈ s.AT k, (s.rtag p.1).inactive = false) (Y : ℕ → ℚ) :
    colSum s Y k = dot (s.AT k) Y := by
  have h : ∀ i ∈ Finset.range s.m, rowTerm s Y k i =
      if i ∈ (s.AT k).map Prod.fst then coefAt k (s.A i) * Y i else 0 := by
    intro i _
    split
    · rename_i hm
      obtain ⟨p, hp, rfl⟩ := List.mem_map.mp hm
      exact rowTerm_act (hrows p hp)
    · rename_i hm
      cases hi : (s.rtag i).inactive with
      | true => exact rowTerm_gone hi
      | false =>
        exact rowTerm_noCol (g.noCol hi hk (fun v hv => hm (List.mem_map.mpr ⟨_, hv, rfl⟩)))
  unfold colSum
  rw [Finset.sum_congr rfl h, sum_mem_list (n := s.m) (fun i => coefAt k (s.A i) * Y i) _ (g.colSorted k).nodup
    (fun i hi => by
      obtain ⟨p, hp, rfl⟩ := List.mem_map.mp hi
      exact (g.colRange k p hp).2.1)]
  unfold dot
  rw [List.map_map]
  congr 1
  refine List.map_congr_left (fun p hp => ?_)
  show coefAt k (s.A p.1) * Y p.1 = _
  rw [g.coef (hrows p hp) hk hp]

/-- The value computed by `retFixCol`. -/
theorem foldl_sub_dot (y : ℕ → D) (l : List Cell) (h : ∀ p ∈ l, ∃ q, y p.1 = .fin q) (a : ℚ) :
    l.foldl (fun a p => D.sub a (D.smul p.2 (y p.1))) (.fin a) = .fin (a - dot l (fun i => (y i).toQ)) := by
  induction l generalizing a with
  | nil => simp
  | cons p l ih =>
    obtain ⟨q, hq⟩ := h p List.mem_cons_self
    rw [List.foldl_cons, hq, D.smul_fin, D.sub_fin, ih (fun p hp => h p (List.mem_cons_of_mem _ hp)), dot_cons,
      hq, D.toQ_fin]
    congr 1; ring

/-- Same matrix, costs and tags of activity. -/
theorem StatAt.frame {s t : St} {σ τ : Sol} (h : StatAt t σ) (hy : τ.y = σ.y) (hz : τ.z = σ.z)
    (hm : t.m = s.m) (hA : ∀ i, (s.rtag i).inactive = false → t.A i = s.A i) (c : t.c = s.c)
    (hr : ∀ i, (t.rtag i).inactive = (s.rtag i).inactive)
    (hc : ∀ k, (t.ctag k).inactive = (s.ctag k).inactive) : StatAt s τ := by
  refine ⟨fun i hi => ?_, fun k hk => ?_⟩
  · rw [hy]; exact h.y i (by rw [hr]; exact hi)
  · rw [hz, hy, h.z k (by rw [hc]; exact hk), c]
    congr 2
    refine (colSum_congr hm (fun i _ => ?_)).symm
    cases hi : (s.rtag i).inactive with
    | true => rw [rowTerm_gone hi, rowTerm_gone (by rw [hr]; exact hi)]
    | false => rw [rowTerm_act hi, rowTerm_act (by rw [hr]; exact hi), hA i hi]

/-- Column `k` is given the reduced cost it must have. -/
theorem StatAt.addCol {s t : St} {σ τ : Sol} {k : ℕ} (h : StatAt t σ) (hy : τ.y = σ.y)
    (hz : ∀ j, j ≠ k → τ.z j = σ.z j)
    (hzk : (∀ i, (s.rtag i).inactive = false → ∃ q, σ.y i = .fin q) →
      τ.z k = .fin (s.c k - colSum s (fun i => (σ.y i).toQ) k))
    (hm : t.m = s.m) (hA : ∀ i, (s.rtag i).inactive = false → ∀ j, j ≠ k → coefAt j (t.A i) = coefAt j (s.A i))
    (c : t.c = s.c) (hr : ∀ i, (t.rtag i).inactive = (s.rtag i).inactive)
    (hc : ∀ j, j ≠ k → (t.ctag j).inactive = (s.ctag j).inactive) : StatAt s τ := by
  have hfin : ∀ i, (s.rtag i).inactive = false → ∃ q, σ.y i = .fin q := fun i hi => h.y i (by rw [hr]; exact hi)
  refine ⟨fun i hi => by rw [hy]; exact hfin i hi, fun j hj => ?_⟩
  rw [hy]
  by_cases hjk : j = k
  · subst hjk; exact hzk hfin
  · rw [hz j hjk, h.z j (by rw [hc j hjk]; exact hj), c]
    congr 2
    refine (colSum_congr hm (fun i _ => ?_)).symm
    cases hi : (s.rtag i).inactive with
    | true => rw [rowTerm_gone hi, rowTerm_gone (by rw [hr]; exact hi)]
    | false => rw [rowTerm_act hi, rowTerm_act (by rw [hr]; exact hi), hA i hi j hjk]

/-- Row `i` comes back with dual zero, or without an entry in any active column. -/
theorem StatAt.addRow {s t : St} {σ τ : Sol} {i : ℕ} (h : StatAt t σ) {q : ℚ} (hy : τ.y = upd σ.y i (.fin q))
    (hz : τ.z = σ.z) (hq : q = 0 ∨ ∀ k, (s.ctag k).inactive = false → NoCol k (s.A i)) (hm : t.m = s.m)
    (hA : ∀ r, r ≠ i → (s.rtag r).inactive = false → t.A r = s.A r) (c : t.c = s.c)
    (hr : ∀ r, r ≠ i → (t.rtag r).inactive = (s.rtag r).inactive) (hi : (t.rtag i).inactive = true)
    (hc : ∀ k, (t.ctag k).inactive = (s.ctag k).inactive) : StatAt s τ := by
  refine ⟨fun r hr' => ?_, fun k hk => ?_⟩
  · rw [hy]
    by_cases e : r = i
    · subst e; rw [upd_same]; exact ⟨q, rfl⟩
    · rw [upd_ne _ _ e]; exact h.y r (by rw [hr r e]; exact hr')
  · rw [hz, h.z k (by rw [hc]; exact hk), c, hy]
    congr 2
    refine (colSum_congr hm (fun r _ => ?_)).symm
    by_cases e : r = i
    · subst e
      rw [rowTerm_gone hi]
      rcases hq with rfl | hq
      · exact rowTerm_zero (by rw [upd_same]; rfl)
      · exact rowTerm_noCol (hq k hk)
    · cases hi : (s.rtag r).inactive with
      | true => rw [rowTerm_gone hi, rowTerm_gone (by rw [hr r e]; exact hi)]
      | false => rw [rowTerm_act hi, rowTerm_act (by rw [hr r e]; exact hi), hA r e hi, upd_ne _ _ e]

theorem costSub_coef {s : St} {i k : ℕ} {q : ℚ} (hs : SortedC (s.A i)) (j : ℕ) :
    costSub s (s.A i) k q j = s.c j - s.c k / q * coefAt j (s.A i) := by
  unfold costSub
  split
  · rename_i h; rw [h]; simp
  · have hnd := hs.nodup
    have key : ∀ (l : List Cell) (c : ℕ → ℚ) (r : ℚ), (l.map Prod.fst).Nodup →
        (l.foldl (fun c p => upd c p.1 (c p.1 - r * p.2)) c) j = c j - r * coefAt j l := by
      intro l
      induction l with
      | nil => intro c r _; simp [coefAt, mids]
      | cons p l ih =>
        intro c r hnd
        rw [List.map_cons, List.nodup_cons] at hnd
        rw [List.foldl_cons, ih _ _ hnd.2]
        by_cases e : p.1 = j
        · have h0 : NoCol j l := by
            intro p' hp' e'
            exact hnd.1 (List.mem_map.mpr ⟨p', hp', by rw [e', e]⟩)
          have : coefAt j (p :: l) = p.2 + coefAt j l := by simp [coefAt, mids, e]
          rw [this, coefAt_noCol h0, ← e, upd_same]; ring
        · have : coefAt j (p :: l) = coefAt j l := by simp [coefAt, mids, e]
          rw [this, upd_ne _ _ (Ne.symm e)]
    exact key _ _ _ hnd

theorem scan_coef {i k : ℕ} {q : ℚ} {s : St} (g : GI s) (hmem : (k, q) ∈ s.A i) : scanCoef k 0 (s.A i) = q := by
  obtain ⟨l1, l2, e, h1, h2⟩ := split_col (g.rowSorted i).nodup hmem
  rw [e, scan_split h2]

theorem StatAt.fix {s : St} {k : ℕ} {val : D} {σ : Sol} (g : GI s) (hk : (s.ctag k).inactive = false)
    (hrows : ∀ p ∈ s.AT k, (s.rtag p.1).inactive = false) (h : StatAt (fixStep s k val (s.c k)) σ) :
    StatAt s (retFixCol σ k val (s.c k) (s.AT k)) := by
  refine h.addCol (k := k) rfl (fun j hj => upd_ne _ _ hj) (fun hfin => ?_) rfl (fun _ _ _ _ => rfl) rfl
    (fun _ => rfl) (fun j hj => by show ((upd s.ctag k _) j).inactive = _; rw [upd_ne _ _ hj])
  show upd σ.z k _ k = _
  rw [upd_same, foldl_sub_dot _ _ (fun p hp => hfin p.1 (hrows p hp)), colSum_col g hk hrows]

/-- The value computed by `retAddedRows`. -/
theorem foldl_added_fin (y : ℕ → D) (i : ℕ) (a : ℚ) (l : List Cell) (h : ∀ p ∈ l, p.1 ≠ i → ∃ q, y p.1 = .fin q)
    (b : ℚ) : ∃ q, l.foldl (fun b p => if p.1 = i then b else D.sub b (D.smul (p.2 / a) (y p.1))) (.fin b) = .fin q := by
  induction l generalizing b with
  | nil => exact ⟨b, rfl⟩
  | cons p l ih =>
    rw [List.foldl_cons]
    by_cases e : p.1 = i
    · rw [if_pos e]; exact ih (fun p hp => h p (List.mem_cons_of_mem _ hp)) _
    · obtain ⟨q, hq⟩ := h p List.mem_cons_self e
      rw [if_neg e, hq, D.smul_fin, D.sub_fin]
      exact ih (fun p hp => h p (List.mem_cons_of_mem _ hp)) _

theorem StatAt.stonEq {s : St} {row k : ℕ} {a : ℚ} {val : D} {σ : Sol} (g : GI s)
    (hi : (s.rtag row).inactive = false) (hk : (s.ctag k).inactive = false) (hrow : s.A row = [(k, a)])
    (hrows : ∀ p ∈ s.AT k, (s.rtag p.1).inactive = false) (h : StatAt (stonEqStep s row k a val) σ) :
    StatAt s ([Rec.deletedRow row (s.c k / a), .addedRows row (s.AT k) a, .fixedCol k val (s.c k) (s.AT k)].foldl
      retRec σ) := by
  have hgone : ((stonEqStep s row k a val).rtag row).inactive = true := by
    show ((upd s.rtag row _) row).inactive = _; rw [upd_same]
  have hother : ∀ r, r ≠ row → ((stonEqStep s row k a val).rtag r).inactive = (s.rtag r).inactive :=
    fun r hr => by show ((upd s.rtag row _) r).inactive = _; rw [upd_ne _ _ hr]
  obtain ⟨q, hq⟩ := foldl_added_fin (upd σ.y row (.fin (s.c k / a))) row a (s.AT k) (fun p hp hne => by
    rw [upd_ne _ _ hne]
    exact h.y p.1 (by rw [hother _ hne]; exact hrows p hp)) (s.c k / a)
  refine StatAt.fix g hk hrows (val := val) ?_
  refine h.addRow (i := row) (q := q) ?_ rfl (Or.inr (fun j hj => ?_)) rfl (fun r hr _ => ?_) rfl
    (fun r hr => hother r hr) hgone (fun _ => rfl)
  · show upd (upd σ.y row _) row _ = _
    have e : (upd σ.y row (D.fin (s.c k / a))) row = .fin (s.c k / a) := upd_same _ _ _
    funext r
    by_cases hr : r = row
    · subst hr
      rw [upd_same, upd_same]
      show List.foldl _ ((upd σ.y r (D.fin (s.c k / a))) r) _ = _
      rw [e]; exact hq
    · rw [upd_ne _ _ hr, upd_ne _ _ hr, upd_ne _ _ hr]
  · show NoCol j (s.A row)
    rw [hrow]
    intro p hp e
    simp at hp; subst hp
    have : ((upd s.ctag k { s.ctag k with fixed := true }) j).inactive = false := hj
    rw [← e, upd_same] at this
    cases this
  · show upd s.A row [] r = _
    rw [upd_ne _ _ hr]; rfl

/-- A singleton column is substituted out; `y0` is what row `i` still counts. -/
theorem StatAt.sub {s t : St} {σ τ : Sol} {i k : ℕ} {q y0 : ℚ} (g : GI s) (hr : InRng s) (h : StatAt t σ)
    (hi : (s.rtag i).inactive = false) (hk : (s.ctag k).inactive = false) (hT : s.AT k = [(i, q)])
    (hy : τ.y = upd σ.y i (.fin (y0 + s.c k / q))) (hz : ∀ j, j ≠ k → τ.z j = σ.z j)
    (hzk : τ.z k = .fin (-(q * y0))) (hm : t.m = s.m) (c : t.c = costSub s (s.A i) k q)
    (hrow : ∀ j, j ≠ k → rowTerm t (fun r => (σ.y r).toQ) j i = coefAt j (s.A i) * y0)
    (hA : ∀ r, r ≠ i → t.A r = s.A r) (hrt : ∀ r, r ≠ i → (t.rtag r).inactive = (s.rtag r).inactive)
    (hct : ∀ j, j ≠ k → (t.ctag j).inactive = (s.ctag j).inactive) : StatAt s τ := by
  have hmem : (k, q) ∈ s.A i := (g.agree i k q (g.rowActive hi) (g.colActive hk)).mpr (by rw [hT]; simp)
  have hq : q ≠ 0 := (g.rowRange i _ hmem).2.2
  refine ⟨fun r hr' => ?_, fun j hj => ?_⟩
  · rw [hy]
    by_cases e : r = i
    · subst e; rw [upd_same]; exact ⟨_, rfl⟩
    · rw [upd_ne _ _ e]; exact h.y r (by rw [hrt r e]; exact hr')
  · by_cases hjk : j = k
    · subst hjk
      rw [hzk, colSum_col g hk (by rw [hT]; simpa using hi), hT, hy]
      simp only [dot_cons, dot_nil, upd_same, D.toQ_fin]
      congr 1; field_simp; ring
    · rw [hz j hjk, h.z j (by rw [hct j hjk]; exact hj), c, costSub_coef (g.rowSorted i), hy]
      rw [colSum_one (s := s) (t := t) (Y := fun r => (σ.y r).toQ) (r := i) hm (g.rowLt hr hi) (fun r _ e => ?_),
        hrow j hjk, rowTerm_act hi, upd_same, D.toQ_fin]
      · congr 1; ring
      · cases hir : (s.rtag r).inactive with
        | true => rw [rowTerm_gone hir, rowTerm_gone (by rw [hrt r e]; exact hir)]
        | false => rw [rowTerm_act hir, rowTerm_act (by rw [hrt r e]; exact hir), hA r e, upd_ne _ _ e]

theorem coefAt_dropCell {j k : ℕ} (h : j ≠ k) (l : List Cell) : coefAt j (dropCell k l) = coefAt j l := by
  unfold dropCell
  induction l with
  | nil => rfl
  | cons p l ih =>
    by_cases e : p.1 = k
    · rw [List.eraseP_cons_of_pos (by simp [e])]
      have : p.1 ≠ j := by rw [e]; exact Ne.symm h
      simp [coefAt, mids, this]
    · rw [List.eraseP_cons_of_neg (by simp [e])]
      by_cases e' : p.1 = j <;> simp_all [coefAt, mids]

theorem coefAt_newCol {p q : ℕ} {v : ℚ} (l : List Cell) (hv : |v| ≤ ZERO_TOL → v = 0) :
    coefAt p (newCol q v l) = if p = q then v else coefAt p l := by
  have hl : p ≠ q → mids p (lows q l) ++ mids p (highs q l) = mids p l := by
    intro hne
    unfold mids lows highs
    rw [List.filter_filter, List.filter_filter]
    rcases Nat.lt_or_gt_of_ne hne with hlt | hgt
    · have e1 : (fun a : Cell => decide (a.1 = p) && decide (a.1 < q)) = fun a => decide (a.1 = p) := by
        funext a
        by_cases h : a.1 = p <;> simp [h]; omega
      have e2 : (fun a : Cell => decide (a.1 = p) && decide (q < a.1)) = fun _ => false := by
        funext a
        by_cases h : a.1 = p <;> simp [h]; omega
      rw [e1, e2]; simp
    · have e1 : (fun a : Cell => decide (a.1 = p) && decide (a.1 < q)) = fun a => false := by
        funext a
        by_cases h : a.1 = p <;> simp [h]; omega
      have e2 : (fun a : Cell => decide (a.1 = p) && decide (q < a.1)) = fun a => decide (a.1 = p) := by
        funext a
        by_cases h : a.1 = p <;> simp [h]; omega
      rw [e1, e2]; simp
  have hq1 : mids q (lows q l) = [] := by
    unfold mids lows
    rw [List.filter_filter, List.filter_eq_nil_iff]
    intro a _; simp; omega
  have hq2 : mids q (highs q l) = [] := by
    unfold mids highs
    rw [List.filter_filter, List.filter_eq_nil_iff]
    intro a _; simp; omega
  have happ : ∀ a b, mids p (a ++ b) = mids p a ++ mids p b := fun a b => List.filter_append ..
  have hcons : ∀ x b, mids p (x :: b) = mids p [x] ++ mids p b := fun x b => happ [x] b
  unfold newCol coefAt
  by_cases e : p = q
  · subst e
    rw [if_pos rfl]
    split
    · rename_i h; rw [happ, hq1, hq2, hv h]; simp
    · rw [happ, hcons, hq1, hq2]; simp [mids]
  · rw [if_neg e]
    split
    · rw [happ, hl e]
    · have : mids p [(q, v)] = [] := by simp [mids, Ne.symm e]
      rw [happ, hcons, this, List.nil_append, hl e]

theorem coefAt_without {p k : ℕ} (h : p ≠ k) (l : List Cell) : coefAt p (without k l) = coefAt p l := by
  unfold coefAt mids without
  rw [List.filter_filter]
  congr 2
  refine List.filter_congr (fun a _ => ?_)
  by_cases e : a.1 = p <;> simp [e, h]

theorem coefAt_newRow {p j k : ℕ} {ratio : ℚ} (hp : p ≠ k) (l : List Cell)
    (hv : |newCoef j k ratio l| ≤ ZERO_TOL → newCoef j k ratio l = 0) :
    coefAt p (newRow j k ratio l) = coefAt p l - (if p = j then ratio else 0) * coefAt k l := by
  unfold newRow
  rw [coefAt_newCol _ hv]
  split
  · rename_i e; subst e; rfl
  · rw [coefAt_without hp]; ring

/-- The duals after the records of the rows that were rewritten. -/
theorem addedRows_fold (i : ℕ) (aik : ℚ) (l : List Cell) (hl : ∀ p ∈ l, p.1 ≠ i) (σ : Sol)
    (hf : ∀ p ∈ l, ∃ q, σ.y p.1 = .fin q) (b : ℚ) (hb : σ.y i = .fin b) :
    ((l.map (fun p => Rec.addedRow i p.1 (-p.2 / aik))).foldl retRec σ) =
      { σ with y := upd σ.y i (.fin (b - dot l (fun r => (σ.y r).toQ) / aik)) } := by
  induction l generalizing σ b with
  | nil => simp [← hb, upd_self]
  | cons p l ih =>
    have hp := hl p List.mem_cons_self
    obtain ⟨q, hq⟩ := hf p List.mem_cons_self
    rw [List.map_cons, List.foldl_cons]
    have e : retRec σ (.addedRow i p.1 (-p.2 / aik)) = { σ with y := upd σ.y i (.fin (b + -p.2 / aik * q)) } := by
      show retAddedRow σ i p.1 (-p.2 / aik) = _
      unfold retAddedRow
      rw [hb, hq]; rfl
    rw [e, ih (fun p hp => hl p (List.mem_cons_of_mem _ hp)) _ (fun p' hp' => by
      have hne := hl p' (List.mem_cons_of_mem _ hp')
      obtain ⟨q', hq'⟩ := hf p' (List.mem_cons_of_mem _ hp')
      exact ⟨q', by show upd _ _ _ _ = _; rw [upd_ne _ _ hne, hq']⟩) (b + -p.2 / aik * q) (upd_same _ _ _)]
    have e2 : dot l (fun r => ((upd σ.y i (D.fin (b + -p.2 / aik * q))) r).toQ) = dot l (fun r => (σ.y r).toQ) :=
      dot_congr (fun p' hp' => by rw [upd_ne _ _ (hl p' (List.mem_cons_of_mem _ hp'))])
    simp only [e2, dot_cons, hq, D.toQ_fin]
    congr 1
    funext r
    by_cases hr : r = i
    · subst hr
      rw [upd_same, upd_same]; congr 1; ring
    · rw [upd_ne _ _ hr, upd_ne _ _ hr, upd_ne _ _ hr]

theorem dot_perm {l l' : List Cell} (h : l.Perm l') (x : ℕ → ℚ) : dot l x = dot l' x := by
  unfold dot; exact (h.map _).sum_eq

theorem StatAt.dton {s t : St} {σ : Sol} {i j k : ℕ} {aij aik b : ℚ} (g : GI s) (hr : InRng s)
    (hd : DtonOut s t i j k aij aik b)
    (hv : ∀ q a, q ≠ i → (q, a) ∈ s.AT k →
      |newCoef j k (aij / aik) (s.A q)| ≤ ZERO_TOL → newCoef j k (aij / aik) (s.A q) = 0)
    (h : StatAt t σ) :
    StatAt s ((Rec.deletedRow i (s.c k / aik) :: .subCol k (s.A i) (.fin b) i (s.c k) ::
      (((s.AT k).filter (fun p => decide (p.1 ≠ i))).map
        (fun p => Rec.addedRow i p.1 (-p.2 / aik))).reverse).foldl retRec σ) := by
  have hmem : (k, aik) ∈ s.A i := by rcases hd.cells with e | e <;> rw [e] <;> simp
  have hmemj : (j, aij) ∈ s.A i := by rcases hd.cells with e | e <;> rw [e] <;> simp
  have hjk : j ≠ k := by
    rintro rfl
    have hnd := (g.rowSorted i).nodup
    rcases hd.cells with e | e <;> rw [e] at hnd <;> simp at hnd
  have hq : aik ≠ 0 := (g.rowRange i _ hmem).2.2
  have hmemT : (i, aik) ∈ s.AT k := (g.agree i k aik (g.rowActive hd.row) (g.colActive hd.colk)).mp hmem
  have hrt : ∀ r, r ≠ i → (t.rtag r).inactive = (s.rtag r).inactive := fun r hr => by rw [hd.rtag, upd_ne _ _ hr]
  have hit : (t.rtag i).inactive = true := by rw [hd.rtag, upd_same]
  have hct : ∀ p, p ≠ k → (t.ctag p).inactive = (s.ctag p).inactive := fun p hp => by rw [hd.ctag, upd_ne _ _ hp]
  set L := (s.AT k).filter (fun p => decide (p.1 ≠ i)) with hL
  have hLne : ∀ p ∈ L, p.1 ≠ i := fun p hp => by simpa using (List.mem_filter.mp hp).2
  have hLfin : ∀ p ∈ L, ∃ q, σ.y p.1 = .fin q := fun p hp =>
    h.y p.1 (by rw [hrt _ (hLne p hp)]; exact hd.rows p (List.mem_filter.mp hp).1)
  rw [List.foldl_cons, List.foldl_cons, ← List.map_reverse]
  set σ2 := retRec (retRec σ (.deletedRow i (s.c k / aik))) (.subCol k (s.A i) (.fin b) i (s.c k)) with hσ2
  have y2 : σ2.y = upd σ.y i (.fin (s.c k / aik)) := rfl
  have z2 : σ2.z = upd σ.z k (.fin 0) := by
    show upd σ.z k (D.sub (.fin (s.c k)) (D.smul (scanCoef k 0 (s.A i)) ((upd σ.y i (.fin (s.c k / aik))) i))) = _
    rw [scan_coef g hmem, upd_same, D.smul_fin, D.sub_fin]
    congr 2; field_simp; ring
  rw [addedRows_fold i aik L.reverse (fun p hp => hLne p (List.mem_reverse.mp hp)) σ2 (fun p hp => by
    rw [y2, upd_ne _ _ (hLne p (List.mem_reverse.mp hp))]
    exact hLfin p (List.mem_reverse.mp hp)) (s.c k / aik) (by rw [y2, upd_same])]
  have e2 : dot L.reverse (fun r => (σ2.y r).toQ) = dot L (fun r => (σ.y r).toQ) := by
    rw [dot_perm (List.reverse_perm L)]
    exact dot_congr (fun p hp => by rw [y2, upd_ne _ _ (hLne p hp)])
  rw [e2, y2, z2]
  set v := s.c k / aik - dot L (fun r => (σ.y r).toQ) / aik with hvdef
  have ey : upd (upd σ.y i (D.fin (s.c k / aik))) i (.fin v) = upd σ.y i (.fin v) := by
    funext r
    by_cases e : r = i
    · subst e; rw [upd_same, upd_same]
    · rw [upd_ne _ _ e, upd_ne _ _ e, upd_ne _ _ e]
  rw [ey]
  set Y' : ℕ → ℚ := fun r => (upd σ.y i (D.fin v) r).toQ with hY'
  have hYi : Y' i = v := by rw [hY']; simp only [upd_same, D.toQ_fin]
  have hYr : ∀ r, r ≠ i → Y' r = (σ.y r).toQ := fun r hr => by rw [hY']; simp only [upd_ne _ _ hr]
  have hk0 : colSum s Y' k = s.c k := by
    rw [colSum_col g hd.colk hd.rows]
    obtain ⟨l1, l2, e, n1, n2⟩ := split_col (g.colSorted k).nodup hmemT
    have eL : L = l1 ++ l2 := by
      rw [hL, e, List.filter_append, List.filter_cons_of_neg (by simp)]
      rw [List.filter_eq_self.mpr (fun p hp => by simpa using n1 p hp),
        List.filter_eq_self.mpr (fun p hp => by simpa using n2 p hp)]
    have e3 : dot L (fun r => (σ.y r).toQ) = dot l1 Y' + dot l2 Y' := by
      rw [eL, dot_append]
      congr 1
      · exact dot_congr (fun p hp => (hYr _ (n1 p hp)).symm)
      · exact dot_congr (fun p hp => (hYr _ (n2 p hp)).symm)
    rw [e, dot_append, dot_cons, hYi, hvdef, e3]
    field_simp; ring
  have hcoef : ∀ r, r ≠ i → (s.rtag r).inactive = false → ∀ p, p ≠ k → coefAt p (t.A r) =
      coefAt p (s.A r) - (if p = j then aij / aik else 0) * coefAt k (s.A r) := by
    intro r hri hr' p hp
    by_cases hh : ∃ a, (r, a) ∈ s.AT k
    · obtain ⟨a, ha⟩ := hh
      rw [(hd.hit r a hri ha).1, coefAt_newRow hp _ (hv r a hri ha)]
    · have hh' : ∀ a, (r, a) ∉ s.AT k := fun a ha => hh ⟨a, ha⟩
      rw [(hd.miss r hri hh').1, coefAt_noCol (g.noCol hr' hd.colk hh')]; ring
  refine ⟨fun r hr' => ?_, fun p hp => ?_⟩
  · show ∃ q, upd σ.y i (.fin v) r = .fin q
    by_cases e : r = i
    · subst e; rw [upd_same]; exact ⟨_, rfl⟩
    · rw [upd_ne _ _ e]; exact h.y r (by rw [hrt r e]; exact hr')
  · show upd σ.z k (.fin 0) p = .fin (s.c p - colSum s Y' p)
    by_cases hpk : p = k
    · subst hpk; rw [upd_same, hk0, sub_self]
    · rw [upd_ne _ _ hpk, h.z p (by rw [hct p hpk]; exact hp), hd.c]
      have hsum : colSum t (fun r => (σ.y r).toQ) p =
          colSum s Y' p - (if p = j then aij / aik else 0) * colSum s Y' k := by
        unfold colSum
        rw [hd.m, Finset.mul_sum, ← Finset.sum_sub_distrib]
        refine Finset.sum_congr rfl (fun r _ => ?_)
        by_cases e : r = i
        · subst e
          rw [rowTerm_gone hit, rowTerm_act hd.row, rowTerm_act hd.row, coefAt_cell (g.rowSorted r) hmem]
          split
          · rename_i e'; subst e'
            rw [coefAt_cell (g.rowSorted r) hmemj]; field_simp; ring
          · rename_i e'
            rw [coefAt_noCol (by
              intro c hc
              rcases hd.cells with e4 | e4 <;> rw [e4] at hc <;> simp at hc <;> rcases hc with rfl | rfl
              · exact Ne.symm e'
              · exact Ne.symm hpk
              · exact Ne.symm hpk
              · exact Ne.symm e')]
            ring
        · cases hir : (s.rtag r).inactive with
          | true => rw [rowTerm_gone hir, rowTerm_gone hir, rowTerm_gone (by rw [hrt r e]; exact hir)]; ring
          | false =>
            rw [rowTerm_act hir, rowTerm_act hir, rowTerm_act (by rw [hrt r e]; exact hir), hYr r e,
              hcoef r e hir p hpk]
            ring
      rw [hsum, hk0]
      by_cases e : p = j
      · subst e
        rw [upd_same, if_pos rfl]
        congr 1; ring
      · rw [upd_ne _ _ e, if_neg e]
        congr 1; ring

end Verif
