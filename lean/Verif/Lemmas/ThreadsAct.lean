import Verif.Lemmas.ThreadsLocks

/-!
# Activities computed by the second initialization thread
-/

namespace Verif

theorem countInfMin_snoc (ctag : ℕ → CTag) (l : List Cell) (p : Cell) :
    countInfMin ctag (l ++ [p]) = countInfMin ctag l + if (if 0 < p.2 then (ctag p.1).lbInf else (ctag p.1).ubInf) then 1
      else 0 := by
  unfold countInfMin
  rw [List.foldl_append]
  show (if 0 < p.2 then _ else _) = _
  split_ifs <;> simp

theorem countInfMax_snoc (ctag : ℕ → CTag) (l : List Cell) (p : Cell) :
    countInfMax ctag (l ++ [p]) = countInfMax ctag l + if (if 0 < p.2 then (ctag p.1).ubInf else (ctag p.1).lbInf) then 1
      else 0 := by
  unfold countInfMax
  rw [List.foldl_append]
  show (if 0 < p.2 then _ else _) = _
  split_ifs <;> simp

/-- Body of the counting loop of `new_activities`. -/
def actCountBody (i j : ℤ) : Prog Unit := do
  let v ← rdDbl .Ax j
  let k ← rdInt .Ai j
  let t ← rdCt k
  if D.lt (.fin 0) v then
    if t.ubInf then incr .actInfMax i
    if t.lbInf then incr .actInfMin i
  else
    if t.lbInf then incr .actInfMax i
    if t.ubInf then incr .actInfMin i

theorem actCountBody_run {i j : ℤ} {k : ℕ} {q : ℚ} {t : CTag} {x y : ℤ} {μ : Mem} (hv : μ (.Ax, j) = .dbl (.fin q))
    (hk : μ (.Ai, j) = .int k) (ht : μ (.colTags, k) = .ct t) (hx : μ (.actInfMax, i) = .int x)
    (hy : μ (.actInfMin, i) = .int y) :
    ((actCountBody i j).run μ).2 =
      (μ.set (.actInfMax, i) (.int (x + if (if 0 < q then t.ubInf else t.lbInf) then 1 else 0))).set (.actInfMin, i)
      (.int (y + if (if 0 < q then t.lbInf else t.ubInf) then 1 else 0)) := by
  unfold actCountBody
  rw [run_bind', run_rdDbl hv]
  simp only
  rw [run_bind', run_rdInt hk]
  simp only
  rw [run_bind', run_rdCt ht]
  simp only
  have inc := fun p q => incr2_run (a := .actInfMax) (b := .actInfMin) (by decide) hx hy p q
  by_cases hq : 0 < q
  · rw [if_pos (by simpa [D.lt] using hq), if_pos hq, if_pos hq]
    have := inc (!t.ubInf) (!t.lbInf)
    simp only [Bool.not_not] at this
    cases hu : t.ubInf <;> cases hl : t.lbInf <;> rw [hu, hl] at this <;> exact this
  · rw [if_neg (by simpa [D.lt] using hq), if_neg hq, if_neg hq]
    have := inc (!t.lbInf) (!t.ubInf)
    simp only [Bool.not_not] at this
    cases hu : t.ubInf <;> cases hl : t.lbInf <;> rw [hu, hl] at this <;> exact this

theorem actCount_run {P : LP} (hP : P.Valid) {st : ℕ → ℤ} {ctag : ℕ → CTag} {μ : Mem} (hm : HasMat P st μ)
    (ht : ∀ k < P.n, μ (.colTags, k) = .ct (ctag k)) {i : ℕ} (hi : i < P.m) (hx : μ (.actInfMax, i) = .int 0)
    (hy : μ (.actInfMin, i) = .int 0) :
    ((forRow i (actCountBody i)).run μ).2 =
      (μ.set (.actInfMax, i) (.int (countInfMax ctag (P.A i)))).set (.actInfMin, i) (.int (countInfMin ctag (P.A i))) := by
  have fr : ∀ (x y : ℤ) (l : Loc), l ≠ (.actInfMax, (i : ℤ)) → l ≠ (.actInfMin, (i : ℤ)) →
      ((μ.set (.actInfMax, i) (.int x)).set (.actInfMin, i) (.int y)) l = μ l := fun x y l h1 h2 => by
    rw [set_off _ _ h2, set_off _ _ h1]
  refine forRow_inv (P := P) (st := st) hi (f := actCountBody i) (I := fun l μ' => μ' =
    (μ.set (.actInfMax, i) (.int (countInfMax ctag l))).set (.actInfMin, i) (.int (countInfMin ctag l))) ?_ ?_ ?_
  · rintro l μ' rfl
    refine hm.frame (fun l hl => ?_)
    obtain ⟨a, x⟩ := l
    have hl : a ∈ matArrs := hl
    have e : a ≠ .actInfMax := by rintro rfl; exact absurd hl (by decide)
    have e' : a ≠ .actInfMin := by rintro rfl; exact absurd hl (by decide)
    exact fr _ _ _ (arr_ne e) (arr_ne e')
  · show μ = (μ.set _ (.int 0)).set _ (.int 0)
    rw [set_id hx, set_id hy]
  · rintro l p r j μ' hA hc hv rfl
    have hp := hP.range i p (by rw [hA]; simp)
    rw [actCountBody_run hv hc (by rw [fr _ _ _ (arr_ne (by decide)) (arr_ne (by decide)), ht _ hp.2.1])
      (by rw [set_off _ _ (arr_ne (by decide)), set_here]) (by rw [set_here]), countInfMax_snoc, countInfMin_snoc,
      Mem.set_comm (μ.set _ _) (arr_ne (by decide)), set_set, set_set]

theorem actSumP_run {P : LP} (hP : P.Valid) {st : ℕ → ℤ} {lb ub : ℕ → D} {μ : Mem} (hm : HasMat P st μ)
    (hl : ∀ k < P.n, μ (.bndLb, k) = .dbl (lb k)) (hu : ∀ k < P.n, μ (.bndUb, k) = .dbl (ub k)) {i : ℕ}
    (hi : i < P.m) {out : Arr} (ho : out = .actMin ∨ out = .actMax) (h0 : μ (out, i) = .dbl (.fin 0)) (isMax : Bool) :
    ((actSumP out isMax i).run μ).2 =
      μ.set (out, i) (.dbl (if isMax then maxActNoTags lb ub (P.A i) else minActNoTags lb ub (P.A i))) := by
  unfold actSumP
  have hout : out ∉ matArrs ∧ out ≠ .bndLb ∧ out ≠ .bndUb := by rcases ho with rfl | rfl <;> decide
  refine forRow_inv (P := P) (st := st) hi (I := fun l μ' => μ' = μ.set (out, i) (.dbl (if isMax then maxActNoTags lb ub l
    else minActNoTags lb ub l))) ?_ ?_ ?_
  · rintro l μ' rfl
    refine hm.frame (fun l hl => ?_)
    obtain ⟨a, x⟩ := l
    have hl : a ∈ matArrs := hl
    exact set_off _ _ (arr_ne (by rintro rfl; exact hout.1 hl))
  · symm
    apply set_id
    rw [h0]
    cases isMax <;> rfl
  · rintro l p r j μ' hA hc hv rfl
    have hp := hP.range i p (by rw [hA]; simp)
    rw [run_bind', run_rdDbl hv]
    simp only
    rw [run_bind', run_rdInt hc]
    simp only
    have hb : ((μ.set (out, i) (.dbl (if isMax then maxActNoTags lb ub l else minActNoTags lb ub l))))
        ((if D.lt (.fin 0) (.fin p.2) = isMax then Arr.bndUb else .bndLb), (p.1 : ℤ)) =
        .dbl (if D.lt (.fin 0) (.fin p.2) = isMax then ub p.1 else lb p.1) := by
      by_cases hd : D.lt (.fin 0) (.fin p.2) = isMax
      · rw [if_pos hd, if_pos hd, set_off _ _ (arr_ne hout.2.2.symm), hu _ hp.2.1]
      · rw [if_neg hd, if_neg hd, set_off _ _ (arr_ne hout.2.1.symm), hl _ hp.2.1]
    rw [run_bind', run_rdDbl hb]
    simp only
    rw [run_bind', run_rdDbl (set_here _ _ _)]
    simp only
    rw [run_put]
    simp only
    rw [set_set]
    congr 2
    cases isMax
    · show D.add (minActNoTags lb ub l) _ = minActNoTags lb ub (l ++ [p])
      unfold minActNoTags
      rw [List.foldl_append]
      show _ = (if 0 < p.2 then _ else _)
      by_cases hq : 0 < p.2
      · rw [if_pos hq, if_neg (by simpa [D.lt] using hq)]
      · rw [if_neg hq, if_pos (by simpa [D.lt] using hq)]
    · show D.add (maxActNoTags lb ub l) _ = maxActNoTags lb ub (l ++ [p])
      unfold maxActNoTags
      rw [List.foldl_append]
      show _ = (if 0 < p.2 then _ else _)
      by_cases hq : 0 < p.2
      · rw [if_pos hq, if_pos (by simpa [D.lt] using hq)]
      · rw [if_neg hq, if_neg (by simpa [D.lt] using hq)]

/-- The activity of row `i` lies in memory. -/
structure HasAct (μ : Mem) (i : ℕ) (a : Act) : Prop where
  nmin : μ (.actInfMin, i) = .int a.nInfMin
  nmax : μ (.actInfMax, i) = .int a.nInfMax
  min : μ (.actMin, i) = .dbl a.min
  max : μ (.actMax, i) = .dbl a.max
  status : μ (.actStatus, i) = .ast a.status

/-- Body of `new_activities`. -/
def actBody (i : ℤ) : Prog Unit := do
  put .actInfMin i (.int 0)
  put .actInfMax i (.int 0)
  put .actMax i (.dbl (.fin 0))
  put .actMin i (.dbl (.fin 0))
  put .actStatus i (.ast .notAdded)
  forRow i (actCountBody i)
  let x ← rdInt .actInfMax i
  if x = 0 then actSumP .actMax true i
  let y ← rdInt .actInfMin i
  if y = 0 then actSumP .actMin false i

/-- Memory without the cells of the activity of row `i`. -/
def OffAct (i : ℕ) (μ μ' : Mem) : Prop :=
  ∀ l : Loc, l.1 ∉ [Arr.actInfMin, .actInfMax, .actMax, .actMin, .actStatus] ∨ l.2 ≠ (i : ℤ) → μ' l = μ l

theorem OffAct.trans {i : ℕ} {μ μ' μ'' : Mem} (h : OffAct i μ μ') (h' : OffAct i μ' μ'') : OffAct i μ μ'' :=
  fun l hl => (h' l hl).trans (h l hl)

theorem OffAct.set {i : ℕ} {μ : Mem} {a : Arr} (v : Val)
    (ha : a ∈ [Arr.actInfMin, .actInfMax, .actMax, .actMin, .actStatus]) : OffAct i μ (μ.set (a, i) v) := by
  intro l hl
  refine set_off _ _ ?_
  rintro rfl
  exact hl.elim (fun h => h ha) (fun h => h rfl)

theorem OffAct.mat {P : LP} {st : ℕ → ℤ} {i : ℕ} {μ μ' : Mem} (h : OffAct i μ μ') (hm : HasMat P st μ) :
    HasMat P st μ' := by
  refine hm.frame (fun l hl => h l (.inl ?_))
  revert hl
  generalize l.1 = a
  cases a <;> decide

theorem OffAct.arr {i : ℕ} {μ μ' : Mem} (h : OffAct i μ μ') {a : Arr}
    (ha : a ∉ [Arr.actInfMin, .actInfMax, .actMax, .actMin, .actStatus]) (x : ℤ) : μ' (a, x) = μ (a, x) := h _ (.inl ha)

theorem actBody_run {P : LP} (hP : P.Valid) {st : ℕ → ℤ} {ctag : ℕ → CTag} {lb ub : ℕ → D} {μ : Mem}
    (hm : HasMat P st μ) (ht : ∀ k < P.n, μ (.colTags, k) = .ct (ctag k))
    (hl : ∀ k < P.n, μ (.bndLb, k) = .dbl (lb k)) (hu : ∀ k < P.n, μ (.bndUb, k) = .dbl (ub k)) {i : ℕ}
    (hi : i < P.m) :
    OffAct i μ ((actBody i).run μ).2 ∧ HasAct ((actBody i).run μ).2 i (actInit ctag lb ub (P.A i)) := by
  unfold actBody
  simp only [run_bind', run_put]
  -- the five stores
  obtain ⟨ν, hν⟩ : ∃ ν, ν = ((((μ.set (.actInfMin, (i : ℤ)) (.int 0)).set (.actInfMax, (i : ℤ)) (.int 0)).set (.actMax, (i : ℤ))
    (.dbl (.fin 0))).set (.actMin, (i : ℤ)) (.dbl (.fin 0))).set (.actStatus, (i : ℤ)) (.ast .notAdded) := ⟨_, rfl⟩
  rw [← hν]
  have o1 : OffAct i μ ν := by
    rw [hν]
    exact ((((OffAct.set _ (by decide)).trans (OffAct.set _ (by decide))).trans (OffAct.set _ (by decide))).trans
      (OffAct.set _ (by decide))).trans (OffAct.set _ (by decide))
  have v1 : ν (.actInfMin, (i : ℤ)) = .int 0 := by
    rw [hν]; simp only [Mem.set, Prod.mk.injEq, and_true, reduceCtorEq, if_false, if_true]
  have v2 : ν (.actInfMax, (i : ℤ)) = .int 0 := by
    rw [hν]; simp only [Mem.set, Prod.mk.injEq, and_true, reduceCtorEq, if_false, if_true]
  have v3 : ν (.actMax, (i : ℤ)) = .dbl (.fin 0) := by
    rw [hν]; simp only [Mem.set, Prod.mk.injEq, and_true, reduceCtorEq, if_false, if_true]
  have v4 : ν (.actMin, (i : ℤ)) = .dbl (.fin 0) := by
    rw [hν]; simp only [Mem.set, Prod.mk.injEq, and_true, reduceCtorEq, if_false, if_true]
  have v5 : ν (.actStatus, (i : ℤ)) = .ast .notAdded := by rw [hν]; exact set_here _ _ _
  clear hν
  have hm := o1.mat hm
  rw [actCount_run hP hm (fun k hk => by rw [o1.arr (by decide), ht k hk]) hi v2 v1]
  obtain ⟨ξ, hξ⟩ : ∃ ξ, ξ = (ν.set (.actInfMax, (i : ℤ)) (.int (countInfMax ctag (P.A i)))).set (.actInfMin, (i : ℤ))
    (.int (countInfMin ctag (P.A i))) := ⟨_, rfl⟩
  rw [← hξ]
  have o2 : OffAct i ν ξ := by
    rw [hξ]
    exact (OffAct.set _ (by decide)).trans (OffAct.set _ (by decide))
  have w1 : ξ (.actInfMin, (i : ℤ)) = .int (countInfMin ctag (P.A i)) := by rw [hξ]; exact set_here _ _ _
  have w2 : ξ (.actInfMax, (i : ℤ)) = .int (countInfMax ctag (P.A i)) := by
    rw [hξ, set_off _ _ (arr_ne (by decide))]; exact set_here _ _ _
  have w3 : ξ (.actMax, (i : ℤ)) = .dbl (.fin 0) := by
    rw [hξ, set_off _ _ (arr_ne (by decide)), set_off _ _ (arr_ne (by decide)), v3]
  have w4 : ξ (.actMin, (i : ℤ)) = .dbl (.fin 0) := by
    rw [hξ, set_off _ _ (arr_ne (by decide)), set_off _ _ (arr_ne (by decide)), v4]
  have w5 : ξ (.actStatus, (i : ℤ)) = .ast .notAdded := by
    rw [hξ, set_off _ _ (arr_ne (by decide)), set_off _ _ (arr_ne (by decide)), v5]
  clear hξ
  have hm := o2.mat hm
  have o := o1.trans o2
  have hl' : ∀ k < P.n, ξ (.bndLb, (k : ℤ)) = .dbl (lb k) := fun k hk => by rw [o.arr (by decide), hl k hk]
  have hu' : ∀ k < P.n, ξ (.bndUb, (k : ℤ)) = .dbl (ub k) := fun k hk => by rw [o.arr (by decide), hu k hk]
  rw [run_rdInt w2]
  simp only
  -- the second sum
  have tail : ∀ ξ : Mem, HasMat P st ξ → (∀ k < P.n, ξ (.bndLb, (k : ℤ)) = .dbl (lb k)) →
      (∀ k < P.n, ξ (.bndUb, (k : ℤ)) = .dbl (ub k)) → ξ (.actInfMin, (i : ℤ)) = .int (countInfMin ctag (P.A i)) →
      ξ (.actMin, (i : ℤ)) = .dbl (.fin 0) →
      (Prog.run (do
        let y ← rdInt .actInfMin i
        if y = 0 then actSumP .actMin false i) ξ).2 =
        ξ.set (.actMin, (i : ℤ)) (.dbl (if countInfMin ctag (P.A i) = 0 then minActNoTags lb ub (P.A i) else .fin 0)) := by
    intro ξ hm hl hu w1 w4
    rw [run_bind', run_rdInt w1]
    simp only
    by_cases h : countInfMin ctag (P.A i) = 0
    · rw [if_pos h, if_pos h, actSumP_run hP hm hl hu hi (.inl rfl) w4]; rfl
    · rw [if_neg h, if_neg h, run_pure, set_id w4]
  obtain ⟨ζ, hζ⟩ : ∃ ζ, ζ = ξ.set (.actMax, (i : ℤ)) (.dbl (if countInfMax ctag (P.A i) = 0 then
    maxActNoTags lb ub (P.A i) else .fin 0)) := ⟨_, rfl⟩
  have o3 : OffAct i ξ ζ := by rw [hζ]; exact OffAct.set _ (by decide)
  have x1 : ζ (.actInfMin, (i : ℤ)) = .int (countInfMin ctag (P.A i)) := by
    rw [hζ, set_off _ _ (arr_ne (by decide)), w1]
  have x2 : ζ (.actInfMax, (i : ℤ)) = .int (countInfMax ctag (P.A i)) := by
    rw [hζ, set_off _ _ (arr_ne (by decide)), w2]
  have x3 : ζ (.actMax, (i : ℤ)) = .dbl (actInit ctag lb ub (P.A i)).max := by rw [hζ]; exact set_here _ _ _
  have x4 : ζ (.actMin, (i : ℤ)) = .dbl (.fin 0) := by rw [hζ, set_off _ _ (arr_ne (by decide)), w4]
  have x5 : ζ (.actStatus, (i : ℤ)) = .ast .notAdded := by rw [hζ, set_off _ _ (arr_ne (by decide)), w5]
  have hm3 := o3.mat hm
  have T := tail ζ hm3 (fun k hk => by rw [o3.arr (by decide), hl' k hk]) (fun k hk => by rw [o3.arr (by decide), hu' k hk])
    x1 x4
  have fin : OffAct i μ (ζ.set (.actMin, (i : ℤ)) (.dbl (if countInfMin ctag (P.A i) = 0 then minActNoTags lb ub (P.A i)
      else .fin 0))) ∧ HasAct (ζ.set (.actMin, (i : ℤ)) (.dbl (if countInfMin ctag (P.A i) = 0 then minActNoTags lb ub (P.A i)
      else .fin 0))) i (actInit ctag lb ub (P.A i)) := by
    refine ⟨(o.trans o3).trans (OffAct.set _ (by decide)), ?_, ?_, ?_, ?_, ?_⟩
    · rw [set_off _ _ (arr_ne (by decide)), x1]; rfl
    · rw [set_off _ _ (arr_ne (by decide)), x2]; rfl
    · rw [set_here]; rfl
    · rw [set_off _ _ (arr_ne (by decide)), x3]
    · rw [set_off _ _ (arr_ne (by decide)), x5]; rfl
  rw [← T] at fin
  by_cases h : countInfMax ctag (P.A i) = 0
  · rw [if_pos h]
    rw [if_pos h] at hζ
    simp only [run_bind']
    rw [actSumP_run hP hm hl' hu' hi (.inr rfl) w3]
    simp only [if_true]
    rw [← hζ]
    simp only [run_bind'] at fin
    exact fin
  · rw [if_neg h]
    rw [if_neg h, set_id w3] at hζ
    rw [← hζ]
    exact fin

/-- What is known while the activities are computed. -/
structure ActInv (P : LP) (st : ℕ → ℤ) (ctag : ℕ → CTag) (lb ub : ℕ → D) (t : ℕ) (μ : Mem) : Prop where
  mat : HasMat P st μ
  tag : ∀ k < P.n, μ (.colTags, k) = .ct (ctag k)
  low : ∀ k < P.n, μ (.bndLb, k) = .dbl (lb k)
  upp : ∀ k < P.n, μ (.bndUb, k) = .dbl (ub k)
  act : ∀ i < t, HasAct μ i (actInit ctag lb ub (P.A i))

theorem activitiesP_run {P : LP} (hP : P.Valid) {st : ℕ → ℤ} {ctag : ℕ → CTag} {lb ub : ℕ → D} {μ : Mem}
    (hm : HasMat P st μ) (ht : ∀ k < P.n, μ (.colTags, k) = .ct (ctag k))
    (hl : ∀ k < P.n, μ (.bndLb, k) = .dbl (lb k)) (hu : ∀ k < P.n, μ (.bndUb, k) = .dbl (ub k)) :
    ActInv P st ctag lb ub P.m ((activitiesP P.m).run μ).2 := by
  refine forFrom_inv (f := actBody) (I := fun t μ => ActInv P st ctag lb ub t μ) P.m 0 μ
    ⟨hm, ht, hl, hu, fun i hi => by omega⟩ (fun t ht μ h => ?_)
  rw [zero_add]
  obtain ⟨o, a⟩ := actBody_run hP h.mat h.tag h.low h.upp ht
  refine ⟨o.mat h.mat, fun k hk => by rw [o.arr (by decide), h.tag k hk], fun k hk => by rw [o.arr (by decide), h.low k hk],
    fun k hk => by rw [o.arr (by decide), h.upp k hk], fun i hi => ?_⟩
  by_cases e : i = t
  · subst e; exact a
  · have b := h.act i (by omega)
    have hne : ((i : ℤ)) ≠ (t : ℤ) := by omega
    exact ⟨by rw [o _ (.inr hne), b.nmin], by rw [o _ (.inr hne), b.nmax], by rw [o _ (.inr hne), b.min],
      by rw [o _ (.inr hne), b.max], by rw [o _ (.inr hne), b.status]⟩

end Verif
