import Verif.Lemmas.ThreadsInit

/-!
# Locks and activities computed by the second initialization thread
-/

namespace Verif

/-- Column `k` restricted to the rows before `i` and the first cells `l` of row `i`. -/
def colPre (A : ℕ → List Cell) (i : ℕ) (l : List Cell) (k : ℕ) : List Cell :=
  colCells i A k ++ (l.filter (fun p => decide (p.1 = k))).map (fun p => (i, p.2))

theorem colPre_nil (A : ℕ → List Cell) (i k : ℕ) : colPre A i [] k = colCells i A k := by
  simp [colPre]

theorem colPre_full (A : ℕ → List Cell) (i k : ℕ) : colPre A i (A i) k = colCells (i + 1) A k := by
  unfold colPre colCells
  rw [List.range_succ, List.flatMap_append]
  simp

theorem colPre_here (A : ℕ → List Cell) (i k : ℕ) (l : List Cell) (q : ℚ) :
    colPre A i (l ++ [(k, q)]) k = colPre A i l k ++ [(i, q)] := by
  simp [colPre, List.filter_append]

theorem colPre_other (A : ℕ → List Cell) (i k : ℕ) (l : List Cell) (p : Cell) (h : p.1 ≠ k) :
    colPre A i (l ++ [p]) k = colPre A i l k := by
  simp [colPre, List.filter_append, h]

theorem colCells_zero (A : ℕ → List Cell) (k : ℕ) : colCells 0 A k = [] := rfl

theorem countLocks_snoc (rtag : ℕ → RTag) (l : List Cell) (p : Cell) :
    countLocks rtag (l ++ [p]) = ((countLocks rtag l).1 + (lockOf p.2 (rtag p.1)).1,
      (countLocks rtag l).2 + (lockOf p.2 (rtag p.1)).2) := by
  unfold countLocks
  rw [List.foldl_append]
  rfl

/-- Body of the loop of `new_locks`. -/
def lockBody (i j : ℤ) : Prog Unit := do
  let v ← rdDbl .Ax j
  let t ← rdRt i
  let k ← rdInt .Ai j
  if D.lt (.fin 0) v then
    if !t.rhsInf then incr .lockUp k
    if !t.lhsInf then incr .lockDown k
  else
    if !t.rhsInf then incr .lockDown k
    if !t.lhsInf then incr .lockUp k

/-- Two conditional increments. -/
theorem incr2_run {a b : Arr} (hab : a ≠ b) {k x y : ℤ} {μ : Mem} (ha : μ (a, k) = .int x) (hb : μ (b, k) = .int y)
    (p q : Bool) :
    (Prog.run (do
      if !p then incr a k
      if !q then incr b k) μ).2 =
      (μ.set (a, k) (.int (x + if p then 0 else 1))).set (b, k) (.int (y + if q then 0 else 1)) := by
  have tail : ∀ μ : Mem, μ (b, k) = .int y → (Prog.run (if !q then incr b k else pure ()) μ).2 =
      μ.set (b, k) (.int (y + if q then 0 else 1)) := by
    intro μ hb
    cases q
    · rw [if_pos (by rfl), run_incr hb]; rfl
    · rw [if_neg (by simp), run_pure]
      simp only [if_true, add_zero]
      rw [set_id hb]
  cases p
  · rw [if_pos (by rfl), run_bind', run_incr ha]
    simp only
    have := tail (μ.set (a, k) (.int (x + 1))) (by rw [set_off _ _ (arr_ne hab.symm), hb])
    exact this
  · rw [if_neg (by simp)]
    have := tail μ hb
    simp only [if_true, add_zero]
    rw [set_id ha]
    exact this

theorem lockBody_run {i j : ℤ} {k : ℕ} {q : ℚ} {t : RTag} {x y : ℤ} {μ : Mem} (hv : μ (.Ax, j) = .dbl (.fin q))
    (hk : μ (.Ai, j) = .int k) (ht : μ (.rowTags, i) = .rt t) (hx : μ (.lockUp, k) = .int x)
    (hy : μ (.lockDown, k) = .int y) :
    ((lockBody i j).run μ).2 = (μ.set (.lockUp, k) (.int (x + (lockOf q t).1))).set (.lockDown, k)
      (.int (y + (lockOf q t).2)) := by
  unfold lockBody
  rw [run_bind', run_rdDbl hv]
  simp only
  rw [run_bind', run_rdRt ht]
  simp only
  rw [run_bind', run_rdInt hk]
  simp only
  by_cases hq : 0 < q
  · rw [if_pos (by simpa [D.lt] using hq)]
    have := incr2_run (a := .lockUp) (b := .lockDown) (by decide) hx hy t.rhsInf t.lhsInf
    unfold lockOf
    rw [if_pos hq]
    exact this
  · rw [if_neg (by simpa [D.lt] using hq)]
    have := incr2_run (a := .lockDown) (b := .lockUp) (by decide) hy hx t.rhsInf t.lhsInf
    unfold lockOf
    rw [if_neg hq, Mem.set_comm _ (arr_ne (by decide))]
    exact this

/-- What is known while the locks are counted. -/
structure LockInv (P : LP) (st : ℕ → ℤ) (rtag : ℕ → RTag) (cols : ℕ → List Cell) (μ : Mem) : Prop where
  mat : HasMat P st μ
  tag : ∀ i < P.m, μ (.rowTags, i) = .rt (rtag i)
  up : ∀ k < P.n, μ (.lockUp, k) = .int (countLocks rtag (cols k)).1
  down : ∀ k < P.n, μ (.lockDown, k) = .int (countLocks rtag (cols k)).2

theorem locksP_run {P : LP} (hP : P.Valid) {st : ℕ → ℤ} {rtag : ℕ → RTag} {μ : Mem} (hm : HasMat P st μ)
    (ht : ∀ i < P.m, μ (.rowTags, i) = .rt (rtag i)) :
    LockInv P st rtag (colCells P.m P.A) ((locksP P.m P.n).run μ).2 := by
  unfold locksP
  rw [run_bind']
  have h0 := forFrom_inv (f := fun k => do put .lockUp k (.int 0); put .lockDown k (.int 0))
    (I := fun t μ => HasMat P st μ ∧ (∀ i < P.m, μ (.rowTags, (i : ℤ)) = .rt (rtag i)) ∧
      ∀ k < t, μ (.lockUp, (k : ℤ)) = .int 0 ∧ μ (.lockDown, (k : ℤ)) = .int 0) P.n 0 μ
    ⟨hm, ht, fun k hk => by omega⟩
    (fun t _ μ ⟨h1, h2, h3⟩ => by
      rw [run_bind', run_put]
      simp only
      rw [run_put]
      simp only
      refine ⟨h1.frame (fun l hl => ?_), fun i hi => ?_, fun k hk => ?_⟩
      · obtain ⟨a, x⟩ := l
        have hl : a ∈ matArrs := hl
        have e : a ≠ .lockDown := by rintro rfl; exact absurd hl (by decide)
        have e' : a ≠ .lockUp := by rintro rfl; exact absurd hl (by decide)
        rw [set_off _ _ (arr_ne e), set_off _ _ (arr_ne e')]
      · rw [set_off _ _ (arr_ne (by decide)), set_off _ _ (arr_ne (by decide)), h2 i hi]
      · by_cases e : k = t
        · subst e
          rw [zero_add]
          exact ⟨by rw [set_off _ _ (arr_ne (by decide)), set_here], by rw [set_here]⟩
        · obtain ⟨a, b⟩ := h3 k (by omega)
          exact ⟨by rw [set_off _ _ (arr_ne (by decide)), set_off _ _ (loc_ne (by omega)), a],
            by rw [set_off _ _ (loc_ne (by omega)), set_off _ _ (arr_ne (by decide)), b]⟩)
  generalize ((forFrom P.n 0 fun k => do put .lockUp k (.int 0); put .lockDown k (.int 0)).run μ).2 = μ1 at h0
  obtain ⟨h1, h2, h3⟩ := h0
  refine forFrom_inv (f := fun i => forRow i (lockBody i))
    (I := fun t μ => LockInv P st rtag (colCells t P.A) μ) P.m 0 μ1
    ⟨h1, h2, fun k hk => (h3 k hk).1, fun k hk => (h3 k hk).2⟩ (fun t ht μ h => ?_)
  rw [zero_add]
  have key := forRow_inv (P := P) (st := st) (i := t) (μ := μ) ht (f := lockBody t)
    (I := fun l μ => LockInv P st rtag (colPre P.A t l) μ) (fun _ _ h => h.mat)
    (by rw [show colPre P.A t [] = colCells t P.A from funext (colPre_nil P.A t)]; exact h)
    (fun l p r j μ hA hc hv h => by
      have hp := hP.range t p (by rw [hA]; simp)
      rw [lockBody_run hv hc (h.tag t ht) (h.up _ hp.2.1) (h.down _ hp.2.1)]
      refine ⟨h.mat.frame (fun l hl => ?_), fun i hi => ?_, fun k hk => ?_, fun k hk => ?_⟩
      · obtain ⟨a, x⟩ := l
        have hl : a ∈ matArrs := hl
        have e : a ≠ .lockDown := by rintro rfl; exact absurd hl (by decide)
        have e' : a ≠ .lockUp := by rintro rfl; exact absurd hl (by decide)
        rw [set_off _ _ (arr_ne e), set_off _ _ (arr_ne e')]
      · rw [set_off _ _ (arr_ne (by decide)), set_off _ _ (arr_ne (by decide)), h.tag i hi]
      · rw [set_off _ _ (arr_ne (by decide))]
        by_cases e : p.1 = k
        · subst e
          rw [set_here, colPre_here P.A t p.1 l p.2, countLocks_snoc]
        · rw [set_off _ _ (loc_ne (by omega)), h.up k hk, colPre_other _ _ _ _ _ e]
      · by_cases e : p.1 = k
        · subst e
          rw [set_here, colPre_here P.A t p.1 l p.2, countLocks_snoc]
        · rw [set_off _ _ (loc_ne (by omega)), set_off _ _ (arr_ne (by decide)), h.down k hk,
            colPre_other _ _ _ _ _ e])
  rw [show colPre P.A t (P.A t) = colCells (t + 1) P.A from funext (colPre_full P.A t)] at key
  exact key

end Verif
