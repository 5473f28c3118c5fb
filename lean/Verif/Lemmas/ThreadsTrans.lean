import Verif.Lemmas.ThreadsLocks

/-!
# The transpose computed by the main thread
-/

namespace Verif

/-- Start of column `k` of the transpose. -/
def colStart (rowMem : RowMem) (cnt : ℕ → ℕ) : ℕ → ℤ
  | 0 => 0
  | k + 1 => colStart rowMem cnt k + rowMem (cnt k)

theorem colStart_mono {rowMem : RowMem} (hr : ∀ c, 0 ≤ c → c ≤ rowMem c) (cnt : ℕ → ℕ) {j k : ℕ} (h : j < k) :
    colStart rowMem cnt j + cnt j ≤ colStart rowMem cnt k := by
  induction k with
  | zero => omega
  | succ k ih =>
    have hk := hr (cnt k) (by omega)
    show _ ≤ colStart rowMem cnt k + rowMem (cnt k)
    by_cases e : j = k
    · subst e; omega
    · have := ih (by omega); omega

theorem colCells_prefix (A : ℕ → List Cell) (k : ℕ) {i m : ℕ} (h : i ≤ m) :
    (colCells i A k).length ≤ (colCells m A k).length := by
  induction m with
  | zero => obtain rfl : i = 0 := by omega
            exact le_refl _
  | succ m ih =>
    by_cases e : i = m + 1
    · subst e; exact le_refl _
    · have := ih (by omega)
      rw [← colPre_full]
      unfold colPre
      rw [List.length_append]
      omega

theorem colPre_le (A : ℕ → List Cell) (k : ℕ) {i m : ℕ} (h : i < m) {l r : List Cell} (hl : A i = l ++ r) :
    (colPre A i l k).length ≤ (colCells m A k).length := by
  refine le_trans ?_ (colCells_prefix A k (i := i + 1) h)
  rw [← colPre_full]
  unfold colPre
  rw [hl, List.filter_append, List.map_append]
  simp only [List.length_append]
  omega

section
variable {P : LP} {st : ℕ → ℤ} {μ : Mem}

theorem frame_set (h : HasMat P st μ) {a : Arr} (ha : a ∉ matArrs) (x : ℤ) (v : Val) : HasMat P st (μ.set (a, x) v) :=
  h.frame (fun l hl => set_off _ _ (by rintro rfl; exact ha hl))

theorem zeroLoop_run (hm : HasMat P st μ) (n : ℕ) :
    HasMat P st ((forFrom n 0 (fun k => put .iwork k (.int 0))).run μ).2 ∧
      ∀ k < n, ((forFrom n 0 (fun k => put .iwork k (.int 0))).run μ).2 (.iwork, (k : ℤ)) = .int 0 :=
  forFrom_inv (f := fun k => put .iwork k (.int 0))
    (I := fun t μ => HasMat P st μ ∧ ∀ k < t, μ (.iwork, (k : ℤ)) = .int 0) n 0 μ ⟨hm, fun k hk => by omega⟩
    (fun t _ μ ⟨h1, h2⟩ => by
      rw [run_put]
      refine ⟨frame_set h1 (by decide) _ _, fun k hk => ?_⟩
      simp only
      by_cases e : k = t
      · subst e; rw [zero_add, set_here]
      · rw [set_off _ _ (loc_ne (by omega)), h2 k (by omega)])

/-- The counters hold the lengths of the columns. -/
def Counted (P : LP) (st : ℕ → ℤ) (cols : ℕ → List Cell) (μ : Mem) : Prop :=
  HasMat P st μ ∧ ∀ k < P.n, μ (.iwork, (k : ℤ)) = .int (cols k).length

theorem countLoop_run (hP : P.Valid) (h : Counted P st (colCells 0 P.A) μ) :
    Counted P st (colCells P.m P.A) ((forFrom P.m 0 (fun i => forRow i (fun j => do
      let k ← rdInt .Ai j
      incr .iwork k))).run μ).2 := by
  refine forFrom_inv (I := fun t μ => Counted P st (colCells t P.A) μ) P.m 0 μ h (fun t ht μ h => ?_)
  rw [zero_add]
  have key := forRow_inv (P := P) (st := st) (i := t) (μ := μ) ht (f := fun j => do
      let k ← rdInt .Ai j
      incr .iwork k)
    (I := fun l μ => Counted P st (colPre P.A t l) μ) (fun _ _ h => h.1)
    (by rw [show colPre P.A t [] = colCells t P.A from funext (colPre_nil P.A t)]; exact h)
    (fun l p r j μ hA hc hv h => by
      have hp := hP.range t p (by rw [hA]; simp)
      rw [run_bind', run_rdInt hc]
      simp only
      rw [run_incr (h.2 _ hp.2.1)]
      refine ⟨frame_set h.1 (by decide) _ _, fun k hk => ?_⟩
      simp only
      by_cases e : p.1 = k
      · subst e
        rw [set_here, colPre_here P.A t p.1 l p.2, List.length_append]
        simp
      · rw [set_off _ _ (loc_ne (by omega)), h.2 k hk, colPre_other _ _ _ _ _ e])
  rw [show colPre P.A t (P.A t) = colCells (t + 1) P.A from funext (colPre_full P.A t)] at key
  exact key

/-- The starts and ends of the first `t` columns are written, the counters of these columns hold the starts. -/
structure Placed (P : LP) (st : ℕ → ℤ) (rowMem : RowMem) (cnt : ℕ → ℕ) (t : ℕ) (μ : Mem) : Prop where
  mat : HasMat P st μ
  next : μ (.ATpStart, (t : ℤ)) = .int (colStart rowMem cnt t)
  s : ∀ k < t, μ (.ATpStart, (k : ℤ)) = .int (colStart rowMem cnt k)
  e : ∀ k < t, μ (.ATpEnd, (k : ℤ)) = .int (colStart rowMem cnt k + cnt k)
  w : ∀ k < P.n, μ (.iwork, (k : ℤ)) = .int (if k < t then colStart rowMem cnt k else cnt k)

theorem placeLoop_run {rowMem : RowMem} {cnt : ℕ → ℕ} (h : Placed P st rowMem cnt 0 μ) :
    Placed P st rowMem cnt P.n ((forFrom P.n 0 (fun i => do
      let start ← rdInt .ATpStart i
      let cnt ← rdInt .iwork i
      put .ATpEnd i (.int (start + cnt))
      put .ATpStart (i + 1) (.int (start + rowMem cnt))
      put .iwork i (.int start))).run μ).2 := by
  refine forFrom_inv (I := fun t μ => Placed P st rowMem cnt t μ) P.n 0 μ h (fun t ht μ h => ?_)
  rw [zero_add, run_bind', run_rdInt h.next]
  simp only
  have hw := h.w t ht
  rw [if_neg (lt_irrefl t)] at hw
  rw [run_bind', run_rdInt hw]
  simp only
  simp only [run_bind', run_put]
  refine ⟨frame_set (frame_set (frame_set h.mat (by decide) _ _) (by decide) _ _) (by decide) _ _, ?_, fun k hk => ?_,
    fun k hk => ?_, fun k hk => ?_⟩
  · rw [set_off _ _ (arr_ne (by decide)), Nat.cast_succ, set_here]; rfl
  · rw [set_off _ _ (arr_ne (by decide)), set_off _ _ (loc_ne (by omega)), set_off _ _ (arr_ne (by decide))]
    by_cases e : k = t
    · subst e; exact h.next
    · exact h.s k (by omega)
  · rw [set_off _ _ (arr_ne (by decide)), set_off _ _ (arr_ne (by decide))]
    by_cases e : k = t
    · subst e; rw [set_here]
    · rw [set_off _ _ (loc_ne (by omega)), h.e k (by omega)]
  · by_cases e : k = t
    · subst e; rw [set_here, if_pos (Nat.lt_succ_self k)]
    · rw [set_off _ _ (loc_ne (by omega)), set_off _ _ (arr_ne (by decide)), set_off _ _ (arr_ne (by decide)), h.w k hk]
      congr 1
      by_cases h : k < t
      · rw [if_pos h, if_pos (by omega)]
      · rw [if_neg h, if_neg (by omega)]

/-- The cells `cols k` of every column are written and the counters point behind them. -/
structure Filled (P : LP) (st : ℕ → ℤ) (S : ℕ → ℤ) (cols : ℕ → List Cell) (μ : Mem) : Prop where
  mat : HasMat P st μ
  w : ∀ k < P.n, μ (.iwork, (k : ℤ)) = .int (S k + (cols k).length)
  idx : ∀ k < P.n, ∀ u (h : u < (cols k).length), μ (.ATi, S k + u) = .int ((cols k)[u].1)
  val : ∀ k < P.n, ∀ u (h : u < (cols k).length), μ (.ATx, S k + u) = .dbl (.fin (cols k)[u].2)

theorem fillLoop_run (hP : P.Valid) {S : ℕ → ℤ}
    (hS : ∀ j k, j < k → S j + (colCells P.m P.A j).length ≤ S k) (h : Filled P st S (colCells 0 P.A) μ) :
    Filled P st S (colCells P.m P.A) ((forFrom P.m 0 (fun i => forRow i (fun j => do
      let k ← rdInt .Ai j
      let pos ← rdInt .iwork k
      let v ← rdDbl .Ax j
      put .ATx pos (.dbl v)
      put .ATi pos (.int i)
      incr .iwork k))).run μ).2 := by
  refine forFrom_inv (I := fun t μ => Filled P st S (colCells t P.A) μ) P.m 0 μ h (fun t ht μ h => ?_)
  rw [zero_add]
  have key := forRow_inv (P := P) (st := st) (i := t) (μ := μ) ht (f := fun j => do
      let k ← rdInt .Ai j
      let pos ← rdInt .iwork k
      let v ← rdDbl .Ax j
      put .ATx pos (.dbl v)
      put .ATi pos (.int t)
      incr .iwork k)
    (I := fun l μ => Filled P st S (colPre P.A t l) μ) (fun _ _ h => h.mat)
    (by rw [show colPre P.A t [] = colCells t P.A from funext (colPre_nil P.A t)]; exact h)
    (fun l p r j μ hA hc hv h => by
      have hp := hP.range t p (by rw [hA]; simp)
      have hw := h.w _ hp.2.1
      rw [run_bind', run_rdInt hc]
      simp only
      rw [run_bind', run_rdInt hw]
      simp only
      rw [run_bind', run_rdDbl hv]
      simp only
      simp only [run_bind', run_put]
      rw [run_incr (z := S p.1 + (colPre P.A t l p.1).length)
        (by rw [set_off _ _ (arr_ne (by decide)), set_off _ _ (arr_ne (by decide)), hw])]
      -- the cell written belongs to no other column
      have room : (colPre P.A t (l ++ [p]) p.1).length ≤ (colCells P.m P.A p.1).length :=
        colPre_le P.A p.1 ht (r := r) (by rw [hA]; simp)
      rw [colPre_here P.A t p.1 l p.2, List.length_append] at room
      have room : (colPre P.A t l p.1).length + 1 ≤ (colCells P.m P.A p.1).length := room
      have free : ∀ k < P.n, ∀ u < (colPre P.A t l k).length, S k + (u : ℤ) ≠ S p.1 + (colPre P.A t l p.1).length := by
        intro k hk u hu e
        have hle := colPre_le P.A k ht hA
        rcases lt_trichotomy k p.1 with hlt | rfl | hlt
        · have := hS _ _ hlt; omega
        · omega
        · have := hS _ _ hlt; omega
      refine ⟨frame_set (frame_set (frame_set h.mat (by decide) _ _) (by decide) _ _) (by decide) _ _, fun k hk => ?_,
        fun k hk u hu => ?_, fun k hk u hu => ?_⟩
      · simp only
        by_cases e : p.1 = k
        · subst e
          rw [set_here, colPre_here P.A t p.1 l p.2, List.length_append]
          push_cast; rw [List.length_singleton]; congr 1; push_cast; ring
        · rw [set_off _ _ (loc_ne (by omega)), set_off _ _ (arr_ne (by decide)), set_off _ _ (arr_ne (by decide)),
            h.w k hk, colPre_other _ _ _ _ _ e]
      · simp only
        rw [set_off _ _ (arr_ne (by decide))]
        by_cases e : p.1 = k
        · subst e
          have ec := colPre_here P.A t p.1 l p.2
          by_cases hu' : u < (colPre P.A t l p.1).length
          · rw [set_off _ _ (loc_ne (free _ hk u hu')), set_off _ _ (arr_ne (by decide)), h.idx _ hk u hu']
            congr 2
            have : (colPre P.A t (l ++ [p]) p.1)[u]? = (colPre P.A t l p.1)[u]? := by
              rw [show (l ++ [p]) = l ++ [(p.1, p.2)] from rfl, ec, List.getElem?_append_left hu']
            rw [List.getElem?_eq_getElem hu, List.getElem?_eq_getElem hu'] at this
            rw [Option.some.inj this]
          · have hlen : (colPre P.A t (l ++ [p]) p.1).length = (colPre P.A t l p.1).length + 1 := by
              rw [show (l ++ [p]) = l ++ [(p.1, p.2)] from rfl, ec]; simp
            obtain rfl : u = (colPre P.A t l p.1).length := by omega
            rw [set_here]
            have : (colPre P.A t (l ++ [p]) p.1)[(colPre P.A t l p.1).length]? = some (t, p.2) := by
              rw [show (l ++ [p]) = l ++ [(p.1, p.2)] from rfl, ec, List.getElem?_concat_length]
            rw [List.getElem?_eq_getElem hu] at this
            rw [Option.some.inj this]
        · have ec := colPre_other P.A t k l p e
          have hu' : u < (colPre P.A t l k).length := by rw [← ec]; exact hu
          rw [set_off _ _ (loc_ne (free _ hk u hu')), set_off _ _ (arr_ne (by decide)), h.idx _ hk u hu']
          simp only [ec]
      · simp only
        rw [set_off _ _ (arr_ne (by decide)), set_off _ _ (arr_ne (by decide))]
        by_cases e : p.1 = k
        · subst e
          have ec := colPre_here P.A t p.1 l p.2
          by_cases hu' : u < (colPre P.A t l p.1).length
          · rw [set_off _ _ (loc_ne (free _ hk u hu')), h.val _ hk u hu']
            congr 3
            have : (colPre P.A t (l ++ [p]) p.1)[u]? = (colPre P.A t l p.1)[u]? := by
              rw [show (l ++ [p]) = l ++ [(p.1, p.2)] from rfl, ec, List.getElem?_append_left hu']
            rw [List.getElem?_eq_getElem hu, List.getElem?_eq_getElem hu'] at this
            rw [Option.some.inj this]
          · have hlen : (colPre P.A t (l ++ [p]) p.1).length = (colPre P.A t l p.1).length + 1 := by
              rw [show (l ++ [p]) = l ++ [(p.1, p.2)] from rfl, ec]; simp
            obtain rfl : u = (colPre P.A t l p.1).length := by omega
            rw [set_here]
            have : (colPre P.A t (l ++ [p]) p.1)[(colPre P.A t l p.1).length]? = some (t, p.2) := by
              rw [show (l ++ [p]) = l ++ [(p.1, p.2)] from rfl, ec, List.getElem?_concat_length]
            rw [List.getElem?_eq_getElem hu] at this
            rw [Option.some.inj this]
        · have ec := colPre_other P.A t k l p e
          have hu' : u < (colPre P.A t l k).length := by rw [← ec]; exact hu
          rw [set_off _ _ (loc_ne (free _ hk u hu')), h.val _ hk u hu']
          simp only [ec])
  rw [show colPre P.A t (P.A t) = colCells (t + 1) P.A from funext (colPre_full P.A t)] at key
  exact key

end

end Verif
