import Verif.Lemmas.ThreadsAct
import Verif.Lemmas.ThreadsTrans

/-!
# C48: the two initialization threads build the initial state
-/

namespace Verif

section
variable {P : LP} {st : ℕ → ℤ} {μ : Mem}

/-- Length of column `k`. -/
def colLen (P : LP) (k : ℕ) : ℕ := (colCells P.m P.A k).length

/-- The columns of `P` lie in memory with their spare room. -/
structure HasCols (P : LP) (rowMem : RowMem) (μ : Mem) : Prop where
  s : ∀ k < P.n, μ (.ATpStart, k) = .int (colStart rowMem (colLen P) k)
  e : ∀ k < P.n, μ (.ATpEnd, k) = .int (colStart rowMem (colLen P) k + colLen P k)
  idx : ∀ k < P.n, ∀ u (h : u < (colCells P.m P.A k).length),
    μ (.ATi, colStart rowMem (colLen P) k + u) = .int ((colCells P.m P.A k)[u].1)
  val : ∀ k < P.n, ∀ u (h : u < (colCells P.m P.A k).length),
    μ (.ATx, colStart rowMem (colLen P) k + u) = .dbl (.fin (colCells P.m P.A k)[u].2)

theorem HasCols.frame {rowMem : RowMem} {μ' : Mem} (h : HasCols P rowMem μ)
    (hf : ∀ l : Loc, l.1 ∈ [Arr.ATx, .ATi, .ATpStart, .ATpEnd] → μ' l = μ l) : HasCols P rowMem μ' :=
  ⟨fun i hi => (hf _ (by simp)).trans (h.s i hi), fun i hi => (hf _ (by simp)).trans (h.e i hi),
    fun i hi t ht => (hf _ (by simp)).trans (h.idx i hi t ht),
    fun i hi t ht => (hf _ (by simp)).trans (h.val i hi t ht)⟩

theorem transposeP_run (hP : P.Valid) (hm : HasMat P st μ) {rowMem : RowMem} (hr : ∀ c, 0 ≤ c → c ≤ rowMem c)
    (nAlloc : ℤ) : HasCols P rowMem ((transposeP P.m P.n rowMem nAlloc).run μ).2 := by
  unfold transposeP
  rw [run_bind']
  obtain ⟨h1, h2⟩ := zeroLoop_run hm P.n
  generalize ((forFrom P.n 0 fun k => put .iwork k (.int 0)).run μ).2 = μ1 at h1 h2
  have hc := countLoop_run hP (μ := μ1) ⟨h1, h2⟩
  rw [run_bind']
  generalize ((forFrom P.m 0 fun i => forRow i fun j => do
      let k ← rdInt .Ai j
      incr .iwork k).run μ1).2 = μ2 at hc
  rw [run_bind', run_put]
  simp only
  have hp := placeLoop_run (P := P) (st := st) (rowMem := rowMem) (cnt := colLen P)
    (μ := μ2.set (.ATpStart, 0) (.int 0))
    ⟨frame_set hc.1 (by decide) _ _, set_here _ _ _, fun k hk => by omega, fun k hk => by omega,
      fun k hk => by rw [set_off _ _ (arr_ne (by decide)), hc.2 k hk, if_neg (by omega)]; rfl⟩
  rw [run_bind']
  generalize ((forFrom P.n 0 fun i => do
      let start ← rdInt .ATpStart i
      let cnt ← rdInt .iwork i
      put .ATpEnd i (.int (start + cnt))
      put .ATpStart (i + 1) (.int (start + rowMem cnt))
      put .iwork i (.int start)).run (μ2.set (.ATpStart, 0) (.int 0))).2 = μ3 at hp
  rw [run_bind', run_put]
  simp only
  rw [run_bind', run_put]
  simp only
  obtain ⟨μ4, e4⟩ : ∃ μ4, μ4 = (μ3.set (.ATpStart, (P.n : ℤ)) (.int nAlloc)).set (.ATpEnd, (P.n : ℤ)) (.int nAlloc) :=
    ⟨_, rfl⟩
  rw [← e4]
  have s4 : ∀ k < P.n, μ4 (.ATpStart, (k : ℤ)) = .int (colStart rowMem (colLen P) k) := fun k hk => by
    rw [e4, set_off _ _ (arr_ne (by decide)), set_off _ _ (loc_ne (by omega)), hp.s k hk]
  have e4' : ∀ k < P.n, μ4 (.ATpEnd, (k : ℤ)) = .int (colStart rowMem (colLen P) k + colLen P k) := fun k hk => by
    rw [e4, set_off _ _ (loc_ne (by omega)), set_off _ _ (arr_ne (by decide)), hp.e k hk]
  have hf := fillLoop_run hP (st := st) (S := colStart rowMem (colLen P)) (μ := μ4)
    (fun j k h => colStart_mono hr (colLen P) h)
    ⟨by rw [e4]; exact frame_set (frame_set hp.mat (by decide) _ _) (by decide) _ _,
      fun k hk => by
        rw [e4, set_off _ _ (arr_ne (by decide)), set_off _ _ (arr_ne (by decide)), hp.w k hk, if_pos hk]
        simp [colCells_zero],
      fun k hk u hu => absurd hu (Nat.not_lt_zero u), fun k hk u hu => absurd hu (Nat.not_lt_zero u)⟩
  have fr : ∀ l : Loc, l.1 ∉ [Arr.ATx, .ATi, .iwork] → ((forFrom P.m 0 (fun i => forRow i (fun j => do
      let k ← rdInt .Ai j
      let pos ← rdInt .iwork k
      let v ← rdDbl .Ax j
      put .ATx pos (.dbl v)
      put .ATi pos (.int i)
      incr .iwork k))).run μ4).2 l = μ4 l := by
    intro l hl
    refine run_frame (R := matArrs) (W := [.ATx, .ATi, .iwork]) _ ?_ μ4 l hl
    within
  exact ⟨fun k hk => by rw [fr _ (show Arr.ATpStart ∉ _ by decide), s4 k hk], fun k hk => by rw [fr _ (show Arr.ATpEnd ∉ _ by decide), e4' k hk], hf.idx, hf.val⟩

theorem mainThread_run (hP : P.Valid) (hm : HasMat P st μ) {rowMem : RowMem} (hr : ∀ c, 0 ≤ c → c ≤ rowMem c)
    (nAlloc : ℤ) : HasCols P rowMem ((mainThread P.m P.n rowMem nAlloc).run μ).2 ∧
      ∀ k < P.n, ((mainThread P.m P.n rowMem nAlloc).run μ).2 (.colSizes, k) = .int (colLen P k) := by
  unfold mainThread
  rw [run_bind']
  have h := transposeP_run hP hm hr nAlloc
  generalize ((transposeP P.m P.n rowMem nAlloc).run μ).2 = ν at h
  refine ⟨h.frame (fun l hl => ?_), fun k hk => ?_⟩
  · refine run_frame (R := [.ATpStart, .ATpEnd]) (W := [.colSizes]) _ ?_ ν l (fun h => ?_)
    · unfold countRowsP; within
    · rw [List.mem_singleton] at h; rw [h] at hl; exact absurd hl (by decide)
  · rw [countRowsP_run (by decide) (by decide) h.s h.e k hk]
    congr 1; ring

/-- The data of the caller lie in memory: the matrix, the copies of the sides, the bounds, and zeroed column tags. -/
structure HasData (P : LP) (st : ℕ → ℤ) (μ : Mem) : Prop where
  mat : HasMat P st μ
  lhs : ∀ i < P.m, μ (.lhs, i) = .dbl (P.lhs i)
  rhs : ∀ i < P.m, μ (.rhs, i) = .dbl (P.rhs i)
  lbs : ∀ k < P.n, μ (.lbs, k) = .dbl (P.lb k)
  ubs : ∀ k < P.n, μ (.ubs, k) = .dbl (P.ub k)
  tags : ∀ k < P.n, μ (.colTags, k) = .ct {}

/-- What the second thread leaves. -/
structure SndDone (P : LP) (st : ℕ → ℤ) (rtag : ℕ → RTag) (ctag : ℕ → CTag) (μ : Mem) : Prop where
  lock : LockInv P st rtag (colCells P.m P.A) μ
  lhs : ∀ i < P.m, μ (.lhs, i) = .dbl (P.lhs i)
  rhs : ∀ i < P.m, μ (.rhs, i) = .dbl (P.rhs i)
  act : ActInv P st ctag P.lb P.ub P.m μ
  size : ∀ i < P.m, μ (.rowSizes, i) = .int (P.A i).length

theorem initThread_run (hP : P.Valid) (h : HasData P st μ) {rtag : ℕ → RTag} {ctag : ℕ → CTag}
    (hr : ∀ i < P.m, rtag i = rowTagOf (P.lhs i) (P.rhs i)) (hc : ∀ k < P.n, ctag k = colTagOf (P.lb k) (P.ub k)) :
    SndDone P st rtag ctag ((initThread P.m P.n).run μ).2 := by
  unfold initThread
  rw [run_bind']
  have w1 : (rowTagsP P.m).Within [] [.lhs, .rhs, .rowTags] := by unfold rowTagsP; within
  have r1 := rowTagsP_run h.lhs h.rhs
  have m1 := h.mat.run w1 (by decide)
  have f1 : ∀ (a : Arr) (k : ℕ), a ∉ [Arr.lhs, .rhs, .rowTags] → ((rowTagsP P.m).run μ).2 (a, k) = μ (a, k) :=
    fun a k ha => run_frame _ w1 μ _ ha
  generalize ((rowTagsP P.m).run μ).2 = μ1 at r1 m1 f1
  rw [run_bind']
  have w2 : (boundsP P.n).Within [.lbs, .ubs] [.bndLb, .bndUb, .colTags] := by unfold boundsP; within
  have r2 := boundsP_run (n := P.n) (lb := P.lb) (ub := P.ub) (μ := μ1)
    (fun k hk => by rw [f1 _ _ (by decide), h.lbs k hk]) (fun k hk => by rw [f1 _ _ (by decide), h.ubs k hk])
    (fun k hk => by rw [f1 _ _ (by decide), h.tags k hk])
  have m2 := m1.run w2 (by decide)
  have f2 : ∀ (a : Arr) (k : ℕ), a ∉ [Arr.bndLb, .bndUb, .colTags] → ((boundsP P.n).run μ1).2 (a, k) = μ1 (a, k) :=
    fun a k ha => run_frame _ w2 μ1 _ ha
  generalize ((boundsP P.n).run μ1).2 = μ2 at r2 m2 f2
  rw [run_bind']
  have w3 : (locksP P.m P.n).Within [.Ax, .Ai, .ApStart, .ApEnd, .rowTags] [.lockUp, .lockDown] := by
    unfold locksP; within
  have r3 := locksP_run hP (rtag := rtag) m2
    (fun i hi => by rw [f2 _ _ (by decide), (r1 i hi).2.2, hr i hi])
  have f3 : ∀ (a : Arr) (k : ℕ), a ∉ [Arr.lockUp, .lockDown] → ((locksP P.m P.n).run μ2).2 (a, k) = μ2 (a, k) :=
    fun a k ha => run_frame _ w3 μ2 _ ha
  generalize ((locksP P.m P.n).run μ2).2 = μ3 at r3 f3
  rw [run_bind']
  have r4 := activitiesP_run hP (ctag := ctag) (lb := P.lb) (ub := P.ub) r3.mat
    (fun k hk => by rw [f3 _ _ (by decide), (r2 k hk).2.2, hc k hk])
    (fun k hk => by rw [f3 _ _ (by decide), (r2 k hk).1]) (fun k hk => by rw [f3 _ _ (by decide), (r2 k hk).2.1])
  have w4 : (activitiesP P.m).Within [.Ax, .Ai, .ApStart, .ApEnd, .bndLb, .bndUb, .colTags]
      [.actInfMin, .actInfMax, .actMax, .actMin, .actStatus] := by
    have ws : ∀ (out : Arr) (b : Bool) (i : ℤ), out ∈ [Arr.actInfMin, .actInfMax, .actMax, .actMin, .actStatus] →
        (actSumP out b i).Within [.Ax, .Ai, .ApStart, .ApEnd, .bndLb, .bndUb, .colTags]
          [.actInfMin, .actInfMax, .actMax, .actMin, .actStatus] := by
      intro out b i h
      unfold actSumP
      apply within_forRow _ (by decide) (by decide)
      intro j
      apply Prog.Within.bind' (within_rdDbl _ (by decide)); intro v
      apply Prog.Within.bind' (within_rdInt _ (by decide)); intro k
      refine Prog.Within.bind' (within_rdDbl _ ?_) (fun _ => ?_)
      · split <;> decide
      · exact Prog.Within.bind' (within_rdDbl _ (.inr h)) (fun _ => within_put _ _ h)
    unfold activitiesP
    apply within_for
    intro i
    iterate 5
      apply Prog.Within.bind' (within_put _ _ (by decide)); intro _
    apply Prog.Within.bind'
    · within
    intro _
    apply Prog.Within.bind' (within_rdInt _ (by decide)); intro _
    have tl : ∀ _ : Unit, Prog.Within [.Ax, .Ai, .ApStart, .ApEnd, .bndLb, .bndUb, .colTags]
        [.actInfMin, .actInfMax, .actMax, .actMin, .actStatus] (do
        let y ← rdInt .actInfMin i
        if y = 0 then actSumP .actMin false i else pure ()) := fun _ =>
      Prog.Within.bind' (within_rdInt _ (by decide)) (fun _ => by
        split
        · exact ws _ _ _ (by decide)
        · exact within_pure _)
    dsimp only
    split
    · exact Prog.Within.bind' (ws _ _ _ (by decide)) tl
    · exact tl ()
  have f4 : ∀ (a : Arr) (k : ℕ), a ∉ [Arr.actInfMin, .actInfMax, .actMax, .actMin, .actStatus] →
      ((activitiesP P.m).run μ3).2 (a, k) = μ3 (a, k) := fun a k ha => run_frame _ w4 μ3 _ ha
  generalize ((activitiesP P.m).run μ3).2 = μ4 at r4 f4
  have r5 := countRowsP_run (m := P.m) (s := .ApStart) (e := .ApEnd) (out := .rowSizes) (μ := μ4) (by decide) (by decide)
    r4.mat.s r4.mat.e
  have w5 : (countRowsP P.m .ApStart .ApEnd .rowSizes).Within [.ApStart, .ApEnd] [.rowSizes] := by
    unfold countRowsP; within
  have f5 : ∀ (a : Arr) (k : ℕ), a ∉ [Arr.rowSizes] →
      ((countRowsP P.m .ApStart .ApEnd .rowSizes).run μ4).2 (a, k) = μ4 (a, k) := fun a k ha => run_frame _ w5 μ4 _ ha
  have m5 := r4.mat.run w5 (by decide)
  generalize ((countRowsP P.m .ApStart .ApEnd .rowSizes).run μ4).2 = μ5 at r5 f5 m5
  have a5 : ∀ i < P.m, HasAct μ5 i (actInit ctag P.lb P.ub (P.A i)) := fun i hi => by
    have := r4.act i hi
    exact ⟨by rw [f5 _ _ (by decide), this.nmin], by rw [f5 _ _ (by decide), this.nmax],
      by rw [f5 _ _ (by decide), this.min], by rw [f5 _ _ (by decide), this.max], by rw [f5 _ _ (by decide), this.status]⟩
  refine ⟨⟨m5, fun i hi => ?_, fun k hk => ?_, fun k hk => ?_⟩, fun i hi => ?_, fun i hi => ?_,
    ⟨m5, fun k hk => ?_, fun k hk => ?_, fun k hk => ?_, a5⟩, fun i hi => ?_⟩
  · rw [f5 _ _ (by decide), f4 _ _ (by decide), r3.tag i hi]
  · rw [f5 _ _ (by decide), f4 _ _ (by decide), r3.up k hk]
  · rw [f5 _ _ (by decide), f4 _ _ (by decide), r3.down k hk]
  · rw [f5 _ _ (by decide), f4 _ _ (by decide), f3 _ _ (by decide), f2 _ _ (by decide), (r1 i hi).1]
  · rw [f5 _ _ (by decide), f4 _ _ (by decide), f3 _ _ (by decide), f2 _ _ (by decide), (r1 i hi).2.1]
  · rw [f5 _ _ (by decide), r4.tag k hk]
  · rw [f5 _ _ (by decide), r4.low k hk]
  · rw [f5 _ _ (by decide), r4.upp k hk]
  · rw [r5 i hi]; congr 1; ring

end

/-- What memory must hold for the state `s`; the activities are those before `new_state` marks some of them as
listed. -/
structure Represents (s : St) (rowMem : RowMem) (μ : Mem) : Prop where
  lhs : ∀ i < s.m, μ (.lhs, i) = .dbl (s.lhs i)
  rhs : ∀ i < s.m, μ (.rhs, i) = .dbl (s.rhs i)
  lb : ∀ k < s.n, μ (.bndLb, k) = .dbl (s.lb k)
  ub : ∀ k < s.n, μ (.bndUb, k) = .dbl (s.ub k)
  rtag : ∀ i < s.m, μ (.rowTags, i) = .rt (s.rtag i)
  ctag : ∀ k < s.n, μ (.colTags, k) = .ct (s.ctag k)
  up : ∀ k < s.n, μ (.lockUp, k) = .int (s.up k)
  down : ∀ k < s.n, μ (.lockDown, k) = .int (s.down k)
  act : ∀ i < s.m, HasAct μ i { s.act i with status := .notAdded }
  rowSize : ∀ i < s.m, μ (.rowSizes, i) = .int (s.rowSize i)
  colSize : ∀ k < s.n, μ (.colSizes, k) = .int (s.colSize k)
  /-- The columns stored from their starts on. -/
  cols : ∀ k < s.n, ∃ b : ℤ, μ (.ATpStart, k) = .int b ∧ μ (.ATpEnd, k) = .int (b + (s.AT k).length) ∧
    ∀ u (h : u < (s.AT k).length), μ (.ATi, b + u) = .int ((s.AT k)[u].1) ∧ μ (.ATx, b + u) = .dbl (.fin (s.AT k)[u].2)
  /-- Columns have the room that `calc_memory_row` asks for. -/
  room : ∀ k, k + 1 < s.n → ∀ b c, μ (.ATpStart, (k : ℤ)) = .int b → μ (.ATpStart, ((k + 1 : ℕ) : ℤ)) = .int c →
    c = b + rowMem (s.AT k).length

/-- **C48.**  For every valid problem whose data lie in memory, wherever its rows start, for every rule for spare room
that leaves enough room, and for every schedule of the two threads of `new_presolver`: when both have finished, the
arrays hold exactly the sides, bounds, tags, locks, activities, sizes and columns of the state in which the reductions
start. -/
theorem C48_initial_state {P : LP} (hP : P.Valid) {st : ℕ → ℤ} {μ μ' : Mem} (h : HasData P st μ) {rowMem : RowMem}
    (hr : ∀ c, 0 ≤ c → c ≤ rowMem c) {nAlloc : ℤ} {tr : List Access}
    (hrun : TSteps (startThreads P.m P.n rowMem nAlloc μ) tr (.ret (), .ret (), μ')) :
    Represents (initSt P) rowMem μ' := by
  have e := C38_one_outcome P.m P.n rowMem nAlloc μ μ' tr hrun
  obtain ⟨hc, hz⟩ := mainThread_run hP h.mat hr nAlloc
  have wm := mainThread_within P.m P.n rowMem nAlloc
  have fm : ∀ (a : Arr) (k : ℕ), a ∉ mainWrites → ((mainThread P.m P.n rowMem nAlloc).run μ).2 (a, k) = μ (a, k) :=
    fun a k ha => run_frame _ wm μ _ ha
  have h1 : HasData P st ((mainThread P.m P.n rowMem nAlloc).run μ).2 :=
    ⟨h.mat.run wm (by decide), fun i hi => by rw [fm _ _ (by decide), h.lhs i hi],
      fun i hi => by rw [fm _ _ (by decide), h.rhs i hi], fun i hi => by rw [fm _ _ (by decide), h.lbs i hi],
      fun i hi => by rw [fm _ _ (by decide), h.ubs i hi], fun i hi => by rw [fm _ _ (by decide), h.tags i hi]⟩
  have hs := initThread_run hP h1 (rtag := (initSt P).rtag) (ctag := (initSt P).ctag)
    (fun i hi => if_pos hi) (fun k hk => if_pos hk)
  have fs : ∀ (l : Loc), l.1 ∉ sndWrites →
      ((initThread P.m P.n).run ((mainThread P.m P.n rowMem nAlloc).run μ).2).2 l =
        ((mainThread P.m P.n rowMem nAlloc).run μ).2 l := fun l hl => run_frame _ (initThread_within P.m P.n) _ l hl
  rw [← e] at hs fs
  have hc' : HasCols P rowMem μ' := hc.frame (fun l hl => fs l (by
    revert hl; generalize l.1 = a; cases a <;> decide))
  refine ⟨hs.lhs, hs.rhs, hs.act.low, hs.act.upp, hs.lock.tag, hs.act.tag, hs.lock.up, hs.lock.down, fun i hi => ?_,
    fun i hi => ?_, fun k hk => ?_, fun k hk => ?_, fun k hk b c hb hbc => ?_⟩
  · have ha := hs.act.act i hi
    have e1 : ({ (initSt P).act i with status := .notAdded } : Act) = actInit (initSt P).ctag P.lb P.ub (P.A i) := by
      show ({ (if i < P.m ∧ decide _ = true then { actInit (initSt P).ctag P.lb P.ub (P.A i) with status := .added } else
        actInit (initSt P).ctag P.lb P.ub (P.A i) : Act) with status := .notAdded } : Act) = _
      split <;> rfl
    rw [e1]
    exact ha
  · rw [hs.size i hi]
    exact congrArg Val.int (if_pos hi).symm
  · rw [fs _ (show Arr.colSizes ∉ sndWrites by decide), hz k hk]
    exact congrArg Val.int (if_pos hk).symm
  · exact ⟨_, hc'.s k hk, hc'.e k hk, fun u hu => ⟨hc'.idx k hk u hu, hc'.val k hk u hu⟩⟩
  · have h1 := hc'.s k (Nat.lt_of_succ_lt hk)
    have h2 := hc'.s (k + 1) hk
    rw [hb] at h1
    rw [hbc] at h2
    cases h1
    cases h2
    rfl

/-- The problem stored in `memEx`. -/
def lpMemEx : LP where
  m := 1
  n := 2
  A := ofList [[(0, 1), (1, 2)]] []
  lhs := ofList [.fin 3] .nan
  rhs := ofList [.fin 3] .nan
  lb := ofList [.fin 0, .ninf] .nan
  ub := fun _ => .pinf
  c := fun _ => 0

theorem lpMemEx_valid : lpMemEx.Valid := by
  refine ⟨fun i => ?_, fun i p hp => ?_⟩
  · match i with
    | 0 => show List.Pairwise _ _; simp [lpMemEx, ofList]
    | i + 1 => exact List.Pairwise.nil
  · cases i with
    | zero => revert p; decide +kernel
    | succ i => cases hp

/-- The hypotheses hold for `memEx` with two spare cells per column, and a schedule exists. -/
example : lpMemEx.Valid ∧ HasData lpMemEx (fun _ => 0) memEx ∧ (∀ c : ℤ, 0 ≤ c → c ≤ (fun c => c + 2) c) ∧
    ∃ tr μ', TSteps (startThreads lpMemEx.m lpMemEx.n (fun c => c + 2) 8 memEx) tr (.ret (), .ret (), μ') := by
  refine ⟨lpMemEx_valid, ⟨⟨by decide, by decide, by decide, by decide⟩, by decide, by decide, by decide, by decide,
    by decide⟩, fun c _ => by simp, ?_⟩
  obtain ⟨t, h⟩ := exists_snd_first (initThread 1 2) (mainThread 1 2 (fun c => c + 2) 8) memEx
  obtain ⟨u, g⟩ := exists_main (mainThread 1 2 (fun c => c + 2) 8) ((initThread 1 2).run memEx).1
    ((initThread 1 2).run memEx).2
  exact ⟨_, _, h.trans g⟩

end Verif
