import Verif.Model.DtonMat
import Verif.Lemmas.DelMat
import Verif.Lemmas.DtonBounds
import Verif.Props.C17_ShiftRow
import Verif.Props.C18_Coeff

/-! Helper lemmas about the elimination of a doubleton equality in the arrays. -/

namespace Verif

open Mat

theorem coefOf_coefAt {l : List Cell} (h : SortedC l) (j : ℕ) : coefOf 0 l j = coefAt j l := by
  by_cases hm : ∃ v, (j, v) ∈ l
  · obtain ⟨v, hv⟩ := hm
    rw [coefAt_cell h hv]
    exact coefOf_mem h hv
  · rw [coefOf_not_mem (fun v hv => hm ⟨v, hv⟩)]
    unfold coefAt
    rw [show mids j l = [] from by
      unfold mids
      rw [List.filter_eq_nil_iff]
      intro p hp
      simp only [decide_eq_true_eq]
      rintro rfl
      exact hm ⟨p.2, hp⟩]
    rfl

theorem newCol_spec {l : List Cell} (h : SortedC l) (q : ℕ) (v : ℚ) :
    newCol q v l = if negligible v then delSpec l q else setSpec l q v := by
  unfold newCol negligible
  by_cases hv : |v| ≤ ZERO_TOL
  · simp only [hv, if_true, decide_true]
    exact delSpec_split h
  · simp only [hv, if_false, decide_false]; rfl

/-- What one write to the transpose does. -/
theorem Mat.iou_spec {T : Mat ℚ} (h : T.Layout) {j q : ℕ} {v : ℚ} (hj : j < T.m) (hs : SortedC (T.rowOf j))
    (hf : |v| ≤ ZERO_TOL → ∃ w, (q, w) ∈ T.rowOf j)
    (hroom : (∃ w, (q, w) ∈ T.rowOf j) ∨ T.pe j < T.ps (j + 1)) :
    ∃ o B d, T.insertOrUpdate negligible 0 j q v = some (o, B, d) ∧ B.Layout ∧ B.m = T.m ∧ B.nAlloc = T.nAlloc ∧
      B.rowOf j = newCol q v (T.rowOf j) ∧ (∀ i < T.m, i ≠ j → B.rowOf i = T.rowOf i) ∧
      d = ((B.rowOf j).length : ℤ) - (T.rowOf j).length ∧ B.ps = T.ps ∧
      (∀ i, i ≠ j → B.pe i = T.pe i) ∧ (∀ c, c < T.ps j ∨ T.ps (j + 1) ≤ c → B.cell c = T.cell c) := by
  by_cases hv : |v| ≤ ZERO_TOL
  · obtain ⟨w, hw⟩ := hf hv
    obtain ⟨B, e, h1, h2, h3, -, h4, h5, h6, h7, h8, h9⟩ :=
      C18_insert_or_update_cancel T h negligible 0 j q v w hj hs (by simp [negligible, hv]) hw
    refine ⟨_, B, _, e, h1, h5, h6, ?_, h3, by omega, h7, h8, h9⟩
    rw [h2, newCol_spec hs, if_pos (by simp [negligible, hv])]
  · obtain ⟨B, d, e, h1, h2, -, h3, h4, h5, h6, -, h7, h8, h9⟩ :=
      C18_insert_or_update T h negligible 0 j q v hj hs (by simp [negligible, hv]) hroom
    refine ⟨_, B, d, e, h1, h2, h3, ?_, h5, h6, h7, h8, h9⟩
    rw [h4, newCol_spec hs, if_neg (by simp [negligible, hv])]

/-- What rewriting one row does. -/
theorem Mat.updRow_spec {A : Mat ℚ} (h : A.Layout) {q j k : ℕ} {ratio : ℚ} (hq : q < A.m)
    (hs : SortedC (A.rowOf q)) (hjk : j ≠ k) (hk : ∃ a, (k, a) ∈ A.rowOf q)
    (hf : RowFits j k ratio (A.rowOf q)) :
    ∃ B d, A.updateRowADton negligible 0 (fun old sub => old - ratio * sub) q j k =
        some ((coefAt j (A.rowOf q), coefAt k (A.rowOf q), newCoef j k ratio (A.rowOf q)), B, d) ∧
      B.Layout ∧ B.m = A.m ∧ B.rowOf q = newRow j k ratio (A.rowOf q) ∧
      (∀ i < A.m, i ≠ q → B.rowOf i = A.rowOf i) ∧ d = ((B.rowOf q).length : ℤ) - (A.rowOf q).length := by
  obtain ⟨a, hk⟩ := hk
  have ej := coefOf_coefAt hs j
  have ek : coefAt k (A.rowOf q) = a := coefAt_cell hs hk
  have en : newCoef j k ratio (A.rowOf q) = coefOf 0 (A.rowOf q) j - ratio * a := by
    unfold newCoef; rw [ej, ek]
  obtain ⟨B, d, e, h1, h2, -, h3, h4, h5, -⟩ :=
    C18_update_row_dton_partial A h negligible 0 (fun old sub => old - ratio * sub) q j k a hq hs hjk hk (by
      by_cases hn : |newCoef j k ratio (A.rowOf q)| ≤ ZERO_TOL
      · exact Or.inr (hf hn)
      · left; simp only [← en]; simp [negligible, hn])
  simp only [← en] at e h3
  rw [ej] at e
  refine ⟨B, d, by rw [e, ek], h1, h2, ?_, h4, h5⟩
  rw [h3]
  unfold newRow
  rw [newCol_spec (l := without k (A.rowOf q)) (sorted_delSpec hs k)]
  rfl

/-! ## The fill-in -/

/-- Number of entries of `l2` whose index does not occur in `l1`. -/
def missing (l1 l2 : List Cell) : ℕ := (l2.filter (fun p => !l1.any (fun a => decide (a.1 = p.1)))).length

theorem missing_nil (l : List Cell) : missing [] l = l.length := by
  simp [missing]

theorem missing_skip {a : Cell} {l1 l2 : List Cell} (h : ∀ p ∈ l2, a.1 ≠ p.1) : missing (a :: l1) l2 = missing l1 l2 := by
  unfold missing
  congr 1
  apply List.filter_congr
  intro p hp
  simp [h p hp]

theorem missing_hit {a b : Cell} {l1 l2 : List Cell} (hb : a.1 = b.1) (h : ∀ p ∈ l2, a.1 ≠ p.1) :
    missing (a :: l1) (b :: l2) = missing l1 l2 := by
  unfold missing
  rw [List.filter_cons_of_neg (by simp [hb])]
  exact missing_skip h

theorem missing_new {b : Cell} {l1 l2 : List Cell} (h : ∀ p ∈ l1, p.1 ≠ b.1) :
    missing l1 (b :: l2) = missing l1 l2 + 1 := by
  unfold missing
  rw [List.filter_cons_of_pos, List.length_cons]
  simpa using fun x y hx => h (x, y) hx

theorem Mat.fillCount_spec (T : Mat ℚ) {ej ek : ℕ} (hej : ej ≤ T.nAlloc) (hek : ek ≤ T.nAlloc) (fuel : ℕ) :
    ∀ (jj kk : ℕ) (f : ℤ), jj ≤ ej → kk ≤ ek → (ej - jj) + (ek - kk) < fuel →
      SortedC (T.seg jj (ej - jj)) → SortedC (T.seg kk (ek - kk)) →
      T.fillCount ej ek fuel jj kk f = some (f + missing (T.seg jj (ej - jj)) (T.seg kk (ek - kk))) := by
  induction fuel with
  | zero => intro jj kk f _ _ h; omega
  | succ fuel ih =>
    intro jj kk f hj hk hf s1 s2
    unfold Mat.fillCount
    by_cases hc : jj < ej ∧ kk < ek
    · rw [if_pos hc]
      have g1 : T.getCell jj = some (T.cell jj) := by unfold Mat.getCell; rw [if_pos (by omega)]
      have g2 : T.getCell kk = some (T.cell kk) := by unfold Mat.getCell; rw [if_pos (by omega)]
      rw [g1, g2]
      simp only [Option.bind_eq_bind, Option.bind_some]
      have e1 : T.seg jj (ej - jj) = T.cell jj :: T.seg (jj + 1) (ej - (jj + 1)) := by
        rw [show ej - jj = (ej - (jj + 1)) + 1 by omega, Mat.seg_succ]
      have e2 : T.seg kk (ek - kk) = T.cell kk :: T.seg (kk + 1) (ek - (kk + 1)) := by
        rw [show ek - kk = (ek - (kk + 1)) + 1 by omega, Mat.seg_succ]
      have t1 := s1; have t2 := s2
      rw [e1] at t1; rw [e2] at t2
      obtain ⟨a1, b1⟩ := List.pairwise_cons.mp t1
      obtain ⟨a2, b2⟩ := List.pairwise_cons.mp t2
      split
      · rename_i h
        rw [ih _ _ _ (by omega) (by omega) (by omega) b1 b2, e1, e2,
          missing_hit h (fun p hp => by have := a2 p hp; omega)]
      · split
        · rename_i h h'
          rw [ih _ _ _ (by omega) (by omega) (by omega) s1 b2, e2, missing_new]
          · push_cast; congr 1; ring
          · intro p hp
            rw [e1] at hp
            rcases List.mem_cons.mp hp with rfl | hp
            · exact h
            · have := a1 p hp; omega
        · rename_i h h'
          rw [ih _ _ _ (by omega) (by omega) (by omega) b1 s2, e1, missing_skip]
          intro p hp
          rw [e2] at hp
          rcases List.mem_cons.mp hp with rfl | hp
          · exact h
          · have := a2 p hp; omega
    · rw [if_neg hc]
      congr 2
      by_cases h : jj < ej
      · have : ek - kk = 0 := by omega
        rw [this]
        simp [missing, Mat.seg]; omega
      · have : ej - jj = 0 := by omega
        rw [this]
        rw [show T.seg jj 0 = [] from rfl, missing_nil, Mat.seg_length]; omega

/-! ## One row -/

/-- Other lists of cells, the rest of the state as it is. -/
def St.withM (s : St) (A AT : ℕ → List Cell) : St := { s with A := A, AT := AT }

theorem dtonNoteSize_withM (s : St) (A AT : ℕ → List Cell) (q : ℕ) (o : ℤ) (b : List ℕ) :
    dtonNoteSize (s.withM A AT) q o b = ((dtonNoteSize s q o b).1.withM A AT, (dtonNoteSize s q o b).2) := by
  unfold dtonNoteSize
  show (if s.rowSize q = 0 then _ else if s.rowSize q = 1 then _ else if s.rowSize q = 2 ∧ (s.rtag q).eq = true ∧ o ≠ 2 then _ else _) = _
  split_ifs <;> rfl

theorem dtonSides_withM (s : St) (A AT : ℕ → List Cell) (q : ℕ) (aik : ℚ) (r : D) (c : ℚ) :
    dtonSides (s.withM A AT) q aik r c = (dtonSides s q aik r c).withM A AT := by
  unfold dtonSides
  by_cases h : D.eqb r (.fin 0) = true
  · rw [if_pos h, if_pos h]
  · rw [if_neg h, if_neg h]; rfl

theorem dtonNoteAct_withM (s : St) (A AT : ℕ → List Cell) (q : ℕ) :
    dtonNoteAct (s.withM A AT) q = (dtonNoteAct s q).withM A AT := by
  unfold dtonNoteAct
  show (if (s.act q).status = .notAdded then _ else _) = _
  split_ifs <;> rfl

theorem dtonNoteAct_lists (s : St) (q : ℕ) :
    (dtonNoteAct s q).A = s.A ∧ (dtonNoteAct s q).lb = s.lb ∧ (dtonNoteAct s q).ub = s.ub := by
  unfold dtonNoteAct
  split_ifs <;> exact ⟨rfl, rfl, rfl⟩

/-- Recomputation of the minimal activity. -/
def recMin (u : St) (q : ℕ) : St :=
  dtonNoteAct { u with act := upd u.act q { u.act q with min := minActNoTags u.lb u.ub (u.A q) } } q

/-- Recomputation of the maximal activity. -/
def recMax (u : St) (q : ℕ) : St :=
  dtonNoteAct { u with act := upd u.act q { u.act q with max := maxActNoTags u.lb u.ub (u.A q) } } q

theorem recMin_withM (u : St) (A AT : ℕ → List Cell) (q : ℕ) (h : A q = u.A q) :
    recMin (u.withM A AT) q = (recMin u q).withM A AT := by
  unfold recMin
  rw [← dtonNoteAct_withM, ← h]; rfl

theorem recMax_withM (u : St) (A AT : ℕ → List Cell) (q : ℕ) (h : A q = u.A q) :
    recMax (u.withM A AT) q = (recMax u q).withM A AT := by
  unfold recMax
  rw [← dtonNoteAct_withM, ← h]; rfl

/-- `dtonAct` after the two updates. -/
def actEnd (x y : Altered) (s : St) (q : ℕ) : St :=
  if x.maxRecompute || y.maxRecompute then
    recMax (if x.minRecompute || y.minRecompute then recMin s q else s) q
  else if x.minRecompute || y.minRecompute then recMin s q else s

theorem actEnd_withM (x y : Altered) (s : St) (A AT : ℕ → List Cell) (q : ℕ) (h : A q = s.A q) :
    actEnd x y (s.withM A AT) q = (actEnd x y s q).withM A AT := by
  unfold actEnd
  by_cases c1 : (x.minRecompute || y.minRecompute) = true
  · simp only [if_pos c1, recMin_withM s A AT q h]
    split_ifs
    · exact recMax_withM _ A AT q (by rw [h]; unfold recMin; rw [(dtonNoteAct_lists _ _).1])
    · rfl
  · simp only [if_neg c1]
    split_ifs
    · exact recMax_withM _ A AT q h
    · rfl

theorem dtonAct_eq (s : St) (q j k : ℕ) (r : DtonRow) :
    dtonAct s q j k r =
      actEnd (updActCoeffChange (s.act q) (s.lb j) (s.ub j) r.oldStay r.newStay (s.ctag j)).2
        (updActCoeffChange (updActCoeffChange (s.act q) (s.lb j) (s.ub j) r.oldStay r.newStay (s.ctag j)).1
          (s.lb k) (s.ub k) r.oldSubst 0 (s.ctag k)).2
        { s with act := upd s.act q (updActCoeffChange (updActCoeffChange (s.act q) (s.lb j) (s.ub j) r.oldStay
                          r.newStay (s.ctag j)).1 (s.lb k) (s.ub k) r.oldSubst 0 (s.ctag k)).1 } q := rfl

theorem dtonAct_withM (s : St) (A AT : ℕ → List Cell) (q j k : ℕ) (r : DtonRow) (h : A q = s.A q) :
    dtonAct (s.withM A AT) q j k r = (dtonAct s q j k r).withM A AT := by
  rw [dtonAct_eq s]
  exact Eq.trans (by rfl) (actEnd_withM _ _ _ A AT q h)

/-- The state in the loop body before the sizes are looked at. -/
def bodyPre (s : St) (i q : ℕ) (aik : ℚ) (r : DtonRow) (d len : ℤ) (ia : Bool) : St :=
  let s := (s.check (decide (q ≠ i))).save (.addedRow i q (-r.oldSubst / aik))
  let s := { s with rowSize := upd s.rowSize q (s.rowSize q + d)
                    nnz := s.nnz + d
                    tiny := s.tiny || (decide (r.newStay ≠ 0) && decide (|r.newStay| ≤ ZERO_TOL)) }
  (s.check (decide (s.rowSize q = len) && dtonCoefAssert r)).check ia

theorem bodyPre_withM (s : St) (A AT : ℕ → List Cell) (i q : ℕ) (aik : ℚ) (r : DtonRow) (d len : ℤ) (ia : Bool) :
    bodyPre (s.withM A AT) i q aik r d len ia = (bodyPre s i q aik r d len ia).withM A AT := rfl

/-- The end of the loop body. -/
def bodyEnd (s : St) (i j k q : ℕ) (aik : ℚ) (r : DtonRow) (d : ℤ) : St :=
  dtonAct (dtonSides { s with colSize := upd s.colSize j (s.colSize j + d) } q aik (s.rhs i) r.oldSubst) q j k r

theorem bodyEnd_withM (s : St) (A AT : ℕ → List Cell) (i j k q : ℕ) (aik : ℚ) (r : DtonRow) (d : ℤ) (h : A q = s.A q) :
    bodyEnd (s.withM A AT) i j k q aik r d = (bodyEnd s i j k q aik r d).withM A AT := by
  unfold bodyEnd
  rw [← dtonAct_withM _ A AT q j k r, ← dtonSides_withM]
  · rfl
  · rw [h]
    unfold dtonSides
    split_ifs <;> rfl

theorem dtonSubstRow_body {s : St} {i j k q : ℕ} {aij aik v : ℚ} {buf : List ℕ} {r : DtonRow} {col : List Cell}
    (hact : (s.rtag q).inactive = false) (h1 : dtonRow (s.A q) j k (aij / aik) = some r)
    (h2 : insertOrUpdCells (s.AT j) q r.newStay = some col) :
    dtonSubstRow i j k aij aik (s, buf) (q, v) =
      let w := dtonNoteSize (bodyPre (s.withM (upd s.A q r.cells) s.AT) i q aik r
        ((r.cells.length : ℤ) - ((s.A q).length : ℤ)) (r.cells.length : ℤ) (insertAssert (s.AT j) q r.newStay)) q (s.rowSize q) buf
      (bodyEnd (w.1.withM (upd s.A q r.cells) (upd s.AT j col)) i j k q aik r ((col.length : ℤ) - ((s.AT j).length : ℤ)), w.2) := by
  unfold dtonSubstRow
  simp only
  rw [if_neg (by rw [hact]; decide)]
  rw [show (s.check (decide (q ≠ i))).A = s.A from rfl, h1]
  simp only
  generalize hd : ((s.A q).length : ℤ) - (r.cells.length : ℤ) = d
  have hd' : (r.cells.length : ℤ) - ((s.A q).length : ℤ) = -d := by omega
  rw [hd', bodyPre_withM, dtonNoteSize_withM]
  generalize hu : dtonNoteSize _ _ _ _ = u
  have hu' := hu.symm.trans (dtonNoteSize_withM (bodyPre s i q aik r (-d) (r.cells.length : ℤ)
    (insertAssert (s.AT j) q r.newStay)) (upd s.A q r.cells) s.AT q (s.rowSize q) buf)
  rw [hu']
  simp only
  generalize dtonNoteSize (bodyPre s i q aik r (-d) (r.cells.length : ℤ)
    (insertAssert (s.AT j) q r.newStay)) q (s.rowSize q) buf = w
  rw [show (w.1.withM (upd s.A q r.cells) s.AT).AT j = s.AT j from rfl, h2]
  rfl

theorem bodyEnd_frame (s : St) (i j k q : ℕ) (aik : ℚ) (r : DtonRow) (d : ℤ) :
    (bodyEnd s i j k q aik r d).m = s.m ∧ (bodyEnd s i j k q aik r d).n = s.n ∧
      (bodyEnd s i j k q aik r d).rtag = s.rtag := by
  unfold bodyEnd
  have C := core_iff (dtonAct_core (dtonSides { s with colSize := upd s.colSize j (s.colSize j + d) } q aik (s.rhs i) r.oldSubst) q j k r).1
  rw [C.m, C.n, C.rtag]
  unfold dtonSides
  split <;> exact ⟨rfl, rfl, rfl⟩

theorem bodyPre_frame (s : St) (i q : ℕ) (aik : ℚ) (r : DtonRow) (d len : ℤ) (ia : Bool) (o : ℤ) (buf : List ℕ) :
    let w := (dtonNoteSize (bodyPre s i q aik r d len ia) q o buf).1
    w.m = s.m ∧ w.n = s.n ∧ w.rtag = s.rtag := by
  have C := core_iff (dtonNoteSize_core' (s := bodyPre s i q aik r d len ia) (q := q) (o := o) (buf := buf) rfl).1
  exact ⟨C.m, C.n, C.rtag⟩

theorem mem_newCol_or {q : ℕ} {w : ℚ} {l : List Cell} {p : Cell} (h : p ∈ newCol q w l) : p.1 = q ∨ p ∈ l := by
  have := (mem_newCol (r := p.1) (v := p.2)).mp h
  split at this
  · exact Or.inl ‹_›
  · exact Or.inr this

/-- The cells that one write to column `j` of the transpose leaves alone. -/
structure Beside (T T' : Mat ℚ) (j : ℕ) : Prop where
  m : T'.m = T.m
  nAlloc : T'.nAlloc = T.nAlloc
  ps : T'.ps = T.ps
  pe : ∀ i, i ≠ j → T'.pe i = T.pe i
  rows : ∀ i < T.m, i ≠ j → T'.rowOf i = T.rowOf i
  cell : ∀ c, c < T.ps j ∨ T.ps (j + 1) ≤ c → T'.cell c = T.cell c

theorem Arrays.substRow_step {M : Arrays} (ok : M.OK) {i j k q : ℕ} {aij aik v : ℚ} (buf : List ℕ)
    (hq : q < M.A.m) (hj : j < M.AT.m) (hact : (M.s.rtag q).inactive = false) (hrow : SortedC (M.A.rowOf q))
    (hjk : j ≠ k) (hk : ∃ a, (k, a) ∈ M.A.rowOf q) (hf : RowFits j k (aij / aik) (M.A.rowOf q))
    (hcol : SortedC (M.AT.rowOf j))
    (hcf : |newCoef j k (aij / aik) (M.A.rowOf q)| ≤ ZERO_TOL → ∃ w, (q, w) ∈ M.AT.rowOf j)
    (hroom : (∃ w, (q, w) ∈ M.AT.rowOf j) ∨ M.AT.pe j < M.AT.ps (j + 1)) :
    ∃ M' buf', Arrays.substRow i j k aij aik (M, buf) q = some (M', buf') ∧ M'.OK ∧
      dtonSubstRow i j k aij aik (M.view, buf) (q, v) = (M'.view, buf') ∧ M'.s.rtag = M.s.rtag ∧
      M'.A.m = M.A.m ∧ (∀ r < M.A.m, r ≠ q → M'.A.rowOf r = M.A.rowOf r) ∧ Beside M.AT M'.AT j ∧
      M'.AT.rowOf j = newCol q (newCoef j k (aij / aik) (M.A.rowOf q)) (M.AT.rowOf j) := by
  obtain ⟨B, d, eB, lB, mB, rB, oB, dB⟩ := Mat.updRow_spec ok.layA hq hrow hjk hk hf
  obtain ⟨o, T, d2, eT, lT, mT, aT, rT, oT, dT, psT, peT, cT⟩ := Mat.iou_spec ok.layT hj hcol hcf hroom
  have hmA : M.view.A q = M.A.rowOf q := Mat.lists_of hq
  have hmT : M.view.AT j = M.AT.rowOf j := Mat.lists_of hj
  have LB : B.lists = upd M.A.lists q (newRow j k (aij / aik) (M.A.rowOf q)) := Mat.lists_eq mB hq rB oB
  have LT : T.lists = upd M.AT.lists j (newCol q (newCoef j k (aij / aik) (M.A.rowOf q)) (M.AT.rowOf j)) :=
    Mat.lists_eq mT hj rT oT
  have lenB : (B.pe q : ℤ) - B.ps q = ((newRow j k (aij / aik) (M.A.rowOf q)).length : ℤ) := by
    rw [← Mat.rowOf_len lB (by rw [mB]; exact hq), rB]
  rw [rB] at dB
  rw [rT] at dT
  unfold Arrays.substRow
  simp only
  rw [if_neg (by omega), if_neg (by rw [hact]; decide), eB]
  simp only [Option.bind_eq_bind, Option.bind_some, eT, rB]
  obtain ⟨a, ha⟩ := hk
  have eR : dtonRow (M.view.A q) j k (aij / aik) = some ⟨newRow j k (aij / aik) (M.A.rowOf q), coefAt j (M.A.rowOf q),
      coefAt k (M.A.rowOf q), newCoef j k (aij / aik) (M.A.rowOf q)⟩ := by
    rw [hmA]; exact dtonRow_eq hrow hjk ha hf
  have hrm : ∀ p ∈ newRow j k (aij / aik) (M.A.rowOf q), p.1 < M.AT.m := by
    intro p hp
    rcases mem_newCol_or hp with h | h
    · rw [h]; exact hj
    · exact ok.inA q hq p (List.mem_filter.mp h).1
  generalize newRow j k (aij / aik) (M.A.rowOf q) = row at *
  generalize newCoef j k (aij / aik) (M.A.rowOf q) = new at *
  generalize coefAt j (M.A.rowOf q) = cj at *
  generalize coefAt k (M.A.rowOf q) = ck at *
  have eI : insertOrUpdCells (M.view.AT j) q (DtonRow.newStay ⟨row, cj, ck, new⟩) = some (newCol q new (M.AT.rowOf j)) := by
    rw [hmT]; exact insertOrUpd_eq hcol hcf
  have body := dtonSubstRow_body (i := i) (v := v) (buf := buf) (s := M.view) hact eR eI
  have fr : ∀ s : St, s = bodyEnd ((dtonNoteSize (bodyPre M.s i q aik ⟨row, cj, ck, new⟩ d ((B.pe q : ℤ) - B.ps q)
      (insertAssert (M.AT.rowOf j) q new)) q (M.s.rowSize q) buf).1.withM (fun _ => row)
      (dtonNoteSize (bodyPre M.s i q aik ⟨row, cj, ck, new⟩ d ((B.pe q : ℤ) - B.ps q)
      (insertAssert (M.AT.rowOf j) q new)) q (M.s.rowSize q) buf).1.AT) i j k q aik ⟨row, cj, ck, new⟩ d2 →
      s.m = M.s.m ∧ s.n = M.s.n ∧ s.rtag = M.s.rtag := by
    rintro s rfl
    obtain ⟨a1, a2, a3⟩ := bodyPre_frame M.s i q aik ⟨row, cj, ck, new⟩ d ((B.pe q : ℤ) - B.ps q)
      (insertAssert (M.AT.rowOf j) q new) (M.s.rowSize q) buf
    obtain ⟨b1, b2, b3⟩ := bodyEnd_frame ((dtonNoteSize (bodyPre M.s i q aik ⟨row, cj, ck, new⟩ d ((B.pe q : ℤ) - B.ps q)
      (insertAssert (M.AT.rowOf j) q new)) q (M.s.rowSize q) buf).1.withM (fun _ => row)
      (dtonNoteSize (bodyPre M.s i q aik ⟨row, cj, ck, new⟩ d ((B.pe q : ℤ) - B.ps q)
      (insertAssert (M.AT.rowOf j) q new)) q (M.s.rowSize q) buf).1.AT) i j k q aik ⟨row, cj, ck, new⟩ d2
    exact ⟨b1.trans a1, b2.trans a2, b3.trans a3⟩
  refine ⟨_, _, rfl, ?_, ?_, (fr _ rfl).2.2, mB, oB, ⟨mT, aT, psT, peT, oT, cT⟩, rT⟩
  · obtain ⟨f1, f2, -⟩ := fr _ rfl
    refine ⟨(mB.trans ok.rows).trans f1.symm, (mT.trans ok.cols).trans f2.symm, lB, lT, ?_, ?_⟩
    · intro r hr p hp
      show p.1 < T.m
      rw [mT]
      have hr : r < M.A.m := mB ▸ hr
      by_cases e : r = q
      · subst e
        have hp : p ∈ B.rowOf r := hp
        rw [rB] at hp; exact hrm p hp
      · exact ok.inA r hr p (by rw [← oB r hr e]; exact hp)
    · intro r hr p hp
      show p.1 < B.m
      rw [mB]
      have hr : r < M.AT.m := mT ▸ hr
      by_cases e : r = j
      · subst e
        have hp : p ∈ T.rowOf r := hp
        rw [rT] at hp
        rcases mem_newCol_or hp with h | h
        · rw [h]; exact hq
        · exact ok.inT r hj p h
      · exact ok.inT r hr p (by rw [← oT r hr e]; exact hp)
  · rw [body]
    simp only
    rw [hmA, hmT, ← dB, ← dT, ← lenB]
    rw [show M.view.withM (upd M.view.A q row) M.view.AT = M.s.withM (upd M.view.A q row) M.view.AT from rfl,
      bodyPre_withM, dtonNoteSize_withM]
    have LB' : upd M.view.A q row = B.lists := LB.symm
    have LT' : upd M.view.AT j (newCol q new (M.AT.rowOf j)) = T.lists := LT.symm
    rw [LB', LT']
    generalize hw : dtonNoteSize (bodyPre M.s i q aik ⟨row, cj, ck, new⟩ d ((B.pe q : ℤ) - B.ps q)
      (insertAssert (M.AT.rowOf j) q new)) q (M.view.rowSize q) buf = w
    refine Prod.ext ?_ ?_
    · have := bodyEnd_withM (w.1.withM (fun _ => row) w.1.AT) B.lists T.lists i j k q aik ⟨row, cj, ck, new⟩ d2
        (by rw [LB, upd_same]; rfl)
      rw [← hw] at this ⊢
      exact this
    · rw [← hw]; rfl

/-! ## The loop -/

theorem missing_cons (b : Cell) (l1 l2 : List Cell) : missing l1 l2 ≤ missing l1 (b :: l2) := by
  unfold missing
  rw [List.filter_cons]
  split <;> simp

theorem missing_congr {l1 l1' l2 : List Cell} (h : ∀ p ∈ l2, (∃ w, (p.1, w) ∈ l1') ↔ ∃ w, (p.1, w) ∈ l1) :
    missing l1' l2 = missing l1 l2 := by
  unfold missing
  congr 1
  apply List.filter_congr
  intro p hp
  congr 1
  rw [Bool.eq_iff_iff, List.any_eq_true, List.any_eq_true]
  have := h p hp
  constructor
  · rintro ⟨a, ha, e⟩
    obtain ⟨w, hw⟩ := this.mp ⟨a.2, by rw [← of_decide_eq_true e]; exact ha⟩
    exact ⟨_, hw, by simp⟩
  · rintro ⟨a, ha, e⟩
    obtain ⟨w, hw⟩ := this.mpr ⟨a.2, by rw [← of_decide_eq_true e]; exact ha⟩
    exact ⟨_, hw, by simp⟩

theorem newCol_len {l : List Cell} (h : SortedC l) (q : ℕ) (v : ℚ) :
    (newCol q v l).length + (mids q l).length ≤ l.length + 1 := by
  have e := congrArg List.length (sorted_split h q)
  rw [List.length_append, List.length_append] at e
  unfold newCol
  split
  · rw [List.length_append]; omega
  · rw [List.length_append, List.length_cons]; omega

theorem Arrays.substLoop_step {i j k : ℕ} {aij aik : ℚ} (hjk : j ≠ k) (cnt : ℕ) :
    ∀ (M : Arrays) (buf : List ℕ) (pos : ℕ), M.OK → j < M.AT.m → pos + cnt ≤ M.AT.nAlloc →
      (pos + cnt ≤ M.AT.ps j ∨ M.AT.ps (j + 1) ≤ pos) →
      (∀ p ∈ M.AT.seg pos cnt, p.1 < M.A.m) → ((M.AT.seg pos cnt).map Prod.fst).Nodup →
      (∀ q, Hit M.s (M.AT.seg pos cnt) q → SortedC (M.A.rowOf q) ∧ (∃ a, (k, a) ∈ M.A.rowOf q) ∧
        RowFits j k (aij / aik) (M.A.rowOf q) ∧
        (|newCoef j k (aij / aik) (M.A.rowOf q)| ≤ ZERO_TOL → ∃ w, (q, w) ∈ M.AT.rowOf j)) →
      SortedC (M.AT.rowOf j) →
      M.AT.pe j + missing (M.AT.rowOf j) ((M.AT.seg pos cnt).filter (fun p => !(M.s.rtag p.1).inactive)) ≤ M.AT.ps (j + 1) →
      ∃ M' buf', Arrays.substLoop i j k aij aik pos cnt (M, buf) = some (M', buf') ∧ M'.OK ∧
        (M.AT.seg pos cnt).foldl (dtonSubstRow i j k aij aik) (M.view, buf) = (M'.view, buf') ∧
        M'.A.m = M.A.m ∧ Beside M.AT M'.AT j := by
  induction cnt with
  | zero =>
    intro M buf pos ok _ _ _ _ _ _ _ _
    exact ⟨M, buf, rfl, ok, rfl, rfl, ⟨rfl, rfl, rfl, fun _ _ => rfl, fun _ _ _ => rfl, fun _ _ => rfl⟩⟩
  | succ cnt ih =>
    intro M buf pos ok hj hal hout hin hnd hrows hcol hroom
    have e := Mat.seg_succ M.AT pos cnt
    rw [e] at hin hnd hrows hroom ⊢
    rw [List.map_cons, List.nodup_cons] at hnd
    have hg : M.AT.getCell pos = some (M.AT.cell pos) := by unfold Mat.getCell; rw [if_pos (by omega)]
    have hq := hin _ List.mem_cons_self
    unfold Arrays.substLoop
    rw [List.foldl_cons]
    simp only [hg, Option.bind_eq_bind, Option.bind_some]
    generalize hc : M.AT.cell pos = c at *
    obtain ⟨q, v⟩ := c
    simp only at hq hnd hroom
    by_cases hact : (M.s.rtag q).inactive = true
    · have e1 : Arrays.substRow i j k aij aik (M, buf) q = some (M, buf) := by
        unfold Arrays.substRow
        simp only
        rw [if_neg (by omega), if_pos hact]
      have e2 : dtonSubstRow i j k aij aik (M.view, buf) (q, v) = (M.view, buf) := by
        unfold dtonSubstRow
        simp only
        rw [if_pos (show (M.view.rtag q).inactive = true from hact)]
      rw [e1, e2]
      simp only [Option.bind_some]
      exact ih M buf (pos + 1) ok hj (by omega) (by omega) (fun p hp => hin p (List.mem_cons_of_mem _ hp)) hnd.2
        (fun r hr => hrows r ⟨List.mem_cons_of_mem _ hr.1, hr.2⟩) hcol
        (by rw [List.filter_cons_of_neg (by simp [hact])] at hroom; exact hroom)
    · have hact : (M.s.rtag q).inactive = false := by simpa using hact
      obtain ⟨g1, g2, g3, g4⟩ := hrows q ⟨by simp, hact⟩
      have hlen := Mat.rowOf_len ok.layT hj
      rw [List.filter_cons_of_pos (by simp [hact])] at hroom
      have room : (∃ w, (q, w) ∈ M.AT.rowOf j) ∨ M.AT.pe j < M.AT.ps (j + 1) := by
        by_cases h : ∃ w, (q, w) ∈ M.AT.rowOf j
        · exact Or.inl h
        · right
          rw [missing_new (fun p hp e => h ⟨p.2, by have e : p.1 = q := e; rw [← e]; exact hp⟩)] at hroom
          omega
      obtain ⟨N, b, f1, f2, f3, f4, f5, f6, f7, f8⟩ := Arrays.substRow_step ok (i := i) (v := v) buf hq hj hact g1 hjk g2 g3 hcol g4 room
      have hne : ∀ p ∈ M.AT.seg (pos + 1) cnt, p.1 ≠ q := by
        intro p hp he
        exact hnd.1 (by rw [← he]; exact List.mem_map_of_mem hp)
      have hseg : N.AT.seg (pos + 1) cnt = M.AT.seg (pos + 1) cnt :=
        Mat.seg_congr (fun c h1 h2 => f7.cell c (by omega))
      have hmem : ∀ r, r ≠ q → ∀ w, (r, w) ∈ N.AT.rowOf j ↔ (r, w) ∈ M.AT.rowOf j := by
        intro r hr w
        rw [f8, mem_newCol, if_neg hr]
      rw [f1, f3]
      simp only [Option.bind_some]
      have := ih N b (pos + 1) f2 (by rw [f7.m]; exact hj) (by rw [f7.nAlloc]; omega) (by rw [f7.ps]; omega)
        (by rw [hseg, f5]; exact fun p hp => hin p (List.mem_cons_of_mem _ hp)) (by rw [hseg]; exact hnd.2)
        (fun r hr => by
          rw [hseg] at hr
          obtain ⟨p, hp, rfl⟩ := List.mem_map.mp hr.1
          have hr' := hne p hp
          have hrm := hin p (List.mem_cons_of_mem _ hp)
          rw [f6 p.1 hrm hr']
          obtain ⟨k1, k2, k3, k4⟩ := hrows p.1 ⟨List.mem_cons_of_mem _ hr.1, by rw [← f4]; exact hr.2⟩
          exact ⟨k1, k2, k3, fun h => by
            obtain ⟨w, hw⟩ := k4 h
            exact ⟨w, (hmem _ hr' w).mpr hw⟩⟩)
        (by rw [f8]; exact newCol_sorted hcol)
        (by
          rw [hseg, f7.ps, f4, missing_congr (l1 := M.AT.rowOf j)
            (fun p hp => exists_congr (hmem p.1 (hne p (List.mem_filter.mp hp).1)))]
          have hl' : (N.AT.pe j : ℤ) - N.AT.ps j = ((newCol q (newCoef j k (aij / aik) (M.A.rowOf q)) (M.AT.rowOf j)).length : ℤ) := by
            rw [← f8, ← Mat.rowOf_len f2.layT (by rw [f7.m]; exact hj)]
          rw [f7.ps] at hl'
          have hn := newCol_len hcol q (newCoef j k (aij / aik) (M.A.rowOf q))
          by_cases h : ∃ w, (q, w) ∈ M.AT.rowOf j
          · obtain ⟨w, hw⟩ := h
            have := List.length_pos_of_mem (show (q, w) ∈ mids q (M.AT.rowOf j) from List.mem_filter.mpr ⟨hw, by simp⟩)
            have := missing_cons (q, v) (M.AT.rowOf j) ((M.AT.seg (pos + 1) cnt).filter (fun p => !(M.s.rtag p.1).inactive))
            omega
          · rw [missing_new (fun p hp e => h ⟨p.2, by have e : p.1 = q := e; rw [← e]; exact hp⟩)] at hroom
            omega)
      rw [hseg] at this
      obtain ⟨M', b', h1, h2, h3, h4, h5⟩ := this
      exact ⟨M', b', h1, h2, h3, h4.trans f5,
        ⟨h5.m.trans f7.m, h5.nAlloc.trans f7.nAlloc, h5.ps.trans f7.ps, fun r hr => (h5.pe r hr).trans (f7.pe r hr),
          fun r hr h => (h5.rows r (by rw [f7.m]; exact hr) h).trans (f7.rows r hr h),
          fun c hc => (h5.cell c (by rw [f7.ps]; exact hc)).trans (f7.cell c hc)⟩⟩

/-! ## The whole substitution -/

theorem missing_sublist {l1 l2 l3 : List Cell} (h : l2.Sublist l3) : missing l1 l2 ≤ missing l1 l3 :=
  (h.filter _).length_le

/-- The end of `execute_substitution`, `/repo/src/explorers/DtonsEq.c:627-647`. -/
def execEnd (s : St) (i j k : ℕ) (rowCells : List Cell) (aik ck : ℚ) (len : ℤ) (cells : List Cell) : St :=
  let s :=
    if s.colSize j = 0 then
      let s := s.check (!(s.ctag j).inactive && !s.emptyCols.contains j)
      { s with emptyCols := s.emptyCols ++ [j] }
    else if s.colSize j = 1 then
      let s := s.check (!(s.ctag j).inactive && !s.stonCols.contains j)
      { s with stonCols := s.stonCols ++ [j] }
    else s
  let s := { s with ctag := upd s.ctag k { fixed := true, subst := true }
                    colSize := upd s.colSize k (-1) }
  let s := s.check (decide (s.colSize j = len))
  let l := countLocks s.rtag cells
  let s := { s with up := upd s.up j l.1, down := upd s.down j l.2 }
  let s := s.save (.subCol k rowCells (s.rhs i) i ck)
  s.save (.deletedRow i (ck / aik))

theorem execEnd_withM (s : St) (A AT : ℕ → List Cell) (i j k : ℕ) (rowCells : List Cell) (aik ck : ℚ) (len : ℤ)
    (cells : List Cell) :
    execEnd (s.withM A AT) i j k rowCells aik ck len cells = (execEnd s i j k rowCells aik ck len cells).withM A AT := by
  unfold execEnd
  by_cases h0 : s.colSize j = 0
  · simp only [if_pos h0, if_pos (show (s.withM A AT).colSize j = 0 from h0)]; rfl
  · by_cases h1 : s.colSize j = 1
    · simp only [if_neg h0, if_neg (show ¬ (s.withM A AT).colSize j = 0 from h0), if_pos h1,
        if_pos (show (s.withM A AT).colSize j = 1 from h1)]; rfl
    · simp only [if_neg h0, if_neg (show ¬ (s.withM A AT).colSize j = 0 from h0), if_neg h1,
        if_neg (show ¬ (s.withM A AT).colSize j = 1 from h1)]; rfl

theorem execEnd_frame (s : St) (i j k : ℕ) (rowCells : List Cell) (aik ck : ℚ) (len : ℤ) (cells : List Cell) :
    (execEnd s i j k rowCells aik ck len cells).m = s.m ∧ (execEnd s i j k rowCells aik ck len cells).n = s.n := by
  unfold execEnd
  by_cases h0 : s.colSize j = 0
  · simp only [if_pos h0]; exact ⟨rfl, rfl⟩
  · by_cases h1 : s.colSize j = 1
    · simp only [if_neg h0, if_pos h1]; exact ⟨rfl, rfl⟩
    · simp only [if_neg h0, if_neg h1]; exact ⟨rfl, rfl⟩

theorem Arrays.dtonExecute_eq {M N : Arrays} {T : Mat ℚ} {i j k : ℕ} {aij aik ck : ℚ} {rowCells : List Cell}
    {buf b : List ℕ} (e : M.AT.removeCoeff j i = some T)
    (h : Arrays.substLoop i j k aij aik (M.AT.ps k) (M.AT.pe k - M.AT.ps k)
      (⟨{ M.s with colSize := upd M.s.colSize j (M.s.colSize j - 1) }, M.A, T.setRange k (T.ps k) (T.ps k)⟩, buf) = some (N, b)) :
    M.dtonExecute i rowCells j k aij aik buf ck =
      some (⟨execEnd N.s i j k rowCells aik ck ((N.AT.pe j : ℤ) - N.AT.ps j) (N.AT.rowOf j), N.A, N.AT⟩, b) := by
  unfold Arrays.dtonExecute
  simp only [e, Option.bind_eq_bind, Option.bind_some]
  rw [h]
  rfl

theorem dtonExecute_list {s : St} {i j k : ℕ} {aij aik ck : ℚ} {rowCells : List Cell} {buf : List ℕ} {r : St × List ℕ}
    (hany : (s.AT j).any (fun p => decide (p.1 = i)) = true)
    (h : (s.AT k).foldl (dtonSubstRow i j k aij aik)
      ({ s with AT := upd (upd s.AT j (dropCell i (s.AT j))) k [],
                colSize := upd s.colSize j (s.colSize j - 1) }, buf) = r) :
    Verif.dtonExecute s i rowCells j k aij aik buf ck =
      (execEnd r.1 i j k rowCells aik ck ((r.1.AT j).length : ℤ) (r.1.AT j), r.2) := by
  have hf : s.flag (!(s.AT j).any (fun p => decide (p.1 = i))) = s := by
    rw [hany]; simp [St.flag]
  unfold Verif.dtonExecute
  simp only [hf]
  rw [h]
  unfold execEnd
  by_cases h0 : r.1.colSize j = 0
  · simp only [if_pos h0]; rfl
  · by_cases h1 : r.1.colSize j = 1
    · simp only [if_neg h0, if_pos h1]; rfl
    · simp only [if_neg h0, if_neg h1]; rfl

theorem Arrays.dtonExecute_step {M : Arrays} (ok : M.OK) {i j k : ℕ} {aij aik : ℚ} (rowCells : List Cell)
    (buf : List ℕ) (ck : ℚ) (hjk : j ≠ k) (hj : j < M.AT.m) (hk : k < M.AT.m)
    (hi : (M.s.rtag i).inactive = true) (hcol : SortedC (M.AT.rowOf j)) (hij : ∃ w, (i, w) ∈ M.AT.rowOf j)
    (hnext : M.AT.pe j < M.AT.nAlloc) (hnd : ((M.AT.rowOf k).map Prod.fst).Nodup)
    (hrows : ∀ q, Hit M.s (M.AT.rowOf k) q → SortedC (M.A.rowOf q) ∧ (∃ a, (k, a) ∈ M.A.rowOf q) ∧
      RowFits j k (aij / aik) (M.A.rowOf q) ∧
      (|newCoef j k (aij / aik) (M.A.rowOf q)| ≤ ZERO_TOL → ∃ w, (q, w) ∈ M.AT.rowOf j))
    (hroom : M.AT.pe j + missing (M.AT.rowOf j) (M.AT.rowOf k) ≤ M.AT.ps (j + 1) + 1) :
    ∃ M' buf', M.dtonExecute i rowCells j k aij aik buf ck = some (M', buf') ∧ M'.OK ∧
      Verif.dtonExecute M.view i rowCells j k aij aik buf ck = (M'.view, buf') ∧
      M'.A.m = M.A.m ∧ M'.AT.m = M.AT.m := by
  obtain ⟨w, hw⟩ := hij
  obtain ⟨T, e, t1, t2, t3, -, t4, -, t5, t6, t7, t8, t9⟩ :=
    C18_remove_coeff_partial M.AT ok.layT j i w hj hcol hw hnext
  have hlk := ok.layT.le k hk
  have hnk := ok.layT.next k hk
  have hak := ok.layT.pe_le_alloc hk
  -- the transpose in which column `k` is empty
  set T1 := T.setRange k (T.ps k) (T.ps k) with hT1
  have q1 : T1.m = M.AT.m := t4
  have q2 : T1.ps = M.AT.ps := by
    show Function.update T.ps k (T.ps k) = _
    rw [Function.update_eq_self, t6]
  have q3 : T1.pe = Function.update T.pe k (T.ps k) := rfl
  have q4 : T1.nAlloc = M.AT.nAlloc := t5
  have q5 : T1.cell = T.cell := rfl
  have lay : T1.Layout := by
    refine ⟨fun r hr => ?_, fun r hr => ?_, by rw [q2, q1, q4]; exact ok.layT.alloc⟩
    · rw [q2, q3]
      by_cases h : r = k
      · subst h; rw [Function.update_self, t6]
      · rw [Function.update_of_ne h]; have := t1.le r (by rw [t4, ← q1]; exact hr); rw [t6] at this; exact this
    · rw [q2, q3]
      by_cases h : r = k
      · subst h; rw [Function.update_self, t6]; omega
      · rw [Function.update_of_ne h]; have := t1.next r (by rw [t4, ← q1]; exact hr); rw [t6] at this; exact this
  have rk : T1.rowOf k = [] := by
    unfold Mat.rowOf
    rw [q2, q3, Function.update_self, t6]; simp
  have rother : ∀ r, r ≠ k → T1.rowOf r = T.rowOf r := fun r hr =>
    rowOf_congr (by rw [q2, t6]) (by rw [q3, Function.update_of_ne hr]) (fun _ _ _ => rfl)
  have rj : T1.rowOf j = delSpec (M.AT.rowOf j) i := by rw [rother j hjk, t2]
  have hseg : T1.seg (M.AT.ps k) (M.AT.pe k - M.AT.ps k) = M.AT.rowOf k := by
    rw [Mat.rowOf_seg]
    refine Mat.seg_congr (fun c h1 h2 => ?_)
    rw [q5]
    apply t9
    rcases Nat.lt_or_gt_of_ne hjk with h | h
    · right; have := ok.layT.pe_le_ps h (le_of_lt hk); omega
    · left; have := ok.layT.pe_le_ps h (le_of_lt hj); omega
  have lists : T1.lists = upd (upd M.AT.lists j (dropCell i (M.AT.rowOf j))) k [] := by
    have d : dropCell i (M.AT.rowOf j) = delSpec (M.AT.rowOf j) i := dropCell_eq hcol.nodup
    rw [d]
    funext r
    by_cases h : r = k
    · subst h; rw [upd_same]; unfold Mat.lists; split
      · exact rk
      · rfl
    · rw [upd_ne _ _ h]
      by_cases h' : r = j
      · subst h'; rw [upd_same, Mat.lists_of (by rw [q1]; exact hj), rj]
      · rw [upd_ne _ _ h']
        unfold Mat.lists
        rw [q1]
        split
        · rw [rother r h, t3 r ‹_› h']
        · rfl
  set s1 : St := { M.s with colSize := upd M.s.colSize j (M.s.colSize j - 1) } with hs1
  have inT : ∀ r < M.AT.m, ∀ p ∈ T1.rowOf r, p.1 < M.A.m := by
    intro r hr p hp
    by_cases h : r = k
    · subst h; rw [rk] at hp; cases hp
    · by_cases h' : r = j
      · subst h'; rw [rj] at hp; exact ok.inT r hr p (List.mem_filter.mp hp).1
      · rw [rother r h, t3 r hr h'] at hp; exact ok.inT r hr p hp
  have ok1 : Arrays.OK ⟨s1, M.A, T1⟩ := ok.setT rfl rfl q1 lay inT
  have hmem : ∀ q, q ≠ i → ∀ x, (q, x) ∈ T1.rowOf j ↔ (q, x) ∈ M.AT.rowOf j := by
    intro q hq x
    rw [rj]
    simp [delSpec, hq]
  have hpe : T1.pe j + 1 = M.AT.pe j := by rw [q3, Function.update_of_ne hjk]; exact t7
  obtain ⟨N, b, n1, n2, n3, n4, n5⟩ := Arrays.substLoop_step (i := i) (aij := aij) (aik := aik) hjk
    (M.AT.pe k - M.AT.ps k) ⟨s1, M.A, T1⟩ buf (M.AT.ps k) ok1 (by rw [q1]; exact hj)
    (by show _ ≤ T1.nAlloc; rw [q4]; omega)
    (by
      show _ ≤ T1.ps j ∨ T1.ps (j + 1) ≤ _
      rw [q2]
      rcases Nat.lt_or_gt_of_ne hjk with h | h
      · right; exact ok.layT.ps_mono (by omega) (le_of_lt hk)
      · left; have := ok.layT.pe_le_ps h (le_of_lt hj); omega)
    (by rw [hseg]; exact fun p hp => ok.inT k hk p hp)
    (by rw [hseg]; exact hnd)
    (fun q hq => by
      rw [hseg] at hq
      obtain ⟨a1, a2, a3, a4⟩ := hrows q hq
      have hqi : q ≠ i := by
        rintro rfl
        have := hq.2
        rw [show s1.rtag = M.s.rtag from rfl, hi] at this; cases this
      exact ⟨a1, a2, a3, fun h => by obtain ⟨x, hx⟩ := a4 h; exact ⟨x, (hmem q hqi x).mpr hx⟩⟩)
    (by rw [rj]; exact sorted_delSpec hcol i)
    (by
      show T1.pe j + missing (T1.rowOf j) _ ≤ T1.ps (j + 1)
      rw [hseg, q2, missing_congr (l1 := M.AT.rowOf j) (fun p hp => exists_congr (hmem p.1 ?_))]
      · refine le_trans (Nat.add_le_add_left (missing_sublist List.filter_sublist) _) ?_
        omega
      · rintro rfl
        have := (List.mem_filter.mp hp).2
        rw [show s1.rtag = M.s.rtag from rfl, hi] at this
        simp at this)
  rw [hseg] at n3
  have hjN : j < N.AT.m := by rw [n5.m]; show j < T1.m; rw [q1]; exact hj
  have hvj : N.view.AT j = N.AT.rowOf j := Mat.lists_of hjN
  have hany : (M.view.AT j).any (fun p => decide (p.1 = i)) = true := by
    rw [List.any_eq_true]
    exact ⟨(i, w), by show _ ∈ M.AT.lists j; rw [Mat.lists_of hj]; exact hw, by simp⟩
  have hlenN := Mat.rowOf_len n2.layT hjN
  obtain ⟨x1, x2⟩ := execEnd_frame N.s i j k rowCells aik ck ((N.AT.pe j : ℤ) - N.AT.ps j) (N.AT.rowOf j)
  refine ⟨_, b, Arrays.dtonExecute_eq e n1, ?_, ?_, n4, n5.m.trans q1⟩
  · exact ⟨n2.rows.trans x1.symm, n2.cols.trans x2.symm, n2.layA, n2.layT, n2.inA, n2.inT⟩
  · have hv0 : M.view.AT j = M.AT.rowOf j := Mat.lists_of hj
    have hvk : M.view.AT k = M.AT.rowOf k := Mat.lists_of hk
    rw [dtonExecute_list (s := M.view) (r := (N.view, b)) hany (by
      rw [hv0, hvk, ← n3]
      exact congrArg (fun f => List.foldl (dtonSubstRow i j k aij aik) (s1.withM M.A.lists f, buf)
        (M.AT.rowOf k)) lists.symm)]
    simp only
    rw [hvj, hlenN]
    exact congrArg (·, b) (execEnd_withM N.s N.A.lists N.AT.lists i j k rowCells aik ck _ _)

end Verif
