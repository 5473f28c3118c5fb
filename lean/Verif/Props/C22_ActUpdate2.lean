import Verif.Props.C22_ActUpdate
import Verif.Lemmas.EnvEx
import Mathlib.Tactic.Positivity

/-!
# C22, continued: column singletons, relaxed bounds, merged columns, and the counterexamples
-/

namespace Verif

/-- `x0 + x1 = 4`, `x1 + x2 ≤ 5`, `x0 + x2 ≤ 20` with `x0, x2 ∈ [0,10]` and `x1` free. -/
def exStale : LP where
  m := 3
  n := 3
  A := ofList [[(0, 1), (1, 1)], [(1, 1), (2, 1)], [(0, 1), (2, 1)]] []
  lhs := ofList [.fin 4, .ninf, .ninf] .ninf
  rhs := ofList [.fin 4, .fin 5, .fin 20] .pinf
  lb := ofList [.fin 0, .ninf, .fin 0] .ninf
  ub := ofList [.fin 10, .pinf, .fin 10] .pinf
  c := fun _ => 0

/-- **C22 fails for coefficient changes.**  All activities agree with recomputation at the start;
after the doubleton elimination of `exStale` row 1 has no infinite contribution to its maximal
activity but a stored maximum different from the recomputed one. -/
theorem C22_coeff_change_fails :
    (∀ i < 3, Recomputed ((initSt exStale).act i) (initSt exStale).ctag (initSt exStale).lb
      (initSt exStale).ub ((initSt exStale).A i)) ∧
    let s := removeDtonRows envEx (initSt exStale)
    (s.rtag 1).inactive = false ∧ ((s.act 1).nInfMax = 0) ∧ (s.act 1).max = .fin 0 ∧
    (actInit s.ctag s.lb s.ub (s.A 1)).max = .fin 10 ∧
    ¬ Recomputed (s.act 1) s.ctag s.lb s.ub (s.A 1) := by
  decide +kernel

/-- The hypotheses of `C22_coeff_change_partial` are met by a row `x0 + 2 x1` from which `x1`
disappears, with `x0` getting coefficient `-1`. -/
example : Recomputed
    ((dtonAct { initSt exStale with
        A := ofList [[], [(0, -1)]] [], act := fun _ => ⟨.fin 0, .fin 30, 0, 0, .added⟩
        ctag := fun _ => {}, lb := fun _ => .fin 0, ub := fun _ => .fin 10 } 1 0 1
      ⟨[(0, -1)], 1, 2, -1⟩).act 1) (fun _ => {}) (fun _ => .fin 0) (fun _ => .fin 10) [(0, -1)] :=
  (C22_coeff_change_partial { initSt exStale with
      A := ofList [[], [(0, -1)]] [], act := fun _ => ⟨.fin 0, .fin 30, 0, 0, .added⟩
      ctag := fun _ => {}, lb := fun _ => .fin 0, ub := fun _ => .fin 10 } 1 0 1
    ⟨[(0, -1)], 1, 2, -1⟩ [(0, 1), (1, 2)] [] (by simp [optCell]) (by simp [optCell, ofList])
    (by norm_num) (by intro p _; simp) (by intro p _; simp) (by simp)
    (by decide +kernel)).2.2.2 (by simp) (by simp)

/-! ### Removing the cell of a column singleton -/

section
variable {ctag : ℕ → CTag} {lb ub : ℕ → D} {l1 l2 : List Cell} {k : ℕ} {q : ℚ}

theorem drop_counts (ha : ActOK a ctag lb ub (l1 ++ (k, q) :: l2)) :
    a.nInfMin = ((l1 ++ l2).countP (unbMin ctag) : ℤ) + (if unbMin ctag (k, q) then 1 else 0) ∧
    a.nInfMax = ((l1 ++ l2).countP (unbMax ctag) : ℤ) + (if unbMax ctag (k, q) then 1 else 0) ∧
    (a.nInfMin = 0 → a.min = .fin (((l1 ++ l2).map (minTerm lb ub)).sum + minTerm lb ub (k, q))) ∧
    (a.nInfMax = 0 → a.max = .fin (((l1 ++ l2).map (maxTerm lb ub)).sum + maxTerm lb ub (k, q))) := by
  refine ⟨?_, ?_, ?_, ?_⟩
  · rw [ha.nmin]; simp only [List.countP_append, List.countP_cons]; push_cast; split <;> ring
  · rw [ha.nmax]; simp only [List.countP_append, List.countP_cons]; push_cast; split <;> ring
  · intro h; rw [ha.min h]; congr 1
    simp only [List.map_append, List.map_cons, List.sum_append, List.sum_cons]; ring
  · intro h; rw [ha.max h]; congr 1
    simp only [List.map_append, List.map_cons, List.sum_append, List.sum_cons]; ring

theorem actDropMinFin_ok {a : Act} {finB otherB : ℚ} {other : D} {inf : Bool}
    (hok : ColsOK ctag lb ub (l1 ++ l2)) (ha : ActOK a ctag lb ub (l1 ++ (k, q) :: l2))
    (h1 : unbMin ctag (k, q) = false) (h2 : unbMax ctag (k, q) = inf)
    (h3 : minTerm lb ub (k, q) = q * finB)
    (h4 : inf = false → other = .fin otherB ∧ maxTerm lb ub (k, q) = q * otherB) :
    ActOK (actDropMinFin a q (.fin finB) other inf lb ub (l1 ++ l2)) ctag lb ub (l1 ++ l2) := by
  obtain ⟨c1, c2, c3, c4⟩ := drop_counts ha
  rw [h1] at c1; rw [h2] at c2; rw [h3] at c3
  simp only [Bool.false_eq_true, if_false, add_zero] at c1
  unfold actDropMinFin
  cases inf with
  | false =>
    obtain ⟨rfl, h5⟩ := h4 rfl
    rw [h5] at c4
    simp only [Bool.false_eq_true, if_false, add_zero] at c2
    by_cases e1 : a.nInfMin = 0 <;> by_cases e2 : a.nInfMax = 0 <;> simp only [e1, e2, if_true, if_false, Bool.false_eq_true]
    · exact ⟨by simpa [e1] using c1, by simpa [e2] using c2, fun _ => by simp [c3 e1], fun _ => by simp [c4 e2]⟩
    · exact ⟨by simpa [e1] using c1, c2, fun _ => by simp [c3 e1], fun h => absurd h e2⟩
    · exact ⟨c1, by simpa [e2] using c2, fun h => absurd h e1, fun _ => by simp [c4 e2]⟩
    · exact ⟨c1, c2, fun h => absurd h e1, fun h => absurd h e2⟩
  | true =>
    simp only [if_true] at c2 ⊢
    by_cases e1 : a.nInfMin = 0 <;> by_cases e2 : a.nInfMax - 1 = 0 <;> simp only [e1, e2, if_true, if_false]
    · have hz : ((l1 ++ l2).countP (unbMax ctag) : ℤ) = 0 := by omega
      exact ⟨by simpa [e1] using c1, by simp only; omega, fun _ => by simp [c3 e1],
        fun _ => maxActNoTags_eq hok (countP_zero_all hz)⟩
    · exact ⟨by simpa [e1] using c1, by simp only; omega, fun _ => by simp [c3 e1], fun h => absurd h e2⟩
    · have hz : ((l1 ++ l2).countP (unbMax ctag) : ℤ) = 0 := by omega
      exact ⟨c1, by simp only; omega, fun h => absurd h e1,
        fun _ => maxActNoTags_eq hok (countP_zero_all hz)⟩
    · exact ⟨c1, by simp only; omega, fun h => absurd h e1, fun h => absurd h e2⟩

theorem actDropMaxFin_ok {a : Act} {finB otherB : ℚ} {other : D} {inf : Bool}
    (hok : ColsOK ctag lb ub (l1 ++ l2)) (ha : ActOK a ctag lb ub (l1 ++ (k, q) :: l2))
    (h1 : unbMax ctag (k, q) = false) (h2 : unbMin ctag (k, q) = inf)
    (h3 : maxTerm lb ub (k, q) = q * finB)
    (h4 : inf = false → other = .fin otherB ∧ minTerm lb ub (k, q) = q * otherB) :
    ActOK (actDropMaxFin a q (.fin finB) other inf lb ub (l1 ++ l2)) ctag lb ub (l1 ++ l2) := by
  obtain ⟨c1, c2, c3, c4⟩ := drop_counts ha
  rw [h1] at c2; rw [h2] at c1; rw [h3] at c4
  simp only [Bool.false_eq_true, if_false, add_zero] at c2
  unfold actDropMaxFin
  cases inf with
  | false =>
    obtain ⟨rfl, h5⟩ := h4 rfl
    rw [h5] at c3
    simp only [Bool.false_eq_true, if_false, add_zero] at c1
    by_cases e1 : a.nInfMax = 0 <;> by_cases e2 : a.nInfMin = 0 <;> simp only [e1, e2, if_true, if_false, Bool.false_eq_true]
    · exact ⟨by simpa [e2] using c1, by simpa [e1] using c2, fun _ => by simp [c3 e2], fun _ => by simp [c4 e1]⟩
    · exact ⟨c1, by simpa [e1] using c2, fun h => absurd h e2, fun _ => by simp [c4 e1]⟩
    · exact ⟨by simpa [e2] using c1, c2, fun _ => by simp [c3 e2], fun h => absurd h e1⟩
    · exact ⟨c1, c2, fun h => absurd h e2, fun h => absurd h e1⟩
  | true =>
    simp only [if_true] at c1 ⊢
    by_cases e1 : a.nInfMax = 0 <;> by_cases e2 : a.nInfMin - 1 = 0 <;> simp only [e1, e2, if_true, if_false]
    · have hz : ((l1 ++ l2).countP (unbMin ctag) : ℤ) = 0 := by omega
      exact ⟨by simp only; omega, by simpa [e1] using c2,
        fun _ => minActNoTags_eq hok (countP_zero_all hz), fun _ => by simp [c4 e1]⟩
    · exact ⟨by simp only; omega, by simpa [e1] using c2, fun h => absurd h e2, fun _ => by simp [c4 e1]⟩
    · have hz : ((l1 ++ l2).countP (unbMin ctag) : ℤ) = 0 := by omega
      exact ⟨by simp only; omega, c2,
        fun _ => minActNoTags_eq hok (countP_zero_all hz), fun h => absurd h e1⟩
    · exact ⟨by simp only; omega, c2, fun h => absurd h e2, fun h => absurd h e1⟩
end

/-- The row after `remove_coeff`. -/
theorem dropCell_split {l1 l2 : List Cell} {k : ℕ} {q : ℚ} (h : NoCol k l1) :
    dropCell k (l1 ++ (k, q) :: l2) = l1 ++ l2 := by
  unfold dropCell
  rw [List.eraseP_append_right]
  · simp
  · intro p hp; simpa using h p hp

theorem foldl_addLock_frame {β : Type} (f : St → β) (hf : ∀ s k a b, f (s.addLock k a b) = f s)
    (g : Cell → St → St) (hg : ∀ p s, ∃ k a b, g p s = s.addLock k a b) (cells : List Cell) (s : St) :
    f (cells.foldl (fun s p => g p s) s) = f s := by
  induction cells generalizing s with
  | nil => rfl
  | cons p l ih =>
    rw [List.foldl_cons, ih]
    obtain ⟨k, a, b, e⟩ := hg p s
    rw [e, hf]

theorem locksEqToIneq_frame {β : Type} (f : St → β) (hf : ∀ s k a b, f (s.addLock k a b) = f s)
    (s : St) (cells : List Cell) (up : Bool) : f (locksEqToIneq s cells up) = f s := by
  unfold locksEqToIneq
  apply foldl_addLock_frame f hf (fun p s => if up then (if 0 < p.2 then s.addLock p.1 0 (-1)
    else s.addLock p.1 (-1) 0) else (if 0 < p.2 then s.addLock p.1 (-1) 0 else s.addLock p.1 0 (-1)))
  intro p s
  split <;> split <;> exact ⟨_, _, _, rfl⟩

/-- **C22 (column singleton of an equality row, implied free from above).**  Removing the cell of
column `k` leaves an activity that agrees with the shortened row. -/
theorem C22_ston_above (s : St) (i k : ℕ) (q ck : ℚ) (l1 l2 : List Cell)
    (hrow : s.A i = l1 ++ (k, q) :: l2) (hno : NoCol k l1) (hq : q ≠ 0)
    (hlb : (s.ctag k).lbInf = false) (hok : ColsOK s.ctag s.lb s.ub (s.A i))
    (ha : Recomputed (s.act i) s.ctag s.lb s.ub (s.A i)) :
    (implFreeAboveEq s i k q ck).A i = l1 ++ l2 ∧
    Recomputed ((implFreeAboveEq s i k q ck).act i) s.ctag s.lb s.ub (l1 ++ l2) := by
  rw [recomputed_iff hok] at ha
  rw [hrow] at ha hok
  have hok' : ColsOK s.ctag s.lb s.ub (l1 ++ l2) := by
    intro p hp; apply hok; simp at hp ⊢; tauto
  rw [recomputed_iff hok']
  obtain ⟨hf1, hf2⟩ := hok (k, q) (by simp)
  obtain ⟨lbq, hlbq⟩ := hf1 hlb
  have hA : dropCell k (s.A i) = l1 ++ l2 := by rw [hrow]; exact dropCell_split hno
  by_cases hp : 0 < q
  · constructor
    · simp [implFreeAboveEq, hp, eqToIneqSide, locksEqToIneq_frame St.A (fun _ _ _ _ => rfl),
        removeCoeffH, St.save, St.check, St.flag, hA]
    · have key := actDropMinFin_ok (a := s.act i) (finB := lbq) (otherB := (s.ub k).toQ)
        (other := s.ub k) (inf := (s.ctag k).ubInf) hok' ha (by simp [unbMin, hp, hlb])
        (by simp [unbMax, hp]) (by simp [minTerm, hp, hlbq])
        (fun h => ⟨hf2.eq h, by simp [maxTerm, hp]⟩)
      simpa [implFreeAboveEq, hp, eqToIneqSide, locksEqToIneq_frame St.A (fun _ _ _ _ => rfl),
        locksEqToIneq_frame St.lb (fun _ _ _ _ => rfl), locksEqToIneq_frame St.ub (fun _ _ _ _ => rfl),
        locksEqToIneq_frame St.act (fun _ _ _ _ => rfl),
        removeCoeffH, St.save, St.check, St.flag, hA, hlbq] using key
  · have hn : q < 0 := lt_of_le_of_ne (not_lt.mp hp) hq
    constructor
    · simp [implFreeAboveEq, hp, eqToIneqSide, locksEqToIneq_frame St.A (fun _ _ _ _ => rfl),
        removeCoeffH, St.save, St.check, St.flag, hA]
    · have key := actDropMaxFin_ok (a := s.act i) (finB := lbq) (otherB := (s.ub k).toQ)
        (other := s.ub k) (inf := (s.ctag k).ubInf) hok' ha (by simp [unbMax, hp, hlb])
        (by simp [unbMin, hp]) (by simp [maxTerm, hp, hlbq])
        (fun h => ⟨hf2.eq h, by simp [minTerm, hp]⟩)
      simpa [implFreeAboveEq, hp, eqToIneqSide, locksEqToIneq_frame St.A (fun _ _ _ _ => rfl),
        locksEqToIneq_frame St.lb (fun _ _ _ _ => rfl), locksEqToIneq_frame St.ub (fun _ _ _ _ => rfl),
        locksEqToIneq_frame St.act (fun _ _ _ _ => rfl),
        removeCoeffH, St.save, St.check, St.flag, hA, hlbq] using key

/-- **C22 (column singleton of an equality row, implied free from below).** -/
theorem C22_ston_below (s : St) (i k : ℕ) (q ck : ℚ) (l1 l2 : List Cell)
    (hrow : s.A i = l1 ++ (k, q) :: l2) (hno : NoCol k l1) (hq : q ≠ 0)
    (hub : (s.ctag k).ubInf = false) (hok : ColsOK s.ctag s.lb s.ub (s.A i))
    (ha : Recomputed (s.act i) s.ctag s.lb s.ub (s.A i)) :
    (implFreeBelowEq s i k q ck).A i = l1 ++ l2 ∧
    Recomputed ((implFreeBelowEq s i k q ck).act i) s.ctag s.lb s.ub (l1 ++ l2) := by
  rw [recomputed_iff hok] at ha
  rw [hrow] at ha hok
  have hok' : ColsOK s.ctag s.lb s.ub (l1 ++ l2) := by
    intro p hp; apply hok; simp at hp ⊢; tauto
  rw [recomputed_iff hok']
  obtain ⟨hf1, hf2⟩ := hok (k, q) (by simp)
  obtain ⟨ubq, hubq⟩ := hf2 hub
  have hA : dropCell k (s.A i) = l1 ++ l2 := by rw [hrow]; exact dropCell_split hno
  by_cases hp : 0 < q
  · constructor
    · simp [implFreeBelowEq, hp, not_le.mpr hp, eqToIneqSide, locksEqToIneq_frame St.A (fun _ _ _ _ => rfl),
        removeCoeffH, St.save, St.check, St.flag, hA]
    · have key := actDropMaxFin_ok (a := s.act i) (finB := ubq) (otherB := (s.lb k).toQ)
        (other := s.lb k) (inf := (s.ctag k).lbInf) hok' ha (by simp [unbMax, hp, hub])
        (by simp [unbMin, hp]) (by simp [maxTerm, hp, hubq])
        (fun h => ⟨hf1.eq h, by simp [minTerm, hp]⟩)
      simpa [implFreeBelowEq, hp, not_le.mpr hp, eqToIneqSide, locksEqToIneq_frame St.A (fun _ _ _ _ => rfl),
        locksEqToIneq_frame St.lb (fun _ _ _ _ => rfl), locksEqToIneq_frame St.ub (fun _ _ _ _ => rfl),
        locksEqToIneq_frame St.act (fun _ _ _ _ => rfl),
        removeCoeffH, St.save, St.check, St.flag, hA, hubq] using key
  · have hn : q < 0 := lt_of_le_of_ne (not_lt.mp hp) hq
    constructor
    · simp [implFreeBelowEq, hp, hn.le, eqToIneqSide, locksEqToIneq_frame St.A (fun _ _ _ _ => rfl),
        removeCoeffH, St.save, St.check, St.flag, hA]
    · have key := actDropMinFin_ok (a := s.act i) (finB := ubq) (otherB := (s.lb k).toQ)
        (other := s.lb k) (inf := (s.ctag k).lbInf) hok' ha (by simp [unbMin, hp, hub])
        (by simp [unbMax, hp]) (by simp [minTerm, hp, hubq])
        (fun h => ⟨hf1.eq h, by simp [maxTerm, hp]⟩)
      simpa [implFreeBelowEq, hp, hn.le, eqToIneqSide, locksEqToIneq_frame St.A (fun _ _ _ _ => rfl),
        locksEqToIneq_frame St.lb (fun _ _ _ _ => rfl), locksEqToIneq_frame St.ub (fun _ _ _ _ => rfl),
        locksEqToIneq_frame St.act (fun _ _ _ _ => rfl),
        removeCoeffH, St.save, St.check, St.flag, hA, hubq] using key

/-! ### `fix_col_ston` -/

/-- `x0 + x1 ≤ 3` with `x0, x1 ∈ [0,1]`; fixing `x0` at `0` through `fix_col_ston`. -/
def exFixSton : St :=
  initSt { m := 1, n := 2, A := ofList [[(0, 1), (1, 1)]] [], lhs := fun _ => .ninf
           rhs := fun _ => .fin 3, lb := fun _ => .fin 0, ub := fun _ => .fin 1, c := fun _ => 1 }

/-- **C22 fails for `fix_col_ston`.**  Both stored activities are moved by the same amount
although only one of them contained it: after fixing `x0 = 0` the stored maximum is `2` instead
of `1`. -/
theorem C22_fix_col_ston_fails :
    Recomputed (exFixSton.act 0) exFixSton.ctag exFixSton.lb exFixSton.ub (exFixSton.A 0) ∧
    let s := fixColSton exFixSton 0 0 1 (.fin 0)
    s.A 0 = [(1, 1)] ∧ (s.act 0).nInfMax = 0 ∧ (s.act 0).max = .fin 2 ∧
    (actInit s.ctag s.lb s.ub (s.A 0)).max = .fin 1 := by
  decide +kernel

/-- **C22 (`fix_col_ston`), partial.**  The counts agree with recomputation and the stored
activities are still valid: the minimum is at most, the maximum at least the recomputed one.
Missing: equality (`C22_fix_col_ston_fails`). -/
theorem C22_fix_col_ston_partial (ctag : ℕ → CTag) (lb ub : ℕ → D) (a : Act) (k : ℕ) (q v : ℚ)
    (t : CTag) (l1 l2 : List Cell) (hq : q ≠ 0) (hno : NoCol k l1 ∧ NoCol k l2)
    (ht : t.lbInf = (ctag k).lbInf ∧ t.ubInf = (ctag k).ubInf)
    (hv : Lo (ctag k).lbInf (lb k) v ∧ Hi (ctag k).ubInf (ub k) v)
    (hok : ColsOK ctag lb ub (l1 ++ (k, q) :: l2))
    (ha : Recomputed a ctag lb ub (l1 ++ (k, q) :: l2)) :
    let a' := actFixSton a q (.fin v) t lb ub (l1 ++ l2)
    let b := actInit ctag lb ub (l1 ++ l2)
    a'.nInfMin = b.nInfMin ∧ a'.nInfMax = b.nInfMax ∧
    (a'.nInfMin = 0 → ∃ p r, a'.min = .fin p ∧ b.min = .fin r ∧ p ≤ r) ∧
    (a'.nInfMax = 0 → ∃ p r, a'.max = .fin p ∧ b.max = .fin r ∧ r ≤ p) := by
  rw [recomputed_iff hok] at ha
  have hok' : ColsOK ctag lb ub (l1 ++ l2) := by
    intro p hp; apply hok; simp at hp ⊢; tauto
  obtain ⟨c1, c2, c3, c4⟩ := drop_counts ha
  have u1 : unbMin ctag (k, q) = ((decide (0 < q) && t.lbInf) || (decide (q < 0) && t.ubInf)) := by
    rw [ht.1, ht.2]; unfold unbMin
    rcases lt_or_gt_of_ne hq with h | h
    · simp [h, not_lt.mpr h.le]
    · simp [h, not_lt.mpr h.le]
  have u2 : unbMax ctag (k, q) = ((decide (0 < q) && t.ubInf) || (decide (q < 0) && t.lbInf)) := by
    rw [ht.1, ht.2]; unfold unbMax
    rcases lt_or_gt_of_ne hq with h | h
    · simp [h, not_lt.mpr h.le]
    · simp [h, not_lt.mpr h.le]
  have m1 : unbMin ctag (k, q) = false → minTerm lb ub (k, q) ≤ q * v :=
    fun h => minTerm_le (x := fun _ => v) (p := (k, q)) hv h
  have m2 : unbMax ctag (k, q) = false → q * v ≤ maxTerm lb ub (k, q) :=
    fun h => le_maxTerm (x := fun _ => v) (p := (k, q)) hv h
  intro a' b
  have b1 : b.nInfMin = ((l1 ++ l2).countP (unbMin ctag) : ℤ) := countInfMin_eq _ _
  have b2 : b.nInfMax = ((l1 ++ l2).countP (unbMax ctag) : ℤ) := countInfMax_eq _ _
  have hN : (0 : ℤ) ≤ ((l1 ++ l2).countP (unbMin ctag) : ℤ) := by positivity
  have hM : (0 : ℤ) ≤ ((l1 ++ l2).countP (unbMax ctag) : ℤ) := by positivity
  have b3 : b.nInfMin = 0 → b.min = .fin (((l1 ++ l2).map (minTerm lb ub)).sum) := by
    intro h
    have : countInfMin ctag (l1 ++ l2) = 0 := h
    simp only [b, actInit, this, if_true]
    exact minActNoTags_eq hok' (countP_zero_all (by rw [← b1]; exact h))
  have b4 : b.nInfMax = 0 → b.max = .fin (((l1 ++ l2).map (maxTerm lb ub)).sum) := by
    intro h
    have : countInfMax ctag (l1 ++ l2) = 0 := h
    simp only [b, actInit, this, if_true]
    exact maxActNoTags_eq hok' (countP_zero_all (by rw [← b2]; exact h))
  -- the two halves of the update are independent
  have hmin : a'.nInfMin = (if a.nInfMin = 0 then 0 else if unbMin ctag (k, q) then a.nInfMin - 1
        else a.nInfMin) ∧
      a'.min = (if a.nInfMin = 0 then D.sub a.min (.fin (q * v))
        else if unbMin ctag (k, q) then
          (if a.nInfMin - 1 = 0 then minActNoTags lb ub (l1 ++ l2) else a.min) else a.min) := by
    simp only [a', actFixSton, ← u1, ← u2, D.smul_fin]
    by_cases e1 : a.nInfMin = 0 <;> by_cases e2 : unbMin ctag (k, q) = true <;>
      by_cases e3 : a.nInfMin - 1 = 0 <;> by_cases e4 : a.nInfMax = 0 <;>
      by_cases e5 : unbMax ctag (k, q) = true <;> by_cases e6 : a.nInfMax - 1 = 0 <;>
      simp [e1, e2, e3, e4, e5, e6]
  have hmax : a'.nInfMax = (if a.nInfMax = 0 then 0 else if unbMax ctag (k, q) then a.nInfMax - 1
        else a.nInfMax) ∧
      a'.max = (if a.nInfMax = 0 then D.sub a.max (.fin (q * v))
        else if unbMax ctag (k, q) then
          (if a.nInfMax - 1 = 0 then maxActNoTags lb ub (l1 ++ l2) else a.max) else a.max) := by
    simp only [a', actFixSton, ← u1, ← u2, D.smul_fin]
    by_cases e1 : a.nInfMin = 0 <;> by_cases e2 : unbMin ctag (k, q) = true <;>
      by_cases e3 : a.nInfMin - 1 = 0 <;> by_cases e4 : a.nInfMax = 0 <;>
      by_cases e5 : unbMax ctag (k, q) = true <;> by_cases e6 : a.nInfMax - 1 = 0 <;>
      simp [e1, e2, e3, e4, e5, e6]
  refine ⟨?_, ?_, ?_, ?_⟩
  · rw [hmin.1, b1]
    by_cases e1 : a.nInfMin = 0
    · rw [if_pos e1]
      cases e : unbMin ctag (k, q) <;> simp only [e, if_true, Bool.false_eq_true, if_false] at c1 <;> omega
    · rw [if_neg e1, c1]; split <;> ring
  · rw [hmax.1, b2]
    by_cases e1 : a.nInfMax = 0
    · rw [if_pos e1]
      cases e : unbMax ctag (k, q) <;> simp only [e, if_true, Bool.false_eq_true, if_false] at c2 <;> omega
    · rw [if_neg e1, c2]; split <;> ring
  · intro hz
    rw [hmin.1] at hz
    rw [hmin.2]
    cases e : unbMin ctag (k, q) with
    | false =>
      rw [e] at hz c1
      simp only [Bool.false_eq_true, if_false, add_zero] at hz c1
      have e1 : a.nInfMin = 0 := by
        by_contra hc; rw [if_neg hc] at hz; exact hc hz
      rw [if_pos e1, c3 e1]
      exact ⟨_, _, rfl, b3 (by rw [b1]; omega), by have := m1 e; linarith⟩
    | true =>
      rw [e] at hz c1
      simp only [if_true] at hz c1 ⊢
      have e1 : a.nInfMin ≠ 0 := by omega
      rw [if_neg e1] at hz ⊢
      rw [if_pos hz, minActNoTags_eq hok' (countP_zero_all (by omega))]
      exact ⟨_, _, rfl, b3 (by rw [b1]; omega), le_refl _⟩
  · intro hz
    rw [hmax.1] at hz
    rw [hmax.2]
    cases e : unbMax ctag (k, q) with
    | false =>
      rw [e] at hz c2
      simp only [Bool.false_eq_true, if_false, add_zero] at hz c2
      have e1 : a.nInfMax = 0 := by
        by_contra hc; rw [if_neg hc] at hz; exact hc hz
      rw [if_pos e1, c4 e1]
      exact ⟨_, _, rfl, b4 (by rw [b2]; omega), by have := m2 e; linarith⟩
    | true =>
      rw [e] at hz c2
      simp only [if_true] at hz c2 ⊢
      have e1 : a.nInfMax ≠ 0 := by omega
      rw [if_neg e1] at hz ⊢
      rw [if_pos hz, maxActNoTags_eq hok' (countP_zero_all (by omega))]
      exact ⟨_, _, rfl, b4 (by rw [b2]; omega), le_refl _⟩

/-! ### Dropping a finite bound (`remove_redundant_bounds`) -/

/-- A fold that changes the entry of each listed row once. -/
theorem foldl_upd_get {α : Type} (g : Cell → α → α) (step : (ℕ → α) → Cell → (ℕ → α))
    (hs : ∀ f p, step f p = upd f p.1 (g p (f p.1)) ∨ (step f p = f ∧ g p (f p.1) = f p.1))
    (cells : List Cell) (hnd : (cells.map Prod.fst).Nodup) (f : ℕ → α) (i : ℕ) :
    (∀ q, (i, q) ∈ cells → cells.foldl step f i = g (i, q) (f i)) ∧
    ((∀ p ∈ cells, p.1 ≠ i) → cells.foldl step f i = f i) := by
  have hstep : ∀ f p j, step f p j = if j = p.1 then g p (f p.1) else f j := by
    intro f p j
    rcases hs f p with h | ⟨h, h'⟩
    · rw [h, upd_apply]
    · rw [h, h']; split
      · rename_i e; rw [e]
      · rfl
  induction cells generalizing f with
  | nil => simp
  | cons p l ih =>
    simp only [List.map_cons, List.nodup_cons] at hnd
    obtain ⟨ih1, ih2⟩ := ih hnd.2 (step f p)
    constructor
    · intro q hq
      rw [List.foldl_cons]
      rcases List.mem_cons.mp hq with rfl | hq
      · rw [ih2 (fun r hr e => hnd.1 (List.mem_map.mpr ⟨r, hr, e⟩)), hstep]; simp
      · have : i ≠ p.1 := fun e => hnd.1 (List.mem_map.mpr ⟨(i, q), hq, e⟩)
        rw [ih1 q hq, hstep, if_neg this]
    · intro h
      rw [List.foldl_cons, ih2 (fun r hr => h r (List.mem_cons_of_mem _ hr)), hstep,
        if_neg (fun e => h p List.mem_cons_self e.symm)]

/-- Effect of `removeFiniteLb` on one activity. -/
def dropLbAct (b : D) (p : Cell) (a : Act) : Act :=
  if 0 < p.2 then
    let a := if a.nInfMin = 0 then { a with min := D.sub a.min (D.smul p.2 b) } else a
    { a with nInfMin := a.nInfMin + 1 }
  else if p.2 < 0 then
    let a := if a.nInfMax = 0 then { a with max := D.sub a.max (D.smul p.2 b) } else a
    { a with nInfMax := a.nInfMax + 1 }
  else a

/-- **C22 (lower bound dropped).**  `remove_finite_lb_from_activities` on the column `k` of a
consistent state: every row of the column agrees with recomputation for the new tag. -/
theorem C22_drop_lower (act : ℕ → Act) (ctag : ℕ → CTag) (lb ub : ℕ → D) (A : ℕ → List Cell)
    (col : List Cell) (k i : ℕ) (q : ℚ) (hcol : (col.map Prod.fst).Nodup) (hi : (i, q) ∈ col)
    (hnd : ((A i).map Prod.fst).Nodup) (hmem : (k, q) ∈ A i) (hq : q ≠ 0)
    (hfin : (ctag k).lbInf = false) (hok : ColsOK ctag lb ub (A i))
    (ha : Recomputed (act i) ctag lb ub (A i)) :
    Recomputed (removeFiniteLb act col (lb k) i) (upd ctag k { ctag k with lbInf := true }) lb ub
      (A i) := by
  have hc : ColChange k ctag (upd ctag k { ctag k with lbInf := true }) lb lb ub ub :=
    ⟨fun j hj => (upd_ne _ _ hj).symm, fun _ _ => rfl, fun _ _ => rfl⟩
  have hok' : ColsOK (upd ctag k { ctag k with lbInf := true }) lb ub (A i) :=
    colsOK_change hc hok (by simpa using (hok _ hmem).2)
  rw [recomputed_iff hok] at ha
  rw [recomputed_iff hok']
  have hval : removeFiniteLb act col (lb k) i = dropLbAct (lb k) (i, q) (act i) := by
    unfold removeFiniteLb
    refine (foldl_upd_get (dropLbAct (lb k)) _ ?_ col hcol act i).1 q hi
    intro f p
    unfold dropLbAct
    by_cases h1 : 0 < p.2
    · left; simp only [h1, if_true]
    · by_cases h2 : p.2 < 0
      · left; simp only [h1, h2, if_true, if_false]
      · right; simp only [h1, h2, if_false, and_self]
  rw [hval]
  unfold dropLbAct
  obtain ⟨l1, l2, e, n1, n2⟩ := split_col hnd hmem
  rw [e] at ha ⊢
  have cm1 := countP_unbMin_congr n1 hc.tag
  have cm2 := countP_unbMin_congr n2 hc.tag
  have cx1 := countP_unbMax_congr n1 hc.tag
  have cx2 := countP_unbMax_congr n2 hc.tag
  have a1 := ha.nmin
  have a2 := ha.nmax
  rcases lt_or_gt_of_ne hq with hneg | hpos
  · have hnp : ¬ 0 < q := not_lt.mpr hneg.le
    have hu1 : unbMin (upd ctag k { ctag k with lbInf := true }) (k, q) = unbMin ctag (k, q) := by
      simp [unbMin, hnp]
    have hu2 : unbMax (upd ctag k { ctag k with lbInf := true }) (k, q) = true := by
      simp [unbMax, hnp]
    have hu2' : unbMax ctag (k, q) = false := by simp [unbMax, hnp, hfin]
    simp only [hnp, hneg, if_true, if_false]
    rw [List.countP_append, List.countP_cons] at a1 a2
    simp only [hu2', Bool.false_eq_true, if_false] at a2
    constructor
    · rw [List.countP_append, List.countP_cons, ← cm1, ← cm2, hu1, ← a1]; split <;> rfl
    · rw [List.countP_append, List.countP_cons, ← cx1, ← cx2, hu2]
      simp only [if_true]
      push_cast at a2 ⊢
      split <;> (try simp only) <;> omega
    · intro h
      have h' : (act i).nInfMin = 0 := by revert h; split <;> exact id
      have := ha.min h'
      split <;> exact this
    · intro h
      exfalso
      have : (act i).nInfMax + 1 = 0 := by revert h; split <;> exact id
      omega
  · have hu1 : unbMax (upd ctag k { ctag k with lbInf := true }) (k, q) = unbMax ctag (k, q) := by
      simp [unbMax, hpos]
    have hu2 : unbMin (upd ctag k { ctag k with lbInf := true }) (k, q) = true := by
      simp [unbMin, hpos]
    have hu2' : unbMin ctag (k, q) = false := by simp [unbMin, hpos, hfin]
    simp only [hpos, if_true]
    rw [List.countP_append, List.countP_cons] at a1 a2
    simp only [hu2', Bool.false_eq_true, if_false] at a1
    constructor
    · rw [List.countP_append, List.countP_cons, ← cm1, ← cm2, hu2]
      simp only [if_true]
      push_cast at a1 ⊢
      split <;> (try simp only) <;> omega
    · rw [List.countP_append, List.countP_cons, ← cx1, ← cx2, hu1, ← a2]; split <;> rfl
    · intro h
      exfalso
      have : (act i).nInfMin + 1 = 0 := by revert h; split <;> exact id
      omega
    · intro h
      have h' : (act i).nInfMax = 0 := by revert h; split <;> exact id
      have := ha.max h'
      split <;> exact this

/-- Effect of `removeFiniteUb` on one activity. -/
def dropUbAct (b : D) (p : Cell) (a : Act) : Act :=
  if 0 < p.2 then
    let a := if a.nInfMax = 0 then { a with max := D.sub a.max (D.smul p.2 b) } else a
    { a with nInfMax := a.nInfMax + 1 }
  else if p.2 < 0 then
    let a := if a.nInfMin = 0 then { a with min := D.sub a.min (D.smul p.2 b) } else a
    { a with nInfMin := a.nInfMin + 1 }
  else a

/-- **C22 (upper bound dropped).**  `remove_finite_ub_from_activities`. -/
theorem C22_drop_upper (act : ℕ → Act) (ctag : ℕ → CTag) (lb ub : ℕ → D) (A : ℕ → List Cell)
    (col : List Cell) (k i : ℕ) (q : ℚ) (hcol : (col.map Prod.fst).Nodup) (hi : (i, q) ∈ col)
    (hnd : ((A i).map Prod.fst).Nodup) (hmem : (k, q) ∈ A i) (hq : q ≠ 0)
    (hfin : (ctag k).ubInf = false) (hok : ColsOK ctag lb ub (A i))
    (ha : Recomputed (act i) ctag lb ub (A i)) :
    Recomputed (removeFiniteUb act col (ub k) i) (upd ctag k { ctag k with ubInf := true }) lb ub
      (A i) := by
  have hc : ColChange k ctag (upd ctag k { ctag k with ubInf := true }) lb lb ub ub :=
    ⟨fun j hj => (upd_ne _ _ hj).symm, fun _ _ => rfl, fun _ _ => rfl⟩
  have hok' : ColsOK (upd ctag k { ctag k with ubInf := true }) lb ub (A i) :=
    colsOK_change hc hok (by simpa using (hok _ hmem).1)
  rw [recomputed_iff hok] at ha
  rw [recomputed_iff hok']
  have hval : removeFiniteUb act col (ub k) i = dropUbAct (ub k) (i, q) (act i) := by
    unfold removeFiniteUb
    refine (foldl_upd_get (dropUbAct (ub k)) _ ?_ col hcol act i).1 q hi
    intro f p
    unfold dropUbAct
    by_cases h1 : 0 < p.2
    · left; simp only [h1, if_true]
    · by_cases h2 : p.2 < 0
      · left; simp only [h1, h2, if_true, if_false]
      · right; simp only [h1, h2, if_false, and_self]
  rw [hval]
  unfold dropUbAct
  obtain ⟨l1, l2, e, n1, n2⟩ := split_col hnd hmem
  rw [e] at ha ⊢
  have cm1 := countP_unbMin_congr n1 hc.tag
  have cm2 := countP_unbMin_congr n2 hc.tag
  have cx1 := countP_unbMax_congr n1 hc.tag
  have cx2 := countP_unbMax_congr n2 hc.tag
  have a1 := ha.nmin
  have a2 := ha.nmax
  rcases lt_or_gt_of_ne hq with hneg | hpos
  · have hnp : ¬ 0 < q := not_lt.mpr hneg.le
    have hu1 : unbMax (upd ctag k { ctag k with ubInf := true }) (k, q) = unbMax ctag (k, q) := by
      simp [unbMax, hnp]
    have hu2 : unbMin (upd ctag k { ctag k with ubInf := true }) (k, q) = true := by
      simp [unbMin, hnp]
    have hu2' : unbMin ctag (k, q) = false := by simp [unbMin, hnp, hfin]
    simp only [hnp, hneg, if_true, if_false]
    rw [List.countP_append, List.countP_cons] at a1 a2
    simp only [hu2', Bool.false_eq_true, if_false] at a1
    constructor
    · rw [List.countP_append, List.countP_cons, ← cm1, ← cm2, hu2]
      simp only [if_true]
      push_cast at a1 ⊢
      split <;> (try simp only) <;> omega
    · rw [List.countP_append, List.countP_cons, ← cx1, ← cx2, hu1, ← a2]; split <;> rfl
    · intro h
      exfalso
      have : (act i).nInfMin + 1 = 0 := by revert h; split <;> exact id
      omega
    · intro h
      have h' : (act i).nInfMax = 0 := by revert h; split <;> exact id
      have := ha.max h'
      split <;> exact this
  · have hu1 : unbMin (upd ctag k { ctag k with ubInf := true }) (k, q) = unbMin ctag (k, q) := by
      simp [unbMin, hpos]
    have hu2 : unbMax (upd ctag k { ctag k with ubInf := true }) (k, q) = true := by
      simp [unbMax, hpos]
    have hu2' : unbMax ctag (k, q) = false := by simp [unbMax, hpos, hfin]
    simp only [hpos, if_true]
    rw [List.countP_append, List.countP_cons] at a1 a2
    simp only [hu2', Bool.false_eq_true, if_false] at a2
    constructor
    · rw [List.countP_append, List.countP_cons, ← cm1, ← cm2, hu1, ← a1]; split <;> rfl
    · rw [List.countP_append, List.countP_cons, ← cx1, ← cx2, hu2]
      simp only [if_true]
      push_cast at a2 ⊢
      split <;> (try simp only) <;> omega
    · intro h
      have h' : (act i).nInfMin = 0 := by revert h; split <;> exact id
      have := ha.min h'
      split <;> exact this
    · intro h
      exfalso
      have : (act i).nInfMax + 1 = 0 := by revert h; split <;> exact id
      omega

/-! ### Merged parallel columns -/

/-- The activity is right up to the exact number of infinite contributions: it knows whether
there are any, and the values are right when there are none.  This is what holds between the
merge of two columns and the recount. -/
def RightUpToCount (a : Act) (ctag : ℕ → CTag) (lb ub : ℕ → D) (cells : List Cell) : Prop :=
  (a.nInfMin = 0 ↔ (actInit ctag lb ub cells).nInfMin = 0) ∧
  (a.nInfMax = 0 ↔ (actInit ctag lb ub cells).nInfMax = 0) ∧
  (a.nInfMin = 0 → a.min = (actInit ctag lb ub cells).min) ∧
  (a.nInfMax = 0 → a.max = (actInit ctag lb ub cells).max)

theorem Recomputed.rightUpToCount {a : Act} {ctag : ℕ → CTag} {lb ub : ℕ → D} {cells : List Cell}
    (h : Recomputed a ctag lb ub cells) : RightUpToCount a ctag lb ub cells :=
  ⟨by rw [h.1], by rw [h.2.1], h.2.2.1, h.2.2.2⟩

theorem actInit_min_eq {ctag : ℕ → CTag} {lb ub : ℕ → D} {cells : List Cell}
    (hok : ColsOK ctag lb ub cells) (h : (actInit ctag lb ub cells).nInfMin = 0) :
    (actInit ctag lb ub cells).min = .fin ((cells.map (minTerm lb ub)).sum) := by
  have h' : countInfMin ctag cells = 0 := h
  simp only [actInit, h', if_true]
  exact minActNoTags_eq hok (countP_zero_all (by rw [← countInfMin_eq]; exact h'))

theorem actInit_max_eq {ctag : ℕ → CTag} {lb ub : ℕ → D} {cells : List Cell}
    (hok : ColsOK ctag lb ub cells) (h : (actInit ctag lb ub cells).nInfMax = 0) :
    (actInit ctag lb ub cells).max = .fin ((cells.map (maxTerm lb ub)).sum) := by
  have h' : countInfMax ctag cells = 0 := h
  simp only [actInit, h', if_true]
  exact maxActNoTags_eq hok (countP_zero_all (by rw [← countInfMax_eq]; exact h'))

theorem merge_terms {tj tk : CTag} {lbj ubj lbk ubk : D} {aj ratio : ℚ} (haj : aj ≠ 0)
    (hr : ratio ≠ 0) (h1 : FinIf tj.lbInf lbj) (h2 : FinIf tj.ubInf ubj) (h3 : FinIf tk.lbInf lbk)
    (h4 : FinIf tk.ubInf ubk) (ctag ctag' : ℕ → CTag) (lb ub lb' ub' : ℕ → D) (j k : ℕ)
    (e1 : ctag j = tj) (e2 : ctag k = tk) (e3 : ctag' j = mergeTag ratio tj tk)
    (e4 : lb j = lbj) (e5 : ub j = ubj) (e6 : lb k = lbk) (e7 : ub k = ubk)
    (e8 : lb' j = mergeLb ratio lbj tj lbk ubk tk) (e9 : ub' j = mergeUb ratio ubj tj lbk ubk tk) :
    unbMin ctag' (j, aj) = (unbMin ctag (j, aj) || unbMin ctag (k, ratio * aj)) ∧
    unbMax ctag' (j, aj) = (unbMax ctag (j, aj) || unbMax ctag (k, ratio * aj)) ∧
    (unbMin ctag' (j, aj) = false →
      minTerm lb' ub' (j, aj) = minTerm lb ub (j, aj) + minTerm lb ub (k, ratio * aj)) ∧
    (unbMax ctag' (j, aj) = false →
      maxTerm lb' ub' (j, aj) = maxTerm lb ub (j, aj) + maxTerm lb ub (k, ratio * aj)) := by
  have hpos : 0 < ratio → (0 < ratio * aj ↔ 0 < aj) := fun h => mul_pos_iff_of_pos_left h
  have hneg : ¬ 0 < ratio → (0 < ratio * aj ↔ ¬ 0 < aj) := by
    intro h
    have h : ratio < 0 := lt_of_le_of_ne (not_lt.mp h) hr
    constructor
    · intro hh hc; exact absurd hh (not_lt.mpr (mul_nonpos_of_nonpos_of_nonneg h.le hc.le))
    · intro hh
      exact mul_pos_of_neg_of_neg h (lt_of_le_of_ne (not_lt.mp hh) haj)
  obtain ⟨a1, a2, a3, a4⟩ := tj
  obtain ⟨b1, b2, b3, b4⟩ := tk
  simp only [unbMin, unbMax, minTerm, maxTerm, e1, e2, e3, e4, e5, e6, e7, e8, e9]
  simp only at h1 h2 h3 h4
  by_cases hr0 : 0 < ratio
  · rw [if_congr (hpos hr0) rfl rfl, if_congr (hpos hr0) rfl rfl, if_congr (hpos hr0) rfl rfl,
      if_congr (hpos hr0) rfl rfl]
    by_cases ha0 : 0 < aj <;>
      simp only [ha0, mergeTag, mergeLb, mergeUb, hr0, if_true, if_false, true_and] <;>
      refine ⟨?_, ?_⟩ <;> intro h <;> simp only [Bool.or_eq_false_iff] at h <;>
      obtain ⟨rfl, rfl⟩ := h
    · obtain ⟨_, rfl⟩ := h1 rfl; obtain ⟨_, rfl⟩ := h3 rfl; simp; ring
    · obtain ⟨_, rfl⟩ := h2 rfl; obtain ⟨_, rfl⟩ := h4 rfl; simp; ring
    · obtain ⟨_, rfl⟩ := h2 rfl; obtain ⟨_, rfl⟩ := h4 rfl; simp; ring
    · obtain ⟨_, rfl⟩ := h1 rfl; obtain ⟨_, rfl⟩ := h3 rfl; simp; ring
  · rw [if_congr (hneg hr0) rfl rfl, if_congr (hneg hr0) rfl rfl, if_congr (hneg hr0) rfl rfl,
      if_congr (hneg hr0) rfl rfl]
    by_cases ha0 : 0 < aj <;>
      simp only [ha0, not_true_eq_false, not_false_eq_true, mergeTag, mergeLb, mergeUb, hr0, if_true,
        if_false, true_and] <;>
      refine ⟨?_, ?_⟩ <;> intro h <;> simp only [Bool.or_eq_false_iff] at h <;>
      obtain ⟨rfl, rfl⟩ := h
    · obtain ⟨_, rfl⟩ := h1 rfl; obtain ⟨_, rfl⟩ := h4 rfl; simp; ring
    · obtain ⟨_, rfl⟩ := h2 rfl; obtain ⟨_, rfl⟩ := h3 rfl; simp; ring
    · obtain ⟨_, rfl⟩ := h2 rfl; obtain ⟨_, rfl⟩ := h3 rfl; simp; ring
    · obtain ⟨_, rfl⟩ := h1 rfl; obtain ⟨_, rfl⟩ := h4 rfl; simp; ring

/-- **C22 (merge).**  Merging column `k` into the exactly parallel column `j` keeps the activity
of every row right up to the count, for the row without `k` and the new bounds of `j`. -/
theorem C22_merge (s : St) (i j k : ℕ) (aj ratio : ℚ) (rest : List Cell) (hjk : j ≠ k)
    (hrow : (s.A i).Perm ((j, aj) :: (k, ratio * aj) :: rest)) (hno : NoCol j rest ∧ NoCol k rest)
    (haj : aj ≠ 0) (hr : ratio ≠ 0) (hok : ColsOK s.ctag s.lb s.ub (s.A i))
    (ha : RightUpToCount (s.act i) s.ctag s.lb s.ub (s.A i)) :
    RightUpToCount ((mergeCols s j k ratio).act i) (mergeCols s j k ratio).ctag
      (mergeCols s j k ratio).lb (mergeCols s j k ratio).ub ((j, aj) :: rest) := by
  have hact : (mergeCols s j k ratio).act = s.act := rfl
  set s' := mergeCols s j k ratio with hs'
  have tagj : s'.ctag j = mergeTag ratio (s.ctag j) (s.ctag k) := by
    simp [hs', mergeCols, setColToSubstituted, St.save, St.check, hjk]
  have lbj : s'.lb j = mergeLb ratio (s.lb j) (s.ctag j) (s.lb k) (s.ub k) (s.ctag k) := by
    simp [hs', mergeCols, setColToSubstituted, St.save, St.check]
  have ubj : s'.ub j = mergeUb ratio (s.ub j) (s.ctag j) (s.lb k) (s.ub k) (s.ctag k) := by
    simp [hs', mergeCols, setColToSubstituted, St.save, St.check]
  have tago : ∀ p, p ≠ j → p ≠ k → s'.ctag p = s.ctag p := by
    intro p h1 h2; simp [hs', mergeCols, setColToSubstituted, St.save, St.check, h1, h2]
  have lbo : ∀ p, p ≠ j → s'.lb p = s.lb p := by
    intro p h1; simp [hs', mergeCols, setColToSubstituted, St.save, St.check, h1]
  have ubo : ∀ p, p ≠ j → s'.ub p = s.ub p := by
    intro p h1; simp [hs', mergeCols, setColToSubstituted, St.save, St.check, h1]
  obtain ⟨fj1, fj2⟩ := hok (j, aj) (hrow.symm.subset (by simp))
  obtain ⟨fk1, fk2⟩ := hok (k, ratio * aj) (hrow.symm.subset (by simp))
  obtain ⟨m1, m2, m3, m4⟩ := merge_terms haj hr fj1 fj2 fk1 fk2 s.ctag s'.ctag s.lb s.ub s'.lb s'.ub
    j k rfl rfl tagj rfl rfl rfl rfl lbj ubj
  have r1 : rest.countP (unbMin s'.ctag) = rest.countP (unbMin s.ctag) :=
    List.countP_congr (fun p hp => by unfold unbMin; rw [tago p.1 (hno.1 p hp) (hno.2 p hp)])
  have r2 : rest.countP (unbMax s'.ctag) = rest.countP (unbMax s.ctag) :=
    List.countP_congr (fun p hp => by unfold unbMax; rw [tago p.1 (hno.1 p hp) (hno.2 p hp)])
  have r3 : (rest.map (minTerm s'.lb s'.ub)).sum = (rest.map (minTerm s.lb s.ub)).sum :=
    congrArg List.sum (List.map_congr_left (fun p hp => by
      unfold minTerm; rw [lbo p.1 (hno.1 p hp), ubo p.1 (hno.1 p hp)]))
  have r4 : (rest.map (maxTerm s'.lb s'.ub)).sum = (rest.map (maxTerm s.lb s.ub)).sum :=
    congrArg List.sum (List.map_congr_left (fun p hp => by
      unfold maxTerm; rw [lbo p.1 (hno.1 p hp), ubo p.1 (hno.1 p hp)]))
  have hok' : ColsOK s'.ctag s'.lb s'.ub ((j, aj) :: rest) := by
    intro p hp
    rcases List.mem_cons.mp hp with rfl | hp
    · show FinIf (s'.ctag j).lbInf (s'.lb j) ∧ FinIf (s'.ctag j).ubInf (s'.ub j)
      rw [tagj, lbj, ubj]
      unfold mergeTag mergeLb mergeUb
      constructor <;> split <;> intro h <;> simp only [Bool.or_eq_false_iff] at h <;>
        simp only [h, Bool.or_self, Bool.false_eq_true, if_false]
      · obtain ⟨_, e1⟩ := fj1 h.1; obtain ⟨_, e2⟩ := fk1 h.2
        simp only at e1 e2; rw [e1, e2]; exact ⟨_, rfl⟩
      · obtain ⟨_, e1⟩ := fj1 h.1; obtain ⟨_, e2⟩ := fk2 h.2
        simp only at e1 e2; rw [e1, e2]; exact ⟨_, rfl⟩
      · obtain ⟨_, e1⟩ := fj2 h.1; obtain ⟨_, e2⟩ := fk2 h.2
        simp only at e1 e2; rw [e1, e2]; exact ⟨_, rfl⟩
      · obtain ⟨_, e1⟩ := fj2 h.1; obtain ⟨_, e2⟩ := fk1 h.2
        simp only at e1 e2; rw [e1, e2]; exact ⟨_, rfl⟩
    · rw [tago p.1 (hno.1 p hp) (hno.2 p hp), lbo p.1 (hno.1 p hp), ubo p.1 (hno.1 p hp)]
      exact hok p (hrow.symm.subset (by simp [hp]))
  have n0 : (actInit s.ctag s.lb s.ub (s.A i)).nInfMin = ((s.A i).countP (unbMin s.ctag) : ℤ) :=
    countInfMin_eq _ _
  have x0 : (actInit s.ctag s.lb s.ub (s.A i)).nInfMax = ((s.A i).countP (unbMax s.ctag) : ℤ) :=
    countInfMax_eq _ _
  have n1 : (actInit s'.ctag s'.lb s'.ub ((j, aj) :: rest)).nInfMin =
      (((j, aj) :: rest).countP (unbMin s'.ctag) : ℤ) := countInfMin_eq _ _
  have x1 : (actInit s'.ctag s'.lb s'.ub ((j, aj) :: rest)).nInfMax =
      (((j, aj) :: rest).countP (unbMax s'.ctag) : ℤ) := countInfMax_eq _ _
  rw [hrow.countP_eq] at n0 x0
  simp only [List.countP_cons, r1, r2, m1, m2] at n0 x0 n1 x1
  have hmin : (actInit s.ctag s.lb s.ub (s.A i)).nInfMin = 0 ↔
      (actInit s'.ctag s'.lb s'.ub ((j, aj) :: rest)).nInfMin = 0 := by
    rw [n0, n1]
    cases unbMin s.ctag (j, aj) <;> cases unbMin s.ctag (k, ratio * aj) <;> simp <;> omega
  have hmax : (actInit s.ctag s.lb s.ub (s.A i)).nInfMax = 0 ↔
      (actInit s'.ctag s'.lb s'.ub ((j, aj) :: rest)).nInfMax = 0 := by
    rw [x0, x1]
    cases unbMax s.ctag (j, aj) <;> cases unbMax s.ctag (k, ratio * aj) <;> simp <;> omega
  rw [hact]
  refine ⟨ha.1.trans hmin, ha.2.1.trans hmax, ?_, ?_⟩
  · intro h
    have hz0 := ha.1.mp h
    have hz1 := hmin.mp hz0
    rw [ha.2.2.1 h, actInit_min_eq hok hz0, actInit_min_eq hok' hz1, (hrow.map _).sum_eq]
    have hu : unbMin s'.ctag (j, aj) = false := by
      by_contra hc
      rw [Bool.not_eq_false, m1] at hc
      rw [n1, hc] at hz1
      simp at hz1; omega
    simp only [List.map_cons, List.sum_cons, r3, m3 hu]; congr 1; ring
  · intro h
    have hz0 := ha.2.1.mp h
    have hz1 := hmax.mp hz0
    rw [ha.2.2.2 h, actInit_max_eq hok hz0, actInit_max_eq hok' hz1, (hrow.map _).sum_eq]
    have hu : unbMax s'.ctag (j, aj) = false := by
      by_contra hc
      rw [Bool.not_eq_false, m2] at hc
      rw [x1, hc] at hz1
      simp at hz1; omega
    simp only [List.map_cons, List.sum_cons, r4, m4 hu]; congr 1; ring

/-- **C22 (recount).**  `recompute_n_infs` makes an activity that is right up to the count agree
with recomputation over the columns still in the problem. -/
theorem C22_recount (a : Act) (ctag : ℕ → CTag) (lb ub : ℕ → D) (cells : List Cell)
    (ha : RightUpToCount a ctag lb ub (cells.filter (fun p => !(ctag p.1).inactive))) :
    Recomputed (recomputeNInfs ctag a cells) ctag lb ub
      (cells.filter (fun p => !(ctag p.1).inactive)) :=
  ⟨rfl, rfl, fun h => ha.2.2.1 (ha.1.mpr h), fun h => ha.2.2.2 (ha.2.1.mpr h)⟩

/-- Two parallel columns `x0 ∈ [0,∞)`, `x1 ∈ [1,2]`, row `x0 + 2 x1 ≤ 9`. -/
def exMerge : St := initSt
  { m := 1, n := 2, A := ofList [[(0, 1), (1, 2)]] [], lhs := fun _ => .ninf
    rhs := fun _ => .fin 9, lb := ofList [.fin 0, .fin 1] .ninf
    ub := ofList [.pinf, .fin 2] .pinf, c := fun _ => 0 }

example : RightUpToCount ((mergeCols exMerge 0 1 2).act 0) (mergeCols exMerge 0 1 2).ctag
    (mergeCols exMerge 0 1 2).lb (mergeCols exMerge 0 1 2).ub ((0, 1) :: []) :=
  C22_merge exMerge 0 0 1 1 2 [] (by decide) (by simp [exMerge, initSt, ofList])
    (by constructor <;> intro p hp <;> simp at hp) (by norm_num) (by norm_num)
    (by intro p hp
        simp [exMerge, initSt, ofList] at hp
        rcases hp with rfl | rfl <;> simp [exMerge, initSt, ofList, colTagOf, D.eqb])
    (Recomputed.rightUpToCount (by decide +kernel))

end Verif
