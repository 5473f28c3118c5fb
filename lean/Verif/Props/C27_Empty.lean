import Verif.Lemmas.Bounds
import Verif.Lemmas.EnvEx
import Verif.Model.Driver

/-!
# C27: empty rows and empty columns

`remove_empty_rows` and `remove_empty_cols`
(`/repo/src/explorers/SimpleReductions.c:467-596`).
-/

namespace Verif

/-- Result of dropping the empty rows in the list `l`. -/
structure EmptyRowsOK (s s' : St) (l : List ℕ) : Prop where
  ok : ∀ row ∈ l, SidesTol FEAS_TOL (s.rtag row) (s.lhs row) (s.rhs row) 0
  gone : ∀ row ∈ l, (s'.rtag row).inactive = true ∧ s'.rowSize row = -1
  others : ∀ row, row ∉ l → s'.rtag row = s.rtag row ∧ s'.rowSize row = s.rowSize row
  rest : s'.A = s.A ∧ s'.lhs = s.lhs ∧ s'.rhs = s.rhs ∧ s'.lb = s.lb ∧ s'.ub = s.ub ∧
    s'.ctag = s.ctag ∧ s'.c = s.c ∧ s'.off = s.off
  log : s'.log = (l.map (fun row => Rec.deletedRow row 0)).reverse ++ s.log

/-- **C27, rows.** If the loop stops with `INFEASIBLE` then `0`, the value of an empty row, violates
one of the listed rows; otherwise `0` lies between the sides of every listed row up to
`FEAS_TOL`, exactly these rows leave the problem and their duals are recorded as zero. -/
theorem C27_empty_rows (l : List ℕ) (s : St)
    (hfin : ∀ row ∈ l, FinIf (s.rtag row).lhsInf (s.lhs row) ∧ FinIf (s.rtag row).rhsInf (s.rhs row)) :
    let r := emptyRowLoop l s
    (r.2 = INFEASIBLE ∧ ∃ row ∈ l, ¬ Sides (s.rtag row) (s.lhs row) (s.rhs row) 0) ∨
    (r.2 = UNCHANGED ∧ EmptyRowsOK s r.1 l) := by
  induction l generalizing s with
  | nil =>
    right
    exact ⟨rfl, by simp, by simp, by intro row _; simp [emptyRowLoop], by simp [emptyRowLoop],
      by simp [emptyRowLoop]⟩
  | cons row rest ih =>
    have hε := FEAS_TOL_pos
    intro r
    obtain ⟨hr⟩ : Nonempty (r = emptyRowLoop (row :: rest) s) := ⟨rfl⟩
    clear_value r
    unfold emptyRowLoop at hr
    simp only at hr
    obtain ⟨hl, hh⟩ := hfin row (by simp)
    split at hr
    · left
      rename_i hc
      subst hr
      refine ⟨rfl, row, by simp, ?_⟩
      intro hsd
      have hc : ((!(s.rtag row).lhsInf && D.le (.fin FEAS_TOL) (s.lhs row)) ||
        (!(s.rtag row).rhsInf && D.le (s.rhs row) (.fin (-FEAS_TOL)))) = true := hc
      simp only [Bool.or_eq_true, Bool.and_eq_true, Bool.not_eq_true'] at hc
      rcases hc with ⟨hi, hle⟩ | ⟨hi, hle⟩
      · obtain ⟨q, e⟩ := hl hi
        have := hsd.1
        rw [hi, e, Lo_fin] at this
        rw [e] at hle
        simp only [D.le_fin, decide_eq_true_eq] at hle
        linarith
      · obtain ⟨q, e⟩ := hh hi
        have := hsd.2
        rw [hi, e, Hi_fin] at this
        rw [e] at hle
        simp only [D.le_fin, decide_eq_true_eq] at hle
        linarith
    · rename_i hc
      have hc : ¬ ((!(s.rtag row).lhsInf && D.le (.fin FEAS_TOL) (s.lhs row)) ||
        (!(s.rtag row).rhsInf && D.le (s.rhs row) (.fin (-FEAS_TOL)))) = true := hc
      have hrowok : SidesTol FEAS_TOL (s.rtag row) (s.lhs row) (s.rhs row) 0 := by
        simp only [Bool.or_eq_true, not_or, Bool.not_eq_true] at hc
        obtain ⟨c1, c2⟩ := hc
        constructor
        · cases hi : (s.rtag row).lhsInf
          · obtain ⟨q, e⟩ := hl hi
            rw [hi, e] at c1
            simp only [D.le_fin, Bool.not_false, Bool.true_and, decide_eq_false_iff_not, not_le] at c1
            rw [e, Lo_fin]; linarith
          · simp
        · cases hi : (s.rtag row).rhsInf
          · obtain ⟨q, e⟩ := hh hi
            rw [hi, e] at c2
            simp only [D.le_fin, Bool.not_false, Bool.true_and, decide_eq_false_iff_not, not_le] at c2
            rw [e, Hi_fin]; linarith
          · simp
      generalize hs1 : ({ s.check (decide (s.rowSize row = 0)) with
          rtag := upd (s.check (decide (s.rowSize row = 0))).rtag row
            { (s.check (decide (s.rowSize row = 0))).rtag row with inactive := true }
          rowSize := upd (s.check (decide (s.rowSize row = 0))).rowSize row (-1)
          log := Rec.deletedRow row 0 :: (s.check (decide (s.rowSize row = 0))).log } : St) = s1 at hr
      have g1 : s1.rtag = upd s.rtag row { s.rtag row with inactive := true } := by subst hs1; rfl
      have g2 : s1.rowSize = upd s.rowSize row (-1) := by subst hs1; rfl
      have g3 : s1.log = Rec.deletedRow row 0 :: s.log := by subst hs1; rfl
      have g4 : s1.A = s.A ∧ s1.lhs = s.lhs ∧ s1.rhs = s.rhs ∧ s1.lb = s.lb ∧ s1.ub = s.ub ∧
          s1.ctag = s.ctag ∧ s1.c = s.c ∧ s1.off = s.off := by subst hs1; simp [St.check]
      clear hs1
      have htag : ∀ i, (s1.rtag i).lhsInf = (s.rtag i).lhsInf ∧ (s1.rtag i).rhsInf = (s.rtag i).rhsInf := by
        intro i
        rw [g1]
        by_cases h : i = row
        · subst h; simp
        · simp [h]
      have := ih s1 (by
        intro i hi
        rw [(htag i).1, (htag i).2, g4.2.1, g4.2.2.1]
        exact hfin i (by simp [hi]))
      simp only at this
      rw [← hr] at this
      rcases this with ⟨h1, i, hi, h2⟩ | ⟨h1, h2⟩
      · left
        refine ⟨h1, i, by simp [hi], ?_⟩
        unfold Sides at h2 ⊢
        rw [(htag i).1, (htag i).2, g4.2.1, g4.2.2.1] at h2
        exact h2
      · right
        refine ⟨h1, ?_, ?_, ?_, ?_, ?_⟩
        · intro i hi
          rcases List.mem_cons.mp hi with rfl | hi
          · exact hrowok
          · have := h2.ok i hi
            unfold SidesTol at this ⊢
            rw [(htag i).1, (htag i).2, g4.2.1, g4.2.2.1] at this
            exact this
        · intro i hi
          by_cases hir : i ∈ rest
          · exact h2.gone i hir
          · rcases List.mem_cons.mp hi with rfl | hi
            · obtain ⟨e1, e2⟩ := h2.others i hir
              rw [e1, e2, g1, g2]; simp
            · exact absurd hi hir
        · intro i hi
          simp only [List.mem_cons, not_or] at hi
          obtain ⟨e1, e2⟩ := h2.others i hi.2
          rw [e1, e2, g1, g2]; simp [hi.1]
        · obtain ⟨a1, a2, a3, a4, a5, a6, a7, a8⟩ := h2.rest
          obtain ⟨b1, b2, b3, b4, b5, b6, b7, b8⟩ := g4
          exact ⟨a1.trans b1, a2.trans b2, a3.trans b3, a4.trans b4, a5.trans b5, a6.trans b6,
            a7.trans b7, a8.trans b8⟩
        · rw [h2.log, g3]; simp

/-- A value of an empty column: within the bounds if that is possible at all and cheapest among the
values within the bounds. -/
def BestValue (s : St) (k : ℕ) (v : ℚ) : Prop :=
  (∀ w, Lo (s.ctag k).lbInf (s.lb k) w → Hi (s.ctag k).ubInf (s.ub k) w →
    Lo (s.ctag k).lbInf (s.lb k) v ∧ Hi (s.ctag k).ubInf (s.ub k) v ∧ s.c k * v ≤ s.c k * w)

/-- The cost of column `k` alone has no lower bound within the column's bounds. -/
def ColUnbounded (s : St) (k : ℕ) : Prop :=
  ∀ w, Lo (s.ctag k).lbInf (s.lb k) w → Hi (s.ctag k).ubInf (s.ub k) w →
    ∀ M : ℚ, ∃ v, Lo (s.ctag k).lbInf (s.lb k) v ∧ Hi (s.ctag k).ubInf (s.ub k) v ∧ s.c k * v < M

/-- Choice of the value of one empty column. -/
theorem emptyColVal_spec (s : St) (k : ℕ) (hf : ColFin s k) :
    (emptyColVal (s.c k) (s.lb k) (s.ub k) (s.ctag k) = none ∧ ColUnbounded s k) ∨
    ∃ v, emptyColVal (s.c k) (s.lb k) (s.ub k) (s.ctag k) = some (.fin v) ∧ BestValue s k v := by
  unfold emptyColVal
  split
  · rename_i hc
    right
    split
    · rename_i h
      simp only [Bool.and_eq_true, Bool.not_eq_true'] at h
      obtain ⟨l, e⟩ := hf.1 h.1
      refine ⟨l, by rw [e], ?_⟩
      intro w h1 h2
      rw [h.1, e, Lo_fin] at h1
      refine ⟨by rw [h.1, e]; simp, h2.mono h1, by rw [hc]; simp⟩
    · rename_i hn
      split
      · rename_i h
        simp only [Bool.and_eq_true, Bool.not_eq_true'] at h
        obtain ⟨u, e⟩ := hf.2 h.1
        refine ⟨u, by rw [e], ?_⟩
        intro w h1 h2
        rw [h.1, e, Hi_fin] at h2
        refine ⟨h1.mono h2, by rw [h.1, e]; simp, by rw [hc]; simp⟩
      · rename_i hn2
        refine ⟨0, rfl, ?_⟩
        intro w _ _
        refine ⟨?_, ?_, by rw [hc]; simp⟩
        · cases hi : (s.ctag k).lbInf
          · obtain ⟨l, e⟩ := hf.1 hi
            rw [hi, e] at hn
            simp only [Bool.not_false, Bool.true_and, D.lt_fin, decide_eq_true_eq, not_lt] at hn
            rw [e, Lo_fin]; exact hn
          · simp
        · cases hi : (s.ctag k).ubInf
          · obtain ⟨l, e⟩ := hf.2 hi
            rw [hi, e] at hn2
            simp only [Bool.not_false, Bool.true_and, D.lt_fin, decide_eq_true_eq, not_lt] at hn2
            rw [e, Hi_fin]; exact hn2
          · simp
  · rename_i hc
    split
    · rename_i hneg
      split
      · rename_i hi
        left
        refine ⟨rfl, ?_⟩
        intro w h1 _ M
        refine ⟨max w ((M - 1) / s.c k), h1.mono (le_max_left _ _), by rw [hi]; simp, ?_⟩
        have : s.c k * max w ((M - 1) / s.c k) ≤ s.c k * ((M - 1) / s.c k) :=
          mul_le_mul_of_nonpos_left (le_max_right _ _) hneg.le
        rw [mul_div_cancel₀ _ hc] at this
        linarith
      · rename_i hi
        right
        simp only [Bool.not_eq_true] at hi
        obtain ⟨u, e⟩ := hf.2 hi
        refine ⟨u, by rw [e], ?_⟩
        intro w h1 h2
        rw [hi, e, Hi_fin] at h2
        exact ⟨h1.mono h2, by rw [hi, e]; simp, mul_le_mul_of_nonpos_left h2 hneg.le⟩
    · rename_i hneg
      have hpos : 0 < s.c k := lt_of_le_of_ne (not_lt.mp hneg) (Ne.symm hc)
      split
      · rename_i hi
        left
        refine ⟨rfl, ?_⟩
        intro w _ h2 M
        refine ⟨min w ((M - 1) / s.c k), by rw [hi]; simp, h2.mono (min_le_left _ _), ?_⟩
        have : s.c k * min w ((M - 1) / s.c k) ≤ s.c k * ((M - 1) / s.c k) :=
          mul_le_mul_of_nonneg_left (min_le_right _ _) hpos.le
        rw [mul_div_cancel₀ _ hc] at this
        linarith
      · rename_i hi
        right
        simp only [Bool.not_eq_true] at hi
        obtain ⟨u, e⟩ := hf.1 hi
        refine ⟨u, by rw [e], ?_⟩
        intro w h1 h2
        rw [hi, e, Lo_fin] at h1
        exact ⟨by rw [hi, e]; simp, h2.mono h1, mul_le_mul_of_nonneg_left h1 hpos.le⟩

/-- Result of removing the empty columns in the list `l` with the values `v`. -/
structure EmptyColsOK (s s' : St) (l : List ℕ) (v : ℕ → ℚ) : Prop where
  best : ∀ k ∈ l, BestValue s k (v k)
  off : ∀ o, s.off = .fin o → s'.off = .fin (o + (l.map (fun k => s.c k * v k)).sum)
  log : s'.log = (l.map (fun k => Rec.fixedCol k (.fin (v k)) (s.c k) [])).reverse ++ s.log
  gone : ∀ k ∈ l, (s'.ctag k).fixed = true ∧ s'.colSize k = -1
  others : ∀ k, k ∉ l → s'.ctag k = s.ctag k ∧ s'.colSize k = s.colSize k ∧ s'.lb k = s.lb k ∧
    s'.ub k = s.ub k
  rest : s'.A = s.A ∧ s'.lhs = s.lhs ∧ s'.rhs = s.rhs ∧ s'.rtag = s.rtag ∧ s'.c = s.c

/-- **C27, columns.** If the loop stops with `UNBNDORINFEAS` then some listed column alone makes the
objective unbounded (or its bounds are empty); otherwise every listed column gets a cheapest value
within its bounds, its cost moves into the offset, and a record with the value and the cost (the
reduced cost of an empty column) is written. -/
theorem C27_empty_cols (l : List ℕ) (s : St) (hnd : l.Nodup) (hfin : ∀ k ∈ l, ColFin s k) :
    let r := emptyColLoop l s
    (r.2 = UNBNDORINFEAS ∧ ∃ k ∈ l, ColUnbounded s k) ∨
    (r.2 = UNCHANGED ∧ ∃ v, EmptyColsOK s r.1 l v) := by
  induction l generalizing s with
  | nil =>
    right
    refine ⟨rfl, fun _ => 0, by simp, ?_, by simp [emptyColLoop], by simp, ?_, ?_⟩
    · intro o ho; simp [emptyColLoop, ho]
    · intro k _; simp [emptyColLoop]
    · simp [emptyColLoop]
  | cons k rest ih =>
    intro r
    obtain ⟨hr⟩ : Nonempty (r = emptyColLoop (k :: rest) s) := ⟨rfl⟩
    clear_value r
    unfold emptyColLoop at hr
    simp only at hr
    generalize hs0 : s.check (decide (s.colSize k = 0) && !(s.ctag k).inactive) = s0 at hr
    have q : s0.c = s.c ∧ s0.lb = s.lb ∧ s0.ub = s.ub ∧ s0.ctag = s.ctag ∧ s0.A = s.A ∧
        s0.lhs = s.lhs ∧ s0.rhs = s.rhs ∧ s0.rtag = s.rtag ∧ s0.off = s.off ∧
        s0.colSize = s.colSize ∧ s0.log = s.log := by subst hs0; simp [St.check]
    clear hs0
    obtain ⟨q1, q2, q3, q4, q5, q6, q7, q8, q9, q10, q11⟩ := q
    have hv : emptyColVal (s0.c k) (s0.lb k) (s0.ub k) (s0.ctag k) =
        emptyColVal (s.c k) (s.lb k) (s.ub k) (s.ctag k) := by rw [q1, q2, q3, q4]
    rw [hv] at hr
    rcases emptyColVal_spec s k (hfin k (by simp)) with ⟨e, hu⟩ | ⟨v0, e, hb⟩
    · left
      rw [e] at hr
      simp only at hr
      subst hr
      exact ⟨rfl, k, by simp, hu⟩
    · rw [e] at hr
      simp only at hr
      have hk : k ∉ rest := (List.nodup_cons.mp hnd).1
      generalize hs1 : ({ s0 with
          lb := if s0.c k < 0 then upd s0.lb k (s0.ub k) else s0.lb
          ub := if 0 < s0.c k then upd s0.ub k (s0.lb k) else s0.ub
          off := D.add s0.off (D.smul (s0.c k) (.fin v0))
          ctag := upd s0.ctag k { s0.ctag k with fixed := true }
          colSize := upd s0.colSize k (-1)
          log := Rec.fixedCol k (.fin v0) (s0.c k) [] :: s0.log } : St) = s1 at hr
      have g1 : s1.ctag = upd s.ctag k { s.ctag k with fixed := true } := by subst hs1; simp only [q1, q2, q3, q4, q9, q10, q11]
      have g2 : s1.colSize = upd s.colSize k (-1) := by subst hs1; simp only [q1, q2, q3, q4, q9, q10, q11]
      have g3 : s1.log = Rec.fixedCol k (.fin v0) (s.c k) [] :: s.log := by subst hs1; simp only [q1, q2, q3, q4, q9, q10, q11]
      have g4 : s1.A = s.A ∧ s1.lhs = s.lhs ∧ s1.rhs = s.rhs ∧ s1.rtag = s.rtag ∧ s1.c = s.c := by
        subst hs1; exact ⟨q5, q6, q7, q8, q1⟩
      have g5 : s1.off = D.add s.off (D.smul (s.c k) (.fin v0)) := by subst hs1; simp only [q1, q2, q3, q4, q9, q10, q11]
      have g6 : ∀ j, j ≠ k → s1.lb j = s.lb j ∧ s1.ub j = s.ub j := by
        intro j hj
        subst hs1
        simp only [q1, q2, q3]
        constructor <;> split <;> simp [hj]
      clear hs1
      have hcf : ∀ j ∈ rest, ColFin s1 j := by
        intro j hj
        have hjk : j ≠ k := fun h => hk (h ▸ hj)
        unfold ColFin
        rw [g1, (g6 j hjk).1, (g6 j hjk).2]
        simp only [ne_eq, hjk, not_false_eq_true, upd_ne]
        exact hfin j (by simp [hj])
      have := ih s1 (List.nodup_cons.mp hnd).2 hcf
      simp only at this
      rw [← hr] at this
      rcases this with ⟨h1, j, hj, h2⟩ | ⟨h1, v, h2⟩
      · left
        have hjk : j ≠ k := fun h => hk (h ▸ hj)
        refine ⟨h1, j, by simp [hj], ?_⟩
        unfold ColUnbounded at h2 ⊢
        rw [g1, (g6 j hjk).1, (g6 j hjk).2, g4.2.2.2.2] at h2
        simpa [hjk] using h2
      · right
        have hne : ∀ j ∈ rest, j ≠ k := fun j hj h => hk (h ▸ hj)
        have hm : ∀ {β : Type} (f g : ℕ → β), (∀ j ∈ rest, f j = g j) → rest.map f = rest.map g :=
          fun f g h => List.map_congr_left h
        refine ⟨h1, upd v k v0, ?_, ?_, ?_, ?_, ?_, ?_⟩
        · intro j hj
          rcases List.mem_cons.mp hj with rfl | hj
          · simpa using hb
          · have hjk := hne j hj
            have := h2.best j hj
            unfold BestValue at this ⊢
            rw [g1, (g6 j hjk).1, (g6 j hjk).2, g4.2.2.2.2] at this
            simpa [hjk] using this
        · intro o ho
          have e1 : s1.off = .fin (o + s.c k * v0) := by rw [g5, ho]; simp
          rw [h2.off _ e1, g4.2.2.2.2]
          congr 1
          simp only [List.map_cons, List.sum_cons, upd_same]
          rw [hm (fun j => s.c j * upd v k v0 j) (fun j => s.c j * v j)
            (fun j hj => by simp [hne j hj])]
          ring
        · rw [h2.log, g3, g4.2.2.2.2]
          simp only [List.map_cons, List.reverse_cons, upd_same, List.append_assoc, List.cons_append,
            List.nil_append]
          rw [hm (fun j => Rec.fixedCol j (.fin (upd v k v0 j)) (s.c j) [])
            (fun j => Rec.fixedCol j (.fin (v j)) (s.c j) []) (fun j hj => by simp [hne j hj])]
        · intro j hj
          rcases List.mem_cons.mp hj with rfl | hj
          · obtain ⟨a1, a2, _, _⟩ := h2.others j hk
            rw [a1, a2, g1, g2]; simp
          · exact h2.gone j hj
        · intro j hj
          simp only [List.mem_cons, not_or] at hj
          obtain ⟨a1, a2, a3, a4⟩ := h2.others j hj.2
          rw [a1, a2, a3, a4, g1, g2, (g6 j hj.1).1, (g6 j hj.1).2]; simp [hj.1]
        · obtain ⟨a1, a2, a3, a4, a5⟩ := h2.rest
          obtain ⟨b1, b2, b3, b4, b5⟩ := g4
          exact ⟨a1.trans b1, a2.trans b2, a3.trans b3, a4.trans b4, a5.trans b5⟩

/-! ### Example -/

/-- Row 0 is empty with sides `[-1, 2]`; column 0 is empty with cost `-3` and bounds `[0, 4]`. -/
def exEmpty : St := initSt
  { m := 2, n := 2
    A := ofList [[], [(1, 1)]] []
    lhs := ofList [.fin (-1), .fin 0] .ninf
    rhs := ofList [.fin 2, .fin 5] .pinf
    lb := ofList [.fin 0, .ninf] .ninf
    ub := ofList [.fin 4, .pinf] .pinf
    c := ofList [-3, 0] 0 }

example : (∀ row ∈ [0], FinIf (exEmpty.rtag row).lhsInf (exEmpty.lhs row) ∧
      FinIf (exEmpty.rtag row).rhsInf (exEmpty.rhs row)) ∧
    (∀ k ∈ [0], ColFin exEmpty k) ∧ (emptyRowLoop [0] exEmpty).2 = UNCHANGED ∧
    (emptyColLoop [0] exEmpty).1.off = .fin (-12) := by
  refine ⟨?_, ?_, by decide +kernel, by decide +kernel⟩
  · intro row h
    rw [List.mem_singleton] at h; subst h
    exact ⟨fun _ => ⟨-1, rfl⟩, fun _ => ⟨2, rfl⟩⟩
  · intro row h
    rw [List.mem_singleton] at h; subst h
    exact ⟨fun _ => ⟨0, rfl⟩, fun _ => ⟨4, rfl⟩⟩

end Verif
