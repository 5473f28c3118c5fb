import Verif.Props.C28_DualFix
import Mathlib.Data.Rat.Lemmas

/-!
# C29: variables fixed at infinity

`fix_col_to_positive_inf`, `fix_col_to_negative_inf`
(`/repo/src/core/CoreTransformation.c:70-141`) and `retrieve_fix_col_inf`
(`/repo/src/core/Postsolver.c:159-216`).
-/

namespace Verif

theorem scanCoef_notMem {k : ℕ} {d : ℚ} {cells : List Cell} (h : ∀ p ∈ cells, p.1 ≠ k) :
    scanCoef k d cells = d := by
  unfold scanCoef
  induction cells generalizing d with
  | nil => rfl
  | cons p l ih =>
    rw [List.foldl_cons, if_neg (h p (by simp))]
    exact ih (fun q hq => h q (by simp [hq]))

/-- Scanning a row with distinct columns finds the coefficient of `k`. -/
theorem scanCoef_eq {k : ℕ} {d a : ℚ} {cells : List Cell} (hnd : (cells.map Prod.fst).Nodup)
    (h : (k, a) ∈ cells) : scanCoef k d cells = a := by
  induction cells generalizing d with
  | nil => simp at h
  | cons p l ih =>
    simp only [List.map_cons, List.nodup_cons] at hnd
    unfold scanCoef
    rw [List.foldl_cons]
    rcases List.mem_cons.mp h with h | h
    · subst h
      rw [if_pos rfl]
      refine scanCoef_notMem (fun q hq e => hnd.1 ?_)
      exact List.mem_map.mpr ⟨q, hq, e⟩
    · exact ih hnd.2 h

/-- The residual accumulated over a row: side minus the other terms. -/
theorem rest_fold {k : ℕ} {x : ℕ → D} {xr : ℕ → ℚ} {cells : List Cell} {q : ℚ}
    (hx : ∀ p ∈ cells, p.1 ≠ k → x p.1 = .fin (xr p.1)) :
    cells.foldl (fun a p => if p.1 = k then a else if D.eqb (x p.1) .pinf then a
      else D.sub a (D.smul p.2 (x p.1))) (.fin q) =
    .fin (q - dot cells (setAt xr k 0)) := by
  induction cells generalizing q with
  | nil => simp
  | cons p l ih =>
    rw [List.foldl_cons, dot_cons]
    by_cases hp : p.1 = k
    · rw [if_pos hp, ih (fun r hr => hx r (by simp [hr])), hp, setAt_same]; simp
    · rw [if_neg hp, hx p (by simp) hp]
      have : D.eqb (.fin (xr p.1)) .pinf = false := rfl
      rw [this]
      simp only [Bool.false_eq_true, if_false, D.smul_fin, D.sub_fin]
      rw [ih (fun r hr => hx r (by simp [hr])), setAt_ne _ _ hp]
      congr 1; ring

theorem dot_setAt {cells : List Cell} (hnd : (cells.map Prod.fst).Nodup) {k : ℕ} {a : ℚ}
    (h : (k, a) ∈ cells) (x : ℕ → ℚ) (v : ℚ) :
    dot cells (setAt x k v) = dot cells (setAt x k 0) + a * v := by
  unfold setAt
  rw [dot_update_mem hnd h, dot_update_mem hnd h]; ring

/-- A row stored in a `FIXED_COL_INF` record, with the coefficient of the column. -/
structure InfRow (k : ℕ) (x : ℕ → D) (xr : ℕ → ℚ) (r : D × List Cell) (a q : ℚ) : Prop where
  side : r.1 = .fin q
  nodup : (r.2.map Prod.fst).Nodup
  mem : (k, a) ∈ r.2
  ne : a ≠ 0
  vals : ∀ p ∈ r.2, p.1 ≠ k → x p.1 = .fin (xr p.1)

theorem infRow_value {k : ℕ} {x : ℕ → D} {xr : ℕ → ℚ} {r : D × List Cell} {a q : ℚ}
    (h : InfRow k x xr r a q) (c0 : ℚ) :
    scanCoef k c0 r.2 = a ∧
    D.divq (r.2.foldl (fun a p => if p.1 = k then a else if D.eqb (x p.1) .pinf then a
      else D.sub a (D.smul p.2 (x p.1))) r.1) a = .fin ((q - dot r.2 (setAt xr k 0)) / a) := by
  refine ⟨scanCoef_eq h.nodup h.mem, ?_⟩
  rw [h.side, rest_fold h.vals, D.divq_fin h.ne]

/-- The loop for `+∞`: a finite value, not below the bound, at which every row holds on the side it
was recorded with. -/
theorem fixInfLoop_pos {k : ℕ} {x : ℕ → D} {xr : ℕ → ℚ} (rows : List (D × List Cell)) (c0 : ℚ)
    (ext : D) (hext : ext = .ninf ∨ ∃ b, ext = .fin b)
    (hrows : ∀ r ∈ rows, ∃ a q, InfRow k x xr r a q) :
    (rows = [] ∧ fixInfLoop true k x rows c0 ext = ext) ∨
    ∃ v, fixInfLoop true k x rows c0 ext = .fin v ∧ (∀ b, ext = .fin b → b ≤ v) ∧
      ∀ r ∈ rows, ∀ a q, InfRow k x xr r a q →
        (0 < a → q ≤ dot r.2 (setAt xr k v)) ∧ (a < 0 → dot r.2 (setAt xr k v) ≤ q) := by
  induction rows generalizing c0 ext with
  | nil => left; exact ⟨rfl, rfl⟩
  | cons r rest ih =>
    right
    obtain ⟨a, q, hr⟩ := hrows r (by simp)
    obtain ⟨e1, e2⟩ := infRow_value hr c0
    have hstep : fixInfLoop true k x (r :: rest) c0 ext = fixInfLoop true k x rest a
        (D.max ext (.fin ((q - dot r.2 (setAt xr k 0)) / a))) := by
      rw [fixInfLoop]
      simp only [if_true]
      rw [e1, e2]
    set t := (q - dot r.2 (setAt xr k 0)) / a with ht
    obtain ⟨w, hw, hwt, hwb⟩ : ∃ w, D.max ext (.fin t) = .fin w ∧ t ≤ w ∧
        ∀ b, ext = .fin b → b ≤ w := by
      rcases hext with h | ⟨b, h⟩
      · refine ⟨t, by rw [h]; rfl, le_refl _, ?_⟩
        intro b hb; rw [h] at hb; exact absurd hb (by simp)
      · refine ⟨max b t, by rw [h, D.max_fin], le_max_right _ _, ?_⟩
        intro b' hb; rw [h] at hb; obtain rfl : b = b' := by simpa using hb
        exact le_max_left _ _
    have hrow : ∀ v, w ≤ v → ∀ a' q', InfRow k x xr r a' q' →
        (0 < a' → q' ≤ dot r.2 (setAt xr k v)) ∧ (a' < 0 → dot r.2 (setAt xr k v) ≤ q') := by
      intro v hv a' q' h'
      have ea : a' = a := by rw [← scanCoef_eq (d := 0) h'.nodup h'.mem, scanCoef_eq hr.nodup hr.mem]
      have eq' : q' = q := by have := h'.side.symm.trans hr.side; simpa using this
      subst ea; subst eq'
      rw [dot_setAt hr.nodup hr.mem]
      have htv : t ≤ v := hwt.trans hv
      constructor
      · intro hpos
        rw [ht, div_le_iff₀ hpos] at htv
        linarith
      · intro hneg
        rw [ht, div_le_iff_of_neg hneg] at htv
        linarith
    rw [hstep, hw]
    rcases ih a (.fin w) (Or.inr ⟨w, rfl⟩) (fun r' hr' => hrows r' (by simp [hr'])) with
      ⟨hnil, e⟩ | ⟨v, e, hb, hall⟩
    · refine ⟨w, e, hwb, ?_⟩
      intro r' hr'
      rw [hnil] at hr'
      obtain rfl : r' = r := by simpa using hr'
      exact hrow w le_rfl
    · have hwv := hb w rfl
      refine ⟨v, e, fun b hb' => (hwb b hb').trans hwv, ?_⟩
      intro r' hr'
      rcases List.mem_cons.mp hr' with rfl | hr'
      · exact hrow v hwv
      · exact hall r' hr'

/-- The loop for `-∞`. -/
theorem fixInfLoop_neg {k : ℕ} {x : ℕ → D} {xr : ℕ → ℚ} (rows : List (D × List Cell)) (c0 : ℚ)
    (ext : D) (hext : ext = .pinf ∨ ∃ b, ext = .fin b)
    (hrows : ∀ r ∈ rows, ∃ a q, InfRow k x xr r a q) :
    (rows = [] ∧ fixInfLoop false k x rows c0 ext = ext) ∨
    ∃ v, fixInfLoop false k x rows c0 ext = .fin v ∧ (∀ b, ext = .fin b → v ≤ b) ∧
      ∀ r ∈ rows, ∀ a q, InfRow k x xr r a q →
        (0 < a → dot r.2 (setAt xr k v) ≤ q) ∧ (a < 0 → q ≤ dot r.2 (setAt xr k v)) := by
  induction rows generalizing c0 ext with
  | nil => left; exact ⟨rfl, rfl⟩
  | cons r rest ih =>
    right
    obtain ⟨a, q, hr⟩ := hrows r (by simp)
    obtain ⟨e1, e2⟩ := infRow_value hr c0
    have hstep : fixInfLoop false k x (r :: rest) c0 ext = fixInfLoop false k x rest a
        (D.min ext (.fin ((q - dot r.2 (setAt xr k 0)) / a))) := by
      rw [fixInfLoop]
      simp only [Bool.false_eq_true, if_false]
      rw [e1, e2]
    set t := (q - dot r.2 (setAt xr k 0)) / a with ht
    obtain ⟨w, hw, hwt, hwb⟩ : ∃ w, D.min ext (.fin t) = .fin w ∧ w ≤ t ∧
        ∀ b, ext = .fin b → w ≤ b := by
      rcases hext with h | ⟨b, h⟩
      · refine ⟨t, by rw [h]; rfl, le_refl _, ?_⟩
        intro b hb; rw [h] at hb; exact absurd hb (by simp)
      · refine ⟨min b t, by rw [h, D.min_fin], min_le_right _ _, ?_⟩
        intro b' hb; rw [h] at hb; obtain rfl : b = b' := by simpa using hb
        exact min_le_left _ _
    have hrow : ∀ v, v ≤ w → ∀ a' q', InfRow k x xr r a' q' →
        (0 < a' → dot r.2 (setAt xr k v) ≤ q') ∧ (a' < 0 → q' ≤ dot r.2 (setAt xr k v)) := by
      intro v hv a' q' h'
      have ea : a' = a := by rw [← scanCoef_eq (d := 0) h'.nodup h'.mem, scanCoef_eq hr.nodup hr.mem]
      have eq' : q' = q := by have := h'.side.symm.trans hr.side; simpa using this
      subst ea; subst eq'
      rw [dot_setAt hr.nodup hr.mem]
      have htv : v ≤ t := hv.trans hwt
      constructor
      · intro hpos
        rw [ht, le_div_iff₀ hpos] at htv
        linarith
      · intro hneg
        rw [ht, le_div_iff_of_neg hneg] at htv
        linarith
    rw [hstep, hw]
    rcases ih a (.fin w) (Or.inr ⟨w, rfl⟩) (fun r' hr' => hrows r' (by simp [hr'])) with
      ⟨hnil, e⟩ | ⟨v, e, hb, hall⟩
    · refine ⟨w, e, hwb, ?_⟩
      intro r' hr'
      rw [hnil] at hr'
      obtain rfl : r' = r := by simpa using hr'
      exact hrow w le_rfl
    · have hwv := hb w rfl
      refine ⟨v, e, fun b hb' => hwv.trans (hwb b hb'), ?_⟩
      intro r' hr'
      rcases List.mem_cons.mp hr' with rfl | hr'
      · exact hrow v hwv
      · exact hall r' hr'

/-- What is known about a column (and its rows) that dual fixing sends to infinity. -/
structure InfCol (s : St) (k : ℕ) (xr : ℕ → ℚ) (σ : Sol) : Prop where
  nonempty : s.AT k ≠ []
  agree : ∀ p ∈ s.AT k, (k, p.2) ∈ s.A p.1
  rows : RowsOK s
  size : ∀ p ∈ s.AT k, s.rowSize p.1 = ((s.A p.1).length : ℤ)
  lhs : ∀ p ∈ s.AT k, FinIf (s.rtag p.1).lhsInf (s.lhs p.1)
  rhs : ∀ p ∈ s.AT k, FinIf (s.rtag p.1).rhsInf (s.rhs p.1)
  notFree : ∀ p ∈ s.AT k, ¬ ((s.rtag p.1).lhsInf = true ∧ (s.rtag p.1).rhsInf = true)
  vals : ∀ p ∈ s.AT k, ∀ c ∈ s.A p.1, c.1 ≠ k → σ.x c.1 = .fin (xr c.1)

/-- **C29, increasing.** A column without cost that no row stops from increasing: the record written
for it gives, for all finite values of the other variables of its rows, a finite value that is not
below the lower bound and at which all its rows hold.
*Partial*: the other variables of these rows must have been retrieved before (see
`C29_order_fails`), and no row of the column may be free (both sides infinite). -/
theorem C29_pos_inf_partial (s : St) (k : ℕ) (xr : ℕ → ℚ) (σ : Sol) (h : InfCol s k xr σ)
    (hstop : ∀ p ∈ s.AT k, ¬ StopsUp (s.rtag p.1) p.2)
    (hlb : ((s.ctag k).lbInf = true ∧ s.lb k = .ninf) ∨
      ((s.ctag k).lbInf = false ∧ ∃ b, s.lb k = .fin b)) :
    ∃ v, (retRec σ (fixedColInfRec s k true (s.lb k))).x k = .fin v ∧
      Lo (s.ctag k).lbInf (s.lb k) v ∧ ∀ p ∈ s.AT k, RowOK s p.1 (setAt xr k v) := by
  have hrow : ∀ p ∈ s.AT k, ∃ q, InfRow k σ.x xr ((if (s.rtag p.1).lhsInf then s.rhs p.1 else s.lhs p.1),
      (s.A p.1).take (s.rowSize p.1).toNat) p.2 q ∧
      (0 < p.2 → (s.rtag p.1).rhsInf = true ∧ (s.rtag p.1).lhsInf = false ∧ s.lhs p.1 = .fin q) ∧
      (p.2 < 0 → (s.rtag p.1).lhsInf = true ∧ (s.rtag p.1).rhsInf = false ∧ s.rhs p.1 = .fin q) := by
    intro p hp
    have htake : (s.A p.1).take (s.rowSize p.1).toNat = s.A p.1 := by rw [h.size p hp]; simp
    have hmem := h.agree p hp
    have ha : p.2 ≠ 0 := (h.rows p.1).2 (k, p.2) hmem
    have hst := hstop p hp
    unfold StopsUp at hst
    push Not at hst
    have hnf := h.notFree p hp
    rcases lt_or_gt_of_ne ha with hneg | hpos
    · have hli : (s.rtag p.1).lhsInf = true := by simpa using hst.2 hneg
      have hri : (s.rtag p.1).rhsInf = false := by
        cases hh : (s.rtag p.1).rhsInf
        · rfl
        · exact absurd ⟨hli, hh⟩ hnf
      obtain ⟨q, e⟩ := h.rhs p hp hri
      refine ⟨q, ⟨by rw [hli]; simpa using e, ?_, ?_, ha, ?_⟩, fun hp => absurd hp (by linarith),
        fun _ => ⟨hli, hri, e⟩⟩
      · rw [htake]; exact (h.rows p.1).1
      · rw [htake]; exact hmem
      · rw [htake]; exact h.vals p hp
    · have hri : (s.rtag p.1).rhsInf = true := by simpa using hst.1 hpos
      have hli : (s.rtag p.1).lhsInf = false := by
        cases hh : (s.rtag p.1).lhsInf
        · rfl
        · exact absurd ⟨hh, hri⟩ hnf
      obtain ⟨q, e⟩ := h.lhs p hp hli
      refine ⟨q, ⟨by rw [hli]; simpa using e, ?_, ?_, ha, ?_⟩, fun _ => ⟨hri, hli, e⟩,
        fun hp => absurd hp (by linarith)⟩
      · rw [htake]; exact (h.rows p.1).1
      · rw [htake]; exact hmem
      · rw [htake]; exact h.vals p hp
  have hx : (retRec σ (fixedColInfRec s k true (s.lb k))).x k =
      fixInfLoop true k σ.x ((s.AT k).map (fun p =>
        ((if (s.rtag p.1).lhsInf then s.rhs p.1 else s.lhs p.1),
          (s.A p.1).take (s.rowSize p.1).toNat))) 0 (s.lb k) := by
    simp [retRec, fixedColInfRec, retFixColInf]
  rw [hx]
  have hext : s.lb k = .ninf ∨ ∃ b, s.lb k = .fin b := by
    rcases hlb with h | h
    · exact Or.inl h.2
    · exact Or.inr h.2
  rcases fixInfLoop_pos (xr := xr) ((s.AT k).map (fun p =>
        ((if (s.rtag p.1).lhsInf then s.rhs p.1 else s.lhs p.1),
          (s.A p.1).take (s.rowSize p.1).toNat))) 0 (s.lb k) hext (by
      intro r hr
      obtain ⟨p, hp, rfl⟩ := List.mem_map.mp hr
      obtain ⟨q, hq, _⟩ := hrow p hp
      exact ⟨p.2, q, hq⟩) with ⟨hnil, _⟩ | ⟨v, e, hb, hall⟩
  · exact absurd (List.map_eq_nil_iff.mp hnil) h.nonempty
  refine ⟨v, e, ?_, ?_⟩
  · rcases hlb with hl | ⟨hl, b, hb'⟩
    · rw [hl.1]; simp
    · rw [hl, hb', Lo_fin]; exact hb b hb'
  · intro p hp
    obtain ⟨q, hq, h1, h2⟩ := hrow p hp
    have := hall _ (List.mem_map.mpr ⟨p, hp, rfl⟩) p.2 q hq
    have htake : (s.A p.1).take (s.rowSize p.1).toNat = s.A p.1 := by rw [h.size p hp]; simp
    simp only [htake] at this
    unfold RowOK Sides
    rcases lt_or_gt_of_ne hq.ne with hneg | hpos
    · obtain ⟨hli, hri, eq⟩ := h2 hneg
      rw [hli, hri, eq]
      exact ⟨by simp, by rw [Hi_fin]; exact this.2 hneg⟩
    · obtain ⟨hri, hli, eq⟩ := h1 hpos
      rw [hli, hri, eq]
      exact ⟨by rw [Lo_fin]; exact this.1 hpos, by simp⟩

/-- **C29, decreasing.** -/
theorem C29_neg_inf_partial (s : St) (k : ℕ) (xr : ℕ → ℚ) (σ : Sol) (h : InfCol s k xr σ)
    (hstop : ∀ p ∈ s.AT k, ¬ StopsDown (s.rtag p.1) p.2)
    (hub : ((s.ctag k).ubInf = true ∧ s.ub k = .pinf) ∨
      ((s.ctag k).ubInf = false ∧ ∃ b, s.ub k = .fin b)) :
    ∃ v, (retRec σ (fixedColInfRec s k false (s.ub k))).x k = .fin v ∧
      Hi (s.ctag k).ubInf (s.ub k) v ∧ ∀ p ∈ s.AT k, RowOK s p.1 (setAt xr k v) := by
  have hrow : ∀ p ∈ s.AT k, ∃ q, InfRow k σ.x xr ((if (s.rtag p.1).lhsInf then s.rhs p.1 else s.lhs p.1),
      (s.A p.1).take (s.rowSize p.1).toNat) p.2 q ∧
      (p.2 < 0 → (s.rtag p.1).rhsInf = true ∧ (s.rtag p.1).lhsInf = false ∧ s.lhs p.1 = .fin q) ∧
      (0 < p.2 → (s.rtag p.1).lhsInf = true ∧ (s.rtag p.1).rhsInf = false ∧ s.rhs p.1 = .fin q) := by
    intro p hp
    have htake : (s.A p.1).take (s.rowSize p.1).toNat = s.A p.1 := by rw [h.size p hp]; simp
    have hmem := h.agree p hp
    have ha : p.2 ≠ 0 := (h.rows p.1).2 (k, p.2) hmem
    have hst := hstop p hp
    unfold StopsDown at hst
    push Not at hst
    have hnf := h.notFree p hp
    rcases lt_or_gt_of_ne ha with hneg | hpos
    · have hri : (s.rtag p.1).rhsInf = true := by simpa using hst.2 hneg
      have hli : (s.rtag p.1).lhsInf = false := by
        cases hh : (s.rtag p.1).lhsInf
        · rfl
        · exact absurd ⟨hh, hri⟩ hnf
      obtain ⟨q, e⟩ := h.lhs p hp hli
      refine ⟨q, ⟨by rw [hli]; simpa using e, ?_, ?_, ha, ?_⟩, fun _ => ⟨hri, hli, e⟩,
        fun hp => absurd hp (by linarith)⟩
      · rw [htake]; exact (h.rows p.1).1
      · rw [htake]; exact hmem
      · rw [htake]; exact h.vals p hp
    · have hli : (s.rtag p.1).lhsInf = true := by simpa using hst.1 hpos
      have hri : (s.rtag p.1).rhsInf = false := by
        cases hh : (s.rtag p.1).rhsInf
        · rfl
        · exact absurd ⟨hli, hh⟩ hnf
      obtain ⟨q, e⟩ := h.rhs p hp hri
      refine ⟨q, ⟨by rw [hli]; simpa using e, ?_, ?_, ha, ?_⟩, fun hp => absurd hp (by linarith),
        fun _ => ⟨hli, hri, e⟩⟩
      · rw [htake]; exact (h.rows p.1).1
      · rw [htake]; exact hmem
      · rw [htake]; exact h.vals p hp
  have hx : (retRec σ (fixedColInfRec s k false (s.ub k))).x k =
      fixInfLoop false k σ.x ((s.AT k).map (fun p =>
        ((if (s.rtag p.1).lhsInf then s.rhs p.1 else s.lhs p.1),
          (s.A p.1).take (s.rowSize p.1).toNat))) 0 (s.ub k) := by
    simp [retRec, fixedColInfRec, retFixColInf]
  rw [hx]
  have hext : s.ub k = .pinf ∨ ∃ b, s.ub k = .fin b := by
    rcases hub with h | h
    · exact Or.inl h.2
    · exact Or.inr h.2
  rcases fixInfLoop_neg (xr := xr) ((s.AT k).map (fun p =>
        ((if (s.rtag p.1).lhsInf then s.rhs p.1 else s.lhs p.1),
          (s.A p.1).take (s.rowSize p.1).toNat))) 0 (s.ub k) hext (by
      intro r hr
      obtain ⟨p, hp, rfl⟩ := List.mem_map.mp hr
      obtain ⟨q, hq, _⟩ := hrow p hp
      exact ⟨p.2, q, hq⟩) with ⟨hnil, _⟩ | ⟨v, e, hb, hall⟩
  · exact absurd (List.map_eq_nil_iff.mp hnil) h.nonempty
  refine ⟨v, e, ?_, ?_⟩
  · rcases hub with hl | ⟨hl, b, hb'⟩
    · rw [hl.1]; simp
    · rw [hl, hb', Hi_fin]; exact hb b hb'
  · intro p hp
    obtain ⟨q, hq, h1, h2⟩ := hrow p hp
    have := hall _ (List.mem_map.mpr ⟨p, hp, rfl⟩) p.2 q hq
    have htake : (s.A p.1).take (s.rowSize p.1).toNat = s.A p.1 := by rw [h.size p hp]; simp
    simp only [htake] at this
    unfold RowOK Sides
    rcases lt_or_gt_of_ne hq.ne with hneg | hpos
    · obtain ⟨hri, hli, eq⟩ := h1 hneg
      rw [hli, hri, eq]
      exact ⟨by rw [Lo_fin]; exact this.2 hneg, by simp⟩
    · obtain ⟨hli, hri, eq⟩ := h2 hpos
      rw [hli, hri, eq]
      exact ⟨by simp, by rw [Hi_fin]; exact this.1 hpos⟩

/-! ### Example -/

/-- A solution in which only `x1 = 2` is known. -/
def solDual : Sol := { x := fun j => if j = 1 then .fin 2 else .pinf, y := fun _ => .pinf,
                       z := fun _ => .pinf }

example : InfCol exDual 0 (fun _ => 2) solDual ∧
    (∀ p ∈ exDual.AT 0, ¬ StopsUp (exDual.rtag p.1) p.2) ∧
    ((exDual.ctag 0).lbInf = false ∧ ∃ b, exDual.lb 0 = .fin b) ∧
    (retRec solDual (fixedColInfRec exDual 0 true (exDual.lb 0))).x 0 = .fin 3 := by
  have hAT : exDual.AT 0 = [(0, 1), (1, 1)] := by decide +kernel
  have hA : ∀ i, exDual.A i = if i = 0 then [(0, 1), (1, -1)] else if i = 1 then [(0, 1), (1, 1)] else [] := by
    intro i
    rcases i with _ | _ | i <;> simp [exDual, initSt, ofList]
  have hs : ∀ p ∈ exDual.AT 0, p = (0, 1) ∨ p = (1, 1) := by rw [hAT]; simp
  refine ⟨⟨by rw [hAT]; simp, ?_, ?_, ?_, ?_, ?_, ?_, ?_⟩, ?_, ⟨by decide +kernel, 0, rfl⟩,
    by decide +kernel⟩
  · intro p hp; rcases hs p hp with rfl | rfl <;> decide +kernel
  · intro i
    rw [hA]
    split
    · decide
    · split <;> decide
  · intro p hp; rcases hs p hp with rfl | rfl <;> decide +kernel
  · intro p hp; rcases hs p hp with rfl | rfl
    · exact fun _ => ⟨1, rfl⟩
    · exact fun _ => ⟨0, rfl⟩
  · intro p hp; rcases hs p hp with rfl | rfl
    · exact fun h => absurd h (by decide +kernel)
    · exact fun h => absurd h (by decide +kernel)
  · intro p hp; rcases hs p hp with rfl | rfl <;> decide +kernel
  · intro p hp c hc hk
    have : c.1 = 1 := by
      rcases hs p hp with rfl | rfl
      · rw [hA] at hc; simp at hc; rcases hc with rfl | rfl
        · exact absurd rfl hk
        · rfl
      · rw [hA] at hc; simp at hc; rcases hc with rfl | rfl
        · exact absurd rfl hk
        · rfl
    simp [solDual, this]
  · intro p hp
    unfold StopsUp
    rcases hs p hp with rfl | rfl
    · have e : (exDual.rtag 0).rhsInf = true := by decide +kernel
      simp only [e]; norm_num
    · have e : (exDual.rtag 1).rhsInf = true := by decide +kernel
      simp only [e]; norm_num

/-! ### The property fails for the program as a whole -/

/-- `x0 - x1 ≤ 1`, `5 ≤ x0 ≤ 10` with cost `1`, `0 ≤ x1` with cost `0`. -/
def lpOrder : LP :=
  { m := 1, n := 2
    A := ofList [[(0, 1), (1, -1)]] []
    lhs := ofList [.ninf] .ninf
    rhs := ofList [.fin 1] .pinf
    lb := ofList [.fin 5, .fin 0] .ninf
    ub := ofList [.fin 10, .pinf] .pinf
    c := ofList [1, 0] 0 }

/-- **Negation of C29 (and of C02).** In the same call of `simple_dual_fix` a column `x0` is fixed
at a finite value and a column `x1` is sent to infinity.  The records are written in this order, so
postsolve retrieves `x1` first, when `x0` still has the not-yet-retrieved marker and is taken to be
zero.  The postsolved point `x0 = 5`, `x1 = 0` violates `x0 - x1 ≤ 1`. -/
theorem C29_order_fails :
    (runPresolver envEx stgsAll 10 lpOrder).2 = (UNCHANGED, true) ∧
    (runPresolver envEx stgsAll 10 lpOrder).1.undef = false ∧
    (runPresolver envEx stgsAll 10 lpOrder).1.asrt = true ∧
    (postsolve (runPresolver envEx stgsAll 10 lpOrder).1 (fun _ => .fin 0) (fun _ => .fin 0)
      (fun _ => .fin 0)).map (fun σ => (σ.x 0, σ.x 1)) = some (.fin 5, .fin 0) ∧
    ¬ ((1 : ℚ) * 5 + (-1) * 0 ≤ 1) := by
  refine ⟨by decide +kernel, by decide +kernel, by decide +kernel, by decide +kernel, by norm_num⟩

/-- `x0 + x1` free (both sides infinite), `x0` free, `0 ≤ x1 ≤ 3`, cost `x1`. -/
def lpFree : LP :=
  { m := 1, n := 2
    A := ofList [[(0, 1), (1, 1)]] []
    lhs := ofList [.ninf] .ninf
    rhs := ofList [.pinf] .pinf
    lb := ofList [.ninf, .fin 0] .ninf
    ub := ofList [.pinf, .fin 3] .pinf
    c := ofList [0, 1] 0 }

/-- **Negation of C29 for free rows.** A row without any finite side makes postsolve return an
infinite value. -/
theorem C29_free_row_fails :
    (runPresolver envEx stgsAll 10 lpFree).2 = (UNCHANGED, true) ∧
    (postsolve (runPresolver envEx stgsAll 10 lpFree).1 (fun _ => .fin 0) (fun _ => .fin 0)
      (fun _ => .fin 0)).map (fun σ => σ.x 0) = some .pinf := by
  refine ⟨by decide +kernel, by decide +kernel⟩

end Verif
