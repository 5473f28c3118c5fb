import Verif.Model.Dton
import Verif.Lemmas.ActUpd

/-! # Row rewriting of the doubleton elimination on lists of cells -/

namespace Verif

/-- Strictly increasing indices. -/
def SortedC (l : List Cell) : Prop := l.Pairwise (fun a b => a.1 < b.1)

/-- Cells before, at and behind column `j`. -/
def lows (j : ℕ) (l : List Cell) : List Cell := l.filter (fun p => decide (p.1 < j))
def mids (j : ℕ) (l : List Cell) : List Cell := l.filter (fun p => decide (p.1 = j))
def highs (j : ℕ) (l : List Cell) : List Cell := l.filter (fun p => decide (j < p.1))

theorem sorted_split {l : List Cell} (h : SortedC l) (j : ℕ) :
    l = lows j l ++ (mids j l ++ highs j l) := by
  induction l with
  | nil => rfl
  | cons p l ih =>
    have hp := (List.pairwise_cons.mp h).1
    have ih := ih (List.pairwise_cons.mp h).2
    unfold lows mids highs at ih ⊢
    rcases lt_trichotomy p.1 j with h1 | h1 | h1
    · rw [List.filter_cons_of_pos (by simpa using h1), List.filter_cons_of_neg (by simpa using h1.ne),
        List.filter_cons_of_neg (by simpa using h1.le), List.cons_append, ← ih]
    · have e1 : l.filter (fun p => decide (p.1 < j)) = [] := by
        rw [List.filter_eq_nil_iff]; intro q hq; have := hp q hq; simp; omega
      have e2 : l.filter (fun p => decide (p.1 = j)) = [] := by
        rw [List.filter_eq_nil_iff]; intro q hq; have := hp q hq; simp; omega
      rw [List.filter_cons_of_neg (by simp; omega), List.filter_cons_of_pos (by simpa using h1),
        List.filter_cons_of_neg (by simp; omega), e1, e2, List.nil_append]
      rw [e1, e2] at ih
      simp only [List.nil_append] at ih
      rw [List.singleton_append, ← ih]
    · have e1 : l.filter (fun p => decide (p.1 < j)) = [] := by
        rw [List.filter_eq_nil_iff]; intro q hq; have := hp q hq; simp; omega
      have e2 : l.filter (fun p => decide (p.1 = j)) = [] := by
        rw [List.filter_eq_nil_iff]; intro q hq; have := hp q hq; simp; omega
      rw [List.filter_cons_of_neg (by simp; omega), List.filter_cons_of_neg (by simp; omega),
        List.filter_cons_of_pos (by simpa using h1), e1, e2, List.nil_append]
      rw [e1, e2] at ih
      simp only [List.nil_append] at ih ⊢
      rw [← ih]

theorem SortedC.nodup {l : List Cell} (h : SortedC l) : (l.map Prod.fst).Nodup := by
  unfold List.Nodup
  rw [List.pairwise_map]
  exact h.imp (fun h => Nat.ne_of_lt h)

theorem mids_of_mem {l : List Cell} (h : SortedC l) {j : ℕ} {v : ℚ} (hm : (j, v) ∈ l) :
    mids j l = [(j, v)] := by
  obtain ⟨l1, l2, rfl, h1, h2⟩ := split_col h.nodup hm
  unfold mids
  rw [List.filter_append, List.filter_cons_of_pos (by simp)]
  rw [List.filter_eq_nil_iff.mpr (fun q hq => by simpa using h1 q hq),
    List.filter_eq_nil_iff.mpr (fun q hq => by simpa using h2 q hq)]
  rfl

theorem mids_of_noCol {l : List Cell} {j : ℕ} (hm : NoCol j l) : mids j l = [] := by
  unfold mids
  exact List.filter_eq_nil_iff.mpr (fun q hq => by simpa using hm q hq)

theorem findIdx_prefix {α : Type} (f : α → Bool) (L R : List α) (h1 : ∀ p ∈ L, f p = false)
    (h2 : ∀ p ∈ R.head?, f p = true) : (L ++ R).findIdx f = L.length := by
  induction L with
  | nil =>
    cases R with
    | nil => rfl
    | cons p R => simp only [List.nil_append, List.findIdx_cons, List.length_nil]
                  rw [h2 p (by simp)]; rfl
  | cons p L ih =>
    rw [List.cons_append, List.findIdx_cons, h1 p List.mem_cons_self,
      ih (fun q hq => h1 q (List.mem_cons_of_mem _ hq))]
    simp

theorem insertIdx_length {α : Type} (L R : List α) (x : α) :
    (L ++ R).insertIdx L.length x = L ++ x :: R := by
  induction L with
  | nil => simp
  | cons p L ih => simp [List.insertIdx_succ_cons, ih]

/-- Writing a cell at the right place of a list split at column `j`. -/
theorem putCell_split {L H : List Cell} {j : ℕ} {v w : ℚ} (hH : ∀ p ∈ H, j < p.1) :
    putCell (L ++ ((j, w) :: H)) L.length j v = L ++ (j, v) :: H ∧
    putCell (L ++ H) L.length j v = L ++ (j, v) :: H := by
  constructor
  · unfold putCell
    simp
  · unfold putCell
    cases H with
    | nil => simp
    | cons p H =>
      have := hH p List.mem_cons_self
      simp only [List.getElem?_append_right (Nat.le_refl _), Nat.sub_self, List.getElem?_cons_zero]
      rw [if_neg (by omega)]
      exact insertIdx_length L _ _

theorem mem_lows {j : ℕ} {l : List Cell} {p : Cell} : p ∈ lows j l ↔ p ∈ l ∧ p.1 < j := by
  simp [lows]
theorem mem_mids {j : ℕ} {l : List Cell} {p : Cell} : p ∈ mids j l ↔ p ∈ l ∧ p.1 = j := by
  simp [mids]
theorem mem_highs {j : ℕ} {l : List Cell} {p : Cell} : p ∈ highs j l ↔ p ∈ l ∧ j < p.1 := by
  simp [highs]

theorem findIdx_lows {l : List Cell} (h : SortedC l) (j : ℕ) :
    l.findIdx (fun p => decide (j ≤ p.1)) = (lows j l).length := by
  have := findIdx_prefix (fun p : Cell => decide (j ≤ p.1)) (lows j l) (mids j l ++ highs j l)
    (fun p hp => by have := (mem_lows.mp hp).2; simp; omega)
    (fun p hp => by
      have hm : p ∈ mids j l ++ highs j l := by
        rw [Option.mem_def] at hp; exact List.mem_of_head? hp
      rcases List.mem_append.mp hm with h | h
      · have := (mem_mids.mp h).2; simp; omega
      · have := (mem_highs.mp h).2; simp; omega)
  rwa [← sorted_split h j] at this

/-- Result of `insert_or_update_coeff` on a sorted list. -/
theorem insertOrUpd_split {l : List Cell} (h : SortedC l) (j : ℕ) (v : ℚ) :
    (ZERO_TOL < |v| → insertOrUpdCells l j v = some (lows j l ++ (j, v) :: highs j l)) ∧
    (|v| ≤ ZERO_TOL → ∀ w, (j, w) ∈ l → insertOrUpdCells l j v = some (lows j l ++ highs j l)) := by
  have hsp := sorted_split h j
  have hL : ∀ p ∈ lows j l, p.1 < j := by
    intro p hp; unfold lows at hp; simpa using (List.mem_filter.mp hp).2
  have hH : ∀ p ∈ highs j l, j < p.1 := by
    intro p hp; unfold highs at hp; simpa using (List.mem_filter.mp hp).2
  have hM : ∀ p ∈ mids j l, p.1 = j := by
    intro p hp; unfold mids at hp; simpa using (List.mem_filter.mp hp).2
  have hf := findIdx_lows h j
  constructor
  · intro hv
    unfold insertOrUpdCells
    simp only
    rw [if_neg (not_le.mpr hv), hf]
    congr 1
    by_cases hm : ∃ w, (j, w) ∈ l
    · obtain ⟨w, hw⟩ := hm
      have e := mids_of_mem h hw
      rw [e] at hsp
      generalize lows j l = L at hsp ⊢
      conv_lhs => rw [hsp]
      exact (putCell_split hH).1
    · have e : mids j l = [] := mids_of_noCol (fun p hp e => hm ⟨p.2, e ▸ hp⟩)
      rw [e, List.nil_append] at hsp
      generalize lows j l = L at hsp ⊢
      conv_lhs => rw [hsp]
      exact (putCell_split (w := 0) hH).2
  · intro hv w hw
    unfold insertOrUpdCells
    simp only
    rw [if_pos hv, hf]
    have e := mids_of_mem h hw
    rw [e] at hsp
    have hlen : (lows j l).length < l.length := by
      conv_rhs => rw [hsp]
      simp
    rw [if_pos hlen]
    congr 1
    generalize lows j l = L at hsp ⊢
    conv_lhs => rw [hsp]
    rw [List.eraseIdx_append_of_length_le (by simp)]
    simp

/-- The row without column `k`. -/
def without (k : ℕ) (l : List Cell) : List Cell := l.filter (fun p => decide (p.1 ≠ k))

theorem without_of_noCol {k : ℕ} {l : List Cell} (h : NoCol k l) : without k l = l := by
  unfold without
  rw [List.filter_eq_self]
  intro p hp; simpa using h p hp

theorem without_split {k : ℕ} {a : ℚ} {l1 l2 : List Cell} (h1 : NoCol k l1) (h2 : NoCol k l2) :
    without k (l1 ++ (k, a) :: l2) = l1 ++ l2 := by
  unfold without
  rw [List.filter_append, List.filter_cons_of_neg (by simp)]
  rw [show l1.filter _ = l1 from without_of_noCol h1, show l2.filter _ = l2 from without_of_noCol h2]

theorem SortedC.filter {l : List Cell} (h : SortedC l) (f : Cell → Bool) : SortedC (l.filter f) :=
  h.sublist List.filter_sublist

theorem findIdx_col {l1 l2 : List Cell} {k : ℕ} {a : ℚ} (h1 : NoCol k l1) :
    (l1 ++ (k, a) :: l2).findIdx (fun p => decide (p.1 = k)) = l1.length := by
  apply findIdx_prefix
  · intro p hp; simpa using h1 p hp
  · intro p hp; simp at hp; subst hp; simp

/-- Coefficient of column `j` (zero if the row does not contain it). -/
def coefAt (j : ℕ) (l : List Cell) : ℚ := ((mids j l).map Prod.snd).sum

theorem coefAt_cell {l : List Cell} (h : SortedC l) {j : ℕ} {v : ℚ} (hm : (j, v) ∈ l) :
    coefAt j l = v := by simp [coefAt, mids_of_mem h hm]

theorem coefAt_noCol {l : List Cell} {j : ℕ} (hm : NoCol j l) : coefAt j l = 0 := by
  simp [coefAt, mids_of_noCol hm]

/-- Result of `update_row_A_dton` on a sorted row. -/
theorem dtonRow_split {l : List Cell} (h : SortedC l) {j k : ℕ} (hjk : j ≠ k) {a : ℚ}
    (hk : (k, a) ∈ l) (ratio : ℚ) :
    let new := coefAt j l - ratio * a
    (ZERO_TOL < |new| → dtonRow l j k ratio =
      some ⟨lows j (without k l) ++ (j, new) :: highs j (without k l), coefAt j l, a, new⟩) ∧
    (|new| ≤ ZERO_TOL → (∃ w, (j, w) ∈ l) → dtonRow l j k ratio =
      some ⟨lows j (without k l) ++ highs j (without k l), coefAt j l, a, new⟩) := by
  intro new
  set l' := without k l with hl'
  have hs' : SortedC l' := h.filter _
  have hsp := sorted_split h j
  have hsp' := sorted_split hs' j
  have hL : ∀ p ∈ lows j l, p.1 < j := by
    intro p hp; unfold lows at hp; simpa using (List.mem_filter.mp hp).2
  have hH : ∀ p ∈ highs j l, j < p.1 := by
    intro p hp; unfold highs at hp; simpa using (List.mem_filter.mp hp).2
  have hM : ∀ p ∈ mids j l, p.1 = j := by
    intro p hp; unfold mids at hp; simpa using (List.mem_filter.mp hp).2
  have hH' : ∀ p ∈ highs j l', j < p.1 := by
    intro p hp; unfold highs at hp; simpa using (List.mem_filter.mp hp).2
  have hf := findIdx_lows h j
  have hmid : mids j l' = mids j l := by
    rw [hl']; unfold mids without
    rw [List.filter_filter]
    apply List.filter_congr
    intro p _
    by_cases e : p.1 = j
    · simp [e, hjk]
    · simp [e]
  -- the old coefficient
  have hold : (match l[(lows j l).length]? with
      | none => 0
      | some p => if p.1 = j then p.2 else 0) = coefAt j l := by
    by_cases hm : ∃ w, (j, w) ∈ l
    · obtain ⟨w, hw⟩ := hm
      rw [coefAt_cell h hw]
      have e := mids_of_mem h hw
      rw [e] at hsp
      have : l[(lows j l).length]? = some (j, w) := by
        generalize lows j l = L at hsp ⊢
        rw [hsp]
        simp
      rw [this]; simp
    · have hn : NoCol j l := fun p hp e => hm ⟨p.2, e ▸ hp⟩
      rw [coefAt_noCol hn]
      cases hg : l[(lows j l).length]? with
      | none => rfl
      | some p =>
        simp only
        have hp : p ∈ l := List.mem_of_getElem? hg
        rw [if_neg (hn p hp)]
  -- the removed cell
  obtain ⟨l1, l2, el, n1, n2⟩ := split_col h.nodup hk
  have hsub : l.findIdx (fun p => decide (p.1 = k)) = l1.length := by rw [el]; exact findIdx_col n1
  have hget : l[l1.length]? = some (k, a) := by rw [el]; simp
  have herase : l.eraseIdx l1.length = l' := by
    rw [hl', el, without_split n1 n2, List.eraseIdx_append_of_length_le (by simp)]
    simp
  -- the position after the removal
  have hins : (if l1.length < (lows j l).length then (lows j l).length - 1 else (lows j l).length) =
      (lows j l').length := by
    have e1 : lows j l' = lows j l1 ++ lows j l2 := by
      rw [hl', el, without_split n1 n2]; unfold lows; rw [List.filter_append]
    have hsort : SortedC (l1 ++ (k, a) :: l2) := el ▸ h
    have hs2 := List.pairwise_append.mp hsort
    rcases lt_or_gt_of_ne hjk with hlt | hgt
    · -- column `k` lies behind `j`
      have e2 : lows j l = lows j l1 ++ lows j l2 := by
        rw [el]; unfold lows
        rw [List.filter_append, List.filter_cons_of_neg (by simp; omega)]
      have e3 : (lows j l1).length ≤ l1.length := by unfold lows; exact List.length_filter_le _ _
      have e4 : lows j l2 = [] := by
        unfold lows
        rw [List.filter_eq_nil_iff]
        intro p hp
        have := (List.pairwise_cons.mp hs2.2.1).1 p hp
        simp only at this
        simp; omega
      rw [e1, e2, e4, List.append_nil, if_neg (by omega)]
    · have e2 : lows j l = lows j l1 ++ (k, a) :: lows j l2 := by
        rw [el]; unfold lows
        rw [List.filter_append, List.filter_cons_of_pos (by simpa using hgt)]
      have e3 : lows j l1 = l1 := by
        unfold lows
        rw [List.filter_eq_self]
        intro p hp
        have := hs2.2.2 p hp (k, a) List.mem_cons_self
        simp only at this
        simp; omega
      rw [e1, e2, e3, if_pos (by simp)]
      simp
  have hunf : dtonRow l j k ratio =
      (if |new| ≤ ZERO_TOL then
        if (lows j l').length < l'.length then
          some ⟨l'.eraseIdx (lows j l').length, coefAt j l, a, new⟩ else none
      else some ⟨putCell l' (lows j l').length j new, coefAt j l, a, new⟩) := by
    unfold dtonRow
    simp only
    rw [hsub, hget]
    simp only
    rw [hf]
    generalize hg : l[(lows j l).length]? = g at hold ⊢
    cases g with
    | none => simp only at hold ⊢; rw [hold, herase, hins]
    | some p => simp only at hold ⊢; rw [hold, herase, hins]
  constructor
  · intro hv
    rw [hunf, if_neg (not_le.mpr hv)]
    congr 2
    by_cases hm : ∃ w, (j, w) ∈ l
    · obtain ⟨w, hw⟩ := hm
      have e := hmid.trans (mids_of_mem h hw)
      rw [e] at hsp'
      generalize lows j l' = L at hsp' ⊢
      generalize highs j l' = H at hsp' hH' ⊢
      rw [hsp']
      exact (putCell_split hH').1
    · have e : mids j l' = [] := hmid.trans (mids_of_noCol (fun p hp e => hm ⟨p.2, e ▸ hp⟩))
      rw [e, List.nil_append] at hsp'
      generalize lows j l' = L at hsp' ⊢
      generalize highs j l' = H at hsp' hH' ⊢
      rw [hsp']
      exact (putCell_split (w := 0) hH').2
  · rintro hv ⟨w, hw⟩
    rw [hunf, if_pos hv]
    have e := hmid.trans (mids_of_mem h hw)
    rw [e] at hsp'
    have hlen : (lows j l').length < l'.length := by
      conv_rhs => rw [hsp']
      simp
    rw [if_pos hlen]
    congr 2
    generalize lows j l' = L at hsp' ⊢
    generalize highs j l' = H at hsp' ⊢
    rw [hsp']
    rw [List.eraseIdx_append_of_length_le (by simp)]
    simp

end Verif
