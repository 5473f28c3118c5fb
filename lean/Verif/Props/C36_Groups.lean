import Verif.Model.Hash
import Verif.Lemmas.EnvEx
import Mathlib.Tactic.Ring
import Mathlib.Tactic.Linarith
import Mathlib.Tactic.FieldSimp
import Mathlib.Data.List.TakeWhile

/-!
# C36: what the grouping of parallel rows finds
-/

namespace Verif

/-- Lexicographic order of the sort keys. -/
def KeyLe (a b : ℤ × ℤ) : Prop := a.1 < b.1 ∨ (a.1 = b.1 ∧ a.2 ≤ b.2)

theorem KeyLe.antisymm {a b : ℤ × ℤ} (h1 : KeyLe a b) (h2 : KeyLe b a) : a = b := by
  unfold KeyLe at h1 h2
  ext <;> omega

theorem takeWhile_key {key : ℕ → ℤ × ℤ} {r : ℕ} {l : List ℕ}
    (hs : (r :: l).Pairwise (fun a b => KeyLe (key a) (key b))) {x : ℕ} (hx : x ∈ l)
    (hk : key x = key r) : x ∈ l.takeWhile (fun i => decide (key i = key r)) := by
  induction l with
  | nil => simp at hx
  | cons a l ih =>
    rw [List.pairwise_cons, List.pairwise_cons] at hs
    obtain ⟨h1, h2, h3⟩ := hs
    have ha : key a = key r := by
      rcases List.mem_cons.mp hx with rfl | hx'
      · exact hk
      · have := h2 x hx'
        rw [hk] at this
        exact KeyLe.antisymm this (h1 a (by simp))
    rw [List.takeWhile_cons_of_pos (by simp [ha])]
    rcases List.mem_cons.mp hx with rfl | hx'
    · simp
    · exact List.mem_cons_of_mem _ (ih (List.pairwise_cons.mpr ⟨fun b hb => h1 b (by simp [hb]), h3⟩) hx')

theorem binGroup_mem {M : ℕ → List Cell} {f : ℕ} {rest : List ℕ} {g : List ℕ}
    (h : g ∈ binGroup M f rest) : g = rest.filter (fun i => isParallel (M f) (M i)) ++ [f] ∧
      rest.filter (fun i => isParallel (M f) (M i)) ≠ [] := by
  unfold binGroup at h
  by_cases e : rest.filter (fun i => isParallel (M f) (M i)) = []
  · simp [e] at h
  · simp only [e, if_false, List.mem_singleton] at h
    exact ⟨h, e⟩

/-- Soundness of the loop over the sorted rows. -/
theorem findGroups_sound (key : ℕ → ℤ × ℤ) (inactive : ℕ → Bool) (M : ℕ → List Cell) (l : List ℕ) :
    l.Nodup →
    (findGroups key inactive M l).flatten.Nodup ∧
    (∀ x ∈ (findGroups key inactive M l).flatten, x ∈ l) ∧
    ∀ g ∈ findGroups key inactive M l, ∃ par f, g = par ++ [f] ∧ par ≠ [] ∧ inactive f = false ∧
      ∀ i ∈ par, key i = key f ∧ isParallel (M f) (M i) = true := by
  induction l using findGroups.induct (key := key) (inactive := inactive) with
  | case1 => intro _; simp [findGroups]
  | case2 r rest h => intro _; simp [findGroups, h]
  | case3 r rest h ih =>
    intro hn
    rw [List.nodup_cons] at hn
    set tw := rest.takeWhile (fun i => decide (key i = key r)) with htw
    set dw := rest.dropWhile (fun i => decide (key i = key r)) with hdw
    have hsplit : tw ++ dw = rest := List.takeWhile_append_dropWhile
    have hnr : (tw ++ dw).Nodup := by rw [hsplit]; exact hn.2
    rw [List.nodup_append] at hnr
    obtain ⟨i1, i2, i3⟩ := ih hnr.2.1
    have e : findGroups key inactive M (r :: rest) = binGroup M r tw ++ findGroups key inactive M dw := by
      rw [findGroups]; simp [h, htw, hdw]
    rw [e]
    have hb : (binGroup M r tw).flatten = if tw.filter (fun i => isParallel (M r) (M i)) = [] then []
        else tw.filter (fun i => isParallel (M r) (M i)) ++ [r] := by
      unfold binGroup
      generalize tw.filter (fun i => isParallel (M r) (M i)) = P
      by_cases hP : P = [] <;> simp [hP]
    have hbm : ∀ x ∈ (binGroup M r tw).flatten, x ∈ tw ∨ x = r := by
      intro x hx
      rw [hb] at hx
      split at hx
      · simp at hx
      · rcases List.mem_append.mp hx with hx | hx
        · exact Or.inl (List.mem_filter.mp hx).1
        · exact Or.inr (List.mem_singleton.mp hx)
    have hmr : ∀ x, x ∈ tw ∨ x ∈ dw → x ∈ rest := by
      intro x hx; rw [← hsplit]; exact List.mem_append.mpr hx
    refine ⟨?_, ?_, ?_⟩
    · rw [List.flatten_append, List.nodup_append]
      refine ⟨?_, i1, ?_⟩
      · rw [hb]
        split
        · simp
        · rw [List.nodup_append]
          refine ⟨hnr.1.filter _, by simp, ?_⟩
          intro a ha b hb' hab
          rw [List.mem_singleton] at hb'
          subst hb'; subst hab
          exact hn.1 (hmr _ (Or.inl (List.mem_filter.mp ha).1))
      · intro a ha b hb' hab
        subst hab
        have hd := i2 a hb'
        rcases hbm a ha with h1 | h1
        · exact hnr.2.2 a h1 a hd rfl
        · subst h1; exact hn.1 (hmr _ (Or.inr hd))
    · intro x hx
      rw [List.flatten_append, List.mem_append] at hx
      rcases hx with hx | hx
      · rcases hbm x hx with h1 | h1
        · exact List.mem_cons_of_mem _ (hmr _ (Or.inl h1))
        · simp [h1]
      · exact List.mem_cons_of_mem _ (hmr _ (Or.inr (i2 x hx)))
    · intro g hg
      rcases List.mem_append.mp hg with hg | hg
      · obtain ⟨e1, e2⟩ := binGroup_mem hg
        refine ⟨_, r, e1, e2, by simpa using h, ?_⟩
        intro i hi
        rw [List.mem_filter] at hi
        refine ⟨?_, hi.2⟩
        have := List.mem_takeWhile_imp hi.1
        simpa using this
      · exact i3 g hg

/-- Completeness of the loop over the sorted rows. -/
theorem findGroups_complete (key : ℕ → ℤ × ℤ) (inactive : ℕ → Bool) (M : ℕ → List Cell) (a b : ℕ)
    (hab : a ≠ b) (hk : key a = key b) (hmax : (key a).1 < 2147483647)
    (hin : ∀ i, inactive i = true → (key i).1 = 2147483647)
    (l : List ℕ) : l.Pairwise (fun a b => KeyLe (key a) (key b)) → a ∈ l → b ∈ l →
    (∀ f ∈ l, key f = key a → ∀ i, (i = a ∨ i = b) → i ≠ f → isParallel (M f) (M i) = true) →
    ∃ g ∈ findGroups key inactive M l, a ∈ g ∧ b ∈ g := by
  induction l using findGroups.induct (key := key) (inactive := inactive) with
  | case1 => intro _ h; simp at h
  | case2 r rest h =>
    intro hs ha _ _
    exfalso
    have hr := hin r h
    rcases List.mem_cons.mp ha with rfl | ha
    · omega
    · have := (List.pairwise_cons.mp hs).1 a ha
      unfold KeyLe at this
      omega
  | case3 r rest h ih =>
    intro hs ha hb hp
    have e : findGroups key inactive M (r :: rest) =
        binGroup M r (rest.takeWhile (fun i => decide (key i = key r))) ++
        findGroups key inactive M (rest.dropWhile (fun i => decide (key i = key r))) := by
      rw [findGroups]; simp [h]
    rw [e]
    by_cases hkr : key r = key a
    · have hm : ∀ i, (i = a ∨ i = b) → i ≠ r →
          i ∈ (rest.takeWhile (fun i => decide (key i = key r))).filter
            (fun i => isParallel (M r) (M i)) := by
        intro i hi hir
        rw [List.mem_filter]
        refine ⟨?_, hp r (by simp) hkr i hi hir⟩
        have hil : i ∈ r :: rest := by rcases hi with rfl | rfl <;> assumption
        refine takeWhile_key hs ((List.mem_cons.mp hil).resolve_left hir) ?_
        rcases hi with rfl | rfl
        · exact hkr.symm
        · rw [hkr, hk]
      have hne : (rest.takeWhile (fun i => decide (key i = key r))).filter
            (fun i => isParallel (M r) (M i)) ≠ [] := by
        by_cases har : a = r
        · exact List.ne_nil_of_mem (hm b (Or.inr rfl) (fun e => hab (har.trans e.symm)))
        · exact List.ne_nil_of_mem (hm a (Or.inl rfl) har)
      refine ⟨_, List.mem_append_left _ (by
        unfold binGroup; simp only [hne, if_false]; exact List.mem_singleton.mpr rfl), ?_, ?_⟩
      · by_cases har : a = r
        · simp [har]
        · exact List.mem_append_left _ (hm a (Or.inl rfl) har)
      · by_cases hbr : b = r
        · simp [hbr]
        · exact List.mem_append_left _ (hm b (Or.inr rfl) hbr)
    · have hmem : ∀ i, key i = key a → i ∈ r :: rest →
          i ∈ rest.dropWhile (fun i => decide (key i = key r)) := by
        intro i hi hil
        have hir : i ≠ r := fun e => hkr (e ▸ hi)
        have hil := (List.mem_cons.mp hil).resolve_left hir
        rw [← List.takeWhile_append_dropWhile (p := fun i => decide (key i = key r)) (l := rest)] at hil
        rcases List.mem_append.mp hil with h1 | h1
        · have := List.mem_takeWhile_imp h1
          have : key i = key r := by simpa using this
          exact absurd (this.symm.trans hi) hkr
        · exact h1
      obtain ⟨g, hg, h1, h2⟩ := ih
        ((List.pairwise_cons.mp hs).2.sublist (List.dropWhile_sublist _))
        (hmem a rfl ha) (hmem b hk.symm hb)
        (fun f hf => hp f (List.mem_cons_of_mem _ ((List.dropWhile_sublist _).subset hf)))
      exact ⟨g, List.mem_append_right _ hg, h1, h2⟩

theorem maxAbs_scale (r : ℚ) (l : List ℚ) : maxAbs (l.map (fun v => r * v)) = |r| * maxAbs l := by
  cases l with
  | nil => simp [maxAbs]
  | cons a l =>
    simp only [List.map_cons, maxAbs, abs_mul]
    by_cases hr : r = 0
    · subst hr
      have : ∀ (l : List ℚ), List.foldl (fun m v => if m < |v| then |v| else m) 0
          (List.map (fun v => (0 : ℚ) * v) l) = 0 := by
        intro l
        induction l with
        | nil => rfl
        | cons b l ih => simpa using ih
      simpa using this l
    · have hr' : 0 < |r| := abs_pos.mpr hr
      generalize |a| = m
      induction l generalizing m with
      | nil => rfl
      | cons b l ih =>
        simp only [List.map_cons, List.foldl_cons, abs_mul]
        by_cases h : m < |b|
        · rw [if_pos h, if_pos (mul_lt_mul_of_pos_left h hr'), ih]
        · rw [if_neg h, if_neg (by
            intro h'; exact h (lt_of_mul_lt_mul_left h' hr'.le)), ih]

/-- Scaling a row does not change its normalized coefficients. -/
theorem normalize_scale {r : ℚ} (hr : r ≠ 0) {l : List ℚ} (hl : ∀ v ∈ l, v ≠ 0) :
    normalize (l.map (fun v => r * v)) = normalize l := by
  cases l with
  | nil => rfl
  | cons a l =>
    have ha : a ≠ 0 := hl a (by simp)
    have hm := maxAbs_scale r (a :: l)
    simp only [List.map_cons] at hm
    unfold normalize
    simp only [List.map_cons]
    rw [hm]
    generalize maxAbs (a :: l) = mx
    have key : ∀ v : ℚ, r * v * (if 0 < r * a then 1 / (|r| * mx) else -1 / (|r| * mx)) =
        v * (if 0 < a then 1 / mx else -1 / mx) := by
      intro v
      rcases lt_or_gt_of_ne hr with h | h
      · have hr1 : |r| = -r := abs_of_neg h
        rcases lt_or_gt_of_ne ha with h' | h'
        · rw [if_pos (mul_pos_of_neg_of_neg h h'), if_neg (not_lt.mpr h'.le), hr1]
          by_cases hx : mx = 0
          · simp [hx]
          · field_simp
        · rw [if_neg (not_lt.mpr (mul_neg_of_neg_of_pos h h').le), if_pos h', hr1]
          by_cases hx : mx = 0
          · simp [hx]
          · field_simp
      · have hr1 : |r| = r := abs_of_pos h
        rcases lt_or_gt_of_ne ha with h' | h'
        · rw [if_neg (not_lt.mpr (mul_neg_of_pos_of_neg h h').le), if_neg (not_lt.mpr h'.le), hr1]
          by_cases hx : mx = 0
          · simp [hx]
          · field_simp
        · rw [if_pos (mul_pos h h'), if_pos h', hr1]
          by_cases hx : mx = 0
          · simp [hx]
          · field_simp
    rw [key a, List.map_map]
    congr 1
    apply List.map_congr_left
    intro v _
    exact key v

/-- Row `a` is a nonzero multiple of row `b`. -/
def Proportional (a b : List Cell) : Prop := ∃ r : ℚ, r ≠ 0 ∧ a = b.map (fun p => (p.1, r * p.2))

/-- The code's notion of parallel rows: same columns, coefficients equal to `FEAS_TOL` after scaling
by the quotient of the first ones. -/
def ParallelTol (a b : List Cell) : Prop :=
  a.map Prod.fst = b.map Prod.fst ∧
  ∀ t (h1 : t < a.length) (h2 : t < b.length),
    |a[t].2 - firstCoef a / firstCoef b * b[t].2| ≤ FEAS_TOL

theorem ParallelTol_of {a b : List Cell} (h : isParallel a b = true) : ParallelTol a b := by
  unfold isParallel at h
  cases a with
  | nil =>
    cases b with
    | nil => exact ⟨rfl, fun t h => absurd h (by simp)⟩
    | cons q b => simp at h
  | cons p a =>
    cases b with
    | nil => simp at h
    | cons q b =>
      simp only [Bool.and_eq_true, decide_eq_true_eq, List.all_eq_true] at h
      obtain ⟨hlen, hall⟩ := h
      have hall' : ∀ t (h1 : t < (p :: a).length) (h2 : t < (q :: b).length),
          |(p :: a)[t].2 - p.2 / q.2 * (q :: b)[t].2| ≤ FEAS_TOL ∧ (p :: a)[t].1 = (q :: b)[t].1 := by
        intro t h1 h2
        have hz : t < ((p :: a).zip (q :: b)).length := by rw [List.length_zip]; omega
        have := hall _ (List.getElem_mem hz)
        simpa only [List.getElem_zip] using this
      refine ⟨?_, fun t h1 h2 => (hall' t h1 h2).1⟩
      apply List.ext_getElem
      · simpa using hlen
      · intro t h1 h2
        simp only [List.getElem_map]
        exact (hall' t (by simpa using h1) (by simpa using h2)).2

theorem isParallel_of {a b : List Cell} (hb : ∀ p ∈ b, p.2 ≠ 0) (h : Proportional a b) :
    isParallel a b = true := by
  obtain ⟨r, hr, rfl⟩ := h
  unfold isParallel
  cases b with
  | nil => rfl
  | cons q b =>
    have hq : q.2 ≠ 0 := hb q (by simp)
    simp only [List.map_cons, Bool.and_eq_true, decide_eq_true_eq, List.all_eq_true]
    refine ⟨by simp, ?_⟩
    intro x hx
    rw [← List.map_cons (f := fun p : Cell => (p.1, r * p.2)), List.zip_map_left] at hx
    obtain ⟨y, hy, rfl⟩ := List.mem_map.mp hx
    have hyy : y.1 = y.2 := by
      obtain ⟨t, ht, rfl⟩ := List.mem_iff_getElem.mp hy
      rw [List.getElem_zip]
    have : r * q.2 / q.2 = r := by field_simp
    simp only [Prod.map, id]
    rw [this, hyy]
    simp [FEAS_TOL_pos.le]

theorem Proportional.refl (a : List Cell) : Proportional a a :=
  ⟨1, one_ne_zero, by simp⟩
theorem Proportional.symm {a b : List Cell} (h : Proportional a b) : Proportional b a := by
  obtain ⟨r, hr, rfl⟩ := h
  refine ⟨r⁻¹, inv_ne_zero hr, ?_⟩
  rw [List.map_map]
  conv_lhs => rw [← List.map_id b]
  apply List.map_congr_left
  intro p _
  simp [inv_mul_cancel_left₀ hr]
theorem Proportional.trans {a b c : List Cell} (h : Proportional a b) (h' : Proportional b c) :
    Proportional a c := by
  obtain ⟨r, hr, rfl⟩ := h
  obtain ⟨q, hq, rfl⟩ := h'
  refine ⟨r * q, mul_ne_zero hr hq, ?_⟩
  rw [List.map_map]
  apply List.map_congr_left
  intro p _
  simp [mul_assoc]

theorem rowKey_active {env : Env} {tick : ℕ} {M : ℕ → List Cell} {inactive : ℕ → Bool} {i : ℕ}
    (h : inactive i = false) : rowKey env tick M inactive i =
      (env.hashSupp ((M i).map Prod.fst), env.hashCoef ((M i).map Prod.snd)) := by
  simp [rowKey, h]

/-- Proportional rows have the same key. -/
theorem rowKey_proportional {env : Env} (hH : env.HashOK) {tick : ℕ} {M : ℕ → List Cell}
    {inactive : ℕ → Bool} {a b : ℕ} (ha : inactive a = false) (hb : inactive b = false)
    (hnz : ∀ p ∈ M b, p.2 ≠ 0) (h : Proportional (M a) (M b)) :
    rowKey env tick M inactive a = rowKey env tick M inactive b := by
  obtain ⟨H, hH⟩ := hH
  obtain ⟨r, hr, e⟩ := h
  rw [rowKey_active ha, rowKey_active hb, hH, hH, e]
  have e1 : List.map Prod.fst (List.map (fun p : Cell => (p.1, r * p.2)) (M b)) = (M b).map Prod.fst := by
    rw [List.map_map]; rfl
  have e2 : List.map Prod.snd (List.map (fun p : Cell => (p.1, r * p.2)) (M b)) =
      ((M b).map Prod.snd).map (fun v => r * v) := by
    rw [List.map_map, List.map_map]; rfl
  rw [e1, e2, normalize_scale hr]
  intro v hv
  obtain ⟨p, hp, rfl⟩ := List.mem_map.mp hv
  exact hnz p hp

/-- **C36 (what is found).** For every matrix and every order the sort may leave: no row is in two
groups or twice in one, every group has at least two rows, all rows of a group are active, have the
same columns and equal hashes, and are parallel to the last one.  The hash of the columns of an active
row must not be `INT_MAX`, the value that marks inactive rows. -/
theorem C36_groups (env : Env) (hs : env.SortOK) (tick : ℕ) (M : ℕ → List Cell) (inactive : ℕ → Bool)
    (n : ℕ) (hmax : ∀ i < n, inactive i = false → env.hashSupp ((M i).map Prod.fst) ≠ 2147483647) :
    (findParallel env tick M inactive n).flatten.Nodup ∧
    ∀ g ∈ findParallel env tick M inactive n,
      2 ≤ g.length ∧ (∀ i ∈ g, i < n ∧ inactive i = false) ∧
      (∀ i ∈ g, ∀ i' ∈ g, env.hashSupp ((M i).map Prod.fst) = env.hashSupp ((M i').map Prod.fst) ∧
        env.hashCoef ((M i).map Prod.snd) = env.hashCoef ((M i').map Prod.snd) ∧
        (M i).map Prod.fst = (M i').map Prod.fst) ∧
      ∃ f, g.getLast? = some f ∧ ∀ i ∈ g, i ≠ f → ParallelTol (M f) (M i) := by
  have hp := hs.perm tick (rowKey env tick M inactive) (List.range n)
  obtain ⟨h1, h2, h3⟩ := findGroups_sound (rowKey env tick M inactive) inactive M
    (env.sort tick (rowKey env tick M inactive) (List.range n)) (hp.nodup_iff.mpr List.nodup_range)
  refine ⟨h1, fun g hg => ?_⟩
  obtain ⟨par, f, rfl, hne, hf, hpar⟩ := h3 g hg
  have hlt : ∀ i ∈ par ++ [f], i < n := by
    intro i hi
    have := hp.mem_iff.mp (h2 i (List.mem_flatten.mpr ⟨_, hg, hi⟩))
    exact List.mem_range.mp this
  have hfn := hlt f (by simp)
  have hact : ∀ i ∈ par ++ [f], inactive i = false := by
    intro i hi
    rcases List.mem_append.mp hi with hi | hi
    · by_contra hc
      rw [Bool.not_eq_false] at hc
      have := (hpar i hi).1
      rw [rowKey_active hf] at this
      simp only [rowKey, hc, if_true, Prod.mk.injEq] at this
      exact hmax f hfn hf this.1.symm
    · rw [List.mem_singleton.mp hi]; exact hf
  have hkey : ∀ i ∈ par ++ [f], rowKey env tick M inactive i = rowKey env tick M inactive f := by
    intro i hi
    rcases List.mem_append.mp hi with hi | hi
    · exact (hpar i hi).1
    · rw [List.mem_singleton.mp hi]
  have hsupp : ∀ i ∈ par ++ [f], (M i).map Prod.fst = (M f).map Prod.fst := by
    intro i hi
    rcases List.mem_append.mp hi with hi | hi
    · exact (ParallelTol_of (hpar i hi).2).1.symm
    · rw [List.mem_singleton.mp hi]
  refine ⟨?_, fun i hi => ⟨hlt i hi, hact i hi⟩, ?_, f, by simp, ?_⟩
  · have := List.length_pos_of_ne_nil hne
    simp only [List.length_append, List.length_singleton]
    omega
  · intro i hi i' hi'
    have := (hkey i hi).trans (hkey i' hi').symm
    rw [rowKey_active (hact i hi), rowKey_active (hact i' hi'), Prod.mk.injEq] at this
    exact ⟨this.1, this.2, (hsupp i hi).trans (hsupp i' hi').symm⟩
  · intro i hi hif
    rcases List.mem_append.mp hi with hi | hi
    · exact ParallelTol_of (hpar i hi).2
    · exact absurd (List.mem_singleton.mp hi) hif

/-- **C36 (completeness).** Two active rows that are multiples of each other end up in one group.
Partial: every active row with the same hashes must be a multiple of them too, because only one group
per bin of equal hashes is looked for; `C36_complete_fails` shows that the condition is needed. -/
theorem C36_complete_partial (env : Env) (hs : env.SortOK) (hH : env.HashOK) (tick : ℕ)
    (M : ℕ → List Cell) (inactive : ℕ → Bool) (n : ℕ)
    (hnz : ∀ i < n, ∀ p ∈ M i, p.2 ≠ 0) (a b : ℕ) (hab : a ≠ b) (han : a < n) (hbn : b < n)
    (ha : inactive a = false) (hb : inactive b = false) (hpar : Proportional (M a) (M b))
    (hmax : env.hashSupp ((M a).map Prod.fst) < 2147483647)
    (hcol : ∀ f < n, inactive f = false →
      env.hashSupp ((M f).map Prod.fst) = env.hashSupp ((M a).map Prod.fst) →
      env.hashCoef ((M f).map Prod.snd) = env.hashCoef ((M a).map Prod.snd) →
      Proportional (M f) (M a)) :
    ∃ g ∈ findParallel env tick M inactive n, a ∈ g ∧ b ∈ g := by
  have hp := hs.perm tick (rowKey env tick M inactive) (List.range n)
  have hmem : ∀ i, i ∈ env.sort tick (rowKey env tick M inactive) (List.range n) ↔ i < n :=
    fun i => hp.mem_iff.trans List.mem_range
  refine findGroups_complete (rowKey env tick M inactive) inactive M a b hab
    (rowKey_proportional hH ha hb (hnz b hbn) hpar) (by rw [rowKey_active ha]; exact hmax)
    (fun i hi => by simp [rowKey, hi]) _ (hs.sorted tick _ _) ((hmem a).mpr han) ((hmem b).mpr hbn) ?_
  intro f hf hk i hi hne
  have hfn := (hmem f).mp hf
  have hfa : inactive f = false := by
    by_contra hc
    rw [Bool.not_eq_false] at hc
    rw [rowKey_active ha] at hk
    simp only [rowKey, hc, if_true, Prod.mk.injEq] at hk
    omega
  rw [rowKey_active hfa, rowKey_active ha, Prod.mk.injEq] at hk
  have hfp := hcol f hfn hfa hk.1 hk.2
  rcases hi with rfl | rfl
  · exact isParallel_of (hnz _ han) hfp
  · exact isParallel_of (hnz _ hbn) (hfp.trans hpar)

/-- The environment with the hashes of the code. -/
def envHash : Env := { envEx with hashSupp := hashSuppC, hashCoef := hashCoefC }

theorem envHash_sortOK : envHash.SortOK := ⟨envEx_sortOK.perm, envEx_sortOK.sorted⟩

theorem envHash_hashOK : envHash.HashOK :=
  ⟨fun l => toI32 (djb2 (l.map (fun v => wrap32 (cRound (v * 1000000))))), fun _ => rfl⟩

/-- Rows 0 and 2 are multiples of each other, row 1 is not. -/
def exGroups : ℕ → List Cell :=
  ofList [[(0, 1), (2, 2)], [(0, 1), (2, 3)], [(0, -2), (2, -4)]] []

/-- The hypotheses of `C36_groups` and `C36_complete_partial` hold for `exGroups`, `a = 0`, `b = 2`,
with the hashes of the code. -/
example : (∀ i < 3, envHash.hashSupp ((exGroups i).map Prod.fst) ≠ 2147483647) ∧
    (∀ i < 3, ∀ p ∈ exGroups i, p.2 ≠ 0) ∧ Proportional (exGroups 0) (exGroups 2) ∧
    envHash.hashSupp ((exGroups 0).map Prod.fst) < 2147483647 ∧
    (∀ f < 3, envHash.hashSupp ((exGroups f).map Prod.fst) = envHash.hashSupp ((exGroups 0).map Prod.fst) →
      envHash.hashCoef ((exGroups f).map Prod.snd) = envHash.hashCoef ((exGroups 0).map Prod.snd) →
      f = 0 ∨ f = 2) ∧
    findParallel envHash 0 exGroups (fun _ => false) 3 = [[2, 0]] := by
  refine ⟨by decide +kernel, by decide +kernel, ⟨-1 / 2, by norm_num, by decide +kernel⟩,
    by decide +kernel, by decide +kernel, ?_⟩
  decide +kernel

/-- Rows 0 and 2 are multiples of each other, and so are rows 1 and 3. -/
def exCollide : ℕ → List Cell :=
  ofList [[(0, 1), (1, 1 / 2), (2, 1 / 2)], [(0, 1), (1, 500001 / 1000000), (2, 499967 / 1000000)],
    [(0, 2), (1, 1), (2, 1)], [(0, 2), (1, 500001 / 500000), (2, 499967 / 500000)]] []

/-- **Negation of C36 (completeness).** With the hashes of the code the four rows fall into one bin;
rows 1 and 3, multiples of each other, are not found. -/
theorem C36_complete_fails :
    envHash.SortOK ∧ envHash.HashOK ∧ Proportional (exCollide 1) (exCollide 3) ∧
    ¬ ∃ g ∈ findParallel envHash 0 exCollide (fun _ => false) 4, 1 ∈ g ∧ 3 ∈ g := by
  refine ⟨envHash_sortOK, envHash_hashOK, ⟨1 / 2, by norm_num, by decide +kernel⟩, ?_⟩
  rw [show findParallel envHash 0 exCollide (fun _ => false) 4 = [[2, 0]] by decide +kernel]
  decide

end Verif
