import Verif.Inv.Basic
import Verif.Lemmas.Sides
import Verif.Model.Ston

/-!
# Elementary changes of the state that keep the structural invariant
-/

namespace Verif

/-- The rows of an active column are active when no row deletion is pending. -/
theorem GI.rowsActive {s : St} (g : GI s) (h : s.rowsToDelete = []) {k : ℕ}
    (hk : (s.ctag k).inactive = false) : ∀ p ∈ s.AT k, (s.rtag p.1).inactive = false := by
  intro p hp
  cases e : (s.rtag p.1).inactive with
  | false => rfl
  | true =>
    have := g.rowPend p.1 e (g.colIn k hk p hp)
    rw [h] at this; cases this

/-- The columns of an active row are active when no column deletion is pending. -/
theorem GI.colsActive {s : St} (g : GI s) (h : s.fixedCols = []) (h' : s.subCols = []) {i : ℕ}
    (hi : (s.rtag i).inactive = false) : ∀ p ∈ s.A i, (s.ctag p.1).inactive = false := by
  intro p hp
  cases e : (s.ctag p.1).inactive with
  | false => rfl
  | true =>
    have := g.colPendIn p.1 e (g.rowIn i hi p hp)
    rw [h, h'] at this; cases this

theorem GI.rowNotDel {s : St} (g : GI s) {i : ℕ} (hi : (s.rtag i).inactive = false) :
    i ∉ s.rowsToDelete := by
  intro h; rw [(g.rowsDel i h).1] at hi; cases hi

theorem GI.colNotDel {s : St} (g : GI s) {k : ℕ} (hk : (s.ctag k).inactive = false) :
    k ∉ s.fixedCols ++ s.subCols := by
  intro h; rw [(g.colsDel k h).1] at hk; cases hk

/-- A column is marked for deletion. -/
theorem GI.markCol {s : St} (g : GI s) {k : ℕ} (hk : (s.ctag k).inactive = false) (t : CTag)
    (ht : t.inactive = true) (fc sc : List ℕ)
    (hp : (fc ++ sc).Perm (k :: (s.fixedCols ++ s.subCols))) :
    GI { s with ctag := upd s.ctag k t, fixedCols := fc, subCols := sc } := by
  have hin : ∀ j, (upd s.ctag k t j).inactive = false → (s.ctag j).inactive = false := by
    intro j hj
    by_cases e : j = k
    · rw [e]; exact hk
    · rwa [upd_ne _ _ e] at hj
  constructor
  · exact g.rowSz
  · exact g.rowGone
  · intro j hj
    refine ⟨(g.colGone j hj).1, ?_⟩
    by_cases e : j = k
    · rw [e]; simpa using ht
    · simpa [e] using (g.colGone j hj).2
  · intro j hj; exact g.colSz j (hin j hj)
  · exact g.colPend
  · exact g.agree
  · exact g.rowIn
  · intro j hj; exact g.colIn j (hin j hj)
  · exact g.rowSorted
  · exact g.colSorted
  · exact g.rowRange
  · exact g.colRange
  · exact g.rowPend
  · intro j hj hs
    show j ∈ fc ++ sc
    rw [hp.mem_iff]
    by_cases e : j = k
    · rw [e]; exact List.mem_cons_self
    · exact List.mem_cons_of_mem _ (g.colPendIn j (by simpa [e] using hj) hs)
  · exact g.rowsDel
  · exact g.rowsNodup
  · intro j hj0
    have hj : j ∈ fc ++ sc := hj0
    clear hj0
    rw [hp.mem_iff, List.mem_cons] at hj
    rcases hj with e | hj
    · rw [e]; exact ⟨by simpa using ht, g.colActive hk⟩
    · have e : j ≠ k := by rintro rfl; exact g.colNotDel hk hj
      exact ⟨by simpa [e] using (g.colsDel j hj).1, (g.colsDel j hj).2⟩
  · show (fc ++ sc).Nodup
    rw [hp.nodup_iff, List.nodup_cons]
    exact ⟨g.colNotDel hk, g.colsNodup⟩
  · exact g.nnz
  · intro j hj; exact g.locks j (hin j hj)

theorem lockOf_congr (q : ℚ) {t t' : RTag} (h1 : t.lhsInf = t'.lhsInf) (h2 : t.rhsInf = t'.rhsInf) :
    lockOf q t = lockOf q t' := by unfold lockOf; rw [h1, h2]

/-- A row is marked for deletion. -/
theorem GI.markRow {s : St} (g : GI s) {i : ℕ} (hi : (s.rtag i).inactive = false) :
    GI { s with rtag := upd s.rtag i { s.rtag i with inactive := true }
                rowsToDelete := s.rowsToDelete ++ [i] } := by
  have hin : ∀ j, (upd s.rtag i { s.rtag i with inactive := true } j).inactive = false →
      (s.rtag j).inactive = false := by
    intro j hj
    by_cases e : j = i
    · rw [e]; exact hi
    · rwa [upd_ne _ _ e] at hj
  have hlk : ∀ l, countLocks (upd s.rtag i { s.rtag i with inactive := true }) l =
      countLocks s.rtag l := by
    intro l
    unfold countLocks
    congr 1
    funext a p
    by_cases e : p.1 = i
    · rw [e, upd_same, lockOf_congr p.2 (t := { s.rtag i with inactive := true }) (t' := s.rtag i) rfl rfl]
    · rw [upd_ne _ _ e]
  constructor
  · exact g.rowSz
  · intro j hj
    refine ⟨(g.rowGone j hj).1, ?_⟩
    by_cases e : j = i
    · rw [e]; simp
    · simpa [e] using (g.rowGone j hj).2
  · exact g.colGone
  · exact g.colSz
  · exact g.colPend
  · exact g.agree
  · intro j hj; exact g.rowIn j (hin j hj)
  · exact g.colIn
  · exact g.rowSorted
  · exact g.colSorted
  · exact g.rowRange
  · exact g.colRange
  · intro j hj hs
    show j ∈ s.rowsToDelete ++ [i]
    by_cases e : j = i
    · rw [e]; simp
    · exact List.mem_append_left _ (g.rowPend j (by simpa [e] using hj) hs)
  · exact g.colPendIn
  · intro j hj0
    have hj : j ∈ s.rowsToDelete ++ [i] := hj0
    clear hj0
    rw [List.mem_append, List.mem_singleton] at hj
    rcases hj with hj | e
    · have e : j ≠ i := by rintro rfl; exact g.rowNotDel hi hj
      exact ⟨by simpa [e] using (g.rowsDel j hj).1, (g.rowsDel j hj).2⟩
    · rw [e]; exact ⟨by simp, g.rowActive hi⟩
  · show (s.rowsToDelete ++ [i]).Nodup
    rw [List.nodup_append]
    refine ⟨g.rowsNodup, List.nodup_singleton _, ?_⟩
    intro a ha b hb
    rw [List.mem_singleton] at hb
    rintro rfl
    exact g.rowNotDel hi (hb ▸ ha)
  · exact g.colsDel
  · exact g.colsNodup
  · exact g.nnz
  · intro j hj
    show _ = countLocks _ _
    rw [hlk]; exact g.locks j hj

/-- Sum of a list over which one term is replaced. -/
theorem locks_shift (rtag : ℕ → RTag) (i : ℕ) (t : RTag) (l : List Cell) (hl : SortedC l) :
    (∀ v, (i, v) ∈ l → countLocks (upd rtag i t) l =
      ((countLocks rtag l).1 + ((lockOf v t).1 - (lockOf v (rtag i)).1),
       (countLocks rtag l).2 + ((lockOf v t).2 - (lockOf v (rtag i)).2))) ∧
    ((∀ v, (i, v) ∉ l) → countLocks (upd rtag i t) l = countLocks rtag l) := by
  induction l with
  | nil => exact ⟨fun v hv => (by cases hv), fun _ => rfl⟩
  | cons p l ih =>
    have hs : SortedC l := (List.pairwise_cons.mp hl).2
    have hlt : ∀ q ∈ l, p.1 < q.1 := (List.pairwise_cons.mp hl).1
    have ih := ih hs
    have hc : ∀ f, countLocks f (p :: l) = ((lockOf p.2 (f p.1)).1 + (countLocks f l).1,
        (lockOf p.2 (f p.1)).2 + (countLocks f l).2) := by
      intro f; rw [countLocks_eq, countLocks_eq]; simp
    rw [hc, hc]
    by_cases e : p.1 = i
    · have hno : ∀ v, (i, v) ∉ l := by
        intro v hv; have := hlt _ hv; simp only [e] at this; omega
      rw [ih.2 hno, e, upd_same]
      refine ⟨fun v hv => ?_, fun h => absurd (show (i, p.2) ∈ p :: l from by
        rw [← e]; exact List.mem_cons_self) (h p.2)⟩
      rcases List.mem_cons.mp hv with hv | hv
      · have : v = p.2 := by rw [← hv]
        rw [this]; ext <;> simp <;> ring
      · exact absurd hv (hno v)
    · rw [upd_ne _ _ e]
      constructor
      · intro v hv
        rcases List.mem_cons.mp hv with hv | hv
        · exact absurd (by rw [← hv]) e
        · rw [ih.1 v hv]; ext <;> simp <;> ring
      · intro h
        rw [ih.2 (fun v hv => h v (List.mem_cons_of_mem _ hv))]

/-- The locks `(u', d')` are the locks `(u, d)` after the tag of a row with the cells `cells` went
from `t` to `t'`. -/
def LockShift (cells : List Cell) (t t' : RTag) (u d u' d' : ℕ → ℤ) : Prop :=
  (∀ k v, (k, v) ∈ cells → u' k = u k + ((lockOf v t').1 - (lockOf v t).1) ∧
    d' k = d k + ((lockOf v t').2 - (lockOf v t).2)) ∧
  (∀ k, (∀ v, (k, v) ∉ cells) → u' k = u k ∧ d' k = d k)

/-- The tag of a row changes and the locks follow. -/
theorem GI.rtagStep {s : St} (g : GI s) {i : ℕ} (hi : (s.rtag i).inactive = false) (t : RTag)
    (ht : t.inactive = false) (u d : ℕ → ℤ) (h : LockShift (s.A i) (s.rtag i) t s.up s.down u d) :
    GI { s with rtag := upd s.rtag i t, up := u, down := d } := by
  have hin : ∀ j, (upd s.rtag i t j).inactive = (s.rtag j).inactive := by
    intro j
    by_cases e : j = i
    · rw [e, upd_same, ht, hi]
    · rw [upd_ne _ _ e]
  constructor
  · exact g.rowSz
  · intro j hj; exact ⟨(g.rowGone j hj).1, (hin j).trans (g.rowGone j hj).2⟩
  · exact g.colGone
  · exact g.colSz
  · exact g.colPend
  · exact g.agree
  · intro j hj; exact g.rowIn j ((hin j).symm.trans hj)
  · exact g.colIn
  · exact g.rowSorted
  · exact g.colSorted
  · exact g.rowRange
  · exact g.colRange
  · intro j hj hs; exact g.rowPend j ((hin j).symm.trans hj) hs
  · exact g.colPendIn
  · intro j hj; exact ⟨(hin j).trans (g.rowsDel j hj).1, (g.rowsDel j hj).2⟩
  · exact g.rowsNodup
  · exact g.colsDel
  · exact g.colsNodup
  · exact g.nnz
  · intro k hk
    show (u k, d k) = countLocks (upd s.rtag i t) (s.AT k)
    have hag : ∀ v, (k, v) ∈ s.A i ↔ (i, v) ∈ s.AT k :=
      fun v => g.agree i k v (g.rowActive hi) (g.colActive hk)
    have hl := g.locks k hk
    by_cases hm : ∃ v, (i, v) ∈ s.AT k
    · obtain ⟨v, hv⟩ := hm
      rw [(locks_shift s.rtag i t (s.AT k) (g.colSorted k)).1 v hv, ← hl]
      obtain ⟨e1, e2⟩ := h.1 k v ((hag v).mpr hv)
      rw [e1, e2]
    · have hno : ∀ v, (i, v) ∉ s.AT k := fun v hv => hm ⟨v, hv⟩
      rw [(locks_shift s.rtag i t (s.AT k) (g.colSorted k)).2 hno, ← hl]
      obtain ⟨e1, e2⟩ := h.2 k (fun v hv => hno v ((hag v).mp hv))
      rw [e1, e2]

/-- Adding locks along the cells of a sorted row. -/
theorem addLock_fold (f h : Cell → ℤ) (cells : List Cell) (hs : SortedC cells) (s : St) :
    (∀ k v, (k, v) ∈ cells →
      (cells.foldl (fun s p => s.addLock p.1 (f p) (h p)) s).up k = s.up k + f (k, v) ∧
      (cells.foldl (fun s p => s.addLock p.1 (f p) (h p)) s).down k = s.down k + h (k, v)) ∧
    (∀ k, (∀ v, (k, v) ∉ cells) →
      (cells.foldl (fun s p => s.addLock p.1 (f p) (h p)) s).up k = s.up k ∧
      (cells.foldl (fun s p => s.addLock p.1 (f p) (h p)) s).down k = s.down k) := by
  induction cells generalizing s with
  | nil => exact ⟨fun k v hv => (by cases hv), fun k _ => ⟨rfl, rfl⟩⟩
  | cons p l ih =>
    have hs' : SortedC l := (List.pairwise_cons.mp hs).2
    have hlt : ∀ q ∈ l, p.1 < q.1 := (List.pairwise_cons.mp hs).1
    have ih := ih hs' (s.addLock p.1 (f p) (h p))
    rw [List.foldl_cons]
    constructor
    · intro k v hv
      rcases List.mem_cons.mp hv with hv | hv
      · have hno : ∀ w, (p.1, w) ∉ l := fun w hw => by have := hlt _ hw; simp at this
        have e : k = p.1 := by rw [← hv]
        obtain ⟨e1, e2⟩ := ih.2 p.1 hno
        rw [e, e1, e2, ← e, hv]
        simp [St.addLock, ← hv]
      · have hne : k ≠ p.1 := by rintro rfl; have := hlt _ hv; simp at this
        obtain ⟨e1, e2⟩ := ih.1 k v hv
        rw [e1, e2]
        simp [St.addLock, hne]
    · intro k hno
      have hne : k ≠ p.1 := by rintro rfl; exact hno p.2 List.mem_cons_self
      obtain ⟨e1, e2⟩ := ih.2 k (fun v hv => hno v (List.mem_cons_of_mem _ hv))
      rw [e1, e2]
      simp [St.addLock, hne]

theorem locksNewRhs_shift (s : St) (cells : List Cell) (hs : SortedC cells) (t t' : RTag)
    (hl : t'.lhsInf = t.lhsInf) (hr : t.rhsInf = true) (hr' : t'.rhsInf = false) :
    LockShift cells t t' s.up s.down (locksNewRhs s cells).up (locksNewRhs s cells).down := by
  rw [locksNewRhs_eq]
  obtain ⟨h1, h2⟩ := addLock_fold (fun p => if 0 < p.2 then 1 else 0) (fun p => if 0 < p.2 then 0 else 1)
    cells hs s
  refine ⟨fun k v hv => ?_, h2⟩
  obtain ⟨e1, e2⟩ := h1 k v hv
  rw [e1, e2]
  unfold lockOf
  rw [hl, hr, hr']
  by_cases h0 : 0 < v <;> simp [h0]

theorem locksNewLhs_shift (s : St) (cells : List Cell) (hs : SortedC cells) (t t' : RTag)
    (hl : t'.rhsInf = t.rhsInf) (hr : t.lhsInf = true) (hr' : t'.lhsInf = false) :
    LockShift cells t t' s.up s.down (locksNewLhs s cells).up (locksNewLhs s cells).down := by
  rw [locksNewLhs_eq]
  obtain ⟨h1, h2⟩ := addLock_fold (fun p => if 0 < p.2 then 0 else 1) (fun p => if 0 < p.2 then 1 else 0)
    cells hs s
  refine ⟨fun k v hv => ?_, h2⟩
  obtain ⟨e1, e2⟩ := h1 k v hv
  rw [e1, e2]
  unfold lockOf
  rw [hl, hr, hr']
  by_cases h0 : 0 < v <;> simp [h0]

theorem locksEqToIneq_eq (s : St) (cells : List Cell) (b : Bool) : locksEqToIneq s cells b =
    cells.foldl (fun s p => s.addLock p.1
      (if b then (if 0 < p.2 then 0 else -1) else (if 0 < p.2 then -1 else 0))
      (if b then (if 0 < p.2 then -1 else 0) else (if 0 < p.2 then 0 else -1))) s := by
  unfold locksEqToIneq
  congr 1
  funext s p
  cases b <;> by_cases h : 0 < p.2 <;> simp [h]

theorem locksEqToIneq_shift (s : St) (cells : List Cell) (hs : SortedC cells) (b : Bool) (t t' : RTag)
    (hl : t.lhsInf = false) (hr : t.rhsInf = false) (hl' : t'.lhsInf = b) (hr' : t'.rhsInf = !b) :
    LockShift cells t t' s.up s.down (locksEqToIneq s cells b).up (locksEqToIneq s cells b).down := by
  rw [locksEqToIneq_eq]
  obtain ⟨h1, h2⟩ := addLock_fold
    (fun p => if b then (if 0 < p.2 then 0 else -1) else (if 0 < p.2 then -1 else 0))
    (fun p => if b then (if 0 < p.2 then -1 else 0) else (if 0 < p.2 then 0 else -1)) cells hs s
  refine ⟨fun k v hv => ?_, h2⟩
  obtain ⟨e1, e2⟩ := h1 k v hv
  rw [e1, e2]
  unfold lockOf
  rw [hl, hr, hl', hr']
  by_cases h0 : 0 < v <;> cases b <;> simp [h0]

theorem LockShift.refl (cells : List Cell) (t t' : RTag) (u d : ℕ → ℤ) (h1 : t'.lhsInf = t.lhsInf)
    (h2 : t'.rhsInf = t.rhsInf) : LockShift cells t t' u d u d := by
  refine ⟨fun k v _ => ?_, fun k _ => ⟨rfl, rfl⟩⟩
  rw [lockOf_congr v h1 h2]; simp

/-- A row whose columns are all inactive leaves the matrix at once. -/
theorem GI.goneRow {s : St} (g : GI s) {i : ℕ} (hi : (s.rtag i).inactive = false)
    (hc : ∀ p ∈ s.A i, (s.ctag p.1).inactive = true) (hm : i < s.m ∨ s.A i = []) (t : RTag)
    (ht : t.inactive = true) :
    GI { s with rtag := upd s.rtag i t
                rowSize := upd s.rowSize i (-1)
                A := upd s.A i []
                nnz := s.nnz - ((s.A i).length : ℤ) } := by
  have hin : ∀ j, (upd s.rtag i t j).inactive = false → j ≠ i ∧ (s.rtag j).inactive = false := by
    intro j hj
    by_cases e : j = i
    · rw [e, upd_same, ht] at hj; cases hj
    · exact ⟨e, by rwa [upd_ne _ _ e] at hj⟩
  have hsz : ∀ j, upd s.rowSize i (-1) j ≠ -1 → j ≠ i ∧ s.rowSize j ≠ -1 := by
    intro j hj
    by_cases e : j = i
    · rw [e, upd_same] at hj; exact absurd rfl hj
    · exact ⟨e, by rwa [upd_ne _ _ e] at hj⟩
  have hno : ∀ k, (s.ctag k).inactive = false → ∀ p ∈ s.AT k, p.1 ≠ i := by
    rintro k hk p hp rfl
    have := hc _ ((g.agree p.1 k p.2 (g.rowActive hi) (g.colActive hk)).mpr hp)
    rw [hk] at this; cases this
  constructor
  · intro j hj
    obtain ⟨e, hj⟩ := hsz j hj
    simpa [e] using g.rowSz j hj
  · intro j hj
    by_cases e : j = i
    · subst e; simp [ht]
    · have hj : s.rowSize j = -1 := by simpa [e] using hj
      simpa [e] using g.rowGone j hj
  · exact g.colGone
  · exact g.colSz
  · intro k hk
    refine le_trans ?_ (g.colPend k hk)
    show ((_ : ℕ) : ℤ) ≤ ((_ : ℕ) : ℤ)
    norm_cast
    refine List.Sublist.length_le (List.monotone_filter_right _ ?_)
    intro p hp
    exact decide_eq_true (hsz p.1 (of_decide_eq_true hp)).2
  · intro j k v hj hk
    obtain ⟨e, hj⟩ := hsz j hj
    simpa [e] using g.agree j k v hj hk
  · intro j hj
    obtain ⟨e, hj⟩ := hin j hj
    simpa [e] using g.rowIn j hj
  · intro k hk p hp
    have := hno k hk p hp
    simpa [this] using g.colIn k hk p hp
  · intro j
    by_cases e : j = i
    · rw [e]; simp [SortedC]
    · simpa [e] using g.rowSorted j
  · exact g.colSorted
  · intro j p hp
    by_cases e : j = i
    · rw [e] at hp; simp at hp
    · exact g.rowRange j p (by simpa [e] using hp)
  · exact g.colRange
  · intro j hj hs
    obtain ⟨e, hs⟩ := hsz j hs
    exact g.rowPend j (by simpa [e] using hj) hs
  · exact g.colPendIn
  · intro j hj
    have e : j ≠ i := by rintro rfl; exact g.rowNotDel hi hj
    simpa [e] using g.rowsDel j hj
  · exact g.rowsNodup
  · exact g.colsDel
  · exact g.colsNodup
  · show s.nnz - _ = ∑ j ∈ Finset.range s.m, ((upd s.A i [] j).length : ℤ)
    rw [g.nnz]
    rcases hm with hm | hm
    · rw [sum_upd_len s.A i s.m hm []]; simp [sub_eq_add_neg]
    · rw [hm]
      have : upd s.A i [] = s.A := by
        funext j; by_cases e : j = i
        · rw [e, upd_same, hm]
        · rw [upd_ne _ _ e]
      rw [this]; simp
  · intro k hk
    show _ = countLocks (upd s.rtag i t) (s.AT k)
    rw [(locks_shift s.rtag i t (s.AT k) (g.colSorted k)).2
      (fun v hv => hno k hk _ hv rfl)]
    exact g.locks k hk

/-- A column whose rows are all inactive leaves the matrix at once. -/
theorem GI.goneCol {s : St} (g : GI s) {k : ℕ} (hk : (s.ctag k).inactive = false)
    (hr : ∀ p ∈ s.AT k, (s.rtag p.1).inactive = true) (t : CTag) (ht : t.inactive = true) :
    GI { s with ctag := upd s.ctag k t
                colSize := upd s.colSize k (-1)
                AT := upd s.AT k [] } := by
  have hin : ∀ j, (upd s.ctag k t j).inactive = false → j ≠ k ∧ (s.ctag j).inactive = false := by
    intro j hj
    by_cases e : j = k
    · rw [e, upd_same, ht] at hj; cases hj
    · exact ⟨e, by rwa [upd_ne _ _ e] at hj⟩
  have hsz : ∀ j, upd s.colSize k (-1) j ≠ -1 → j ≠ k ∧ s.colSize j ≠ -1 := by
    intro j hj
    by_cases e : j = k
    · rw [e, upd_same] at hj; exact absurd rfl hj
    · exact ⟨e, by rwa [upd_ne _ _ e] at hj⟩
  have hno : ∀ i, (s.rtag i).inactive = false → ∀ p ∈ s.A i, p.1 ≠ k := by
    rintro i hi p hp rfl
    have := hr _ ((g.agree i p.1 p.2 (g.rowActive hi) (g.colActive hk)).mp hp)
    rw [hi] at this; cases this
  constructor
  · exact g.rowSz
  · exact g.rowGone
  · intro j hj
    by_cases e : j = k
    · subst e; simp [ht]
    · have hj : s.colSize j = -1 := by simpa [e] using hj
      simpa [e] using g.colGone j hj
  · intro j hj
    obtain ⟨e, hj⟩ := hin j hj
    simpa [e] using g.colSz j hj
  · intro j hj
    obtain ⟨e, hj⟩ := hsz j hj
    simpa [e] using g.colPend j hj
  · intro i j v hi hj
    obtain ⟨e, hj⟩ := hsz j hj
    simpa [e] using g.agree i j v hi hj
  · intro i hi p hp
    have := hno i hi p hp
    simpa [this] using g.rowIn i hi p hp
  · intro j hj
    obtain ⟨e, hj⟩ := hin j hj
    simpa [e] using g.colIn j hj
  · exact g.rowSorted
  · intro j
    by_cases e : j = k
    · rw [e]; simp [SortedC]
    · simpa [e] using g.colSorted j
  · exact g.rowRange
  · intro j p hp
    by_cases e : j = k
    · rw [e] at hp; simp at hp
    · exact g.colRange j p (by simpa [e] using hp)
  · exact g.rowPend
  · intro j hj hs
    obtain ⟨e, hs⟩ := hsz j hs
    exact g.colPendIn j (by simpa [e] using hj) hs
  · exact g.rowsDel
  · exact g.rowsNodup
  · intro j hj
    have e : j ≠ k := by rintro rfl; exact g.colNotDel hk hj
    simpa [e] using g.colsDel j hj
  · exact g.colsNodup
  · exact g.nnz
  · intro j hj
    obtain ⟨e, hj⟩ := hin j hj
    simpa [e] using g.locks j hj

theorem dropCell_sorted {l : List Cell} (h : SortedC l) (k : ℕ) : SortedC (dropCell k l) :=
  List.Pairwise.sublist List.eraseP_sublist h

/-- Dropping a column from a sorted row leaves the cells of the other columns. -/
theorem mem_dropCell {l : List Cell} (h : SortedC l) (k : ℕ) (p : Cell) :
    p ∈ dropCell k l ↔ p ∈ l ∧ p.1 ≠ k := by
  unfold dropCell
  induction l with
  | nil => simp
  | cons q l ih =>
    have hs : SortedC l := (List.pairwise_cons.mp h).2
    have hlt : ∀ r ∈ l, q.1 < r.1 := (List.pairwise_cons.mp h).1
    by_cases e : q.1 = k
    · rw [List.eraseP_cons_of_pos (by simpa using e)]
      constructor
      · intro hp
        refine ⟨List.mem_cons_of_mem _ hp, ?_⟩
        have := hlt p hp; omega
      · rintro ⟨hp, hne⟩
        rcases List.mem_cons.mp hp with rfl | hp
        · exact absurd e hne
        · exact hp
    · rw [List.eraseP_cons_of_neg (by simpa using e), List.mem_cons, ih hs, List.mem_cons]
      constructor
      · rintro (rfl | ⟨hp, hne⟩)
        · exact ⟨Or.inl rfl, e⟩
        · exact ⟨Or.inr hp, hne⟩
      · rintro ⟨rfl | hp, hne⟩
        · exact Or.inl rfl
        · exact Or.inr ⟨hp, hne⟩

theorem dropCell_length {l : List Cell} {k : ℕ} {v : ℚ} (h : (k, v) ∈ l) :
    (dropCell k l).length + 1 = l.length := by
  unfold dropCell
  have h2 := List.length_pos_of_mem h
  rw [List.length_eraseP_of_mem h (by simp)]
  omega

/-- A column with one cell, in row `i`, leaves the matrix together with that cell. -/
theorem GI.dropSton {s : St} (g : GI s) {i k : ℕ} {q : ℚ} (hi : (s.rtag i).inactive = false)
    (hk : (s.ctag k).inactive = false) (hT : s.AT k = [(i, q)]) (t : CTag) (ht : t.inactive = true) :
    GI { s with ctag := upd s.ctag k t
                colSize := upd s.colSize k (-1)
                AT := upd s.AT k []
                A := upd s.A i (dropCell k (s.A i))
                rowSize := upd s.rowSize i (s.rowSize i - 1)
                nnz := s.nnz - 1 } := by
  have hcell : (k, q) ∈ s.A i := (g.agree i k q (g.rowActive hi) (g.colActive hk)).mpr (by
    rw [hT]; exact List.mem_cons_self)
  have hlen := dropCell_length hcell
  have hrs : s.rowSize i = ((s.A i).length : ℤ) := g.rowSz i (g.rowActive hi)
  have hmem := mem_dropCell (g.rowSorted i) k
  have hin : ∀ j, (upd s.ctag k t j).inactive = false → j ≠ k ∧ (s.ctag j).inactive = false := by
    intro j hj
    by_cases e : j = k
    · rw [e, upd_same, ht] at hj; cases hj
    · exact ⟨e, by rwa [upd_ne _ _ e] at hj⟩
  have hcsz : ∀ j, upd s.colSize k (-1) j ≠ -1 → j ≠ k ∧ s.colSize j ≠ -1 := by
    intro j hj
    by_cases e : j = k
    · rw [e, upd_same] at hj; exact absurd rfl hj
    · exact ⟨e, by rwa [upd_ne _ _ e] at hj⟩
  have hrsz : ∀ j, upd s.rowSize i (s.rowSize i - 1) j ≠ -1 ↔ s.rowSize j ≠ -1 := by
    intro j
    by_cases e : j = i
    · subst e; rw [upd_same]; have := g.rowActive hi; constructor <;> intro _ <;> omega
    · rw [upd_ne _ _ e]
  have hrow : ∀ j, ∀ p, p ∈ upd s.A i (dropCell k (s.A i)) j ↔ p ∈ s.A j ∧ (j = i → p.1 ≠ k) := by
    intro j p
    by_cases e : j = i
    · subst e; rw [upd_same, hmem]; simp
    · rw [upd_ne _ _ e]; simp [e]
  have hno : ∀ j, (s.rtag j).inactive = false → ∀ p ∈ s.A j, p.1 = k → j = i := by
    rintro j hj p hp rfl
    have := (g.agree j p.1 p.2 (g.rowActive hj) (g.colActive hk)).mp hp
    rw [hT, List.mem_singleton] at this
    exact congrArg Prod.fst this
  constructor
  · intro j hj
    have hj := (hrsz j).mp hj
    by_cases e : j = i
    · subst e
      show upd s.rowSize j _ j = ((upd s.A j _ j).length : ℤ)
      rw [upd_same, upd_same, hrs]; omega
    · simpa [e] using g.rowSz j hj
  · intro j hj
    have hj' : s.rowSize j = -1 := by
      by_contra hne; exact (hrsz j).mpr hne hj
    have e : j ≠ i := by rintro rfl; exact g.rowActive hi hj'
    simpa [e] using g.rowGone j hj'
  · intro j hj
    by_cases e : j = k
    · subst e; simp [ht]
    · have hj : s.colSize j = -1 := by simpa [e] using hj
      simpa [e] using g.colGone j hj
  · intro j hj
    obtain ⟨e, hj⟩ := hin j hj
    simpa [e] using g.colSz j hj
  · intro j hj
    obtain ⟨e, hj⟩ := hcsz j hj
    show (((upd s.AT k [] j).filter _).length : ℤ) ≤ upd s.colSize k (-1) j
    rw [upd_ne _ _ e, upd_ne _ _ e]
    simp only [hrsz]
    exact g.colPend j hj
  · intro j j' v hj hj'
    obtain ⟨e, hj'⟩ := hcsz j' hj'
    have hj := (hrsz j).mp hj
    show (j', v) ∈ upd s.A i _ j ↔ (j, v) ∈ upd s.AT k [] j'
    rw [hrow, upd_ne _ _ e, ← g.agree j j' v hj hj']
    simp [e]
  · intro j hj p hp
    obtain ⟨hp, hne⟩ := (hrow j p).mp hp
    have e : p.1 ≠ k := by
      intro e; exact hne (hno j hj p hp e) e
    simpa [e] using g.rowIn j hj p hp
  · intro j hj p hp
    obtain ⟨e, hj⟩ := hin j hj
    exact (hrsz p.1).mpr (g.colIn j hj p (by simpa [e] using hp))
  · intro j
    by_cases e : j = i
    · subst e
      show SortedC (upd s.A j _ j)
      rw [upd_same]; exact dropCell_sorted (g.rowSorted j) k
    · simpa [e] using g.rowSorted j
  · intro j
    by_cases e : j = k
    · rw [e]; simp [SortedC]
    · simpa [e] using g.colSorted j
  · intro j p hp
    exact g.rowRange j p ((hrow j p).mp hp).1
  · intro j p hp
    by_cases e : j = k
    · rw [e] at hp; simp at hp
    · exact g.colRange j p (by simpa [e] using hp)
  · intro j hj hs; exact g.rowPend j hj ((hrsz j).mp hs)
  · intro j hj hs
    obtain ⟨e, hs⟩ := hcsz j hs
    exact g.colPendIn j (by simpa [e] using hj) hs
  · intro j hj; exact ⟨(g.rowsDel j hj).1, (hrsz j).mpr (g.rowsDel j hj).2⟩
  · exact g.rowsNodup
  · intro j hj
    have e : j ≠ k := by rintro rfl; exact g.colNotDel hk hj
    simpa [e] using g.colsDel j hj
  · exact g.colsNodup
  · show s.nnz - 1 = ∑ j ∈ Finset.range s.m, ((upd s.A i (dropCell k (s.A i)) j).length : ℤ)
    rw [g.nnz, sum_upd_len s.A i s.m (g.rowRange i _ hcell).1]
    omega
  · intro j hj
    obtain ⟨e, hj⟩ := hin j hj
    simpa [e] using g.locks j hj

end Verif
