import Verif.Inv.Steps
import Verif.Props.C20_Delete

/-!
# C25: lock counts are exact
-/

namespace Verif

/-- Row `i` of the state's matrix stops the variable `k` from growing: the row contains `k` with a
positive coefficient and has a right-hand side, or with a negative one and has a left-hand side. -/
def BlocksUp (s : St) (k i : ℕ) : Prop :=
  ∃ v, (k, v) ∈ s.A i ∧ ((0 < v ∧ (s.rtag i).rhsInf = false) ∨ (v < 0 ∧ (s.rtag i).lhsInf = false))

/-- Row `i` stops the variable `k` from shrinking. -/
def BlocksDown (s : St) (k i : ℕ) : Prop :=
  ∃ v, (k, v) ∈ s.A i ∧ ((0 < v ∧ (s.rtag i).lhsInf = false) ∨ (v < 0 ∧ (s.rtag i).rhsInf = false))

/-- `z` is the number of elements of a set of rows. -/
def Counts (z : ℤ) (p : ℕ → Prop) : Prop := ∃ L : List ℕ, L.Nodup ∧ (∀ i, i ∈ L ↔ p i) ∧ z = L.length

theorem sum_lock_filter (f : Cell → ℤ) (b : Cell → Bool) (hf : ∀ p, f p = if b p then 1 else 0)
    (l : List Cell) : (l.map f).sum = ((l.filter b).length : ℤ) := by
  induction l with
  | nil => rfl
  | cons p l ih =>
    rw [List.map_cons, List.sum_cons, ih, List.filter_cons, hf]
    cases b p
    · simp
    · simp [Int.add_comm]

/-- In a state that satisfies the structural invariant the locks of an active column count exactly
the rows that block it. -/
theorem locks_count {s : St} (g : GI s) {k : ℕ} (hk : (s.ctag k).inactive = false) :
    Counts (s.up k) (BlocksUp s k) ∧ Counts (s.down k) (BlocksDown s k) := by
  have hl := g.locks k hk
  rw [countLocks_eq, Prod.mk.injEq] at hl
  have hgone : ∀ {i v}, (k, v) ∈ s.A i → (i, v) ∈ s.AT k := by
    intro i v h
    refine (g.agree i k v ?_ (g.colActive hk)).mp h
    intro e; rw [(g.rowGone i e).1] at h; cases h
  have hback : ∀ p ∈ s.AT k, (k, p.2) ∈ s.A p.1 := by
    intro p hp
    exact (g.agree p.1 k p.2 (g.colIn k hk p hp) (g.colActive hk)).mpr hp
  have hz : ∀ p ∈ s.AT k, p.2 ≠ 0 := fun p hp => (g.colRange k p hp).2.2
  constructor
  · refine ⟨((s.AT k).filter (fun p => if 0 < p.2 then !(s.rtag p.1).rhsInf else !(s.rtag p.1).lhsInf)).map
      Prod.fst, ((g.colSorted k).filter _).nodup, fun i => ?_, ?_⟩
    · rw [List.mem_map]
      constructor
      · rintro ⟨p, hp, rfl⟩
        obtain ⟨h1, h2⟩ := List.mem_filter.mp hp
        refine ⟨p.2, hback p h1, ?_⟩
        by_cases e : 0 < p.2
        · rw [if_pos e] at h2; exact Or.inl ⟨e, by simpa using h2⟩
        · rw [if_neg e] at h2
          exact Or.inr ⟨lt_of_le_of_ne (not_lt.mp e) (hz p h1), by simpa using h2⟩
      · rintro ⟨v, hv, h⟩
        refine ⟨(i, v), List.mem_filter.mpr ⟨hgone hv, ?_⟩, rfl⟩
        rcases h with ⟨h1, h2⟩ | ⟨h1, h2⟩
        · rw [if_pos h1]; simp [h2]
        · rw [if_neg (not_lt.mpr h1.le)]; simp [h2]
    · rw [hl.1, List.length_map]
      refine sum_lock_filter _ _ (fun p => ?_) _
      unfold lockOf
      by_cases e : 0 < p.2
      · rw [if_pos e, if_pos e]; cases (s.rtag p.1).rhsInf <;> rfl
      · rw [if_neg e, if_neg e]; cases (s.rtag p.1).lhsInf <;> rfl
  · refine ⟨((s.AT k).filter (fun p => if 0 < p.2 then !(s.rtag p.1).lhsInf else !(s.rtag p.1).rhsInf)).map
      Prod.fst, ((g.colSorted k).filter _).nodup, fun i => ?_, ?_⟩
    · rw [List.mem_map]
      constructor
      · rintro ⟨p, hp, rfl⟩
        obtain ⟨h1, h2⟩ := List.mem_filter.mp hp
        refine ⟨p.2, hback p h1, ?_⟩
        by_cases e : 0 < p.2
        · rw [if_pos e] at h2; exact Or.inl ⟨e, by simpa using h2⟩
        · rw [if_neg e] at h2
          exact Or.inr ⟨lt_of_le_of_ne (not_lt.mp e) (hz p h1), by simpa using h2⟩
      · rintro ⟨v, hv, h⟩
        refine ⟨(i, v), List.mem_filter.mpr ⟨hgone hv, ?_⟩, rfl⟩
        rcases h with ⟨h1, h2⟩ | ⟨h1, h2⟩
        · rw [if_pos h1]; simp [h2]
        · rw [if_neg (not_lt.mpr h1.le)]; simp [h2]
    · rw [hl.2, List.length_map]
      refine sum_lock_filter _ _ (fun p => ?_) _
      unfold lockOf
      by_cases e : 0 < p.2
      · rw [if_pos e, if_pos e]; cases (s.rtag p.1).lhsInf <;> rfl
      · rw [if_neg e, if_neg e]; cases (s.rtag p.1).rhsInf <;> rfl

/-- **C25.**  Start from any valid problem and let any sequence of elementary steps happen: fixing
and substituting columns, deleting rows, changing sides and turning equalities into inequalities,
removing single coefficients, substituting through doubleton equalities, merging columns and
carrying out pending deletions.  The locks of every remaining column are exactly the numbers of
rows that block it. -/
theorem C25_locks {P : LP} (h : P.Valid) {μ : Mode} {s : St} (hs : Steps μ (initSt P) s) {k : ℕ}
    (hk : (s.ctag k).inactive = false) :
    Counts (s.up k) (BlocksUp s k) ∧ Counts (s.down k) (BlocksDown s k) :=
  locks_count (hs.gi (initSt_gi h)) hk

/-- Row 1 of the example is marked and deleted; one row with a right-hand side still contains
column 0, so its up-lock falls from two to one. -/
example : ∃ s, Steps ⟨false, false, false, false, false⟩ (initSt exDel) s ∧ (s.ctag 0).inactive = false ∧
    (initSt exDel).up 0 = 2 ∧ s.up 0 = 1 :=
  ⟨deleteInactiveRows (deactStep (initSt exDel) 1 0),
    .tail (.tail (.refl _) (.deact 1 rfl (.refl _))) (.delRows (.refl _)),
    by decide +kernel, by decide +kernel, by decide +kernel⟩

end Verif
