import Verif.Inv.Good

/-!
# The basic transformations as elementary steps
-/

namespace Verif

/-- Only activities and the list of updated activities differ. -/
def ActOnly (s t : St) : Prop := ∃ a u, t = { s with act := a, updActs := u }

theorem ActOnly.refl (s : St) : ActOnly s s := ⟨s.act, s.updActs, rfl⟩

theorem ActOnly.trans {s t u : St} (h : ActOnly s t) (h' : ActOnly t u) : ActOnly s u := by
  obtain ⟨a, x, rfl⟩ := h
  obtain ⟨a', x', rfl⟩ := h'
  exact ⟨a', x', rfl⟩

theorem noteAltered_only (s : St) (i : ℕ) (alt : Altered) : ActOnly s (noteAltered s i alt) := by
  unfold noteAltered
  simp only
  split
  · split
    · exact ⟨_, _, rfl⟩
    · exact ⟨_, _, rfl⟩
    · exact .refl s
  · exact .refl s

theorem foldl_only {α : Type} (f : St → α → St) (h : ∀ s p, ActOnly s (f s p)) (l : List α) (s : St) :
    ActOnly s (l.foldl f s) := by
  induction l generalizing s with
  | nil => exact .refl s
  | cons p l ih => exact (h s p).trans (ih _)

theorem updActsBoundChange_only (s : St) (cells : List Cell) (o n : D) (f l : Bool) :
    ActOnly s (updActsBoundChange s cells o n f l) := by
  refine foldl_only _ (fun s p => ?_) cells s
  refine ActOnly.trans ?_ (noteAltered_only _ _ _)
  exact ⟨_, s.updActs, rfl⟩

theorem updActsFixedCol_only (s : St) (cells : List Cell) (ou ol v : D) (a b c d : Bool) :
    ActOnly s (updActsFixedCol s cells ou ol v a b c d) := by
  refine foldl_only _ (fun s p => ?_) cells s
  unfold updActsFixedColStep
  refine ActOnly.trans ?_ (noteAltered_only _ _ _)
  exact ⟨_, s.updActs, rfl⟩

/-- What `fixCol` does. -/
theorem fixCol_eq (s : St) (k : ℕ) (val : D) (ck : ℚ) :
    (∃ b, fixCol s k val ck = ({ s with asrt := b }, INFEASIBLE) ∧
      (b = true → s.asrt = true ∧ (s.ctag k).inactive = false ∧ 0 < s.colSize k)) ∨
    (∃ b a u, fixCol s k val ck =
        ({ fixStep s k val ck with act := a, updActs := u, asrt := b }, REDUCED) ∧
      (b = true → s.asrt = true ∧ (s.ctag k).inactive = false ∧ 0 < s.colSize k)) := by
  unfold fixCol
  simp only
  split
  · left
    refine ⟨_, rfl, fun h => ?_⟩
    have h : (s.asrt && decide (0 < s.colSize k) && !(s.ctag k).inactive) = true := h
    simp only [Bool.and_eq_true, Bool.not_eq_true', decide_eq_true_eq] at h
    exact ⟨h.1.1, h.2, h.1.2⟩
  · right
    have hs : setColToFixed ((s.check (decide (0 < s.colSize k))).check (!(s.ctag k).inactive)) k =
        { s with ctag := upd s.ctag k { s.ctag k with fixed := true }
                 fixedCols := s.fixedCols ++ [k]
                 asrt := s.asrt && decide (0 < s.colSize k) && !(s.ctag k).inactive && !(s.ctag k).inactive } := rfl
    rw [hs]
    generalize hb : (s.asrt && decide (0 < s.colSize k) && !(s.ctag k).inactive && !(s.ctag k).inactive) = b
    have hb' : b = true → s.asrt = true ∧ (s.ctag k).inactive = false ∧ 0 < s.colSize k := by
      intro h
      rw [h] at hb
      simp only [Bool.and_eq_true, Bool.not_eq_true', decide_eq_true_eq] at hb
      exact ⟨hb.1.1.1, hb.2, hb.1.1.2⟩
    obtain ⟨a, u, e⟩ := updActsFixedCol_only { fixStep s k val ck with asrt := b } (s.AT k) (s.ub k) (s.lb k) val
        ((s.ctag k).ubInf || !D.eqb val (s.ub k)) ((s.ctag k).lbInf || !D.eqb val (s.lb k))
        (s.ctag k).ubInf (s.ctag k).lbInf
    refine ⟨b, a, u, ?_, hb'⟩
    rw [Prod.mk.injEq]
    exact ⟨e, rfl⟩

/-- A predicate that only looks at the structural part and the lists of short rows. -/
def Struct (I : St → Prop) : Prop := ∀ s t, SameCore s t → I s → I t

/-- What `fixCol` preserves. -/
structure FixStable (I : St → Prop) : Prop where
  core : Struct I
  fix : ∀ s k val ck, I s → I (fixStep s k val ck)

theorem noRows_fixStable : FixStable NoRows :=
  ⟨fun s t h e => h.rowsToDelete.trans e, fun _ _ _ _ h => h⟩

theorem fixCol_le (μ : Mode) (s : St) (k : ℕ) (val : D) (ck : ℚ) (h : Ok μ (fixCol s k val ck).1) :
    Ok μ s ∧ (s.ctag k).inactive = false ∧ 0 < s.colSize k := by
  rcases fixCol_eq s k val ck with ⟨b, e, hb⟩ | ⟨b, a, u, e, hb⟩
  · rw [e] at h
    obtain ⟨h1, h2⟩ := hb h.1
    exact ⟨⟨h1, h.2⟩, h2⟩
  · rw [e] at h
    obtain ⟨h1, h2⟩ := hb h.1
    exact ⟨⟨h1, h.2⟩, h2⟩

theorem fixCol_good (μ : Mode) (I : St → Prop) (hI : FixStable I) (hN : ∀ s, I s → NoRows s) (s : St)
    (k : ℕ) (val : D) : Good μ I I s (fixCol s k val (s.c k)).1 := by
  refine .of (fun o => (fixCol_le μ s k val _ o).1) (fun o i hi => ?_)
  rcases fixCol_eq s k val (s.c k) with ⟨b, e, hb⟩ | ⟨b, a, u, e, hb⟩
  · rw [e]
    have h : SameCore s { s with asrt := b } := by constructor <;> rfl
    exact ⟨.of_same h rfl rfl rfl, hI.core _ _ h hi⟩
  · rw [e] at o ⊢
    obtain ⟨h1, h2, h3⟩ := hb o.1
    have h : SameCore (fixStep s k val (s.c k))
      { fixStep s k val (s.c k) with act := a, updActs := u, asrt := b } := by constructor <;> rfl
    exact ⟨.of_raw (.fix k val h2 (fun p hp => i.gi.rowsActive (hN s hi) h2 _ hp) h) i.gi rfl rfl rfl,
      hI.core _ _ h (hI.fix s k val _ hi)⟩

theorem setRowToInactive_good (μ : Mode) (I J : St → Prop) (s : St) (i : ℕ)
    (hJ : I s → J (setRowToInactive s i 0)) : Good μ I J s (setRowToInactive s i 0) := by
  have hx : Ok μ (setRowToInactive s i 0) → Ok μ s ∧ (s.rtag i).inactive = false := by
    intro o
    have : Ok μ (s.check (!(s.rtag i).inactive)) := o
    obtain ⟨h1, h2⟩ := this.check
    exact ⟨h1, by simpa using h2⟩
  refine .of (fun o => (hx o).1) (fun o inv hi => ⟨.of_raw (.deact i (hx o).2 ?_) inv.gi rfl rfl rfl, hJ hi⟩)
  constructor <;> rfl

/-- Shape of `updateLb` and `updateUb`: nothing but assertions, or one bound change with its row. -/
theorem updateLb_eq (s : St) (k : ℕ) (newLb : D) (row : ℕ) :
    (∃ st, updateLb s k newLb row = (s.check (!(s.ctag k).inactive), st)) ∨
    (∃ a u, updateLb s k newLb row =
      ((({ boundStep s k newLb (s.ub k) { s.ctag k with lbInf := false } newLb (s.ub k) false with
        act := a, updActs := u, asrt := s.asrt && !(s.ctag k).inactive }).save
          (.boundChangeTheRow row (s.A row) 1)), UNCHANGED)) := by
  unfold updateLb
  simp only
  split
  · exact Or.inl ⟨_, rfl⟩
  · split
    · right
      obtain ⟨a, u, e⟩ := updActsBoundChange_only { s.check (!(s.ctag k).inactive) with
        lb := upd s.lb k newLb } (s.AT k) (s.lb k) newLb (!(s.ctag k).lbInf) true
      refine ⟨a, u, ?_⟩
      have e' : updActsBoundChange { s.check (!(s.ctag k).inactive) with
          lb := upd (s.check (!(s.ctag k).inactive)).lb k newLb }
          (St.AT { s.check (!(s.ctag k).inactive) with lb := upd (s.check (!(s.ctag k).inactive)).lb k newLb } k)
          (s.lb k) newLb (!((s.check (!(s.ctag k).inactive)).ctag k).lbInf) true = _ := e
      rw [e']
      unfold boundStep St.save St.check
      simp only [upd_self]
    · exact Or.inl ⟨_, rfl⟩

theorem updateUb_eq (s : St) (k : ℕ) (newUb : D) (row : ℕ) :
    (∃ st, updateUb s k newUb row = (s.check (!(s.ctag k).inactive), st)) ∨
    (∃ a u, updateUb s k newUb row =
      ((({ boundStep s k (s.lb k) newUb { s.ctag k with ubInf := false } newUb (s.lb k) true with
        act := a, updActs := u, asrt := s.asrt && !(s.ctag k).inactive }).save
          (.boundChangeTheRow row (s.A row) 1)), UNCHANGED)) := by
  unfold updateUb
  simp only
  split
  · exact Or.inl ⟨_, rfl⟩
  · split
    · right
      obtain ⟨a, u, e⟩ := updActsBoundChange_only { s.check (!(s.ctag k).inactive) with
        ub := upd s.ub k newUb } (s.AT k) (s.ub k) newUb (!(s.ctag k).ubInf) false
      refine ⟨a, u, ?_⟩
      have e' : updActsBoundChange { s.check (!(s.ctag k).inactive) with
          ub := upd (s.check (!(s.ctag k).inactive)).ub k newUb }
          (St.AT { s.check (!(s.ctag k).inactive) with ub := upd (s.check (!(s.ctag k).inactive)).ub k newUb } k)
          (s.ub k) newUb (!((s.check (!(s.ctag k).inactive)).ctag k).ubInf) false = _ := e
      rw [e']
      unfold boundStep St.save St.check
      simp only [upd_self]
    · exact Or.inl ⟨_, rfl⟩

/-- One bound change with its row is one propagation step. -/
theorem boundRow_raw (μ : Mode) {s t : St} {row k : ℕ} {lb ub : D} {tag : CTag} {im ot : D} {low : Bool}
    (hi : (s.rtag row).inactive = false) (hk : (s.ctag k).inactive = false) (hc : ∃ v, (k, v) ∈ s.A row)
    (ht : tag.inactive = false)
    (h : SameCore ((boundStep s k lb ub tag im ot low).save (.boundChangeTheRow row (s.A row) 1)) t) :
    Raw μ s t :=
  .prop row 1 (boundStep s k lb ub tag im ot low) hi Nat.one_pos
    (.bound k lb ub tag im ot low .nil hk hc ht (.refl _)) h

/-- What one bound change preserves. -/
structure BoundStable (I : St → Prop) : Prop where
  core : Struct I
  bound : ∀ s j lb ub t im ot low row cells num, (s.ctag j).inactive = false → t.inactive = false →
    I s → I ((boundStep s j lb ub t im ot low).save (.boundChangeTheRow row cells num))

theorem updateLb_le (μ : Mode) (s : St) (k : ℕ) (v : D) (row : ℕ) (o : Ok μ (updateLb s k v row).1) :
    Ok μ s ∧ (s.ctag k).inactive = false := by
  rcases updateLb_eq s k v row with ⟨st, e⟩ | ⟨a, u, e⟩
  · rw [e] at o
    exact ⟨o.check.1, by simpa using o.check.2⟩
  · rw [e] at o
    have h : (s.asrt && !(s.ctag k).inactive) = true := o.1
    simp only [Bool.and_eq_true, Bool.not_eq_true'] at h
    exact ⟨⟨h.1, o.2⟩, h.2⟩

theorem updateUb_le (μ : Mode) (s : St) (k : ℕ) (v : D) (row : ℕ) (o : Ok μ (updateUb s k v row).1) :
    Ok μ s ∧ (s.ctag k).inactive = false := by
  rcases updateUb_eq s k v row with ⟨st, e⟩ | ⟨a, u, e⟩
  · rw [e] at o
    exact ⟨o.check.1, by simpa using o.check.2⟩
  · rw [e] at o
    have h : (s.asrt && !(s.ctag k).inactive) = true := o.1
    simp only [Bool.and_eq_true, Bool.not_eq_true'] at h
    exact ⟨⟨h.1, o.2⟩, h.2⟩

theorem updateLb_good (μ : Mode) (I : St → Prop) (hI : BoundStable I) (s : St) (k : ℕ) (v : D) (row : ℕ)
    (hr : Inv s → I s → (s.rtag row).inactive = false ∧ ∃ v, (k, v) ∈ s.A row) :
    Good μ I I s (updateLb s k v row).1 := by
  refine .of (fun o => (updateLb_le μ s k v row o).1) (fun o i hi => ?_)
  have hk := (updateLb_le μ s k v row o).2
  rcases updateLb_eq s k v row with ⟨st, e⟩ | ⟨a, u, e⟩
  · rw [e]
    exact ⟨.of_same (sameCore_check s _) rfl rfl rfl, hI.core _ _ (sameCore_check s _) hi⟩
  · rw [e]
    have ht : ({ s.ctag k with lbInf := false } : CTag).inactive = false := hk
    have h : SameCore ((boundStep s k v (s.ub k) { s.ctag k with lbInf := false } v (s.ub k) false).save
        (.boundChangeTheRow row (s.A row) 1))
      (({ boundStep s k v (s.ub k) { s.ctag k with lbInf := false } v (s.ub k) false with
        act := a, updActs := u, asrt := s.asrt && !(s.ctag k).inactive }).save
          (.boundChangeTheRow row (s.A row) 1)) := by constructor <;> rfl
    exact ⟨.of_raw (boundRow_raw μ (hr i hi).1 hk (hr i hi).2 ht h) i.gi rfl rfl rfl,
      hI.core _ _ h (hI.bound s k _ _ _ _ _ _ _ _ _ hk ht hi)⟩

theorem updateUb_good (μ : Mode) (I : St → Prop) (hI : BoundStable I) (s : St) (k : ℕ) (v : D) (row : ℕ)
    (hr : Inv s → I s → (s.rtag row).inactive = false ∧ ∃ v, (k, v) ∈ s.A row) :
    Good μ I I s (updateUb s k v row).1 := by
  refine .of (fun o => (updateUb_le μ s k v row o).1) (fun o i hi => ?_)
  have hk := (updateUb_le μ s k v row o).2
  rcases updateUb_eq s k v row with ⟨st, e⟩ | ⟨a, u, e⟩
  · rw [e]
    exact ⟨.of_same (sameCore_check s _) rfl rfl rfl, hI.core _ _ (sameCore_check s _) hi⟩
  · rw [e]
    have ht : ({ s.ctag k with ubInf := false } : CTag).inactive = false := hk
    have h : SameCore ((boundStep s k (s.lb k) v { s.ctag k with ubInf := false } v (s.lb k) true).save
        (.boundChangeTheRow row (s.A row) 1))
      (({ boundStep s k (s.lb k) v { s.ctag k with ubInf := false } v (s.lb k) true with
        act := a, updActs := u, asrt := s.asrt && !(s.ctag k).inactive }).save
          (.boundChangeTheRow row (s.A row) 1)) := by constructor <;> rfl
    exact ⟨.of_raw (boundRow_raw μ (hr i hi).1 hk (hr i hi).2 ht h) i.gi rfl rfl rfl,
      hI.core _ _ h (hI.bound s k _ _ _ _ _ _ _ _ _ hk ht hi)⟩

end Verif
