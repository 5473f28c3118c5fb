import Verif.Inv.StonColsGood
import Verif.Props.C36_Groups

/-!
# Parallel rows as elementary steps
-/

namespace Verif

/-- Row `i` gets new sides, a new tag and new locks, with a record. -/
def sideState (s : St) (i : ℕ) (tag : RTag) (l r : D) (u d : ℕ → ℤ) (rc : Rec) (dt : List ℕ) (b : Bool) : St :=
  { s with rtag := upd s.rtag i tag, lhs := upd s.lhs i l, rhs := upd s.rhs i r, up := u, down := d
           log := rc :: s.log, dtonRows := dt, asrt := b }

/-- What is known about a change of a side. -/
structure SideForm (s : St) (i : ℕ) (tag : RTag) (u d : ℕ → ℤ) (dt : List ℕ) (b : Bool) (old : Prop) : Prop where
  ok : b = true → s.asrt = true ∧ (s.rtag i).eq = false ∧ (s.rtag i).inactive = false ∧ old
  inactive : tag.inactive = (s.rtag i).inactive
  locks : SortedC (s.A i) → LockShift (s.A i) (s.rtag i) tag s.up s.down u d
  dton : ∀ x ∈ dt, x ∈ s.dtonRows ∨ (s.A x).length = 2

theorem changeRhs_form (s : St) (i : ℕ) (q : D) (o : ℕ) (ρ : ℚ) :
    (∃ b, changeRhs s i q o ρ = ({ s with asrt := b }, INFEASIBLE) ∧ (b = true → s.asrt = true)) ∨
    ∃ tag r u d dt b, changeRhs s i q o ρ =
      (sideState s i tag (s.lhs i) r u d (.rhsChange i o (s.A i) q ρ) dt b, REDUCED) ∧
      SideForm s i tag u d dt b ((s.rtag i).rhsInf = true ∨ D.lt q (s.rhs i) = true) ∧
      tag.lhsInf = (s.rtag i).lhsInf := by
  unfold changeRhs
  simp only
  split
  · left
    refine ⟨s.asrt && !((s.rtag i).eq || (s.rtag i).inactive) && !D.isInf q, rfl, fun h => ?_⟩
    simp only [Bool.and_eq_true] at h
    exact h.1.1
  · right
    -- locks
    have hlk : ∀ b : Bool, ∃ u d, (if (s.rtag i).rhsInf = true then locksNewRhs { s with asrt := b } (s.A i)
        else { s with asrt := b }) = { s with up := u, down := d, asrt := b } ∧
        (SortedC (s.A i) → ∀ tag : RTag, tag.lhsInf = (s.rtag i).lhsInf → tag.rhsInf = false →
          LockShift (s.A i) (s.rtag i) tag s.up s.down u d) := by
      intro b
      by_cases h : (s.rtag i).rhsInf = true
      · rw [if_pos h]
        have e := locksNewRhs_only { s with asrt := b } (s.A i)
        unfold OnlyLocks at e
        exact ⟨_, _, e, fun hs tag hl hr => locksNewRhs_shift { s with asrt := b } (s.A i) hs _ tag hl h hr⟩
      · rw [if_neg h]
        exact ⟨_, _, rfl, fun _ tag hl hr => .of_same _ _ _ _ _ hl (by rw [hr]; simpa using (Bool.eq_false_iff.mpr h).symm)⟩
    generalize hb : (s.asrt && !((s.rtag i).eq || (s.rtag i).inactive) && !D.isInf q &&
      ((s.rtag i).rhsInf || D.lt q (s.rhs i))) = b
    have hok : b = true → s.asrt = true ∧ (s.rtag i).eq = false ∧ (s.rtag i).inactive = false ∧
        ((s.rtag i).rhsInf = true ∨ D.lt q (s.rhs i) = true) := by
      intro h
      rw [← hb] at h
      simp only [Bool.and_eq_true, Bool.not_eq_true', Bool.or_eq_false_iff, Bool.or_eq_true] at h
      exact ⟨h.1.1.1, h.1.1.2.1, h.1.1.2.2, h.2⟩
    obtain ⟨u, d, e, hl⟩ := hlk b
    have e' : (if (((s.check (!((s.rtag i).eq || (s.rtag i).inactive))).check (!D.isInf q)).rtag i).rhsInf = true then
        locksNewRhs (((s.check (!((s.rtag i).eq || (s.rtag i).inactive))).check (!D.isInf q)).check
          ((((s.check (!((s.rtag i).eq || (s.rtag i).inactive))).check (!D.isInf q)).rtag i).rhsInf ||
            D.lt q (((s.check (!((s.rtag i).eq || (s.rtag i).inactive))).check (!D.isInf q)).rhs i)))
          ((((s.check (!((s.rtag i).eq || (s.rtag i).inactive))).check (!D.isInf q)).check
          ((((s.check (!((s.rtag i).eq || (s.rtag i).inactive))).check (!D.isInf q)).rtag i).rhsInf ||
            D.lt q (((s.check (!((s.rtag i).eq || (s.rtag i).inactive))).check (!D.isInf q)).rhs i))).A i)
        else (((s.check (!((s.rtag i).eq || (s.rtag i).inactive))).check (!D.isInf q)).check
          ((((s.check (!((s.rtag i).eq || (s.rtag i).inactive))).check (!D.isInf q)).rtag i).rhsInf ||
            D.lt q (((s.check (!((s.rtag i).eq || (s.rtag i).inactive))).check (!D.isInf q)).rhs i)))) =
        { s with up := u, down := d, asrt := b } := by
      rw [← e, ← hb]; rfl
    rw [e']
    clear e' e hlk
    simp only [upd_same]
    split
    · split
      · rename_i h2
        refine ⟨{ s.rtag i with rhsInf := false, eq := true }, s.lhs i, u, d, s.dtonRows ++ [i], b, ?_,
          ⟨hok, rfl, fun hs => hl hs _ rfl rfl, fun x hx => ?_⟩, rfl⟩
        · unfold sideState St.save
          simp only [upd_upd, upd_self]
        · rcases List.mem_append.mp hx with h | h
          · exact .inl h
          · right; rw [List.mem_singleton.mp h]; exact h2
      · refine ⟨{ s.rtag i with rhsInf := false, eq := true }, s.lhs i, u, d, s.dtonRows, b, ?_,
          ⟨hok, rfl, fun hs => hl hs _ rfl rfl, fun x hx => .inl hx⟩, rfl⟩
        unfold sideState St.save
        simp only [upd_upd, upd_self]
    · refine ⟨{ s.rtag i with rhsInf := false }, q, u, d, s.dtonRows, b, ?_,
        ⟨hok, rfl, fun hs => hl hs _ rfl rfl, fun x hx => .inl hx⟩, rfl⟩
      unfold sideState St.save
      simp only [upd_self]

theorem changeLhs_form (s : St) (i : ℕ) (q : D) (o : ℕ) (ρ : ℚ) :
    (∃ b, changeLhs s i q o ρ = ({ s with asrt := b }, INFEASIBLE) ∧ (b = true → s.asrt = true)) ∨
    ∃ tag l u d dt b, changeLhs s i q o ρ =
      (sideState s i tag l (s.rhs i) u d (.lhsChange i o (s.A i) q ρ) dt b, REDUCED) ∧
      SideForm s i tag u d dt b ((s.rtag i).lhsInf = true ∨ D.lt (s.lhs i) q = true) := by
  unfold changeLhs
  simp only
  split
  · left
    refine ⟨s.asrt && !((s.rtag i).eq || (s.rtag i).inactive) && !D.isInf q, rfl, fun h => ?_⟩
    simp only [Bool.and_eq_true] at h
    exact h.1.1
  · right
    -- locks
    have hlk : ∀ b : Bool, ∃ u d, (if (s.rtag i).lhsInf = true then locksNewLhs { s with asrt := b } (s.A i)
        else { s with asrt := b }) = { s with up := u, down := d, asrt := b } ∧
        (SortedC (s.A i) → ∀ tag : RTag, tag.rhsInf = (s.rtag i).rhsInf → tag.lhsInf = false →
          LockShift (s.A i) (s.rtag i) tag s.up s.down u d) := by
      intro b
      by_cases h : (s.rtag i).lhsInf = true
      · rw [if_pos h]
        have e := locksNewLhs_only { s with asrt := b } (s.A i)
        unfold OnlyLocks at e
        exact ⟨_, _, e, fun hs tag hl hr => locksNewLhs_shift { s with asrt := b } (s.A i) hs _ tag hl h hr⟩
      · rw [if_neg h]
        exact ⟨_, _, rfl, fun _ tag hl hr => .of_same _ _ _ _ _ (by rw [hr]; simpa using (Bool.eq_false_iff.mpr h).symm) hl⟩
    generalize hb : (s.asrt && !((s.rtag i).eq || (s.rtag i).inactive) && !D.isInf q &&
      ((s.rtag i).lhsInf || D.lt (s.lhs i) q)) = b
    have hok : b = true → s.asrt = true ∧ (s.rtag i).eq = false ∧ (s.rtag i).inactive = false ∧
        ((s.rtag i).lhsInf = true ∨ D.lt (s.lhs i) q = true) := by
      intro h
      rw [← hb] at h
      simp only [Bool.and_eq_true, Bool.not_eq_true', Bool.or_eq_false_iff, Bool.or_eq_true] at h
      exact ⟨h.1.1.1, h.1.1.2.1, h.1.1.2.2, h.2⟩
    obtain ⟨u, d, e, hl⟩ := hlk b
    have e' : (if (((s.check (!((s.rtag i).eq || (s.rtag i).inactive))).check (!D.isInf q)).rtag i).lhsInf = true then
        locksNewLhs (((s.check (!((s.rtag i).eq || (s.rtag i).inactive))).check (!D.isInf q)).check
          ((((s.check (!((s.rtag i).eq || (s.rtag i).inactive))).check (!D.isInf q)).rtag i).lhsInf ||
            D.lt (((s.check (!((s.rtag i).eq || (s.rtag i).inactive))).check (!D.isInf q)).lhs i) q))
          ((((s.check (!((s.rtag i).eq || (s.rtag i).inactive))).check (!D.isInf q)).check
          ((((s.check (!((s.rtag i).eq || (s.rtag i).inactive))).check (!D.isInf q)).rtag i).lhsInf ||
            D.lt (((s.check (!((s.rtag i).eq || (s.rtag i).inactive))).check (!D.isInf q)).lhs i) q)).A i)
        else (((s.check (!((s.rtag i).eq || (s.rtag i).inactive))).check (!D.isInf q)).check
          ((((s.check (!((s.rtag i).eq || (s.rtag i).inactive))).check (!D.isInf q)).rtag i).lhsInf ||
            D.lt (((s.check (!((s.rtag i).eq || (s.rtag i).inactive))).check (!D.isInf q)).lhs i) q))) =
        { s with up := u, down := d, asrt := b } := by
      rw [← e, ← hb]; rfl
    rw [e']
    clear e' e hlk
    simp only [upd_same]
    split
    · split
      · rename_i h2
        refine ⟨{ s.rtag i with lhsInf := false, eq := true }, s.rhs i, u, d, s.dtonRows ++ [i], b, ?_,
          ⟨hok, rfl, fun hs => hl hs _ rfl rfl, fun x hx => ?_⟩⟩
        · unfold sideState St.save
          simp only [upd_upd, upd_self]
        · rcases List.mem_append.mp hx with h | h
          · exact .inl h
          · right; rw [List.mem_singleton.mp h]; exact h2
      · refine ⟨{ s.rtag i with lhsInf := false, eq := true }, s.rhs i, u, d, s.dtonRows, b, ?_,
          ⟨hok, rfl, fun hs => hl hs _ rfl rfl, fun x hx => .inl hx⟩⟩
        unfold sideState St.save
        simp only [upd_upd, upd_self]
    · refine ⟨{ s.rtag i with lhsInf := false }, q, u, d, s.dtonRows, b, ?_,
        ⟨hok, rfl, fun hs => hl hs _ rfl rfl, fun x hx => .inl hx⟩⟩
      unfold sideState St.save
      simp only [upd_self]

theorem sideState_good (μ : Mode) (hμ : μ.sideRec = true) (I J : St → Prop) (s : St) (i o : ℕ) (tag : RTag) (l r : D)
    (u d : ℕ → ℤ) (rc : Rec) (dt : List ℕ) (b : Bool) {old : Prop} (f : SideForm s i tag u d dt b old)
    (hrc : ∃ side ratio, rc = .rhsChange i o (s.A i) side ratio ∨ rc = .lhsChange i o (s.A i) side ratio)
    (hN : I s → NoCols s) (ho : I s → old → (s.rtag o).inactive = false ∧ i ≠ o)
    (hJ : I s → (s.rtag i).inactive = false → J (sideState s i tag l r u d rc dt b)) :
    Good μ I J s (sideState s i tag l r u d rc dt b) := by
  refine .of (fun x => ⟨(f.ok x.1).1, x.2⟩) (fun x inv hi => ?_)
  obtain ⟨h1, h2, h3, h4⟩ := f.ok x.1
  have raw : Raw μ s (sideState s i tag l r u d rc dt b) :=
    .sideRec i o tag l r u d rc h3 (ho hi h4).1 (ho hi h4).2
      (inv.gi.colsActive (hN hi).1 (hN hi).2 h3) (f.inactive.trans h3) (f.locks (inv.gi.rowSorted i)) hrc hμ
      (by constructor <;> rfl)
  exact ⟨⟨.single raw, fun _ h => Or.inl h, fun x hx => (f.dton x hx).imp_right (fun h => h.le), rfl,
    (raw.mono inv.gi).em (fun _ => Or.inr rfl) (fun _ => Or.inr rfl) (fun _ h => h) (fun _ h => h)⟩, hJ hi h3⟩

/-- Rows that wait to be processed are active and have cells. -/
def RowsReady (rows : List ℕ) (s : St) : Prop :=
  NoCols s ∧ ∀ i ∈ rows, (s.rtag i).inactive = false ∧ s.A i ≠ []

/-- What the loop over a bin keeps about the remaining row. -/
structure ParInv (s : St) (r : ℕ) (bin : List ℕ) (p : ParRow) : Prop where
  rem : p.isEq = false → p.rem = r
  rhs : p.isEq = false → (p.rhsInf = (s.rtag r).rhsInf ∧ p.newRhs = s.rhs r) ∨ (p.rhsIdx ∈ bin ∧ p.rhsIdx ≠ r)
  lhs : p.isEq = false → (p.lhsInf = (s.rtag r).lhsInf ∧ p.newLhs = s.lhs r) ∨ (p.lhsIdx ∈ bin ∧ p.lhsIdx ≠ r)
  mem : p.rem ∈ bin

theorem parRowStep_parInv {s : St} {r : ℕ} {bin : List ℕ} {p p' : ParRow} {i : ℕ} (h : ParInv s r bin p)
    (hi : i ∈ bin) (hne : i ≠ r) (e : parRowStep s p i = some p') : ParInv s r bin p' := by
  unfold parRowStep at e
  have hsw : parSwap s p i = (p, i) ∨ ((parSwap s p i).1.isEq = true ∧ (parSwap s p i).1.rem = i) := by
    unfold parSwap
    split
    · right; exact ⟨rfl, rfl⟩
    · left; rfl
  rcases hsw with hsw | hsw
  · rw [hsw] at e
    simp only at e
    split at e
    · split at e
      · cases e; exact h
      · cases e
    · split at e
      · split at e
        · cases e
        · cases e; exact h
      · rename_i h1 h2
        cases e
        have hq : p.isEq = false := by simpa using h2
        have hr := h.rem hq
        have htail : ∀ ratio, (parTighten s p i ratio).isEq = p.isEq ∧ (parTighten s p i ratio).rem = p.rem ∧
            (((parTighten s p i ratio).rhsInf = p.rhsInf ∧ (parTighten s p i ratio).newRhs = p.newRhs ∧
              (parTighten s p i ratio).rhsIdx = p.rhsIdx) ∨ (parTighten s p i ratio).rhsIdx = i) ∧
            (((parTighten s p i ratio).lhsInf = p.lhsInf ∧ (parTighten s p i ratio).newLhs = p.newLhs ∧
              (parTighten s p i ratio).lhsIdx = p.lhsIdx) ∨ (parTighten s p i ratio).lhsIdx = i) := by
          intro ratio
          unfold parTighten
          simp only
          split_ifs <;> exact ⟨rfl, rfl, by first | exact Or.inl ⟨rfl, rfl, rfl⟩ | exact Or.inr rfl,
            by first | exact Or.inl ⟨rfl, rfl, rfl⟩ | exact Or.inr rfl⟩
        obtain ⟨t1, t2, t3, t4⟩ := htail (firstCoef (s.A p.rem) / firstCoef (s.A i))
        refine ⟨fun _ => t2.trans hr, fun _ => ?_, fun _ => ?_, by rw [t2]; exact h.mem⟩
        · rcases t3 with ⟨a, b, c⟩ | a
          · rw [a, b, c]; exact h.rhs hq
          · rw [a]; exact .inr ⟨hi, hne⟩
        · rcases t4 with ⟨a, b, c⟩ | a
          · rw [a, b, c]; exact h.lhs hq
          · rw [a]; exact .inr ⟨hi, hne⟩
  · generalize parSwap s p i = po at *
    obtain ⟨p1, other⟩ := po
    simp only at e hsw
    have hp1 : ∀ q : ParRow, q.isEq = true → q.rem = i → ParInv s r bin q := fun q h1 h2 =>
      ⟨fun h => absurd (h1.symm.trans h) (by simp), fun h => absurd (h1.symm.trans h) (by simp),
        fun h => absurd (h1.symm.trans h) (by simp), h2 ▸ hi⟩
    rw [hsw.1] at e
    simp only [Bool.true_and, if_true] at e
    split at e
    · split at e
      · cases e; exact hp1 _ hsw.1 hsw.2
      · cases e
    · split at e
      · cases e
      · cases e; exact hp1 _ hsw.1 hsw.2

theorem parRowLoop_parInv {s : St} {r : ℕ} {bin : List ℕ} (L : List ℕ) {p p' : ParRow} (h : ParInv s r bin p)
    (hL : ∀ i ∈ L, i ∈ bin ∧ i ≠ r) (e : parRowLoop s L p = some p') : ParInv s r bin p' := by
  induction L generalizing p with
  | nil => cases e; exact h
  | cons i L ih =>
    unfold parRowLoop at e
    split at e
    · cases e
    · rename_i q hq
      exact ih (parRowStep_parInv h (hL i List.mem_cons_self).1 (hL i List.mem_cons_self).2 hq)
        (fun j hj => hL j (List.mem_cons_of_mem _ hj)) e

theorem lt_irrefl_D (d : D) : D.lt d d = false := by
  cases d <;> simp [D.lt]

theorem sideState_ready {rows : List ℕ} {s : St} {i : ℕ} {tag : RTag} {l r : D} {u d : ℕ → ℤ} {rc : Rec}
    {dt : List ℕ} {b : Bool} (h : RowsReady rows s) (ht : tag.inactive = (s.rtag i).inactive) :
    RowsReady rows (sideState s i tag l r u d rc dt b) := by
  refine ⟨h.1, fun j hj => ⟨?_, (h.2 j hj).2⟩⟩
  show (upd s.rtag i tag j).inactive = false
  by_cases e : j = i
  · rw [e, upd_same, ht, ← e]; exact (h.2 j hj).1
  · rw [upd_ne _ _ e]; exact (h.2 j hj).1

theorem parApply_good (μ : Mode) (hμ : μ.sideRec = true) (s : St) (r : ℕ) (bin rows : List ℕ) (p : ParRow)
    (hp : ParInv s r bin p) (hb : ∀ i ∈ bin, i ∈ rows) :
    Good μ (RowsReady rows) (RowsReady rows) s (parApply s p).1 := by
  unfold parApply
  split
  · exact .refl μ _ s
  · rename_i hq
    have hq : p.isEq = false := by simpa using hq
    have hrem := hp.rem hq
    simp only
    -- the first change
    have g1 : ∀ q1, (if (!p.rhsInf && !D.eqb p.newRhs (s.rhs p.rem)) = true then
        changeRhs s p.rem p.newRhs p.rhsIdx p.rhsRatio else (s, UNCHANGED)) = q1 →
        Good μ (RowsReady rows) (RowsReady rows) s q1.1 ∧
        (q1.1.rtag p.rem).lhsInf = (s.rtag p.rem).lhsInf ∧ q1.1.lhs p.rem = s.lhs p.rem := by
      intro q1 hq1
      split at hq1
      · rename_i hc
        rcases changeRhs_form s p.rem p.newRhs p.rhsIdx p.rhsRatio with ⟨b, e, hb'⟩ | ⟨tag, rr, u, d, dt, b, e, f, hl⟩
        · rw [← hq1, e]
          exact ⟨.same (by constructor <;> rfl) rfl rfl rfl (fun o => ⟨hb' o.1, o.2⟩) (fun _ h => h), rfl, rfl⟩
        · rw [← hq1, e]
          refine ⟨sideState_good μ hμ _ _ s p.rem p.rhsIdx tag (s.lhs p.rem) rr u d _ dt b f ⟨_, _, .inl rfl⟩
            (fun h => h.1) (fun h ho => ?_) (fun h _ => sideState_ready h f.inactive), ?_, ?_⟩
          · rcases hp.rhs hq with ⟨h1, h2⟩ | ⟨h1, h2⟩
            · exfalso
              rw [hrem] at ho
              simp only [Bool.and_eq_true, Bool.not_eq_true'] at hc
              rw [h1] at hc
              rw [h2, lt_irrefl_D, hc.1] at ho
              simp at ho
            · exact ⟨(h.2 _ (hb _ h1)).1, by rw [hrem]; exact h2.symm⟩
          · show (upd s.rtag p.rem tag p.rem).lhsInf = _
            rw [upd_same, hl]
          · show upd s.lhs p.rem (s.lhs p.rem) p.rem = _
            rw [upd_same]
      · rw [← hq1]; exact ⟨.refl μ _ s, rfl, rfl⟩
    generalize hq1 : (if (!p.rhsInf && !D.eqb p.newRhs (s.rhs p.rem)) = true then
        changeRhs s p.rem p.newRhs p.rhsIdx p.rhsRatio else (s, UNCHANGED)) = q1
    obtain ⟨g, hl1, hl2⟩ := g1 q1 hq1
    split
    · exact g
    · split
      · rename_i hc
        refine g.trans ?_
        rcases changeLhs_form q1.1 p.rem p.newLhs p.lhsIdx p.lhsRatio with ⟨b, e, hb'⟩ | ⟨tag, ll, u, d, dt, b, e, f⟩
        · rw [e]
          exact .same (by constructor <;> rfl) rfl rfl rfl (fun o => ⟨hb' o.1, o.2⟩) (fun _ h => h)
        · rw [e]
          refine sideState_good μ hμ _ _ q1.1 p.rem p.lhsIdx tag ll (q1.1.rhs p.rem) u d _ dt b f ⟨_, _, .inr rfl⟩
            (fun h => h.1) (fun h ho => ?_) (fun h _ => sideState_ready h f.inactive)
          rcases hp.lhs hq with ⟨h1, h2⟩ | ⟨h1, h2⟩
          · exfalso
            rw [hl1, hl2, hrem] at ho
            simp only [Bool.and_eq_true, Bool.not_eq_true'] at hc
            rw [h1] at hc
            rw [h2, lt_irrefl_D, hc.1] at ho
            simp at ho
          · exact ⟨(h.2 _ (hb _ h1)).1, by rw [hrem]; exact h2.symm⟩
      · exact g

theorem setRows_good (μ : Mode) (rows : List ℕ) (keep : ℕ) (L : List ℕ) (hL : ∀ i ∈ L, i ∉ rows) (s : St) :
    Good μ (RowsReady rows) (RowsReady rows) s
      (L.foldl (fun s i => if i = keep then s else setRowToInactive s i 0) s) := by
  induction L generalizing s with
  | nil => exact .refl μ _ s
  | cons i L ih =>
    refine Good.trans (J := RowsReady rows) ?_ (ih (fun j hj => hL j (List.mem_cons_of_mem _ hj)) _)
    show Good μ (RowsReady rows) (RowsReady rows) s (if i = keep then s else setRowToInactive s i 0)
    split
    · exact .refl μ _ s
    · refine setRowToInactive_good μ _ _ s i (fun h => ⟨h.1, fun j hj => ⟨?_, (h.2 j hj).2⟩⟩)
      show (upd s.rtag i _ j).inactive = false
      have : j ≠ i := by rintro rfl; exact hL j List.mem_cons_self hj
      rw [upd_ne _ _ this]; exact (h.2 j hj).1

theorem parRowsBin_good (μ : Mode) (hμ : μ.sideRec = true) (s : St) (bin later : List ℕ) (hnd : (bin ++ later).Nodup) :
    Good μ (RowsReady (bin ++ later)) (RowsReady later) s (parRowsBin s bin).1 := by
  unfold parRowsBin
  split
  · exact .refl μ _ s
  · rename_i r rest
    generalize hbin : r :: rest = bin at *
    have hsub : ∀ t, RowsReady (bin ++ later) t → RowsReady later t := fun t h =>
      ⟨h.1, fun i hi => h.2 i (List.mem_append_right _ hi)⟩
    have hf : RowsReady (bin ++ later) s → bin.any (fun i => decide (s.A i = [])) = false := by
      intro h
      rw [List.any_eq_false]
      intro i hi
      simpa using (h.2 i (List.mem_append_left _ hi)).2
    simp only
    have g0 : Good μ (RowsReady (bin ++ later)) (RowsReady (bin ++ later)) s
        (s.flag (bin.any (fun i => decide (s.A i = [])))) := by
      refine .of (fun o => o) (fun _ inv h => ⟨.of_same (by constructor <;> rfl) rfl rfl ?_, h⟩)
      show (s.undef || _) = s.undef
      rw [hf h, Bool.or_false]
    generalize s.flag (bin.any (fun i => decide (s.A i = []))) = s1 at *
    split
    · exact g0.weaken (fun _ h => h) (fun _ h => hsub _ h)
    · rename_i p hp
      have hrest : ∀ i ∈ rest, i ∈ bin ∧ i ≠ r := by
        intro i hi
        refine ⟨hbin ▸ List.mem_cons_of_mem _ hi, ?_⟩
        rintro rfl
        rw [← hbin] at hnd
        rw [List.cons_append, List.nodup_cons] at hnd
        exact hnd.1 (List.mem_append_left _ hi)
      have hinit : ParInv s1 r bin (parRowInit s1 r) :=
        ⟨fun _ => rfl, fun _ => .inl ⟨rfl, rfl⟩, fun _ => .inl ⟨rfl, rfl⟩, hbin ▸ List.mem_cons_self⟩
      have hinv := parRowLoop_parInv rest hinit hrest hp
      have ga := parApply_good μ hμ s1 r bin (bin ++ later) p hinv (fun i hi => List.mem_append_left _ hi)
      split
      · exact (g0.trans ga).weaken (fun _ h => h) (fun _ h => hsub _ h)
      · refine ((g0.trans ga).weaken (fun _ h => h) (fun _ h => hsub _ h)).trans ?_
        exact setRows_good μ later p.rem bin (fun i hi hl => (List.nodup_append.mp hnd).2.2 i hi i hl rfl) _

theorem parRowsBins_good (μ : Mode) (hμ : μ.sideRec = true) (groups : List (List ℕ)) (hnd : groups.flatten.Nodup) (s : St) :
    Good μ (RowsReady groups.flatten) NoCols s (parRowsBins groups s).1 := by
  induction groups generalizing s with
  | nil => exact (Good.refl μ _ s).weaken (fun _ h => h) (fun _ h => h.1)
  | cons bin rest ih =>
    rw [List.flatten_cons] at hnd ⊢
    unfold parRowsBins
    simp only
    have g := parRowsBin_good μ hμ s bin rest.flatten hnd
    split
    · exact g.weaken (fun _ h => h) (fun _ h => h.1)
    · exact g.trans (ih (List.nodup_append.mp hnd).2.1 _)

/-- Nothing is pending; empty rows and columns are listed. -/
def CE (s : St) : Prop := Clean s ∧ Em s

theorem Good.em {μ : Mode} {I J : St → Prop} {a b : St} (h : Good μ I J a b) :
    Good μ (fun s => I s ∧ Em s) (fun s => J s ∧ Em s) a b := by
  intro o
  obtain ⟨o', k⟩ := h o
  refine ⟨o', fun i hi => ?_⟩
  obtain ⟨r, hj⟩ := k i hi.1
  exact ⟨r, hj, r.em hi.2⟩

/-- The members of a group have cells. -/
theorem groups_cells {env : Env} (hs : env.SortOK) {tick : ℕ} {M : ℕ → List Cell} {inactive : ℕ → Bool} {n : ℕ}
    (hM : ∀ i, i < n → inactive i = false → M i ≠ []) :
    (findParallel env tick M inactive n).flatten.Nodup ∧
    ∀ i ∈ (findParallel env tick M inactive n).flatten, i < n ∧ M i ≠ [] := by
  have hp := hs.perm tick (rowKey env tick M inactive) (List.range n)
  obtain ⟨h1, h2, h3⟩ := findGroups_sound (rowKey env tick M inactive) inactive M
    (env.sort tick (rowKey env tick M inactive) (List.range n)) (hp.nodup_iff.mpr List.nodup_range)
  have hlt : ∀ i ∈ (findParallel env tick M inactive n).flatten, i < n := fun i hi =>
    List.mem_range.mp (hp.mem_iff.mp (h2 i hi))
  refine ⟨h1, fun i hi => ⟨hlt i hi, ?_⟩⟩
  obtain ⟨g, hg, hig⟩ := List.mem_flatten.mp hi
  obtain ⟨par, f, e, -, hf, hpar⟩ := h3 g hg
  have hfM : M f ≠ [] := hM f (hlt f (List.mem_flatten.mpr ⟨g, hg, by rw [e]; simp⟩)) hf
  rw [e] at hig
  rcases List.mem_append.mp hig with h | h
  · have := (hpar i h).2
    intro hi0
    rw [hi0] at this
    cases hMf : M f with
    | nil => exact hfM hMf
    | cons a b => rw [hMf] at this; simp [isParallel] at this
  · rw [List.mem_singleton.mp h]; exact hfM

theorem removeParallelRows_good (μ : Mode) (hμ : μ.sideRec = true) (env : Env) (hs : env.SortOK) (s : St) :
    Good μ CE Clean s (removeParallelRows env s).1 := by
  unfold removeParallelRows
  simp only
  generalize hs1 : ((s.check (decide (s.stonRows = []))).check (decide (s.emptyRows = []))).check
    (decide (s.emptyCols = [])) = s1
  have g1 : Good μ CE (fun t => CE t ∧ t.emptyRows = [] ∧ t.emptyCols = []) s s1 := by
    rw [← hs1]
    refine .trans (J := CE) (.check s _ (fun _ h => h)) (.trans (J := fun t => CE t ∧ t.emptyRows = []) (.check _ _ (fun h h' => ⟨h', of_decide_eq_true h⟩))
      (.check _ _ (fun h h' => ⟨h'.1, h'.2, of_decide_eq_true h⟩)))
  refine g1.trans ?_
  clear hs1 g1
  have hg : Inv s1 → (CE s1 ∧ s1.emptyRows = [] ∧ s1.emptyCols = []) →
      RowsReady (findParallel env s1.tick s1.A (fun i => (s1.rtag i).inactive) s1.m).flatten s1 := by
    intro inv h
    have hc := groups_cells hs (tick := s1.tick) (M := s1.A) (inactive := fun i => (s1.rtag i).inactive) (n := s1.m)
      (fun i hi ha hA => by
        have := h.1.2.1 i hi ha hA
        rw [h.2.1] at this; cases this)
    refine ⟨h.1.1.2, fun i hi => ⟨?_, (hc.2 i hi).2⟩⟩
    cases hx : (s1.rtag i).inactive with
    | false => rfl
    | true =>
      exfalso
      by_cases hr : s1.rowSize i = -1
      · exact (hc.2 i hi).2 (inv.gi.rowGone i hr).1
      · have := inv.gi.rowPend i hx hr
        rw [h.1.1.1] at this; cases this
  have hnd := (findGroups_sound (rowKey env s1.tick s1.A (fun i => (s1.rtag i).inactive))
    (fun i => (s1.rtag i).inactive) s1.A
    (env.sort s1.tick (rowKey env s1.tick s1.A (fun i => (s1.rtag i).inactive)) (List.range s1.m))
    ((hs.perm _ _ _).nodup_iff.mpr List.nodup_range)).1
  have gt : Good μ (fun t => CE t ∧ t.emptyRows = [] ∧ t.emptyCols = [])
      (RowsReady (findParallel env s1.tick s1.A (fun i => (s1.rtag i).inactive) s1.m).flatten) s1
      { s1 with tick := s1.tick + 1 } := by
    refine .of (fun o => o) (fun _ inv h => ⟨.of_same (by constructor <;> rfl) rfl rfl rfl, hg inv h⟩)
  refine (gt.trans (parRowsBins_good μ hμ _ hnd _)).trans (delRows_good μ _ _ _ (fun _ h d => ⟨d.noRows, ?_, ?_⟩))
  · rw [d.fixedCols]; exact h.1
  · rw [d.subCols]; exact h.2

end Verif
