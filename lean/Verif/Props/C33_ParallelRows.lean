import Verif.Lemmas.ParRow
import Verif.Lemmas.EnvEx
import Verif.Spec.Problem
import Mathlib.Tactic.IntervalCases

/-!
# C33: parallel rows are merged into their intersection
-/

namespace Verif

/-- A row multiplied by a number. -/
def scaleRow (κ : ℚ) (cells : List Cell) : List Cell := cells.map (fun p => (p.1, κ * p.2))

theorem dot_scaleRow (κ : ℚ) (cells : List Cell) (x : ℕ → ℚ) :
    dot (scaleRow κ cells) x = κ * dot cells x := by
  induction cells with
  | nil => simp [scaleRow]
  | cons p l ih =>
    have : scaleRow κ (p :: l) = (p.1, κ * p.2) :: scaleRow κ l := rfl
    rw [this, dot_cons, dot_cons, ih]; ring

theorem firstCoef_scaleRow (κ : ℚ) (cells : List Cell) :
    firstCoef (scaleRow κ cells) = κ * firstCoef cells := by
  cases cells with
  | nil => simp [scaleRow, firstCoef]
  | cons p l => rfl

/-- A group of active rows that are multiples of its first row; sides that are absent are stored
as infinities, an equality has two equal finite sides, the first coefficient is not zero. -/
structure RowGroup (s : St) (r : ℕ) (rest : List ℕ) : Prop where
  nodup : (r :: rest).Nodup
  active : ∀ i ∈ r :: rest, (s.rtag i).inactive = false
  lhs : ∀ i ∈ r :: rest, LoForm (s.rtag i).lhsInf (s.lhs i)
  rhs : ∀ i ∈ r :: rest, HiForm (s.rtag i).rhsInf (s.rhs i)
  eq : ∀ i ∈ r :: rest, (s.rtag i).eq = true →
    (s.rtag i).lhsInf = false ∧ (s.rtag i).rhsInf = false ∧ s.lhs i = s.rhs i
  par : ∀ i ∈ r :: rest, ∃ κ, κ ≠ 0 ∧ s.A i = scaleRow κ (s.A r)
  head : ∃ p l, s.A r = p :: l ∧ p.2 ≠ 0

/-- The order in which no row is forgotten: no equality at all, or one in the first two places. -/
def EqEarly (s : St) (r : ℕ) (rest : List ℕ) : Prop :=
  (∀ i ∈ r :: rest, (s.rtag i).eq = false) ∨ (s.rtag r).eq = true ∨
    ∃ e l, rest = e :: l ∧ (s.rtag e).eq = true

theorem RowGroup.form {s : St} {r : ℕ} {rest : List ℕ} (h : RowGroup s r rest) {i : ℕ}
    (hi : i ∈ r :: rest) : RowForm s i := by
  refine ⟨h.lhs i hi, h.rhs i hi, h.eq i hi, ?_⟩
  obtain ⟨κ, hκ, e⟩ := h.par i hi
  obtain ⟨p, l, e', hp⟩ := h.head
  rw [e, firstCoef_scaleRow, e']
  exact mul_ne_zero hκ hp

/-- Value of the common direction. -/
def direction (s : St) (r : ℕ) (x : ℕ → ℚ) : ℚ := dot (s.A r) x / firstCoef (s.A r)

theorem RowGroup.dot {s : St} {r : ℕ} {rest : List ℕ} (h : RowGroup s r rest) {i : ℕ}
    (hi : i ∈ r :: rest) (x : ℕ → ℚ) : dot (s.A i) x = firstCoef (s.A i) * direction s r x := by
  obtain ⟨κ, hκ, e⟩ := h.par i hi
  have := (h.form (List.mem_cons_self : r ∈ r :: rest)).nz
  rw [e, firstCoef_scaleRow, dot_scaleRow]
  unfold direction
  field_simp

theorem RowGroup.rowOK {s : St} {r : ℕ} {rest : List ℕ} (h : RowGroup s r rest) {i : ℕ}
    (hi : i ∈ r :: rest) (x : ℕ → ℚ) : RowOK s i x ↔ RowAt s i (direction s r x) := by
  unfold RowOK RowAt
  rw [h.dot hi]

/-- The loop of `process_single_bin`. -/
theorem parRowLoop_inv {s : St} (rest : List ℕ) {done : List ℕ} {p : ParRow} (h : PInv s done p)
    (hd : ∀ j ∈ done, RowForm s j) (hr : ∀ j ∈ rest, RowForm s j) :
    match parRowLoop s rest p with
    | none => ∀ t, ¬ ∀ i ∈ done ++ rest, RowAt s i t
    | some p' => PInv s (done ++ rest) p' ∧
        (p.isEq = true → EqCovers s done p.rem → EqCovers s (done ++ rest) p'.rem) ∧
        ((∀ i ∈ rest, (s.rtag i).eq = false) → p.isEq = false → p'.isEq = false) ∧
        (p.isEq = true → p'.isEq = true) := by
  induction rest generalizing done p with
  | nil => simpa [parRowLoop] using h
  | cons i rest ih =>
    have hi := hr i (by simp)
    have hstep := parRowStep_inv h hd hi
    rw [parRowLoop]
    generalize parRowStep s p i = o at hstep
    rcases o with _ | q
    · simp only at hstep ⊢
      intro t ht
      exact hstep t ⟨ht _ (by simp [h.rem]), ht i (by simp)⟩
    · simp only at hstep ⊢
      obtain ⟨a1, a2, a3, a4⟩ := hstep
      have := ih (done := done ++ [i]) (p := q) a1
        (fun j hj => by
          rcases List.mem_append.mp hj with hj | hj
          · exact hd j hj
          · simp at hj; rw [hj]; exact hi)
        (fun j hj => hr j (by simp [hj]))
      have e : done ++ [i] ++ rest = done ++ i :: rest := by simp
      rw [e] at this
      generalize parRowLoop s rest q = o at this ⊢
      rcases o with _ | p'
      · exact this
      · simp only at this ⊢
        obtain ⟨b1, b2, b3, b4⟩ := this
        have hqe : p.isEq = true → q.isEq = true := by
          intro hp
          rw [a1.isEq, (a2 hp).1, ← h.isEq]; exact hp
        refine ⟨b1, fun hp hc => b2 (hqe hp) ((a2 hp).2 hc), fun hall hp => ?_, fun hp => b4 (hqe hp)⟩
        refine b3 (fun j hj => hall j (by simp [hj])) ?_
        rcases hq : q.isEq with _ | _
        · rfl
        · have h1 := a1.isEq
          rw [(a3 hp hq).1, hq, hall i (by simp)] at h1
          cases h1

theorem parRowInit_inv {s : St} {r : ℕ} (h : RowForm s r) : PInv s [r] (parRowInit s r) where
  rem := by simp [parRowInit]
  isEq := rfl
  eqRhs := fun _ => rfl
  fin := fun _ => ⟨h.lhs.fin, h.rhs.fin⟩
  ineq := fun he i hi => by simp at hi; rw [hi]; exact he
  allLo := fun _ t => by
    have : 0 < firstCoef (s.A r) / firstCoef (s.A r) := by rw [div_self h.nz]; exact one_pos
    simp [parRowInit, DLo, this]
  allHi := fun _ t => by
    have : 0 < firstCoef (s.A r) / firstCoef (s.A r) := by rw [div_self h.nz]; exact one_pos
    simp [parRowInit, DHi, this]

/-- Tags after the other rows of the group have been marked. -/
theorem deactivate_group (k : ℕ) (bin : List ℕ) (s : St) :
    let s' := bin.foldl (fun s i => if i = k then s else setRowToInactive s i 0) s
    s'.A = s.A ∧ s'.lhs = s.lhs ∧ s'.rhs = s.rhs ∧ s'.lb = s.lb ∧ s'.ub = s.ub ∧ s'.ctag = s.ctag ∧
    s'.undef = s.undef ∧ s'.c = s.c ∧ s'.off = s.off ∧
    (∀ i ∈ bin, i ≠ k → (s'.rtag i).inactive = true) ∧
    (∀ i, i ∉ bin ∨ i = k → s'.rtag i = s.rtag i) ∧
    (∀ i, (s.rtag i).inactive = true → (s'.rtag i).inactive = true) := by
  induction bin generalizing s with
  | nil => simp
  | cons j bin ih =>
    simp only [List.foldl_cons]
    obtain ⟨a1, a2, a3, a4, a5, a6, a7, a7', a7'', a8, a9, a10⟩ :=
      ih (if j = k then s else setRowToInactive s j 0)
    by_cases hj : j = k
    · rw [if_pos hj] at a1 a2 a3 a4 a5 a6 a7 a7' a7'' a8 a9 a10 ⊢
      refine ⟨a1, a2, a3, a4, a5, a6, a7, a7', a7'', ?_, ?_, a10⟩
      · intro i hi hik
        rcases List.mem_cons.mp hi with rfl | hi
        · exact absurd hj hik
        · exact a8 i hi hik
      · intro i hi
        apply a9
        rcases hi with hi | hi
        · exact Or.inl (fun h => hi (by simp [h]))
        · exact Or.inr hi
    · rw [if_neg hj] at a1 a2 a3 a4 a5 a6 a7 a7' a7'' a8 a9 a10 ⊢
      have et : ∀ i, (setRowToInactive s j 0).rtag i =
          if i = j then { s.rtag j with inactive := true } else s.rtag i := by
        intro i; simp [setRowToInactive, St.check, upd]
      refine ⟨a1, a2, a3, a4, a5, a6, a7, a7', a7'', ?_, ?_, ?_⟩
      · intro i hi hik
        rcases List.mem_cons.mp hi with rfl | hi
        · apply a10; rw [et, if_pos rfl]
        · exact a8 i hi hik
      · intro i hi
        have hij : i ≠ j := by
          rcases hi with hi | hi
          · intro e; exact hi (by simp [e])
          · intro e; exact hj (e.symm.trans hi)
        rw [a9 i (by
          rcases hi with hi | hi
          · exact Or.inl (fun h => hi (by simp [h]))
          · exact Or.inr hi), et, if_neg hij]
      · intro i hi
        apply a10
        rw [et]; split
        · rfl
        · exact hi

/-- **C33.** For a group of rows that are multiples of each other:
when INFEASIBLE is reported, no point satisfies all of them (up to a single boundary value,
see `C33_boundary_fails`); otherwise exactly one row of the group stays, every point that satisfies
all rows satisfies it up to the tolerance, and if no equality comes later than second, every point
that satisfies it satisfies all of them up to the tolerance (scaled).  Nothing else changes.
*Partial*: without the condition on the order of the rows the last part fails, see
`C33_order_fails`. -/
theorem C33_parallel_rows_partial (s : St) (r : ℕ) (rest : List ℕ) (h : RowGroup s r rest) :
    let q := parRowsBin s (r :: rest)
    (q.2 = INFEASIBLE → (∀ x, ¬ ∀ i ∈ r :: rest, RowOK s i x) ∨
      ∃ k ∈ r :: rest, ∃ a, s.lhs k = .fin a ∧
        ∀ x, (∀ i ∈ r :: rest, RowOK s i x) → dot (s.A k) x = a + FEAS_TOL) ∧
    (q.2 ≠ INFEASIBLE → ∃ k ∈ r :: rest,
      (q.1.rtag k).inactive = false ∧ (∀ i ∈ r :: rest, i ≠ k → (q.1.rtag i).inactive = true) ∧
      (∀ x, (∀ i ∈ r :: rest, RowOK s i x) →
        SidesTol FEAS_TOL (q.1.rtag k) (q.1.lhs k) (q.1.rhs k) (dot (q.1.A k) x)) ∧
      (EqEarly s r rest → ∀ x, RowOK q.1 k x → ∀ i ∈ r :: rest, ∀ κ, s.A i = scaleRow κ (s.A k) →
        SidesTol (|κ| * FEAS_TOL) (s.rtag i) (s.lhs i) (s.rhs i) (dot (s.A i) x))) ∧
    (∀ i, i ∉ r :: rest → q.1.rtag i = s.rtag i ∧ q.1.lhs i = s.lhs i ∧ q.1.rhs i = s.rhs i) ∧
    q.1.A = s.A ∧ q.1.lb = s.lb ∧ q.1.ub = s.ub ∧ q.1.ctag = s.ctag ∧ q.1.c = s.c ∧
    q.1.off = s.off ∧ q.1.undef = s.undef := by
  intro q
  have hε := FEAS_TOL_pos
  have hne : ∀ i ∈ r :: rest, s.A i ≠ [] := by
    intro i hi e
    have := (h.form hi).nz
    rw [e] at this
    exact this rfl
  have hfl : s.flag ((r :: rest).any (fun i => decide (s.A i = []))) = s := by
    have : (r :: rest).any (fun i => decide (s.A i = [])) = false := by
      rw [List.any_eq_false]
      intro i hi; simpa using hne i hi
    rw [this]; simp [St.flag]
  have eq : q = match parRowLoop s rest (parRowInit s r) with
      | none => (s, INFEASIBLE)
      | some p =>
        if (parApply s p).2 = INFEASIBLE then ((parApply s p).1, INFEASIBLE)
        else ((r :: rest).foldl (fun s i => if i = p.rem then s else setRowToInactive s i 0)
          (parApply s p).1, UNCHANGED) := by
    change parRowsBin s (r :: rest) = _
    unfold parRowsBin
    simp only [hfl]
    cases parRowLoop s rest (parRowInit s r) <;> rfl
  clear_value q
  have hloop := parRowLoop_inv rest (parRowInit_inv (h.form (by simp : r ∈ r :: rest)))
    (fun j hj => h.form (by simp at hj; simp [hj])) (fun j hj => h.form (by simp [hj]))
  have hcov : ∀ p', parRowLoop s rest (parRowInit s r) = some p' → EqEarly s r rest →
      p'.isEq = true → EqCovers s (r :: rest) p'.rem := by
    intro p' e hord he
    rw [e] at hloop
    obtain ⟨_, l2, l3, _⟩ := hloop
    rcases hord with h1 | h1 | ⟨d, l, h1, h2⟩
    · rw [l3 (fun i hi => h1 i (by simp [hi])) (h1 r (by simp))] at he; cases he
    · refine l2 h1 ?_
      intro t ht i hi
      simp at hi
      rw [hi]
      exact RowAt.tol (by positivity) ht
    · by_cases hre : (s.rtag r).eq = true
      · refine l2 hre ?_
        intro t ht i hi
        simp at hi
        rw [hi]
        exact RowAt.tol (by positivity) ht
      · have hre := Bool.eq_false_iff.mpr hre
        subst h1
        have hstep := parRowStep_inv (i := d) (parRowInit_inv (h.form (by simp : r ∈ r :: d :: l)))
          (fun j hj => h.form (by simp at hj; simp [hj])) (h.form (by simp : d ∈ r :: d :: l))
        rw [parRowLoop] at e
        generalize parRowStep s (parRowInit s r) d = o at e hstep
        rcases o with _ | q1
        · cases e
        · simp only at e hstep
          obtain ⟨c1, _, c3, c4⟩ := hstep
          have hq1 : q1.isEq = true := by
            rcases hq : q1.isEq with _ | _
            · have := (c4 hq).2; rw [h2] at this; cases this
            · rfl
          obtain ⟨c5, c6⟩ := c3 hre hq1
          have hloop2 := parRowLoop_inv l c1
            (fun j hj => h.form (by simp at hj; rcases hj with rfl | rfl <;> simp))
            (fun j hj => h.form (by simp [hj]))
          rw [e] at hloop2
          obtain ⟨_, k2, _, _⟩ := hloop2
          have := k2 hq1 (by rw [c5]; exact c6)
          simpa using this
  generalize parRowLoop s rest (parRowInit s r) = o at hloop eq hcov
  rcases o with _ | p
  · simp only at hloop eq
    subst eq
    refine ⟨fun _ => Or.inl fun x hx => ?_, fun hc => absurd rfl hc, fun i _ => ⟨rfl, rfl, rfl⟩,
      rfl, rfl, rfl, rfl, rfl, rfl, rfl⟩
    exact hloop (direction s r x) (fun i hi => (h.rowOK (by simpa using hi) x).mp (hx i (by simpa using hi)))
  · simp only at hloop eq
    obtain ⟨inv, _, _, _⟩ := hloop
    have hk : p.rem ∈ r :: rest := by simpa using inv.rem
    have hkf := h.form hk
    have hcov := hcov p rfl
    -- the sides of the remaining row
    have happ : OnlyRow s (parApply s p).1 p.rem ∧
        ((parApply s p).2 = INFEASIBLE → (∀ x, ¬ ∀ i ∈ r :: rest, RowOK s i x) ∨
          ∃ a, s.lhs p.rem = .fin a ∧
            ∀ x, (∀ i ∈ r :: rest, RowOK s i x) → dot (s.A p.rem) x = a + FEAS_TOL) ∧
        ((parApply s p).2 ≠ INFEASIBLE → ∀ x,
          ((∀ i ∈ r :: rest, RowOK s i x) → SidesTol FEAS_TOL ((parApply s p).1.rtag p.rem)
            ((parApply s p).1.lhs p.rem) ((parApply s p).1.rhs p.rem) (dot (s.A p.rem) x)) ∧
          (EqEarly s r rest → Sides ((parApply s p).1.rtag p.rem) ((parApply s p).1.lhs p.rem)
            ((parApply s p).1.rhs p.rem) (dot (s.A p.rem) x) → ∀ i ∈ r :: rest,
            RowAtTol s (FEAS_TOL / |firstCoef (s.A p.rem)|) i (direction s r x))) := by
      rcases he : p.isEq with _ | _
      · have hall := inv.all he
        obtain ⟨f1, f2⟩ := inv.fin he
        have hPS : ∀ v, PIn p v → Sides (s.rtag p.rem) (s.lhs p.rem) (s.rhs p.rem) v := by
          intro v hv
          have e : v = firstCoef (s.A p.rem) * (v / firstCoef (s.A p.rem)) := by
            have := hkf.nz; field_simp
          rw [e] at hv ⊢
          exact (hall _).mp hv p.rem inv.rem
        have hPx : ∀ x, (∀ i ∈ r :: rest, RowOK s i x) → PIn p (dot (s.A p.rem) x) := by
          intro x hx
          rw [h.dot hk, hall]
          exact fun i hi => (h.rowOK (by simpa using hi) x).mp (hx i (by simpa using hi))
        obtain ⟨g1, g2, g3⟩ := parApply_sound he hkf f1 f2 hPS
        refine ⟨g1, fun hi => ?_, fun hi x => ⟨fun hx => (g3 hi _).1 (hPx x hx), fun _ hx i hmem => ?_⟩⟩
        · rcases g2 hi with g | ⟨a, ha, g⟩
          · exact Or.inl fun x hx => g _ (hPx x hx)
          · exact Or.inr ⟨a, ha, fun x hx => g _ (hPx x hx)⟩
        · obtain ⟨w1, w2⟩ := (g3 hi _).2 hx
          -- widen by the tolerance and use exactness of the merged sides
          have hf0 := abs_pos.mpr hkf.nz
          have hdir := h.dot hk x
          set t := direction s r x
          set ε := FEAS_TOL / |firstCoef (s.A p.rem)| with hεd
          have hεv : |firstCoef (s.A p.rem)| * ε = FEAS_TOL := by rw [hεd]; field_simp
          have hfne := hkf.nz
          rw [hdir] at w1 w2
          refine RowAtTol_of hfne (h.form hmem).nz hεv ((inv.allLo he _).mp ?_ i (by simpa using hmem))
            ((inv.allHi he _).mp ?_ i (by simpa using hmem))
          · rw [mul_add, mul_div_cancel₀ _ hfne]; exact w1
          · rw [mul_sub, mul_div_cancel₀ _ hfne]; exact w2
      · have e : parApply s p = (s, UNCHANGED) := by unfold parApply; rw [he]; rfl
        rw [e]
        refine ⟨.refl _ _, fun hc => (by cases hc), fun _ x => ⟨fun hx => Sides.tol hε.le (hx _ hk), fun ho hx => ?_⟩⟩
        exact hcov ho he _ ((h.rowOK hk x).mp hx)
    generalize hu : parApply s p = u at happ eq
    obtain ⟨g1, g2, g3⟩ := happ
    have F := g1.frame
    by_cases hinf : u.2 = INFEASIBLE
    · rw [if_pos hinf] at eq
      subst eq
      refine ⟨fun _ => ?_, fun hc => absurd rfl hc, fun i hi => ?_, F.A, F.lb, F.ub, F.ctag, F.c, F.off, F.undef⟩
      · rcases g2 hinf with g | ⟨a, g⟩
        · exact Or.inl g
        · exact Or.inr ⟨p.rem, hk, a, g⟩
      · have : i ≠ p.rem := fun e => hi (e ▸ hk)
        exact ⟨g1.rtag i this, g1.lhs i this, g1.rhs i this⟩
    · rw [if_neg hinf] at eq
      obtain ⟨a1, a2, a3, a4, a5, a6, a7, a7', a7'', a8, a9, a10⟩ := deactivate_group p.rem (r :: rest) u.1
      generalize (r :: rest).foldl (fun s i => if i = p.rem then s else setRowToInactive s i 0) u.1 = w at *
      subst eq
      refine ⟨fun hc => (by cases hc), fun _ => ⟨p.rem, hk, ?_, a8, fun x hx => ?_, fun ho x hx i hi κ hκ => ?_⟩,
        fun i hi => ?_, a1.trans F.A, a4.trans F.lb, a5.trans F.ub, a6.trans F.ctag, a7'.trans F.c,
        a7''.trans F.off, a7.trans F.undef⟩
      · simp only; rw [a9 _ (Or.inr rfl), g1.act]; exact h.active _ hk
      · simp only; rw [a9 _ (Or.inr rfl), a1, a2, a3, F.A]; exact (g3 hinf x).1 hx
      · have hx' : Sides (u.1.rtag p.rem) (u.1.lhs p.rem) (u.1.rhs p.rem) (dot (s.A p.rem) x) := by
          unfold RowOK at hx
          simp only at hx
          rw [a9 _ (Or.inr rfl), a1, a2, a3, F.A] at hx; exact hx
        have := (g3 hinf x).2 ho hx' i hi
        unfold RowAtTol at this
        rw [← h.dot hi] at this
        have e : |firstCoef (s.A i)| * (FEAS_TOL / |firstCoef (s.A p.rem)|) = |κ| * FEAS_TOL := by
          have h0 := abs_pos.mpr hkf.nz
          rw [hκ, firstCoef_scaleRow, abs_mul]
          field_simp
        rw [e] at this
        exact this
      · have hne : i ≠ p.rem := fun e => hi (e ▸ hk)
        refine ⟨?_, ?_, ?_⟩
        · rw [a9 i (Or.inl hi), g1.rtag i hne]
        · rw [a2, g1.lhs i hne]
        · rw [a3, g1.rhs i hne]

/-! ### A concrete group -/

/-- Rows `-2 x0 - 4 x1 = -6`, `x0 + 2 x1 ≤ 7`, `1 ≤ 3 x0 + 6 x1`, `x0` and `x1` free. -/
def lpPar : LP :=
  { m := 3, n := 2
    A := ofList [[(0, 1), (1, 2)], [(0, -2), (1, -4)], [(0, 3), (1, 6)]] []
    lhs := ofList [.ninf, .fin (-6), .fin 1] .ninf
    rhs := ofList [.fin 7, .fin (-6), .pinf] .pinf
    lb := ofList [.ninf, .ninf] .ninf
    ub := ofList [.pinf, .pinf] .pinf
    c := ofList [1, 1] 0 }

/-- The hypotheses of `C33_parallel_rows_partial` hold for a group with an inequality in front of
an equality and a negative ratio. -/
example : RowGroup (initSt lpPar) 0 [1, 2] ∧ EqEarly (initSt lpPar) 0 [1, 2] := by
  have hs : ∀ i ∈ [0, 1, 2], i = 0 ∨ i = 1 ∨ i = 2 := by intro i hi; simpa using hi
  refine ⟨⟨by decide, ?_, ?_, ?_, ?_, ?_, ⟨(0, 1), [(1, 2)], rfl, by norm_num⟩⟩,
    Or.inr (Or.inr ⟨1, [2], rfl, by decide +kernel⟩)⟩
  · intro i hi; rcases hs i hi with rfl | rfl | rfl <;> decide +kernel
  · intro i hi; rcases hs i hi with rfl | rfl | rfl
    · exact Or.inl ⟨by decide +kernel, rfl⟩
    · exact Or.inr ⟨by decide +kernel, _, rfl⟩
    · exact Or.inr ⟨by decide +kernel, _, rfl⟩
  · intro i hi; rcases hs i hi with rfl | rfl | rfl
    · exact Or.inr ⟨by decide +kernel, _, rfl⟩
    · exact Or.inr ⟨by decide +kernel, _, rfl⟩
    · exact Or.inl ⟨by decide +kernel, rfl⟩
  · intro i hi; rcases hs i hi with rfl | rfl | rfl
    · intro h; exact absurd h (by decide +kernel)
    · intro _; exact ⟨by decide +kernel, by decide +kernel, rfl⟩
    · intro h; exact absurd h (by decide +kernel)
  · intro i hi; rcases hs i hi with rfl | rfl | rfl
    · exact ⟨1, by norm_num, by decide +kernel⟩
    · exact ⟨-2, by norm_num, by decide +kernel⟩
    · exact ⟨3, by norm_num, by decide +kernel⟩

/-! ### The property fails for the program as a whole -/

/-- `x0 + x1 + x2 = 5`, `x0 + x1 + x2 ≤ 10`, `x0 + x1 + x2 ≤ 1`, `x0 + 2 x1 + 4 x2 ≤ 100`, free
variables, cost `x0 + 2 x1 + 4 x2`. -/
def lpParOrder : LP :=
  { m := 4, n := 3
    A := ofList [[(0, 1), (1, 1), (2, 1)], [(0, 1), (1, 1), (2, 1)], [(0, 1), (1, 1), (2, 1)],
      [(0, 1), (1, 2), (2, 4)]] []
    lhs := ofList [.fin 5, .ninf, .ninf, .ninf] .ninf
    rhs := ofList [.fin 5, .fin 10, .fin 1, .fin 100] .pinf
    lb := ofList [.ninf, .ninf, .ninf] .ninf
    ub := ofList [.pinf, .pinf, .pinf] .pinf
    c := ofList [1, 2, 4] 0 }

/-- **Negation of C33 (and of C02).** The equality takes over from an inequality that has already
absorbed `x0 + x1 + x2 ≤ 1`; what was absorbed is forgotten.  The infeasible problem is declared
reduced, with the equality and the last row left, and `(5, 0, 0)`, feasible for the reduced
problem, is returned by postsolve. -/
theorem C33_order_fails :
    (∀ x, ¬ lpParOrder.Feasible x) ∧
    (runPresolver envEx stgsAll 10 lpParOrder).2 = (UNCHANGED, true) ∧
    (runPresolver envEx stgsAll 10 lpParOrder).1.undef = false ∧
    (runPresolver envEx stgsAll 10 lpParOrder).1.asrt = true ∧
    (List.range 4).map (fun i => ((runPresolver envEx stgsAll 10 lpParOrder).1.rowSize i,
      (runPresolver envEx stgsAll 10 lpParOrder).1.lhs i,
      (runPresolver envEx stgsAll 10 lpParOrder).1.rhs i)) =
      [(3, .fin 5, .fin 5), (-1, .ninf, .fin 10), (-1, .ninf, .fin 1), (3, .ninf, .fin 100)] ∧
    (postsolve (runPresolver envEx stgsAll 10 lpParOrder).1 (ofList [.fin 5, .fin 0, .fin 0] .nan)
      (fun _ => .fin 0) (fun _ => .fin 0)).map (fun σ => (σ.x 0, σ.x 1, σ.x 2)) =
      some (.fin 5, .fin 0, .fin 0) := by
  refine ⟨fun x hx => ?_, by decide +kernel, by decide +kernel, by decide +kernel, by decide +kernel,
    by decide +kernel⟩
  have h0 := (hx.row 0 (by decide)).1
  have h1 := (hx.row 2 (by decide)).2
  simp [lpParOrder, ofList] at h0 h1
  linarith

/-- `v ≤ 1e-6`, `0 ≤ v`, `1e-6 ≤ v` for `v = x0 + x1 + x2`, and `x0 + 2 x1 + 4 x2 ≤ 100`. -/
def lpParEdge : LP :=
  { m := 4, n := 3
    A := ofList [[(0, 1), (1, 1), (2, 1)], [(0, 1), (1, 1), (2, 1)], [(0, 1), (1, 1), (2, 1)],
      [(0, 1), (1, 2), (2, 4)]] []
    lhs := ofList [.ninf, .fin 0, .fin (1 / 1000000), .ninf] .ninf
    rhs := ofList [.fin (1 / 1000000), .pinf, .pinf, .fin 100] .pinf
    lb := ofList [.ninf, .ninf, .ninf] .ninf
    ub := ofList [.pinf, .pinf, .pinf] .pinf
    c := ofList [1, 2, 4] 0 }

/-- **Negation of C33 and of C03 without tolerances.** INFEASIBLE although `(1e-6, 0, 0)` is
feasible. -/
theorem C33_boundary_fails :
    (runPresolver envEx stgsAll 10 lpParEdge).2 = (INFEASIBLE, true) ∧
    lpParEdge.Feasible (fun k => if k = 0 then 1 / 1000000 else 0) := by
  refine ⟨by decide +kernel, ⟨fun i hi => ?_, fun k hk => ?_⟩⟩
  · change i < 4 at hi
    interval_cases i <;> norm_num [lpParEdge, ofList]
  · change k < 3 at hk
    interval_cases k <;> norm_num [lpParEdge, ofList]

end Verif
