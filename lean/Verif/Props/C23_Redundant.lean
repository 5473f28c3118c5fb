import Verif.Lemmas.Feas
import Verif.Lemmas.EnvEx

/-!
# C23: constraints are only dropped when the bounds already imply them

`check_activity` and the loop body of `check_activities`.  The hypothesis on the activity is that
it is a valid bound of the row over the box, which C21/C22 provide.
-/

namespace Verif

/-- **C23 (decision).**  For an activity that is valid for the row and every point within the
bounds: a side is reported redundant only if the row respects it up to the feasibility tolerance,
and infeasibility is reported only if the point violates the row. -/
theorem C23_check_activity (a : Act) (lhs rhs : D) (t : RTag) (ctag : ℕ → CTag) (lb ub : ℕ → D)
    (cells : List Cell) (ha : ActValid a ctag lb ub cells)
    (hl : FinIf t.lhsInf lhs) (hr : FinIf t.rhsInf rhs)
    (x : ℕ → ℚ) (hx : ∀ p ∈ cells, InCol ctag lb ub x p.1) :
    ((checkActivity a lhs rhs t).lhsRed = true → Lo t.lhsInf lhs (dot cells x + FEAS_TOL)) ∧
    ((checkActivity a lhs rhs t).rhsRed = true → Hi t.rhsInf rhs (dot cells x - FEAS_TOL)) ∧
    ((checkActivity a lhs rhs t).infeas = true → ¬ Sides t lhs rhs (dot cells x)) := by
  have hε := FEAS_TOL_pos
  unfold checkActivity
  split
  · rename_i h
    simp only [Bool.and_eq_true, Bool.not_eq_true', decide_eq_true_eq] at h
    obtain ⟨⟨h1, h2⟩, h3⟩ := h
    refine ⟨by simp, by simp, ?_⟩
    intro _ hs
    obtain ⟨q, e, hq⟩ := ha.min h2
    obtain ⟨r, e'⟩ := hr h1
    have := hs.2.le h1
    rw [e, e'] at h3; rw [e'] at this
    simp only [D.add_fin, D.le_fin, decide_eq_true_eq, D.toQ_fin] at h3 this
    have := hq x hx; linarith
  · simp only
    split
    · rename_i h
      simp only [Bool.and_eq_true, Bool.not_eq_true', decide_eq_true_eq] at h
      obtain ⟨⟨h1, h2⟩, h3⟩ := h
      refine ⟨by simp, by simp, ?_⟩
      intro _ hs
      obtain ⟨q, e, hq⟩ := ha.max h2
      obtain ⟨r, e'⟩ := hl h1
      have := hs.1.le h1
      rw [e, e'] at h3; rw [e'] at this
      simp only [D.sub_fin, D.le_fin, decide_eq_true_eq, D.toQ_fin] at h3 this
      have := hq x hx; linarith
    · refine ⟨?_, ?_, by simp⟩
      · intro h
        simp only [Bool.and_eq_true, Bool.not_eq_true', decide_eq_true_eq] at h
        obtain ⟨⟨h1, h2⟩, h3⟩ := h
        obtain ⟨q, e, hq⟩ := ha.min h2
        obtain ⟨r, e'⟩ := hl h1
        rw [e, e'] at h3
        simp only [D.sub_fin, D.le_fin, decide_eq_true_eq] at h3
        exact Or.inr ⟨r, e', by have := hq x hx; linarith⟩
      · intro h
        simp only [Bool.and_eq_true, Bool.not_eq_true', decide_eq_true_eq] at h
        obtain ⟨⟨h1, h2⟩, h3⟩ := h
        obtain ⟨q, e, hq⟩ := ha.max h2
        obtain ⟨r, e'⟩ := hr h1
        rw [e, e'] at h3
        simp only [D.add_fin, D.le_fin, decide_eq_true_eq] at h3
        exact Or.inr ⟨r, e', by have := hq x hx; linarith⟩

theorem locksEqToIneq_same {β : Type} (f : St → β) (hf : ∀ s k a b, f (s.addLock k a b) = f s)
    (s : St) (cells : List Cell) (up : Bool) : f (locksEqToIneq s cells up) = f s := by
  unfold locksEqToIneq
  induction cells generalizing s with
  | nil => rfl
  | cons p l ih =>
    rw [List.foldl_cons, ih]
    split <;> split <;> exact hf _ _ _ _

/-- What the loop body of `check_activities` does to the sides and tags. -/
theorem checkActRow_cases (s : St) (i : ℕ) :
    let r := checkActRow s i
    let t := checkActivity (s.act i) (s.lhs i) (s.rhs i) (s.rtag i)
    r.1.A = s.A ∧ r.1.lb = s.lb ∧ r.1.ub = s.ub ∧ r.1.ctag = s.ctag ∧
    (r.1.rtag = s.rtag ∧ r.1.lhs = s.lhs ∧ r.1.rhs = s.rhs ∧ (r.2 = true → t.infeas = true) ∨
     r.2 = false ∧ r.1.rtag = upd s.rtag i { s.rtag i with inactive := true } ∧ r.1.lhs = s.lhs ∧
       r.1.rhs = s.rhs ∧ (t.lhsRed = true ∨ (s.rtag i).lhsInf = true) ∧
       (t.rhsRed = true ∨ (s.rtag i).rhsInf = true) ∨
     r.2 = false ∧ t.lhsRed = true ∧ (s.rtag i).rhsInf = false ∧
       r.1.rtag = upd s.rtag i { lhsInf := true } ∧
       r.1.lhs = upd s.lhs i .ninf ∧ r.1.rhs = s.rhs ∨
     r.2 = false ∧ t.rhsRed = true ∧ (s.rtag i).lhsInf = false ∧
       r.1.rtag = upd s.rtag i { rhsInf := true } ∧
       r.1.rhs = upd s.rhs i .pinf ∧ r.1.lhs = s.lhs) := by
  intro r t
  simp only [r, checkActRow]
  split
  · simp
  · rename_i hni
    change _ ∧ _
    generalize hs' : s.check (decide ((s.act i).nInfMin = 0 ∨ (s.act i).nInfMax = 0)) = s'
    have eA : s'.A = s.A := by rw [← hs']; rfl
    have elb : s'.lb = s.lb := by rw [← hs']; rfl
    have eub : s'.ub = s.ub := by rw [← hs']; rfl
    have ect : s'.ctag = s.ctag := by rw [← hs']; rfl
    have ert : s'.rtag = s.rtag := by rw [← hs']; rfl
    have elh : s'.lhs = s.lhs := by rw [← hs']; rfl
    have erh : s'.rhs = s.rhs := by rw [← hs']; rfl
    have eac : s'.act = s.act := by rw [← hs']; rfl
    simp only [eac, elh, erh, ert]
    simp only [show checkActivity (s.act i) (s.lhs i) (s.rhs i) (s.rtag i) = t from rfl]
    by_cases h1 : (t.lhsRed || (s.rtag i).lhsInf) && (t.rhsRed || (s.rtag i).rhsInf)
    · rw [if_pos h1]
      simp only [Bool.and_eq_true, Bool.or_eq_true] at h1
      simp [setRowToInactive, St.check, h1.1, h1.2, eA, elb, eub, ect, ert, elh, erh]
    · rw [if_neg h1]
      by_cases h2 : t.lhsRed = true
      · rw [if_pos h2]
        have h3 : (s.rtag i).rhsInf = false := by
          by_contra hc; simp only [Bool.not_eq_false] at hc; simp [h2, hc] at h1
        simp [locksEqToIneq_same St.A (fun _ _ _ _ => rfl), locksEqToIneq_same St.lb (fun _ _ _ _ => rfl),
          locksEqToIneq_same St.ub (fun _ _ _ _ => rfl), locksEqToIneq_same St.ctag (fun _ _ _ _ => rfl),
          locksEqToIneq_same St.rtag (fun _ _ _ _ => rfl), locksEqToIneq_same St.lhs (fun _ _ _ _ => rfl),
          locksEqToIneq_same St.rhs (fun _ _ _ _ => rfl), h2, h3, eA, elb, eub, ect, ert, elh, erh]
      · rw [if_neg h2]
        by_cases h3 : t.rhsRed = true
        · rw [if_pos h3]
          have h4 : (s.rtag i).lhsInf = false := by
            by_contra hc; simp only [Bool.not_eq_false] at hc; simp [h3, hc] at h1
          simp [locksEqToIneq_same St.A (fun _ _ _ _ => rfl), locksEqToIneq_same St.lb (fun _ _ _ _ => rfl),
            locksEqToIneq_same St.ub (fun _ _ _ _ => rfl), locksEqToIneq_same St.ctag (fun _ _ _ _ => rfl),
            locksEqToIneq_same St.rtag (fun _ _ _ _ => rfl), locksEqToIneq_same St.lhs (fun _ _ _ _ => rfl),
            locksEqToIneq_same St.rhs (fun _ _ _ _ => rfl), h3, h4, eA, elb, eub, ect, ert, elh, erh]
        · rw [if_neg h3]; simp [eA, elb, eub, ect, ert, elh, erh]

/-- **C23 (loop body).**  One row of `check_activities`, on a row whose stored activity is valid:

* the row is reported infeasible only if no point within the bounds satisfies it;
* if it is not, every point within the bounds that satisfies the row as it is afterwards (or any
  point within the bounds if the row was dropped) satisfied it before, up to the tolerance;
* every point that satisfied the row before satisfies what is left of it;
* coefficients, bounds and all other rows are unchanged. -/
theorem C23_check_row (s : St) (i : ℕ)
    (ha : ActValid (s.act i) s.ctag s.lb s.ub (s.A i))
    (hl : FinIf (s.rtag i).lhsInf (s.lhs i)) (hr : FinIf (s.rtag i).rhsInf (s.rhs i)) :
    let r := checkActRow s i
    (r.2 = true → ∀ x, RowBox s i x → ¬ RowOK s i x) ∧
    (∀ x, RowBox s i x → ((r.1.rtag i).inactive = true ∧ (s.rtag i).inactive = false ∨ RowOK r.1 i x) →
      SidesTol FEAS_TOL (s.rtag i) (s.lhs i) (s.rhs i) (dot (s.A i) x)) ∧
    (∀ x, RowOK s i x → RowOK r.1 i x) ∧
    (r.1.A = s.A ∧ r.1.lb = s.lb ∧ r.1.ub = s.ub ∧ r.1.ctag = s.ctag ∧
      ∀ j, j ≠ i → r.1.rtag j = s.rtag j ∧ r.1.lhs j = s.lhs j ∧ r.1.rhs j = s.rhs j) := by
  intro r
  obtain ⟨hA, hlb, hub, hct, hc⟩ := checkActRow_cases s i
  have key := fun x hx => C23_check_activity (s.act i) (s.lhs i) (s.rhs i) (s.rtag i) s.ctag s.lb s.ub
    (s.A i) ha hl hr x hx
  have hε := FEAS_TOL_pos
  refine ⟨?_, ?_, ?_, hA, hlb, hub, hct, ?_⟩
  · intro h x hx
    rcases hc with ⟨_, _, _, h4⟩ | ⟨h1, _⟩ | ⟨h1, _⟩ | ⟨h1, _⟩
    · exact (key x hx).2.2 (h4 h)
    all_goals rw [h] at h1; exact absurd h1 (by simp)
  · intro x hx h
    have k := key x hx
    rcases hc with ⟨h1, h2, h3, h4⟩ | ⟨h1, h2, h3, h4, h5, h6⟩ | ⟨h1, h2, h3, h4, h5, h6⟩ |
      ⟨h1, h2, h3, h4, h5, h6⟩
    · rcases h with ⟨h, h'⟩ | h
      · exfalso; rw [show r.1.rtag = s.rtag from h1, h'] at h; simp at h
      · unfold RowOK at h
        rw [show r.1.rtag = s.rtag from h1, show r.1.lhs = s.lhs from h2,
          show r.1.rhs = s.rhs from h3, show r.1.A = s.A from hA] at h
        exact h.tol hε.le
    · refine ⟨?_, ?_⟩
      · rcases h5 with h5 | h5
        · exact k.1 h5
        · exact Or.inl h5
      · rcases h6 with h6 | h6
        · exact k.2.1 h6
        · exact Or.inl h6
    · rcases h with ⟨h, _⟩ | h
      · rw [show r.1.rtag = _ from h4, upd_same] at h; simp at h
      · refine ⟨k.1 h2, ?_⟩
        have := h.2
        rw [show r.1.rtag = _ from h4, show r.1.rhs = s.rhs from h6, show r.1.A = s.A from hA, upd_same] at this
        rw [h3]; exact this.mono (by linarith)
    · rcases h with ⟨h, _⟩ | h
      · rw [show r.1.rtag = _ from h4, upd_same] at h; simp at h
      · refine ⟨?_, k.2.1 h2⟩
        have := h.1
        rw [show r.1.rtag = _ from h4, show r.1.lhs = s.lhs from h6, show r.1.A = s.A from hA, upd_same] at this
        rw [h3]; exact this.mono (by linarith)
  · intro x h
    unfold RowOK at h ⊢
    rw [show r.1.A = s.A from hA]
    rcases hc with ⟨h1, h2, h3, h4⟩ | ⟨h1, h2, h3, h4, h5, h6⟩ | ⟨h1, h2, h3, h4, h5, h6⟩ |
      ⟨h1, h2, h3, h4, h5, h6⟩
    · rw [show r.1.rtag = s.rtag from h1, show r.1.lhs = s.lhs from h2, show r.1.rhs = s.rhs from h3]
      exact h
    · rw [show r.1.rtag = _ from h2, show r.1.lhs = s.lhs from h3, show r.1.rhs = s.rhs from h4, upd_same]
      exact h
    · rw [show r.1.rtag = _ from h4, show r.1.lhs = _ from h5, show r.1.rhs = s.rhs from h6, upd_same]
      exact ⟨Or.inl rfl, by have := h.2; rw [h3] at this; exact this⟩
    · rw [show r.1.rtag = _ from h4, show r.1.rhs = _ from h5, show r.1.lhs = s.lhs from h6, upd_same]
      exact ⟨by have := h.1; rw [h3] at this; exact this, Or.inl rfl⟩
  · intro j hj
    rcases hc with ⟨h1, h2, h3, h4⟩ | ⟨h1, h2, h3, h4, h5, h6⟩ | ⟨h1, h2, h3, h4, h5, h6⟩ |
      ⟨h1, h2, h3, h4, h5, h6⟩
    · rw [show r.1.rtag = s.rtag from h1, show r.1.lhs = s.lhs from h2, show r.1.rhs = s.rhs from h3]
      simp
    · rw [show r.1.rtag = _ from h2, show r.1.lhs = s.lhs from h3, show r.1.rhs = s.rhs from h4]
      simp [hj]
    · rw [show r.1.rtag = _ from h4, show r.1.lhs = _ from h5, show r.1.rhs = s.rhs from h6]
      simp [hj]
    · rw [show r.1.rtag = _ from h4, show r.1.rhs = _ from h5, show r.1.lhs = s.lhs from h6]
      simp [hj]

/-- Row `1 ≤ x0 + x1 ≤ 5` with `x0, x1 ∈ [1,2]`: the left side is redundant. -/
def exRed : St := initSt
  { m := 1, n := 2, A := ofList [[(0, 1), (1, 1)]] [], lhs := fun _ => .fin 1
    rhs := fun _ => .fin 3, lb := fun _ => .fin 1, ub := fun _ => .fin 2, c := fun _ => 0 }

example : ((checkActRow exRed 0).1.rtag 0).lhsInf = true ∧ (checkActRow exRed 0).1.lhs 0 = .ninf ∧
    ActValid (exRed.act 0) exRed.ctag exRed.lb exRed.ub (exRed.A 0) ∧
    FinIf (exRed.rtag 0).lhsInf (exRed.lhs 0) ∧ FinIf (exRed.rtag 0).rhsInf (exRed.rhs 0) :=
  ⟨by decide +kernel, by decide +kernel,
   Recomputed.valid (by unfold Recomputed; decide +kernel)
    (by intro p _; exact ⟨fun _ => ⟨1, rfl⟩, fun _ => ⟨2, rfl⟩⟩),
   fun _ => ⟨1, rfl⟩, fun _ => ⟨3, rfl⟩⟩

end Verif
