import Verif.Inv.DtonDual
import Verif.Inv.ListedRun
import Verif.Inv.Calls
import Verif.Props.C05_Stationarity
import Verif.Props.C32_Dton
import Verif.Spec.Kkt

/-!
# C53: optimality conditions through the elimination of doubleton equalities
-/

namespace Verif

/-- States reached by explorer calls have right row tags. -/
theorem Calls.rowTags {P : LP} (hS : P.Sides) {env : Env} {stgs : Settings} {s : St} (h : Calls env stgs (initSt P) s)
    (o : s.asrt = true) : RowTags s :=
  ⟨h.lup.weak (initSt_updOK P).weak, h.lup.tag o (initSt_updOK P).weak (initSt_tagOK hS)⟩

/-- **C53, one substitution.** Let explorers have been called in any order, and let row `i` be an equality with two
cells for which `find_substitution` chooses to replace column `k` by column `j`.  Take values, duals and reduced costs
that satisfy the optimality conditions of the problem after the substitution.  The records of this step turn them into
a solution of the optimality conditions of the problem before it; only the value of column `k` is new, it is the
one for which row `i` holds.  A point that satisfies the remaining rows satisfies all rows afterwards. -/
theorem C53_step {P : LP} (hP : P.Valid) (hS : P.Sides) {env : Env} (hs : env.SortOK) {stgs : Settings} {s s1 : St}
    (h : Calls env stgs (initSt P) s) {i j k : ℕ} {aij aik : ℚ} (two : (s.A i).length = 2)
    (hf : findSubst env s i = (s1, .subst j k aij aik)) {buf : List ℕ} {red : Bool}
    (o : (dtonStep env (s, buf, red) i).1.asrt = true) (ht : (dtonStep env (s, buf, red) i).1.tiny = false) {σ : Sol}
    (hk : KktAt (dtonStep env (s, buf, red) i).1 σ) :
    ∃ b σ1, s.lhs i = .fin b ∧ s.rhs i = .fin b ∧ (s.A i = [(j, aij), (k, aik)] ∨ s.A i = [(k, aik), (j, aij)]) ∧
      replay none (dtonStep env (s, buf, red) i).1.log σ = replay none s.log σ1 ∧ KktAt s σ1 ∧
      (RowsIn (dtonStep env (s, buf, red) i).1 σ → RowsIn s σ1) ∧
      σ1.x = upd σ.x k (.fin ((b - aij * (σ.x j).toQ) / aik)) := by
  have o' := (dtonStep_lup env (s, buf, red) i).asrt o
  obtain ⟨-, r, ce⟩ := h.run hs o' (initSt_inv hP) (initSt_ce P)
  obtain ⟨b, h1, h2, h3, h4, -, -⟩ := dtonStep_subst (μ := ⟨true, true, false, true, true⟩) rfl env buf red (r.inv (initSt_inv hP))
    (r.steps.inRng (initSt_gi hP) (initSt_inRng hP)) ce.1 two (h.rowTags hS o') hf ⟨o, fun _ => ht, fun e => by cases e⟩
  obtain ⟨σ1, e1, e2, e3, e4⟩ := h4 σ hk
  exact ⟨b, σ1, h1, h2, h3, e1, e2, e3, e4⟩

/-- **C53, the explorer.** -/
theorem C53_explorer {P : LP} (hP : P.Valid) (hS : P.Sides) {env : Env} (hs : env.SortOK) {stgs : Settings} {s : St}
    (h : Calls env stgs (initSt P) s) (o : (removeDtonRows env s).asrt = true)
    (ht : (removeDtonRows env s).tiny = false) {σ : Sol} (hk : KktAt (removeDtonRows env s) σ) :
    ∃ σ1, replay none (removeDtonRows env s).log σ = replay none s.log σ1 ∧ KktAt s σ1 ∧
      (RowsIn (removeDtonRows env s) σ → RowsIn s σ1) ∧
      ∀ k, ((removeDtonRows env s).ctag k).inactive = false → σ1.x k = σ.x k := by
  have o' := (removeDtonRows_lup env s).asrt o
  obtain ⟨-, r, ce⟩ := h.run hs o' (initSt_inv hP) (initSt_ce P)
  exact removeDtonRows_kkt (μ := ⟨true, true, false, true, true⟩) rfl env s (r.inv (initSt_inv hP))
    (r.steps.inRng (initSt_gi hP) (initSt_inRng hP)) ce.1 (h.rowTags hS o') ⟨o, fun _ => ht, fun e => by cases e⟩ σ hk

/-- At the beginning the conditions are those of the original problem. -/
theorem KktAt.start {P : LP} {σ : Sol} (h : KktAt (initSt P) σ) :
    P.Kkt (fun k => (σ.x k).toQ) (fun i => (σ.y i).toQ) (fun k => (σ.z k).toQ) := by
  have st := initSt_statAt P σ h.stat
  have hr : ∀ i < P.m, ((initSt P).rtag i).inactive = false := fun i hi => by simp [initSt, hi, rowTagOf]
  have hc : ∀ k < P.n, ((initSt P).ctag k).inactive = false := fun k hk => by simp [initSt, hk, CTag.inactive, colTagOf]
  refine ⟨fun k hk => ?_, fun i hi hy => (h.lhs i (hr i hi) hy).2, fun i hi hy => (h.rhs i (hr i hi) hy).2,
    fun k hk hz => ?_, fun k hk hz => ?_⟩
  · rw [st.2 k hk]; rfl
  · obtain ⟨q, hq⟩ := h.num k (hc k hk)
    have := (h.lb k (hc k hk) hz).2
    rw [hq] at this
    show P.lb k = _
    rw [show P.lb k = _ from this, hq]; rfl
  · obtain ⟨q, hq⟩ := h.num k (hc k hk)
    have := (h.ub k (hc k hk) hz).2
    rw [hq] at this
    show P.ub k = _
    rw [show P.ub k = _ from this, hq]; rfl

/-- **C53 on the original problem.** When the explorer is called first, postsolve turns a solution of the optimality
conditions of the reduced problem into one of the original problem. -/
theorem C53_first {P : LP} (hP : P.Valid) (hS : P.Sides) {env : Env} (hs : env.SortOK)
    (o : (removeDtonRows env (initSt P)).asrt = true) (ht : (removeDtonRows env (initSt P)).tiny = false) {σ : Sol}
    (hk : KktAt (removeDtonRows env (initSt P)) σ) :
    ∃ σ1, replay none (removeDtonRows env (initSt P)).log σ = some σ1 ∧
      P.Kkt (fun k => (σ1.x k).toQ) (fun i => (σ1.y i).toQ) (fun k => (σ1.z k).toQ) ∧
      ∀ k, ((removeDtonRows env (initSt P)).ctag k).inactive = false → σ1.x k = σ.x k := by
  obtain ⟨σ1, e1, e2, -, e4⟩ := C53_explorer hP hS hs (stgs := stgsAll) .nil o ht hk
  exact ⟨σ1, e1, e2.start, e4⟩

/-- `2 x0 - x1 = 3`, `-40 ≤ x0 + 4 x1 + x2 ≤ 12`, `0 ≤ x0 ≤ 5`, `-2 ≤ x1 ≤ 4`, `0 ≤ x2`, cost `x0 + 2 x1 + x2`. -/
def lpDtonDual : LP := { lpDton with lhs := ofList [.fin 3, .fin (-40)] .ninf }

/-- A solution of the problem that is left: `x0 = 1/2` is at the bound that the row implies, with reduced cost 5, and
`x2 = 0` is at its bound, with reduced cost 1. -/
def solDtonDual : Sol :=
  { x := ofList [.fin (1 / 2), .fin 0, .fin 0] (.fin 0), y := fun _ => .fin 0, z := ofList [.fin 5, .fin 0, .fin 1] (.fin 0) }

theorem lpDtonDual_valid : lpDtonDual.Valid := by
  have hA : ∀ i, 2 ≤ i → lpDtonDual.A i = [] := by
    intro i h
    show (_ : List (List Cell)).getD i [] = []
    rw [List.getD_eq_getElem?_getD, List.getElem?_eq_none (by simpa using h)]; rfl
  refine ⟨fun i => ?_, fun i p hp => ?_⟩
  · rcases lt_or_ge i 2 with h | h
    · have : i = 0 ∨ i = 1 := by omega
      rcases this with rfl | rfl <;> (show List.Pairwise _ _; simp [lpDtonDual, lpDton, ofList])
    · rw [hA i h]; exact List.Pairwise.nil
  · rcases lt_or_ge i 2 with h | h
    · have : i = 0 ∨ i = 1 := by omega
      rcases this with rfl | rfl <;> simp [lpDtonDual, lpDton, ofList] at hp ⊢ <;> rcases hp with rfl | rfl | rfl <;> simp
    · rw [hA i h] at hp; cases hp

theorem lpDtonDual_sides : lpDtonDual.Sides := by unfold LP.Sides; decide +kernel

/-- The run on `lpDtonDual` satisfies the hypotheses; column 1 is replaced by column 0, the reduced cost of column 0
moves to the bound of column 1. -/
theorem solDtonDual_kkt : KktAt (removeDtonRows envEx (initSt lpDtonDual)) solDtonDual := by
  have o : (removeDtonRows envEx (initSt lpDtonDual)).asrt = true := by decide +kernel
  obtain ⟨r, -⟩ := ((removeDtonRows_good Mode.all envEx (initSt lpDtonDual)) (ok_all.mpr o)).2 (initSt_inv lpDtonDual_valid)
    (initSt_ce lpDtonDual).1
  have mono := r.mono (initSt_inv lpDtonDual_valid)
  have hr : ∀ i, ((removeDtonRows envEx (initSt lpDtonDual)).rtag i).inactive = false → i = 1 := by
    intro i hi
    by_contra hc
    rcases Nat.lt_or_ge i 2 with h | h
    · have : i = 0 := by omega
      subst this
      have e : ((removeDtonRows envEx (initSt lpDtonDual)).rtag 0).inactive = true := by decide +kernel
      rw [e] at hi; cases hi
    · have := mono.rowIn i (by
        show (if i < 2 then rowTagOf _ _ else { inactive := true } : RTag).inactive = true
        rw [if_neg (by omega)])
      rw [this] at hi; cases hi
  have hc : ∀ k, ((removeDtonRows envEx (initSt lpDtonDual)).ctag k).inactive = false → k = 0 ∨ k = 2 := by
    intro k hk
    by_contra hc
    rcases Nat.lt_or_ge k 3 with h | h
    · have : k = 1 := by omega
      subst this
      have e : ((removeDtonRows envEx (initSt lpDtonDual)).ctag 1).inactive = true := by decide +kernel
      rw [e] at hk; cases hk
    · have := mono.colIn k (by
        show (if k < 3 then colTagOf _ _ else { fixed := true } : CTag).inactive = true
        rw [if_neg (by omega)]; rfl)
      rw [this] at hk; cases hk
  refine ⟨fun k hk => ?_, ⟨fun i hi => ⟨0, rfl⟩, fun k hk => ?_⟩, fun i _ hy => absurd hy (lt_irrefl _),
    fun i _ hy => absurd hy (lt_irrefl _), fun k hk => ?_, fun k hk => ?_⟩
  · rcases hc k hk with rfl | rfl
    · exact ⟨1 / 2, rfl⟩
    · exact ⟨0, rfl⟩
  · have e : colSum (removeDtonRows envEx (initSt lpDtonDual)) (fun i => (solDtonDual.y i).toQ) k = 0 := by
      unfold colSum
      refine Finset.sum_eq_zero (fun i _ => ?_)
      unfold rowTerm
      split
      · rfl
      · exact mul_zero _
    rw [e]
    rcases hc k hk with rfl | rfl <;> decide +kernel
  · rcases hc k hk with rfl | rfl <;> decide +kernel
  · rcases hc k hk with rfl | rfl <;> decide +kernel

example : (removeDtonRows envEx (initSt lpDtonDual)).asrt = true ∧ (removeDtonRows envEx (initSt lpDtonDual)).tiny = false ∧
    (replay none (removeDtonRows envEx (initSt lpDtonDual)).log solDtonDual).map
      (fun σ => ((σ.x 0, σ.x 1, σ.x 2), (σ.y 0, σ.y 1), (σ.z 0, σ.z 1, σ.z 2))) =
      some ((.fin (1 / 2), .fin (-2), .fin 0), (.fin (1 / 2), .fin 0), (.fin 0, .fin (5 / 2), .fin 1)) := by
  decide +kernel

/-- The step on `lpDtonDual`. -/
example : ((initSt lpDtonDual).A 0).length = 2 ∧ (findSubst envEx (initSt lpDtonDual) 0).2 = .subst 0 1 2 (-1) ∧
    (dtonStep envEx (initSt lpDtonDual, [], false) 0).1.asrt = true ∧
    (dtonStep envEx (initSt lpDtonDual, [], false) 0).1.tiny = false := by
  decide +kernel

end Verif
