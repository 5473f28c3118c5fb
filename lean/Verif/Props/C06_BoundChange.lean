import Verif.Inv.StatStep

/-!
# C06 for one tightened bound

`retrieve_bound_change` (`/repo/src/core/Postsolver.c:350-414`) takes the dual of a bound that was
implied by a row back to that row.  The statements below hold for rows of any length, so they cover
the bounds tightened by primal propagation, which `C06_partial` leaves out.
-/

namespace Verif

/-- The amount `d` of the reduced cost of column `j` is carried by row `i` (cells `cells`, coefficient
`a` of column `j`): stationarity `z = c - Aᵀ y` is kept in every column of the row. -/
structure Moved (σ σ' : Sol) (i j : ℕ) (cells : List Cell) (a d : ℚ) : Prop where
  x : σ'.x = σ.x
  y : ∀ v, σ.y i = .fin v → σ'.y i = .fin (v + d / a)
  yOther : ∀ r, r ≠ i → σ'.y r = σ.y r
  zCol : ∀ w, σ.z j = .fin w → σ'.z j = .fin (w - d)
  zCell : ∀ k b w, (k, b) ∈ cells → k ≠ j → σ.z k = .fin w → σ'.z k = .fin (w - b * (d / a))
  zOther : ∀ k, k ∉ cells.map Prod.fst → σ'.z k = σ.z k

theorem Moved.refl (σ : Sol) (i j : ℕ) (cells : List Cell) (a : ℚ) : Moved σ σ i j cells a 0 :=
  ⟨rfl, fun v h => by rw [h]; congr 1; ring, fun _ _ => rfl, fun w h => by rw [h, sub_zero],
    fun k b w _ _ h => by rw [h]; congr 1; ring, fun _ _ => rfl⟩

theorem boundFold_off (j : ℕ) (a : ℚ) (w : D) (l : List Cell) (z : ℕ → D) {k : ℕ} (hk : k ∉ l.map Prod.fst) :
    (l.foldl (fun z p => if p.1 = j then z else if D.eqb (z p.1) .pinf then z
      else upd z p.1 (D.sub (z p.1) (D.smul (p.2 / a) w))) z) k = z k := by
  induction l generalizing z with
  | nil => rfl
  | cons p l ih =>
    rw [List.map_cons, List.mem_cons, not_or] at hk
    rw [List.foldl_cons, ih _ hk.2]
    split
    · rfl
    split
    · rfl
    · exact upd_ne _ _ hk.1

private theorem coefAt_mem {l : List Cell} (hnd : (l.map Prod.fst).Nodup) {k : ℕ} {b : ℚ} (h : (k, b) ∈ l) :
    coefAt k l = b := by
  induction l with
  | nil => cases h
  | cons p l ih =>
    rw [List.map_cons, List.nodup_cons] at hnd
    rcases List.mem_cons.mp h with e | e
    · subst e; exact coefAt_cons_same hnd.1
    · have : p.1 ≠ k := fun e' => hnd.1 (e' ▸ List.mem_map.mpr ⟨_, e, rfl⟩)
      rw [coefAt_cons_ne this]; exact ih hnd.2 e

theorem moved_all {σ : Sol} {i j : ℕ} {cells : List Cell} {a zj : ℚ} (hnd : (cells.map Prod.fst).Nodup)
    (hm : (j, a) ∈ cells) (ha : a ≠ 0) (hz : σ.z j = .fin zj) :
    Moved σ { σ with y := upd σ.y i (D.add (σ.y i) (D.divq (σ.z j) (findCoef j cells)))
                     z := upd (cells.foldl (fun z p =>
                       if p.1 = j then z
                       else if D.eqb (z p.1) .pinf then z
                       else upd z p.1 (D.sub (z p.1) (D.smul (p.2 / findCoef j cells) (σ.z j)))) σ.z) j (.fin 0) }
      i j cells a zj := by
  rw [findCoef_mem hnd hm, hz]
  refine ⟨rfl, fun v hv => ?_, fun r hr => upd_ne _ _ hr, fun w hw => ?_, fun k b w hk hne hw => ?_, fun k hk => ?_⟩
  · show upd σ.y i _ i = _
    rw [upd_same, hv, D.divq_fin ha]; rfl
  · show upd _ j _ j = _
    rw [upd_same]
    rw [hz] at hw; injection hw with hw
    rw [hw, sub_self]
  · show upd _ j _ k = _
    rw [upd_ne _ _ hne, boundFold_z j a zj cells hnd σ.z hne hw, coefAt_mem hnd hk]
    congr 1; ring
  · show upd _ j _ k = _
    have : k ≠ j := fun e => hk (e ▸ List.mem_map.mpr ⟨_, hm, rfl⟩)
    rw [upd_ne _ _ this, boundFold_off _ _ _ _ _ hk]

/-- **C06, an implied lower bound.**  The lower bound of column `j` was tightened to `b` because of row
`i`; `other` is its upper bound.  If the reduced cost of `j` is complementary for the tightened bounds
(positive only at `b`, negative only at `other`), then after the retrieval it is complementary for the
old upper bound and without any lower bound: it is not positive, and negative only at `other`.  What was
removed, `d ≥ 0`, is carried by row `i`, whose dual moves in the direction of the side that implied the
lower bound (`d / a`), and stationarity is kept. -/
theorem C06_bound_lower (σ : Sol) (i j : ℕ) (cells : List Cell) (a xj zj b : ℚ) (other : D)
    (hnd : (cells.map Prod.fst).Nodup) (hm : (j, a) ∈ cells) (ha : a ≠ 0)
    (hx : σ.x j = .fin xj) (hz : σ.z j = .fin zj)
    (hpos : 0 < zj → |xj - b| ≤ FEAS_TOL) (hneg : zj < 0 → ∃ u, other = .fin u ∧ |xj - u| ≤ FEAS_TOL) :
    let σ' := retBoundChange σ i cells j (.fin b) other false
    ∃ d, 0 ≤ d ∧ Moved σ σ' i j cells a d ∧ zj - d ≤ 0 ∧
      (zj - d < 0 → ∃ u, other = .fin u ∧ |xj - u| ≤ FEAS_TOL) := by
  intro σ'
  have e : σ' = retBoundChange σ i cells j (.fin b) other false := rfl
  unfold retBoundChange at e
  by_cases hp : 0 < zj
  · rw [if_neg (by rw [hz, D.le_fin]; simp [hp]), if_neg (by rw [hx]; simp [hpos hp])] at e
    rw [e]
    exact ⟨zj, hp.le, moved_all hnd hm ha hz, by rw [sub_self], fun h => by linarith⟩
  have hp := not_lt.mp hp
  have keep : σ' = σ → ∃ d, 0 ≤ d ∧ Moved σ σ' i j cells a d ∧ zj - d ≤ 0 ∧
      (zj - d < 0 → ∃ u, other = .fin u ∧ |xj - u| ≤ FEAS_TOL) := fun h =>
    ⟨0, le_refl _, by rw [h]; exact .refl _ _ _ _ _, by linarith, fun h => hneg (by linarith)⟩
  rcases lt_or_eq_of_le hp with hlt | heq
  · obtain ⟨u, hu, hxu⟩ := hneg hlt
    rw [if_pos (by rw [hu, hx, hz, D.le_fin]; simp [hxu, hp])] at e
    exact keep e
  · split at e
    · exact keep e
    split at e
    · exact keep e
    · rw [e]
      exact ⟨zj, heq.ge, moved_all hnd hm ha hz, by linarith, fun h => by linarith⟩

/-- **C06, an implied upper bound**, the mirror image: nothing negative stays, what was removed is
`d ≤ 0`. -/
theorem C06_bound_upper (σ : Sol) (i j : ℕ) (cells : List Cell) (a xj zj b : ℚ) (other : D)
    (hnd : (cells.map Prod.fst).Nodup) (hm : (j, a) ∈ cells) (ha : a ≠ 0)
    (hx : σ.x j = .fin xj) (hz : σ.z j = .fin zj)
    (hneg : zj < 0 → |xj - b| ≤ FEAS_TOL) (hpos : 0 < zj → ∃ u, other = .fin u ∧ |xj - u| ≤ FEAS_TOL) :
    let σ' := retBoundChange σ i cells j (.fin b) other true
    ∃ d, d ≤ 0 ∧ Moved σ σ' i j cells a d ∧ 0 ≤ zj - d ∧
      (0 < zj - d → ∃ u, other = .fin u ∧ |xj - u| ≤ FEAS_TOL) := by
  intro σ'
  have e : σ' = retBoundChange σ i cells j (.fin b) other true := rfl
  unfold retBoundChange at e
  by_cases hp : zj < 0
  · rw [if_neg (by rw [hz, D.le_fin]; simp [hp]), if_neg (by rw [hx]; simp [hneg hp])] at e
    rw [e]
    exact ⟨zj, hp.le, moved_all hnd hm ha hz, by rw [sub_self], fun h => by linarith⟩
  have hp := not_lt.mp hp
  have keep : σ' = σ → ∃ d, d ≤ 0 ∧ Moved σ σ' i j cells a d ∧ 0 ≤ zj - d ∧
      (0 < zj - d → ∃ u, other = .fin u ∧ |xj - u| ≤ FEAS_TOL) := fun h =>
    ⟨0, le_refl _, by rw [h]; exact .refl _ _ _ _ _, by linarith, fun h => hpos (by linarith)⟩
  rcases lt_or_eq_of_le hp with hlt | heq
  · obtain ⟨u, hu, hxu⟩ := hpos hlt
    rw [if_pos (by rw [hu, hx, hz, D.le_fin]; simp [hxu, hp])] at e
    exact keep e
  · split at e
    · exact keep e
    split at e
    · exact keep e
    · rw [e]
      exact ⟨zj, heq.symm.le, moved_all hnd hm ha hz, by linarith, fun h => by linarith⟩

/-! ### Examples -/

/-- A point with `x = (3, 0)`, `y_0 = 1`, `z = (5, 2)`. -/
def exBound : Sol where
  x := ofList [.fin 3, .fin 0] .pinf
  y := ofList [.fin 1] .pinf
  z := ofList [.fin 5, .fin 2] .pinf

/-- Row `2 x0 - 4 x1`: the lower bound `3` of `x0` was implied; its reduced cost `5` goes to the row, whose dual
becomes `7/2`, and the reduced cost of `x1` becomes `2 - (-4)·5/2 = 12`. -/
example : ∃ d, 0 ≤ d ∧ Moved exBound (retBoundChange exBound 0 [(0, 2), (1, -4)] 0 (.fin 3) .pinf false) 0 0
      [(0, 2), (1, -4)] 2 d ∧ 5 - d ≤ 0 ∧ (5 - d < 0 → ∃ u, D.pinf = .fin u ∧ |3 - u| ≤ FEAS_TOL) :=
  C06_bound_lower exBound 0 0 [(0, 2), (1, -4)] 2 3 5 3 .pinf (by decide) (by simp) (by norm_num) rfl rfl
    (fun _ => by norm_num [FEAS_TOL]) (fun h => absurd h (by norm_num))

example : (retBoundChange exBound 0 [(0, 2), (1, -4)] 0 (.fin 3) .pinf false).y 0 = .fin (7 / 2) ∧
    (retBoundChange exBound 0 [(0, 2), (1, -4)] 0 (.fin 3) .pinf false).z 0 = .fin 0 ∧
    (retBoundChange exBound 0 [(0, 2), (1, -4)] 0 (.fin 3) .pinf false).z 1 = .fin 12 := by decide +kernel

/-- A degenerate point: the lower bound was tightened to the upper bound `3` and the reduced cost is `-5`,
so the retrieval keeps it. -/
example : (retBoundChange { exBound with z := ofList [.fin (-5), .fin 2] .pinf } 0 [(0, 2), (1, -4)] 0 (.fin 3)
    (.fin 3) false).z 0 = .fin (-5) := by decide +kernel

end Verif
