import Verif.Inv.LiveMain
import Verif.Props.C05_Stationarity

/-!
# The reduced problem is no worse than the original one
-/

namespace Verif

section
variable {P : LP} {s : St} {w : ℕ → ℚ}

/-- The point of the reduced problem that belongs to a live point. -/
def restrict (s : St) (w : ℕ → ℚ) : ℕ → ℚ := shrunk (liveIdx s.colSize s.n) 0 w

theorem restrict_rank {k : ℕ} (hk : k < s.n) (hc : s.colSize k ≠ -1) :
    restrict s w (liveIdx s.colSize k).length = w k := by
  unfold restrict shrunk
  rw [liveIdx_rank hk hc]

theorem LiveAt.reduced (l : LiveAt P s w) (h : Feas P s) (g : GI s) (c : Clean s) :
    (reducedLP s).Feasible (restrict s w) := by
  refine ⟨fun t ht => ?_, fun t ht => ?_⟩
  · have ht : t < (liveIdx s.rowSize s.m).length := ht
    obtain ⟨i, hi⟩ : ∃ i, (liveIdx s.rowSize s.m)[t]? = some i := ⟨_, List.getElem?_eq_getElem ht⟩
    obtain ⟨him, hr, rfl⟩ := liveIdx_rank_inv hi
    have ha : (s.rtag i).inactive = false := by
      by_contra hn
      exact hr ((g.rowGone_iff c i).mpr (by simpa using hn))
    have him' : i < P.m := by rw [← h.m]; exact him
    have e1 : (reducedLP s).lhs (liveIdx s.rowSize i).length = s.lhs i := by
      show shrunk _ _ _ _ = _
      unfold shrunk; rw [hi]
    have e2 : (reducedLP s).rhs (liveIdx s.rowSize i).length = s.rhs i := by
      show shrunk _ _ _ _ = _
      unfold shrunk; rw [hi]
    have e3 : Verif.dot (s.A i) (fun k => restrict s w ((idxMapOf s.colSize k).getD 0)) = Verif.dot (s.A i) w := by
      unfold Verif.dot
      congr 1
      refine List.map_congr_left (fun p hp => ?_)
      rw [(h.row i him').cells ha] at hp
      obtain ⟨hp1, hp2⟩ := List.mem_filter.mp hp
      rw [decide_eq_true_eq] at hp2
      show p.2 * restrict s w ((idxMapOf s.colSize p.1).getD 0) = _
      rw [idxMapOf_live hp2, Option.getD_some,
        restrict_rank (by rw [h.n]; exact (h.valid.range i p hp1).2.1) hp2]
    rw [e1, e2, reduced_dot him hr, e3]
    obtain ⟨lo, hi'⟩ := l.pt.1 i him ha
    refine ⟨?_, ?_⟩
    · rcases lo with lo | lo
      · exact .inl ((h.row i him').lhsT ha lo)
      · exact .inr lo
    · rcases hi' with lo | lo
      · exact .inl ((h.row i him').rhsT ha lo)
      · exact .inr lo
  · have ht : t < (liveIdx s.colSize s.n).length := ht
    obtain ⟨k, hk⟩ : ∃ k, (liveIdx s.colSize s.n)[t]? = some k := ⟨_, List.getElem?_eq_getElem ht⟩
    obtain ⟨hkn, hc, rfl⟩ := liveIdx_rank_inv hk
    have hkP : k < P.n := by rw [← h.n]; exact hkn
    have ha : (s.ctag k).inactive = false := by
      by_contra hn
      exact hc ((g.colGone_iff c k).mpr (by simpa using hn))
    obtain ⟨hf, hsb⟩ := CTag.inactive_false.mp ha
    have e1 : (reducedLP s).lb (liveIdx s.colSize k).length = s.lb k := by
      show shrunk _ _ _ _ = _
      unfold shrunk; rw [hk]
    have e2 : (reducedLP s).ub (liveIdx s.colSize k).length = s.ub k := by
      show shrunk _ _ _ _ = _
      unfold shrunk; rw [hk]
    rw [e1, e2, restrict_rank hkn hc]
    obtain ⟨lo, hi'⟩ := l.pt.2 k hkn hc hsb
    rw [effTag_active ha] at lo hi'
    refine ⟨?_, ?_⟩
    · rcases lo with lo | lo
      · exact .inl ((h.col k hkP).lbT hf lo)
      · exact .inr lo
    · rcases hi' with lo | lo
      · exact .inl ((h.col k hkP).ubT hf lo)
      · exact .inr lo

/-- The objective of the original problem and of the reduced problem differ by the same amount at every
point that has the recorded values. -/
theorem obj_split (hn : s.n = P.n) (hc : s.c = P.c) {u r : ℕ → ℚ}
    (hl : ∀ k < P.n, s.colSize k ≠ -1 → u k = r (liveIdx s.colSize k).length) :
    P.obj u = (reducedLP s).obj r + ∑ k ∈ Finset.range P.n, if s.colSize k = -1 then P.c k * u k else 0 := by
  rw [LP.obj_eq, reducedLP_obj, hn, hc, ← Finset.sum_add_distrib]
  refine Finset.sum_congr rfl (fun k hk => ?_)
  by_cases h : s.colSize k = -1
  · rw [if_pos h, if_pos h, zero_add]
  · rw [if_neg h, if_neg h, add_zero, hl k (Finset.mem_range.mp hk) h]

theorem Cur.best {v : ℚ} (cu : Cur P v s) (c : Clean s) {x : ℕ → ℚ} (hx : (reducedLP s).Optimal x)
    {y z : ℕ → D} {σ : Sol} (hpost : postsolve s (fun t => .fin (x t)) y z = some σ) :
    P.obj (fun k => (σ.x k).toQ) ≤ v := by
  obtain ⟨w', l, hw'⟩ := cu.live
  have F := cu.feas
  have g := cu.inv.gi
  have hv : ∀ k, σ.x k = (logVal s.log k).getD (match idxMapOf s.colSize k with
      | none => .pinf | some j => .fin (x j)) := replay_x _ _ _ _ cu.plain hpost
  refine le_trans ?_ hw'
  rw [obj_split (u := w') (r := restrict s w') F.n cu.cost
      (fun k hk hc => (restrict_rank (by rw [F.n]; exact hk) hc).symm),
    obj_split (u := fun k => (σ.x k).toQ) (r := x) F.n cu.cost ?_]
  · have e : ∀ k ∈ Finset.range P.n, (if s.colSize k = -1 then P.c k * (σ.x k).toQ else 0) =
        if s.colSize k = -1 then P.c k * w' k else 0 := by
      intro k hk
      by_cases hc : s.colSize k = -1
      · rw [if_pos hc, if_pos hc, hv k, l.old k (Finset.mem_range.mp hk) hc]; rfl
      · rw [if_neg hc, if_neg hc]
    rw [Finset.sum_congr rfl e]
    have := hx.2 _ (l.reduced F g c)
    linarith
  · intro k hk hc
    have ha : (s.ctag k).inactive = false := by
      by_contra hn
      exact hc ((g.colGone_iff c k).mpr (by simpa using hn))
    show (σ.x k).toQ = _
    rw [hv k, (F.col k hk).new (CTag.inactive_false.mp ha).1, idxMapOf_live hc]
    rfl

end

end Verif
