import Verif.Model.Vec
import Mathlib.Tactic.Tauto

/-!
# C15: growable vectors never lose or invent elements
-/

namespace Verif
open Vec
variable {α : Type}

/-- Specification: what a history of operations means on plain lists. -/
def VOp.spec (l : List α) : VOp α → List α
  | .append _ _ x => l ++ [x]
  | .appendArray _ _ xs => l ++ xs
  | .clear => []

/-- Specification: did every allocation in the history succeed? -/
def VOp.allocsOk : VOp α → Prop
  | .append ok _ _ => ok = true
  | .appendArray ok _ _ => ok = true
  | .clear => True

/-- Well-formed vector: what `Vec_new` establishes (all callers pass a capacity ≥ 1). -/
def Vec.WF (v : Vec α) : Prop := v.len ≤ v.cap ∧ 0 < v.cap

theorem Vec.growCap_ge (need : ℕ) : ∀ (f c : ℕ), need - c ≤ f → 0 < c →
    need ≤ growCap need c ∧ c ≤ growCap need c := by
  intro f
  induction f with
  | zero =>
    intro c h hc
    rw [growCap]; rw [dif_neg (by omega)]; omega
  | succ f ih =>
    intro c h hc
    rw [growCap]
    by_cases hn : need > c
    · rw [dif_pos ⟨hn, hc⟩]
      have := ih (c * 2) (by omega) (by omega)
      omega
    · rw [dif_neg (by omega)]; omega

theorem Vec.toList_ext {v w : Vec α} (hl : v.len = w.len) (h : ∀ k < v.len, v.buf k = w.buf k) :
    v.toList = w.toList := by
  unfold Vec.toList
  rw [← hl]
  apply List.map_congr_left
  intro k hk
  exact h k (List.mem_range.mp hk)

theorem Vec.append_spec (v : Vec α) (hv : v.WF) (ok : Bool) (fresh : ℕ → α) (x : α) :
    (∃ w, v.append ok fresh x = .ok w ∧ w.WF ∧ w.toList = v.toList ++ [x]) ∨
    (ok = false ∧ v.append ok fresh x = .error .exit) := by
  obtain ⟨h1, h2⟩ := hv
  have fin : ∀ u : Vec α, u.len = v.len → u.len < u.cap →
      (∀ k < u.len, u.buf k = v.buf k) →
      ∃ w, (do let v ← Vec.write u u.len x; .ok { v with len := v.len + 1 } : Except VErr (Vec α))
          = .ok w ∧ w.WF ∧ w.toList = v.toList ++ [x] := by
    intro u hl hc hb
    refine ⟨⟨Function.update u.buf u.len x, u.len + 1, u.cap⟩, ?_, ⟨?_, ?_⟩, ?_⟩
    · simp [Vec.write, hc]; rfl
    · simp; omega
    · simp; omega
    · simp only [Vec.toList, List.range_succ, List.map_append, List.map_cons, List.map_nil,
        Function.update_self, hl]
      congr 1
      apply List.map_congr_left
      intro k hk
      have := List.mem_range.mp hk
      rw [Function.update_of_ne (by omega)]
      exact hb k (by omega)
  unfold Vec.append
  by_cases hc : v.len ≥ v.cap
  · cases ok with
    | false => right; simp [hc]; rfl
    | true =>
      left
      simp only [hc, if_true]
      refine fin (Vec.realloc fresh v (v.cap * 2)) rfl ?_ ?_
      · simp [Vec.realloc]; omega
      · intro k hk
        simp only [Vec.realloc] at hk ⊢
        rw [if_pos (by omega)]
  · left
    simp only [hc, if_false]
    exact fin v rfl (by omega) (fun _ _ => rfl)

theorem Vec.appendArray_spec (v : Vec α) (hv : v.WF) (ok : Bool) (fresh : ℕ → α) (xs : List α) :
    (∃ w, v.appendArray ok fresh xs = .ok w ∧ w.WF ∧ w.toList = v.toList ++ xs) ∨
    (ok = false ∧ v.appendArray ok fresh xs = .error .exit) := by
  obtain ⟨h1, h2⟩ := hv
  have fin : ∀ u : Vec α, u.len = v.len → u.len + xs.length ≤ u.cap → 0 < u.cap →
      (∀ k < u.len, u.buf k = v.buf k) →
      ∃ w, (do let v ← Vec.blit u xs; .ok { v with len := v.len + xs.length } :
          Except VErr (Vec α)) = .ok w ∧ w.WF ∧ w.toList = v.toList ++ xs := by
    intro u hl hc hp hb
    refine ⟨⟨fun k => if h : u.len ≤ k ∧ k - u.len < xs.length then xs[k - u.len]'h.2 else u.buf k,
      u.len + xs.length, u.cap⟩, ?_, ⟨?_, ?_⟩, ?_⟩
    · simp [Vec.blit, hc]; rfl
    · simpa using hc
    · exact hp
    · apply List.ext_getElem
      · simp [Vec.toList, hl]
      · intro k hk1 hk2
        simp only [Vec.toList, List.getElem_map, List.getElem_range, List.length_map,
          List.length_range] at hk1 ⊢
        by_cases hkl : k < v.len
        · rw [dif_neg (by omega), List.getElem_append_left (by simpa [Vec.toList] using hkl)]
          simp [hb k (by omega)]
        · rw [dif_pos (by omega), List.getElem_append_right (by simp; omega)]
          simp [hl]
  unfold Vec.appendArray
  by_cases hc : v.len + xs.length > v.cap
  · cases ok with
    | false => right; simp [hc]; rfl
    | true =>
      left
      simp only [hc, if_true]
      have hg := Vec.growCap_ge (v.len + xs.length) _ (if v.cap > 0 then v.cap else 1) le_rfl
        (by split <;> omega)
      simp only [h2, if_true] at hg ⊢
      refine fin (Vec.realloc fresh v (growCap (v.len + xs.length) v.cap)) rfl hg.1 ?_ ?_
      · have := hg.2; show 0 < growCap _ _; omega
      · intro k hk
        simp only [Vec.realloc] at hk ⊢
        rw [if_pos (by omega)]
  · left
    simp only [hc, if_false]
    exact fin v rfl (by omega) h2 (fun _ _ => rfl)

/-- **C15.** For every history of operations on a vector created with any capacity ≥ 1:
the history never writes outside the buffer; it ends in `exit(1)` only if some `realloc`
failed; and otherwise the vector holds exactly the elements the history appended since
the last clear, in order, with `len ≤ capacity`. -/
theorem C15_vec_history (fresh : ℕ → α) (capacity : ℕ) (hc : 0 < capacity) (ops : List (VOp α)) :
    (∃ v, VOp.runAll (Vec.new fresh capacity) ops = .ok v ∧
        v.toList = ops.foldl VOp.spec [] ∧ v.len ≤ v.cap ∧ 0 < v.cap) ∨
    (VOp.runAll (Vec.new fresh capacity) ops = .error .exit ∧ ¬ ∀ op ∈ ops, op.allocsOk) := by
  have gen : ∀ (ops : List (VOp α)) (v : Vec α), v.WF →
      (∃ w, VOp.runAll v ops = .ok w ∧ w.toList = ops.foldl VOp.spec v.toList ∧ w.WF) ∨
      (VOp.runAll v ops = .error .exit ∧ ¬ ∀ op ∈ ops, op.allocsOk) := by
    intro ops
    induction ops with
    | nil => intro v hv; left; exact ⟨v, rfl, rfl, hv⟩
    | cons op ops ih =>
      intro v hv
      have step : (∃ w, op.run v = .ok w ∧ w.WF ∧ w.toList = VOp.spec v.toList op) ∨
          (¬ op.allocsOk ∧ op.run v = .error .exit) := by
        cases op with
        | append ok fr x =>
          rcases Vec.append_spec v hv ok fr x with ⟨w, a, b, c⟩ | ⟨a, b⟩
          · exact Or.inl ⟨w, a, b, c⟩
          · exact Or.inr ⟨by simp [VOp.allocsOk, a], b⟩
        | appendArray ok fr xs =>
          rcases Vec.appendArray_spec v hv ok fr xs with ⟨w, a, b, c⟩ | ⟨a, b⟩
          · exact Or.inl ⟨w, a, b, c⟩
          · exact Or.inr ⟨by simp [VOp.allocsOk, a], b⟩
        | clear => exact Or.inl ⟨v.clear, rfl, ⟨Nat.zero_le _, hv.2⟩, by simp [Vec.toList, Vec.clear, VOp.spec]⟩
      rcases step with ⟨w, a, b, c⟩ | ⟨a, b⟩
      · have hr : VOp.runAll v (op :: ops) = VOp.runAll w ops := by
          simp [VOp.runAll, a]; rfl
        rw [hr]
        rcases ih w b with ⟨u, d, e, f⟩ | ⟨d, e⟩
        · left; exact ⟨u, d, by simpa [c] using e, f⟩
        · right; refine ⟨d, fun h => e fun o ho => h o (List.mem_cons_of_mem _ ho)⟩
      · right
        refine ⟨by simp [VOp.runAll, b]; rfl, fun h => a (h op (List.mem_cons_self ..))⟩
  rcases gen ops (Vec.new fresh capacity) ⟨Nat.zero_le _, hc⟩ with ⟨v, a, b, c, d⟩ | h
  · left; exact ⟨v, a, by simpa [Vec.toList, Vec.new] using b, c, d⟩
  · exact Or.inr h

/-- Membership test agrees with the abstract contents. -/
theorem C15_vec_contains [DecidableEq α] (v : Vec α) (x : α) :
    v.contains x = true ↔ x ∈ v.toList := by
  simp [Vec.contains, Vec.toList]

/-- Without the capacity precondition the property is false: appending to a vector of
capacity 0 writes outside the buffer (`capacity *= 2` stays 0). -/
theorem C15_capacity_zero_fails :
    (Vec.new (fun _ => (0 : ℕ)) 0).append true (fun _ => 0) 7 = .error .ub := by
  rfl

-- A non-trivial history: growth from capacity 1, an array append and a clear.
example : ((VOp.runAll (Vec.new (fun _ => (0 : ℕ)) 1)
    [.append true (fun _ => 9) 1, .appendArray true (fun _ => 9) [2, 3, 4], .clear,
     .append true (fun _ => 9) 5, .append true (fun _ => 9) 6]).toOption.map
      fun v => (v.toList, v.cap)) = some ([5, 6], 4) := by
  decide +kernel

-- A history whose second `realloc` fails.
example : VOp.runAll (Vec.new (fun _ => (0 : ℕ)) 1)
    [.append true (fun _ => 9) 1, .append false (fun _ => 9) 2] = .error .exit := by
  rfl

end Verif
