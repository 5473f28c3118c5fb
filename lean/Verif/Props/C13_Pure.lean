import Verif.Model.PostBuf
import Verif.Model.Driver
import Verif.Lemmas.EnvEx

/-!
# C13: postsolve is a function of its arguments

The result of a call, read on the documented ranges (`n` entries of `x` and `z`, `m` of `y`), is
the same whatever earlier calls left in the solution buffer.
-/

namespace Verif

/-- Two solutions agree on the documented ranges. -/
def Agree (n m : ℕ) (σ τ : Sol) : Prop :=
  (∀ k, k < n → σ.x k = τ.x k) ∧ (∀ k, k < n → σ.z k = τ.z k) ∧ (∀ i, i < m → σ.y i = τ.y i)

/-- Cells whose index is below `n`. -/
def CellsBelow (n : ℕ) (cells : List Cell) : Prop := ∀ p ∈ cells, p.1 < n

/-- The indices of a record are those of the original problem. -/
def Rec.InRange (n m : ℕ) : Rec → Prop
  | .fixedCol col _ _ cells => col < n ∧ CellsBelow m cells
  | .fixedColInf _ col _ rows => col < n ∧ ∀ r ∈ rows, CellsBelow n r.2
  | .subCol col cells _ row _ => col < n ∧ CellsBelow n cells ∧ row < m
  | .parallelCol j k _ _ _ _ _ _ _ => j < n ∧ k < n
  | .deletedRow row _ => row < m
  | .addedRow i j _ => i < m ∧ j < m
  | .addedRows i cells _ => i < m ∧ CellsBelow m cells
  | .lhsChange i j cells _ _ => i < m ∧ j < m ∧ CellsBelow n cells
  | .rhsChange i j cells _ _ => i < m ∧ j < m ∧ CellsBelow n cells
  | .eqToIneq row _ => row < m
  | .boundChangeNoRow j _ _ _ => j < n
  | .boundChangeTheRow i cells _ => i < m ∧ CellsBelow n cells

theorem upd_agree {α : Type} {f g : ℕ → α} {n : ℕ} (h : ∀ k, k < n → f k = g k) (i : ℕ)
    {v w : α} (e : v = w) : ∀ k, k < n → upd f i v k = upd g i w k := by
  intro k hk
  unfold upd
  split
  · exact e
  · exact h k hk

theorem fixInfLoop_congr (pos : Bool) (col : ℕ) {x x' : ℕ → D} {n : ℕ}
    (h : ∀ k, k < n → x k = x' k) :
    ∀ (rows : List (D × List Cell)) (co : ℚ) (e : D), (∀ r ∈ rows, CellsBelow n r.2) →
      fixInfLoop pos col x rows co e = fixInfLoop pos col x' rows co e
  | [], _, _, _ => rfl
  | (side, cells) :: rest, co, e, hr => by
    have hc := hr _ List.mem_cons_self
    have : cells.foldl (fun a p => if p.1 = col then a else if D.eqb (x p.1) .pinf then a
        else D.sub a (D.smul p.2 (x p.1))) side =
      cells.foldl (fun a p => if p.1 = col then a else if D.eqb (x' p.1) .pinf then a
        else D.sub a (D.smul p.2 (x' p.1))) side := by
      apply List.foldl_ext
      intro a p hp
      rw [h p.1 (hc p hp)]
    simp only [fixInfLoop]
    rw [this]
    exact fixInfLoop_congr pos col h rest _ _ (fun r hr' => hr r (List.mem_cons_of_mem _ hr'))

theorem zfold_agree (j : ℕ) (aij : ℚ) (w : D) {n : ℕ} :
    ∀ (cells : List Cell) (z z' : ℕ → D), (∀ k, k < n → z k = z' k) → CellsBelow n cells →
      ∀ k, k < n →
      cells.foldl (fun z p => if p.1 = j then z else if D.eqb (z p.1) .pinf then z
        else upd z p.1 (D.sub (z p.1) (D.smul (p.2 / aij) w))) z k =
      cells.foldl (fun z p => if p.1 = j then z else if D.eqb (z p.1) .pinf then z
        else upd z p.1 (D.sub (z p.1) (D.smul (p.2 / aij) w))) z' k
  | [], _, _, h, _ => h
  | p :: rest, z, z', h, hc => by
    have hp := hc p List.mem_cons_self
    have hr : CellsBelow n rest := fun q hq => hc q (List.mem_cons_of_mem _ hq)
    simp only [List.foldl_cons]
    by_cases e : p.1 = j
    · rw [if_pos e, if_pos e]; exact zfold_agree j aij w rest z z' h hr
    · rw [if_neg e, if_neg e]
      have ez := h p.1 hp
      rw [ez]
      by_cases d : D.eqb (z' p.1) .pinf = true
      · rw [if_pos d, if_pos d]; exact zfold_agree j aij w rest z z' h hr
      · rw [if_neg d, if_neg d]
        exact zfold_agree j aij w rest _ _ (upd_agree h p.1 rfl) hr

theorem residual_congr {n m : ℕ} {σ τ : Sol} (h : Agree n m σ τ) {cells : List Cell}
    (hc : CellsBelow n cells) (side : D) : residual σ cells side = residual τ cells side := by
  unfold residual
  apply List.foldl_ext
  intro a p hp
  rw [h.1 p.1 (hc p hp)]

theorem retFixCol_agree {n m : ℕ} {σ τ : Sol} (h : Agree n m σ τ) {col : ℕ} {val : D} {ck : ℚ}
    {cells : List Cell} (hc : CellsBelow m cells) :
    Agree n m (retFixCol σ col val ck cells) (retFixCol τ col val ck cells) := by
  refine ⟨upd_agree h.1 _ rfl, upd_agree h.2.1 _ ?_, h.2.2⟩
  apply List.foldl_ext
  intro a p hp
  rw [h.2.2 p.1 (hc p hp)]

theorem retBoundChange_agree {n m : ℕ} {σ τ : Sol} (h : Agree n m σ τ) {i : ℕ} (hi : i < m)
    {cells : List Cell} (hc : CellsBelow n cells) {j : ℕ} (hj : j < n) (a b : D) (l : Bool) :
    Agree n m (retBoundChange σ i cells j a b l) (retBoundChange τ i cells j a b l) := by
  unfold retBoundChange
  rw [h.1 j hj, h.2.1 j hj, h.2.2 i hi]
  split
  · exact h
  · split
    · exact h
    · exact ⟨h.1, upd_agree (zfold_agree j _ _ cells _ _ h.2.1 hc) _ rfl,
        upd_agree h.2.2 _ rfl⟩

theorem retRec_agree {n m : ℕ} {σ τ : Sol} (h : Agree n m σ τ) (r : Rec) (hr : r.InRange n m) :
    Agree n m (retRec σ r) (retRec τ r) := by
  cases r with
  | fixedCol col val ck cells => exact retFixCol_agree h hr.2
  | fixedColInf pos col bound rows =>
    exact ⟨upd_agree h.1 _ (fixInfLoop_congr pos col h.1 rows 0 bound hr.2),
      upd_agree h.2.1 _ rfl, h.2.2⟩
  | subCol col cells rhs row ck =>
    refine ⟨upd_agree h.1 _ ?_, upd_agree h.2.1 _ ?_, h.2.2⟩
    · congr 1
      apply List.foldl_ext
      intro a p hp
      rw [h.1 p.1 (hr.2.1 p hp)]
    · rw [h.2.2 row hr.2.2]
  | parallelCol j k tj tk lbj ubj lbk ubk ratio =>
    simp only [retRec, retParallelCol]
    rw [h.1 j hr.1, h.2.1 j hr.1]
    exact ⟨upd_agree (upd_agree h.1 _ rfl) _ rfl, upd_agree h.2.1 _ rfl, h.2.2⟩
  | deletedRow row val => exact ⟨h.1, h.2.1, upd_agree h.2.2 _ rfl⟩
  | addedRow i j ratio =>
    simp only [retRec, retAddedRow]
    rw [h.2.2 i hr.1, h.2.2 j hr.2]
    exact ⟨h.1, h.2.1, upd_agree h.2.2 _ rfl⟩
  | addedRows i cells aik =>
    refine ⟨h.1, h.2.1, upd_agree h.2.2 _ ?_⟩
    rw [h.2.2 i hr.1]
    apply List.foldl_ext
    intro a p hp
    rw [h.2.2 p.1 (hr.2 p hp)]
  | lhsChange i j cells side ratio =>
    simp only [retRec, retLhsChange]
    rw [residual_congr h hr.2.2 side, h.2.2 i hr.1]
    split
    · exact h
    · split
      · exact ⟨h.1, h.2.1, upd_agree h.2.2 _ rfl⟩
      · exact ⟨h.1, h.2.1, upd_agree (upd_agree h.2.2 _ rfl) _ rfl⟩
  | rhsChange i j cells side ratio =>
    simp only [retRec, retRhsChange]
    rw [residual_congr h hr.2.2 side, h.2.2 i hr.1]
    split
    · exact h
    · split
      · exact ⟨h.1, h.2.1, upd_agree h.2.2 _ rfl⟩
      · exact ⟨h.1, h.2.1, upd_agree (upd_agree h.2.2 _ rfl) _ rfl⟩
  | eqToIneq row val =>
    simp only [retRec, retEqToIneq]
    rw [h.2.2 row hr]
    exact ⟨h.1, h.2.1, upd_agree h.2.2 _ rfl⟩
  | boundChangeNoRow _ _ _ _ => exact h
  | boundChangeTheRow _ _ _ => exact h

/-- Same outcome up to the documented ranges. -/
def SameOut (n m : ℕ) : Option Sol → Option Sol → Prop
  | none, none => True
  | some σ, some τ => Agree n m σ τ
  | _, _ => False

theorem next_below {n m i k : ℕ} {cells : List Cell} (h : i < m ∧ CellsBelow n cells) :
    ∀ q ∈ Group.next i cells k, q.1 < m ∧ CellsBelow n q.2.1 := by
  intro q hq
  cases k with
  | zero => cases hq
  | succ k =>
    simp only [Group.next, Option.mem_def, Option.some.injEq] at hq
    subst hq
    exact h

theorem replay_agree {n m : ℕ} : ∀ (log : List Rec) (g : Option Group) (σ τ : Sol),
    Agree n m σ τ → (∀ r ∈ log, r.InRange n m) →
    (∀ q ∈ g, q.1 < m ∧ CellsBelow n q.2.1) →
    SameOut n m (replay g log σ) (replay g log τ)
  | [], none, σ, τ, h, _, _ => h
  | [], some _, _, _, _, _, _ => trivial
  | r :: rest, g, σ, τ, h, hl, hg => by
    have h0 := hl r List.mem_cons_self
    have h1 : ∀ r ∈ rest, r.InRange n m := fun q hq => hl q (List.mem_cons_of_mem _ hq)
    cases g with
    | none =>
      cases r with
      | boundChangeTheRow i cells num =>
        simp only [replay]
        exact replay_agree rest _ σ τ h h1 (next_below h0)
      | _ =>
        simp only [replay]
        exact replay_agree rest none _ _ (retRec_agree h _ h0) h1 (by simp)
    | some g =>
      have hg0 := hg g rfl
      obtain ⟨i, cells, k⟩ := g
      cases r with
      | fixedCol col val ck cs =>
        simp only [replay]
        exact replay_agree rest _ _ _ (retFixCol_agree h h0.2) h1 hg
      | boundChangeNoRow j a b l =>
        simp only [replay]
        exact replay_agree rest _ _ _ (retBoundChange_agree h hg0.1 hg0.2 h0 a b l) h1
          (next_below hg0)
      | _ => exact trivial

theorem copyInto_agree (n m : ℕ) (cmap rmap : ℕ → Option ℕ) (x y z : ℕ → D) (b b' : Sol) :
    Agree n m (copyInto n m cmap rmap x y z b) (copyInto n m cmap rmap x y z b') := by
  refine ⟨?_, ?_, ?_⟩ <;> intro k hk <;> simp [copyInto, hk]

/-- **C13, one call.**  Two calls with the same arguments, whatever is in the solution buffer
before each of them, both run into undefined behaviour or both succeed with the same `x`, `z`
(`n` entries) and `y` (`m` entries). -/
theorem C13_pure (I : PostInfo) (hlog : ∀ r ∈ I.log, r.InRange I.n I.m) (a : PostArgs)
    (b b' : Sol) : SameOut I.n I.m (postsolveInto I a b) (postsolveInto I a b') :=
  replay_agree I.log none _ _ (copyInto_agree ..) hlog (by simp)

/-- **C13, any history.**  After any sequence of earlier calls (that did not run into undefined
behaviour), a call gives what it gives on a fresh presolver. -/
theorem C13_history (I : PostInfo) (hlog : ∀ r ∈ I.log, r.InRange I.n I.m)
    (earlier : List PostArgs) (a : PostArgs) (fresh mid : Sol)
    (h : postsolveSeq I earlier fresh = some mid) :
    SameOut I.n I.m (postsolveSeq I (earlier ++ [a]) fresh) (postsolveInto I a fresh) := by
  have e : ∀ (l : List PostArgs) (b : Sol), postsolveSeq I l b = some mid →
      postsolveSeq I (l ++ [a]) b = postsolveInto I a mid := by
    intro l
    induction l with
    | nil =>
      intro b hb
      simp only [postsolveSeq, Option.some.injEq] at hb
      subst hb
      simp only [List.nil_append, postsolveSeq]
      cases postsolveInto I a b <;> rfl
    | cons c l ih =>
      intro b hb
      simp only [postsolveSeq, List.cons_append] at hb ⊢
      cases hc : postsolveInto I c b with
      | none => rw [hc] at hb; cases hb
      | some b' =>
        rw [hc] at hb
        exact ih b' hb
  rw [e earlier fresh h]
  exact C13_pure I hlog a mid fresh

/-- The reference function `postsolve` of the model (which has no buffer) is what a call
computes on the documented ranges. -/
theorem C13_reference (I : PostInfo) (hlog : ∀ r ∈ I.log, r.InRange I.n I.m) (a : PostArgs)
    (b : Sol) :
    SameOut I.n I.m (postsolveInto I a b)
      (postsolverRun I.log I.cmap I.rmap a.x a.y a.z) := by
  refine replay_agree I.log none _ _ ?_ hlog (by simp)
  refine ⟨?_, ?_, ?_⟩ <;> intro k hk <;> simp only [copyInto, copyReduced, hk, if_true]
  · cases I.cmap k <;> rfl
  · cases I.cmap k <;> rfl
  · cases I.rmap k <;> rfl

/-- A log with in-range records, two columns and two rows. -/
example : ∃ r : Rec, r = .fixedCol 0 (.fin 1) 3 [(0, 1)] ∧
    (∀ q ∈ [Rec.deletedRow 1 0, r, .boundChangeTheRow 0 [(0, 1), (1, 2)] 1], q.InRange 2 2) := by
  refine ⟨_, rfl, ?_⟩
  intro q hq
  simp only [List.mem_cons, List.not_mem_nil, or_false] at hq
  rcases hq with rfl | rfl | rfl <;> simp [Rec.InRange, CellsBelow]

end Verif
