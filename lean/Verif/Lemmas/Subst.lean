import Verif.Lemmas.Bounds
import Verif.Lemmas.Implied
import Verif.Model.Ston
import Verif.Model.Postsolve
import Verif.Props.C22_ActUpdate2

/-! # Substitution of a column: objective, feasibility of the rest, postsolve value -/

namespace Verif

/-- The part of the state a point is checked against, the costs and the postsolve log. -/
def core (s : St) : ℕ × ℕ × (ℕ → List Cell) × (ℕ → D) × (ℕ → D) × (ℕ → D) × (ℕ → D) × (ℕ → RTag) ×
    (ℕ → CTag) × (ℕ → ℚ) × D × (ℕ → ℤ) × List Rec :=
  (s.m, s.n, s.A, s.lhs, s.rhs, s.lb, s.ub, s.rtag, s.ctag, s.c, s.off, s.colSize, s.log)

/-- `core` field by field. -/
structure Core (s : St) (m n : ℕ) (A : ℕ → List Cell) (lhs rhs lb ub : ℕ → D) (rtag : ℕ → RTag)
    (ctag : ℕ → CTag) (c : ℕ → ℚ) (off : D) (colSize : ℕ → ℤ) (log : List Rec) : Prop where
  m : s.m = m
  n : s.n = n
  A : s.A = A
  lhs : s.lhs = lhs
  rhs : s.rhs = rhs
  lb : s.lb = lb
  ub : s.ub = ub
  rtag : s.rtag = rtag
  ctag : s.ctag = ctag
  c : s.c = c
  off : s.off = off
  colSize : s.colSize = colSize
  log : s.log = log

theorem core_iff {s : St} {m n : ℕ} {A : ℕ → List Cell} {lhs rhs lb ub : ℕ → D} {rtag : ℕ → RTag}
    {ctag : ℕ → CTag} {c : ℕ → ℚ} {off : D} {colSize : ℕ → ℤ} {log : List Rec} :
    core s = (m, n, A, lhs, rhs, lb, ub, rtag, ctag, c, off, colSize, log) →
      Core s m n A lhs rhs lb ub rtag ctag c off colSize log := by
  intro h
  simp only [core, Prod.mk.injEq] at h
  obtain ⟨h1, h2, h3, h4, h5, h6, h7, h8, h9, h10, h11, h12, h13⟩ := h
  exact ⟨h1, h2, h3, h4, h5, h6, h7, h8, h9, h10, h11, h12, h13⟩

/-- Costs after `sub_var_in_obj`. -/
def costSub (s : St) (cells : List Cell) (k : ℕ) (aik : ℚ) : ℕ → ℚ :=
  if s.c k = 0 then s.c
  else cells.foldl (fun c p => upd c p.1 (c p.1 - s.c k / aik * p.2)) s.c

/-- Offset after `sub_var_in_obj`. -/
def offSub (s : St) (k : ℕ) (aik : ℚ) (rhs : D) : D :=
  if s.c k = 0 then s.off else D.add s.off (D.smul (s.c k / aik) rhs)

theorem subVarInObj_eq (s : St) (cells : List Cell) (k : ℕ) (aik : ℚ) (rhs : D) :
    subVarInObj s cells k aik rhs =
      { s with c := costSub s cells k aik, off := offSub s k aik rhs } := by
  unfold subVarInObj costSub offSub
  split <;> rfl

theorem sum_upd (n : ℕ) (c x : ℕ → ℚ) {j : ℕ} (hj : j < n) (d : ℚ) :
    ∑ i ∈ Finset.range n, upd c j (c j - d) i * x i =
      ∑ i ∈ Finset.range n, c i * x i - d * x j := by
  have h : j ∈ Finset.range n := Finset.mem_range.mpr hj
  rw [← Finset.add_sum_erase _ _ h, ← Finset.add_sum_erase (a := j) _ (fun i => c i * x i) h]
  have : ∑ i ∈ (Finset.range n).erase j, upd c j (c j - d) i * x i =
      ∑ i ∈ (Finset.range n).erase j, c i * x i :=
    Finset.sum_congr rfl (fun i hi => by rw [upd_ne _ _ (Finset.ne_of_mem_erase hi)])
  rw [this, upd_same]
  ring

theorem sum_costFold (n : ℕ) (x : ℕ → ℚ) (r : ℚ) (cells : List Cell) (hc : ∀ p ∈ cells, p.1 < n)
    (c : ℕ → ℚ) :
    ∑ i ∈ Finset.range n, (cells.foldl (fun c p => upd c p.1 (c p.1 - r * p.2)) c) i * x i =
      ∑ i ∈ Finset.range n, c i * x i - r * dot cells x := by
  induction cells generalizing c with
  | nil => simp
  | cons p l ih =>
    rw [List.foldl_cons, ih (fun q hq => hc q (List.mem_cons_of_mem _ hq)),
      sum_upd n c x (hc p List.mem_cons_self)]
    simp only [dot_cons]; ring

theorem costFold_notMem (r : ℚ) (cells : List Cell) {k : ℕ} (h : NoCol k cells) (c : ℕ → ℚ) :
    (cells.foldl (fun c p => upd c p.1 (c p.1 - r * p.2)) c) k = c k := by
  induction cells generalizing c with
  | nil => rfl
  | cons p l ih =>
    rw [List.foldl_cons, ih (fun q hq => h q (List.mem_cons_of_mem _ hq)),
      upd_ne _ _ (Ne.symm (h p List.mem_cons_self))]

/-- The substituted column ends up with cost zero. -/
theorem costSub_zero {s : St} {cells : List Cell} {k : ℕ} {q : ℚ}
    (hnd : (cells.map Prod.fst).Nodup) (hk : (k, q) ∈ cells) (hq : q ≠ 0) :
    costSub s cells k q k = 0 := by
  unfold costSub
  split
  · assumption
  · obtain ⟨l1, l2, rfl, h1, h2⟩ := split_col hnd hk
    rw [List.foldl_append, List.foldl_cons, costFold_notMem _ _ h2, upd_same,
      costFold_notMem _ _ h1]
    rw [div_mul_cancel₀ _ hq]; ring

/-- Objective before and after the substitution, at a point where the row has the value `b`. -/
theorem objective_sub {s : St} {cells : List Cell} {k : ℕ} {q b o : ℚ}
    (hc : ∀ p ∈ cells, p.1 < s.n) (ho : s.off = .fin o) {x : ℕ → ℚ}
    (hx : dot cells x = b) :
    ∃ o', offSub s k q (.fin b) = .fin o' ∧
      ∑ i ∈ Finset.range s.n, costSub s cells k q i * x i + o' = objective s x + o := by
  unfold offSub costSub
  split
  · exact ⟨o, ho, rfl⟩
  · refine ⟨o + s.c k / q * b, by rw [ho]; simp, ?_⟩
    rw [sum_costFold s.n x _ cells hc, hx]
    unfold objective
    ring

/-- Objective of the columns that are still part of the problem. -/
def objP (s : St) (x : ℕ → ℚ) : ℚ :=
  ∑ j ∈ Finset.range s.n, if s.colSize j = -1 then 0 else s.c j * x j

/-- The point with the values of the gone columns replaced by zero. -/
def mask (s : St) (x : ℕ → ℚ) : ℕ → ℚ := fun j => if s.colSize j = -1 then 0 else x j

theorem objP_eq (s : St) (x : ℕ → ℚ) : objP s x = objective s (mask s x) := by
  unfold objP objective mask
  refine Finset.sum_congr rfl (fun j _ => ?_)
  split <;> simp

theorem mask_setAt (s : St) (x : ℕ → ℚ) {k : ℕ} (hk : s.colSize k ≠ -1) (v : ℚ) :
    mask s (setAt x k v) = setAt (mask s x) k v := by
  funext j
  by_cases e : j = k
  · subst e; simp [mask, hk]
  · simp [mask, e]

theorem objP_setAt (s : St) (x : ℕ → ℚ) {k : ℕ} (hk : k < s.n) (hs : s.colSize k ≠ -1) (v : ℚ) :
    objP s (setAt x k v) = objP s x + s.c k * (v - x k) := by
  rw [objP_eq, objP_eq, mask_setAt s x hs, objective_setAt s _ hk]
  simp [mask, hs]

theorem dot_mask {s : St} {cells : List Cell} (h : ∀ p ∈ cells, s.colSize p.1 ≠ -1) (x : ℕ → ℚ) :
    dot cells (mask s x) = dot cells x := dot_congr (fun p hp => by simp [mask, h p hp])

/-- The objective of a state in which column `k` has just gone. -/
theorem objP_gone {s s' : St} {k : ℕ} (hn : s'.n = s.n) (hs : s'.colSize = upd s.colSize k (-1))
    (x : ℕ → ℚ) : objP s' x = ∑ j ∈ Finset.range s.n, s'.c j * setAt (mask s x) k 0 j := by
  unfold objP
  rw [hn]
  refine Finset.sum_congr rfl (fun j _ => ?_)
  rw [hs]
  by_cases e : j = k
  · subst e; simp
  · rw [upd_ne _ _ e, setAt_ne _ _ e]
    unfold mask
    split <;> simp

/-- Everything except row `i` and column `k` holds at `x`. -/
def Rest (s : St) (i k : ℕ) (x : ℕ → ℚ) : Prop :=
  (∀ j < s.m, j ≠ i → (s.rtag j).inactive = false → RowOK s j x) ∧
  (∀ j < s.n, j ≠ k → s.colSize j ≠ -1 → (s.ctag j).subst = false → ColIn s j (x j))

/-- Row `i` is the only active row with column `k`; it has distinct existing active columns with
honest infinity tags. -/
structure StonReady (s : St) (i k : ℕ) (q : ℚ) : Prop where
  iLt : i < s.m
  kLt : k < s.n
  row : (s.rtag i).inactive = false
  nodup : ((s.A i).map Prod.fst).Nodup
  mem : (k, q) ∈ s.A i
  q0 : q ≠ 0
  single : ∀ j < s.m, j ≠ i → (s.rtag j).inactive = false → NoCol k (s.A j)
  cols : ∀ p ∈ s.A i, p.1 < s.n ∧ (s.ctag p.1).inactive = false ∧ s.colSize p.1 ≠ -1
  fin : ColsOK s.ctag s.lb s.ub (s.A i)

theorem StonReady.subst {s : St} {i k : ℕ} {q : ℚ} (h : StonReady s i k q) {p : Cell}
    (hp : p ∈ s.A i) : (s.ctag p.1).subst = false := by
  have := (h.cols p hp).2.1
  simp only [CTag.inactive, Bool.or_eq_false_iff] at this
  exact this.2

theorem StonReady.colIn {s : St} {i k : ℕ} {q : ℚ} (h : StonReady s i k q) {p : Cell}
    (hp : p ∈ s.A i) (x : ℕ → ℚ) : ColIn s p.1 (x p.1) ↔ InCol s.ctag s.lb s.ub x p.1 := by
  unfold ColIn InCol
  rw [effTag_active (h.cols p hp).2.1]

theorem feas_iff_rest {s : St} {i k : ℕ} {q : ℚ} (h : StonReady s i k q) (x : ℕ → ℚ) :
    FeasPt s x ↔ Rest s i k x ∧ RowOK s i x ∧ ColIn s k (x k) := by
  constructor
  · intro hx
    exact ⟨⟨fun j hj _ ha => hx.1 j hj ha, fun j hj _ h1 h2 => hx.2 j hj h1 h2⟩, hx.1 i h.iLt h.row,
      hx.2 k h.kLt (h.cols _ h.mem).2.2 (h.subst h.mem)⟩
  · rintro ⟨hr, h1, h2⟩
    refine ⟨fun j hj ha => ?_, fun j hj a b => ?_⟩
    · by_cases e : j = i
      · rw [e]; exact h1
      · exact hr.1 j hj e ha
    · by_cases e : j = k
      · rw [e]; exact h2
      · exact hr.2 j hj e a b

theorem rest_setAt {s : St} {i k : ℕ} {q : ℚ} (h : StonReady s i k q) (x : ℕ → ℚ) (v : ℚ) :
    Rest s i k (setAt x k v) ↔ Rest s i k x := by
  unfold Rest
  have e1 : ∀ j < s.m, j ≠ i → (s.rtag j).inactive = false →
      (RowOK s j (setAt x k v) ↔ RowOK s j x) := by
    intro j hj hji ha
    unfold RowOK
    rw [show dot (s.A j) (setAt x k v) = dot (s.A j) x from
      dot_update_notMem (h.single j hj hji ha) x v]
  constructor
  · rintro ⟨a, b⟩
    exact ⟨fun j hj hji ha => (e1 j hj hji ha).mp (a j hj hji ha), fun j hj hjk u w => by
      have := b j hj hjk u w; rwa [setAt_ne _ _ hjk] at this⟩
  · rintro ⟨a, b⟩
    exact ⟨fun j hj hji ha => (e1 j hj hji ha).mpr (a j hj hji ha), fun j hj hjk u w => by
      rw [setAt_ne _ _ hjk]; exact b j hj hjk u w⟩

/-- Within `Rest` the other columns of row `i` are within their bounds. -/
theorem rest_others {s : St} {i k : ℕ} {q : ℚ} (h : StonReady s i k q) {x : ℕ → ℚ}
    (hx : Rest s i k x) : OthersIn s.ctag s.lb s.ub (s.A i) k x := by
  intro p hp hpk
  exact (h.colIn hp x).mp (hx.2 p.1 (h.cols p hp).1 hpk (h.cols p hp).2.2 (h.subst hp))

/-- What changes when row `i` is replaced or dropped and column `k` goes: a point is feasible iff
the rest holds and the new row `i` (if it is still there) holds. -/
theorem feas_gone {s s' : St} {i k : ℕ} (hi : i < s.m)
    (hm : s'.m = s.m) (hn : s'.n = s.n) (hA : ∀ j, j ≠ i → s'.A j = s.A j)
    (hlhs : ∀ j, j ≠ i → s'.lhs j = s.lhs j) (hrhs : ∀ j, j ≠ i → s'.rhs j = s.rhs j)
    (hlb : s'.lb = s.lb) (hub : s'.ub = s.ub) (hrt : ∀ j, j ≠ i → s'.rtag j = s.rtag j)
    (hct : ∀ j, j ≠ k → s'.ctag j = s.ctag j) (hcs : ∀ j, j ≠ k → s'.colSize j = s.colSize j)
    (hk : s'.colSize k = -1) (x : ℕ → ℚ) :
    FeasPt s' x ↔ Rest s i k x ∧ ((s'.rtag i).inactive = false → RowOK s' i x) := by
  have er : ∀ j, j ≠ i → (RowOK s' j x ↔ RowOK s j x) := by
    intro j hj
    unfold RowOK
    rw [hA j hj, hlhs j hj, hrhs j hj, hrt j hj]
  have ec : ∀ j, j ≠ k → (ColIn s' j (x j) ↔ ColIn s j (x j)) := by
    intro j hj
    unfold ColIn
    rw [hlb, hub, hct j hj]
  constructor
  · intro hx
    refine ⟨⟨fun j hj hji ha => (er j hji).mp (hx.1 j (hm ▸ hj) (by rw [hrt j hji]; exact ha)),
      fun j hj hjk a b => (ec j hjk).mp (hx.2 j (hn ▸ hj) (by rw [hcs j hjk]; exact a)
        (by rw [hct j hjk]; exact b))⟩, fun ha => hx.1 i (hm ▸ hi) ha⟩
  · rintro ⟨hr, hrow⟩
    refine ⟨fun j hj ha => ?_, fun j hj a b => ?_⟩
    · by_cases e : j = i
      · subst e; exact hrow ha
      · exact (er j e).mpr (hr.1 j (hm ▸ hj) e (by rw [← hrt j e]; exact ha))
    · by_cases e : j = k
      · subst e; exact absurd hk a
      · exact (ec j e).mpr (hr.2 j (hn ▸ hj) e (by rw [← hcs j e]; exact a)
          (by rw [← hct j e]; exact b))

/-- The value of column `k` at which the row takes the value `b`. -/
def solveFor (cells : List Cell) (k : ℕ) (q b : ℚ) (x : ℕ → ℚ) : ℚ := (b - dot cells (setAt x k 0)) / q

theorem dot_setAt_mem {cells : List Cell} {k : ℕ} {q : ℚ} (hnd : (cells.map Prod.fst).Nodup)
    (hk : (k, q) ∈ cells) (x : ℕ → ℚ) (v : ℚ) :
    dot cells (setAt x k v) = dot cells x + q * (v - x k) := dot_update_mem hnd hk x v

/-- `solveFor` is the only value of column `k` at which the row takes the value `b`. -/
theorem solveFor_iff {cells : List Cell} {k : ℕ} {q b : ℚ} (hnd : (cells.map Prod.fst).Nodup)
    (hk : (k, q) ∈ cells) (hq : q ≠ 0) (x : ℕ → ℚ) (v : ℚ) :
    dot cells (setAt x k v) = b ↔ v = solveFor cells k q b x := by
  unfold solveFor
  rw [dot_setAt_mem hnd hk x v, dot_setAt_mem hnd hk x 0, eq_div_iff hq]
  constructor <;> intro h <;> linarith

theorem setAt_self (x : ℕ → ℚ) (k : ℕ) : setAt x k (x k) = x := by
  funext j; unfold setAt; split
  · rename_i h; rw [h]
  · rfl

theorem setAt_setAt (x : ℕ → ℚ) (k : ℕ) (v w : ℚ) : setAt (setAt x k v) k w = setAt x k w := by
  funext j; unfold setAt; split <;> simp [*]

theorem solveFor_eq_self {cells : List Cell} {k : ℕ} {q b : ℚ} (hnd : (cells.map Prod.fst).Nodup)
    (hk : (k, q) ∈ cells) (hq : q ≠ 0) {x : ℕ → ℚ} (h : dot cells x = b) :
    x k = solveFor cells k q b x := by
  rw [← solveFor_iff hnd hk hq, setAt_self]; exact h

theorem solveFor_setAt (cells : List Cell) (k : ℕ) (q b : ℚ) (x : ℕ → ℚ) (v : ℚ) :
    solveFor cells k q b (setAt x k v) = solveFor cells k q b x := by
  unfold solveFor; rw [setAt_setAt]

theorem solveFor_split {l1 l2 : List Cell} {k : ℕ} {q b : ℚ} (h1 : NoCol k l1) (h2 : NoCol k l2)
    (x : ℕ → ℚ) : solveFor (l1 ++ (k, q) :: l2) k q b x = (b - dot (l1 ++ l2) x) / q := by
  unfold solveFor
  simp only [dot_append, dot_cons, setAt_same]
  rw [show dot l1 (setAt x k 0) = dot l1 x from dot_update_notMem h1 x 0,
    show dot l2 (setAt x k 0) = dot l2 x from dot_update_notMem h2 x 0]
  ring_nf

/-! ### The value postsolve computes -/

theorem scan_notMem (k : ℕ) (d : ℚ) (l : List Cell) (h : NoCol k l) : scanCoef k d l = d := by
  unfold scanCoef
  induction l generalizing d with
  | nil => rfl
  | cons p l ih =>
    rw [List.foldl_cons, if_neg (h p List.mem_cons_self)]
    exact ih d (fun q hq => h q (List.mem_cons_of_mem _ hq))

theorem scan_split {l1 l2 : List Cell} {k : ℕ} {q d : ℚ} (h2 : NoCol k l2) :
    scanCoef k d (l1 ++ (k, q) :: l2) = q := by
  have := scan_notMem k q l2 h2
  unfold scanCoef at this ⊢
  rw [List.foldl_append, List.foldl_cons, if_pos rfl, this]

theorem subNum_eq (k : ℕ) (l : List Cell) (σx : ℕ → D) (x : ℕ → ℚ)
    (hx : ∀ p ∈ l, p.1 ≠ k → σx p.1 = .fin (x p.1)) (h : NoCol k l) (b : ℚ) :
    l.foldl (fun a p => if p.1 = k then a else D.sub a (D.smul p.2 (σx p.1))) (.fin b) =
      .fin (b - dot l x) := by
  induction l generalizing b with
  | nil => simp
  | cons p l ih =>
    have hp := h p List.mem_cons_self
    rw [List.foldl_cons, if_neg hp, hx p List.mem_cons_self hp, D.smul_fin, D.sub_fin,
      ih (fun q hq => hx q (List.mem_cons_of_mem _ hq)) (fun q hq => h q (List.mem_cons_of_mem _ hq))]
    simp only [dot_cons]
    congr 1; ring

/-- The primal value that `retrieve_sub_col` computes solves the recorded row. -/
theorem retSubCol_value {cells : List Cell} {k : ℕ} {q b : ℚ} (hnd : (cells.map Prod.fst).Nodup)
    (hk : (k, q) ∈ cells) (hq : q ≠ 0) (σ : Sol) (x : ℕ → ℚ)
    (hx : ∀ p ∈ cells, p.1 ≠ k → σ.x p.1 = .fin (x p.1)) (i : ℕ) (ck : ℚ) :
    (retSubCol σ k cells (.fin b) i ck).x = upd σ.x k (.fin (solveFor cells k q b x)) := by
  obtain ⟨l1, l2, rfl, h1, h2⟩ := split_col hnd hk
  unfold retSubCol
  simp only
  congr 1
  rw [scan_split h2, List.foldl_append, List.foldl_cons, if_pos rfl,
    subNum_eq k l1 σ.x x (fun p hp => hx p (by simp [hp])) h1,
    subNum_eq k l2 σ.x x (fun p hp => hx p (by simp [hp])) h2, D.divq_fin hq,
    solveFor_split h1 h2]
  simp only [dot_append]
  congr 1; ring

/-- The substituted problem describes exactly the projections of the old one, with the same
objective of the columns still present plus offset; `v` gives the value of the substituted column. -/
structure SubstExact (s s' : St) (k : ℕ) (v : (ℕ → ℚ) → ℚ) : Prop where
  /-- feasible points stay feasible, and `v` is the value they have in column `k` -/
  proj : ∀ x, FeasPt s x → FeasPt s' x ∧ x k = v x
  /-- every feasible point of the new problem extends to the old one -/
  lift : ∀ x, FeasPt s' x → FeasPt s (setAt x k (v x))
  /-- with the same objective value -/
  obj : ∃ o o', s.off = .fin o ∧ s'.off = .fin o' ∧
    ∀ x, objP s' x + o' = objP s (setAt x k (v x)) + o
  /-- the column has left the problem -/
  gone : s'.colSize k = -1 ∧ (s'.ctag k).subst = true ∧ s'.c k = 0
  /-- `v` does not look at column `k` -/
  indep : ∀ x w, v (setAt x k w) = v x

end Verif
