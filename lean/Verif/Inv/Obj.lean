import Verif.Inv.Replay
import Verif.Lemmas.Subst
import Verif.Spec.Problem
import Mathlib.Algebra.BigOperators.Ring.Finset

/-!
# The objective value along a run and back through postsolve
-/

namespace Verif

/-- The values of all columns at a point: pending fixed columns have their value, other inactive
columns count as zero. -/
def xi (s : St) (x : ℕ → D) (k : ℕ) : ℚ :=
  if k ∈ s.fixedCols then (s.ub k).toQ else if (s.ctag k).inactive then 0 else (x k).toQ

/-- The objective of the original problem at the outcome `σ'` of postsolve is the objective of the
state at the point `σ` postsolve starts from. -/
structure ObjAt (P : LP) (s : St) (σ σ' : Sol) : Prop where
  n : s.n = P.n
  act : ∀ k, (s.ctag k).inactive = false → ∃ q, σ.x k = .fin q
  fixed : ∀ k ∈ s.fixedCols, ∃ q, s.lb k = .fin q ∧ s.ub k = .fin q
  obj : ∃ o, s.off = .fin o ∧
    P.obj (fun k => (σ'.x k).toQ) = o + ∑ k ∈ Finset.range s.n, s.c k * xi s σ.x k

/-- The relation carried through postsolve: if every original column gets a number. -/
def ObjRel (P : LP) (s : St) (σ : Sol) (o : Option Sol) : Prop :=
  ∀ σ', o = some σ' → (∀ k < P.n, ∃ q, σ'.x k = .fin q) → ObjAt P s σ σ'

theorem objRel_tr {P : LP} {new : List Rec} {s t : St}
    (h : ∀ σ σ', ObjAt P s (new.foldl retRec σ) σ' → ObjAt P t σ σ') :
    Tr solInterp (ObjRel P) new s t := by
  intro σ
  rw [solInterp_run]
  refine ⟨fun b o hb hr σ' ho hf => ?_, fun hb => by cases hb⟩
  cases hb
  exact h σ σ' (hr σ' ho hf)

theorem GI.fixedIn {s : St} (g : GI s) {k : ℕ} (h : k ∈ s.fixedCols) : (s.ctag k).inactive = true :=
  (g.colsDel k (List.mem_append_left _ h)).1

theorem GI.notFixed {s : St} (g : GI s) {k : ℕ} (h : (s.ctag k).inactive = false) : k ∉ s.fixedCols := by
  intro e; rw [g.fixedIn e] at h; cases h

theorem GI.subIn {s : St} (g : GI s) {k : ℕ} (h : k ∈ s.subCols) : (s.ctag k).inactive = true :=
  (g.colsDel k (List.mem_append_right _ h)).1

/-- Nothing the objective depends on changes. -/
theorem ObjAt.frame {P : LP} {s t : St} {σ τ σ' : Sol} (h : ObjAt P s τ σ') (hx : τ.x = σ.x)
    (n : t.n = s.n) (c : t.c = s.c) (off : t.off = s.off)
    (hin : ∀ k, (t.ctag k).inactive = (s.ctag k).inactive) (fc : t.fixedCols = s.fixedCols)
    (hb : ∀ k ∈ s.fixedCols, t.lb k = s.lb k ∧ t.ub k = s.ub k) : ObjAt P t σ σ' := by
  have e : xi t σ.x = xi s τ.x := by
    funext k
    unfold xi
    rw [fc, hin, hx]
    by_cases hk : k ∈ s.fixedCols
    · rw [if_pos hk, if_pos hk, (hb k hk).2]
    · rw [if_neg hk, if_neg hk]
  refine ⟨n.trans h.n, fun k hk => ?_, fun k hk => ?_, ?_⟩
  · rw [hin] at hk; rw [← hx]; exact h.act k hk
  · rw [fc] at hk
    rw [(hb k hk).1, (hb k hk).2]; exact h.fixed k hk
  · rw [off, n, c, e]; exact h.obj

/-- A column with a value becomes a pending fixed column. -/
theorem ObjAt.toFixed {P : LP} {s t : St} {σ τ σ' : Sol} (g : GI s) {k : ℕ} {val : D}
    (hk : (s.ctag k).inactive = false) (h : ObjAt P s τ σ') (hx : τ.x = upd σ.x k val)
    (n : t.n = s.n) (c : t.c = s.c) (off : t.off = s.off)
    (ct : t.ctag = upd s.ctag k { s.ctag k with fixed := true })
    (fc : t.fixedCols = s.fixedCols ++ [k]) (lb : t.lb = upd s.lb k val) (ub : t.ub = upd s.ub k val) :
    ObjAt P t σ σ' := by
  have hnf := g.notFixed hk
  have e : xi t σ.x = xi s τ.x := by
    funext j
    unfold xi
    rw [fc, ct, ub, hx]
    by_cases hj : j = k
    · subst hj
      rw [if_pos (by simp), if_neg hnf, hk, upd_same, upd_same]; rfl
    · rw [upd_ne _ _ hj, upd_ne _ _ hj, upd_ne _ _ hj]
      by_cases hm : j ∈ s.fixedCols
      · rw [if_pos hm, if_pos (List.mem_append_left _ hm)]
      · rw [if_neg hm, if_neg (by simp [hm, hj])]
  obtain ⟨q, hq⟩ := h.act k hk
  rw [hx, upd_same] at hq
  refine ⟨n.trans h.n, fun j hj => ?_, fun j hj => ?_, ?_⟩
  · rw [ct] at hj
    have hne : j ≠ k := by rintro rfl; rw [upd_same] at hj; cases hj
    rw [upd_ne _ _ hne] at hj
    have := h.act j hj
    rwa [hx, upd_ne _ _ hne] at this
  · rw [fc, List.mem_append, List.mem_singleton] at hj
    rcases hj with hj | rfl
    · have hne : j ≠ k := by rintro rfl; exact hnf hj
      rw [lb, ub, upd_ne _ _ hne, upd_ne _ _ hne]
      exact h.fixed j hj
    · rw [lb, ub, upd_same, upd_same]; exact ⟨q, hq, hq⟩
  · rw [off, n, c, e]; exact h.obj

theorem sum_setAt {n : ℕ} (c x : ℕ → ℚ) {k : ℕ} (hk : k < n) (v : ℚ) :
    ∑ j ∈ Finset.range n, c j * upd x k v j = ∑ j ∈ Finset.range n, c j * upd x k 0 j + c k * v := by
  have h : k ∈ Finset.range n := Finset.mem_range.mpr hk
  rw [← Finset.add_sum_erase _ _ h, ← Finset.add_sum_erase (a := k) _ (fun j => c j * upd x k 0 j) h,
    upd_same, upd_same]
  have : ∑ j ∈ (Finset.range n).erase k, c j * upd x k v j = ∑ j ∈ (Finset.range n).erase k, c j * upd x k 0 j :=
    Finset.sum_congr rfl (fun i hi => by
      rw [upd_ne _ _ (Finset.ne_of_mem_erase hi), upd_ne _ _ (Finset.ne_of_mem_erase hi)])
  rw [this]; ring

/-- Values of the columns when an active column leaves the problem. -/
theorem xi_gone {s t : St} (g : GI s) {k : ℕ} (hk : (s.ctag k).inactive = false)
    (fc : t.fixedCols = s.fixedCols) (ub : ∀ j, j ≠ k → t.ub j = s.ub j)
    (hct : ∀ j, j ≠ k → (t.ctag j).inactive = (s.ctag j).inactive) (hkt : (t.ctag k).inactive = true)
    (x : ℕ → D) (v : D) :
    xi s (upd x k v) = upd (xi t x) k v.toQ ∧ xi t x = upd (xi t x) k 0 := by
  have hnf := g.notFixed hk
  constructor
  · funext j
    by_cases hj : j = k
    · subst hj
      rw [upd_same]
      unfold xi
      rw [if_neg hnf, hk, upd_same]; rfl
    · rw [upd_ne _ _ hj]
      unfold xi
      rw [upd_ne _ _ hj, fc, ub j hj, hct j hj]
  · funext j
    by_cases hj : j = k
    · subst hj
      rw [upd_same]
      unfold xi
      rw [fc, if_neg hnf, hkt]; rfl
    · rw [upd_ne _ _ hj]

/-- A column with a value leaves the problem and its cost goes to the offset. -/
theorem ObjAt.gone {P : LP} {s t : St} {σ τ σ' : Sol} (g : GI s) (hr : InRng s) {k : ℕ} {val : D}
    (hk : (s.ctag k).inactive = false) (h : ObjAt P s τ σ') (hx : τ.x = upd σ.x k val)
    (n : t.n = s.n) (c : t.c = s.c)
    (off : t.off = D.add s.off (D.smul (s.c k) val) ∨ (s.c k = 0 ∧ t.off = s.off))
    (hct : ∀ j, j ≠ k → (t.ctag j).inactive = (s.ctag j).inactive) (hkt : (t.ctag k).inactive = true)
    (fc : t.fixedCols = s.fixedCols) (hb : ∀ j, j ≠ k → t.lb j = s.lb j ∧ t.ub j = s.ub j) :
    ObjAt P t σ σ' := by
  have hnf := g.notFixed hk
  obtain ⟨q, hq⟩ := h.act k hk
  rw [hx, upd_same] at hq
  obtain ⟨e1, e2⟩ := xi_gone g hk fc (fun j hj => (hb j hj).2) hct hkt σ.x val
  refine ⟨n.trans h.n, fun j hj => ?_, fun j hj => ?_, ?_⟩
  · have hne : j ≠ k := by rintro rfl; rw [hkt] at hj; cases hj
    rw [hct j hne] at hj
    have := h.act j hj
    rwa [hx, upd_ne _ _ hne] at this
  · rw [fc] at hj
    have hne : j ≠ k := by rintro rfl; exact hnf hj
    rw [(hb j hne).1, (hb j hne).2]
    exact h.fixed j hj
  · obtain ⟨o, ho, hobj⟩ := h.obj
    rw [hx, e1, sum_setAt s.c _ (g.colLt hr hk), ← e2, hq] at hobj
    rw [n, c]
    rcases off with off | ⟨hc, off⟩
    · refine ⟨o + s.c k * q, by rw [off, ho, hq]; rfl, ?_⟩
      rw [hobj, D.toQ_fin]; ring
    · refine ⟨o, off.trans ho, ?_⟩
      rw [hobj, hc]; ring

theorem isFin_sub {a b : D} (h : (D.sub a b).isFin = true) : a.isFin = true := by
  cases a <;> cases b <;> simp_all [D.sub, D.add, D.neg, D.isFin]

theorem isFin_divq {a : D} {q : ℚ} (hq : q ≠ 0) (h : (D.divq a q).isFin = true) : a.isFin = true := by
  cases a with
  | fin a => rfl
  | pinf => exact absurd h (by by_cases hn : q < 0 <;> simp [D.divq, D.isFin, hn])
  | ninf => exact absurd h (by by_cases hn : q < 0 <;> simp [D.divq, D.isFin, hn])
  | nan => cases h

/-- If the residual of a row is a number then so is its side. -/
theorem residual_fin {k : ℕ} {x : ℕ → D} (l : List Cell) (a : D)
    (h : (l.foldl (fun a p => if p.1 = k then a else D.sub a (D.smul p.2 (x p.1))) a).isFin = true) :
    a.isFin = true := by
  induction l generalizing a with
  | nil => exact h
  | cons p l ih =>
    rw [List.foldl_cons] at h
    have := ih _ h
    split at this
    · exact this
    · exact isFin_sub this

/-- What the retrieved value of a substituted column satisfies. -/
theorem retSubCol_row {cells : List Cell} {k : ℕ} {q : ℚ} {side : D} {x : ℕ → D}
    (hnd : (cells.map Prod.fst).Nodup) (hk : (k, q) ∈ cells) (hq : q ≠ 0) {v : D}
    (hv : v = D.divq (cells.foldl (fun a p => if p.1 = k then a else D.sub a (D.smul p.2 (x p.1))) side)
      (scanCoef k 0 cells)) (hfin : ∃ r, v = .fin r) (hx : ∀ p ∈ cells, p.1 ≠ k → ∃ r, x p.1 = .fin r) :
    ∃ b, side = .fin b ∧ dot cells (fun j => (upd x k v j).toQ) = b := by
  obtain ⟨l1, l2, rfl, h1, h2⟩ := split_col hnd hk
  rw [scan_split h2] at hv
  obtain ⟨r, hr⟩ := hfin
  have hf := residual_fin _ _ (isFin_divq (a := List.foldl _ side _) hq (by rw [← hv, hr]; rfl))
  obtain ⟨b, rfl⟩ := D.isFin_iff.mp hf
  refine ⟨b, rfl, ?_⟩
  rw [List.foldl_append, List.foldl_cons, if_pos rfl] at hv
  have n1 : ∀ (l : List Cell) (b : ℚ), NoCol k l → (∀ p ∈ l, ∃ r, x p.1 = .fin r) →
      l.foldl (fun a p => if p.1 = k then a else D.sub a (D.smul p.2 (x p.1))) (.fin b) =
        .fin (b - dot l (fun j => (upd x k v j).toQ)) := by
    intro l
    induction l with
    | nil => intro b _ _; simp
    | cons p l ih =>
      intro b hn hx
      have hp := hn p List.mem_cons_self
      obtain ⟨r, hr⟩ := hx p List.mem_cons_self
      rw [List.foldl_cons, if_neg hp, hr, D.smul_fin, D.sub_fin,
        ih _ (fun p hp => hn p (List.mem_cons_of_mem _ hp)) (fun p hp => hx p (List.mem_cons_of_mem _ hp)),
        dot_cons, upd_ne _ _ hp, hr, D.toQ_fin]
      congr 1; ring
  rw [n1 l1 b h1 (fun p hp => hx p (by simp [hp]) (h1 p hp)),
    n1 l2 _ h2 (fun p hp => hx p (by simp [hp]) (h2 p hp)), D.divq_fin hq] at hv
  rw [dot_append, dot_cons]
  simp only [upd_same]
  have hvq := congrArg D.toQ hv
  rw [D.toQ_fin] at hvq
  rw [hvq]
  generalize dot l1 _ = d1
  generalize dot l2 _ = d2
  field_simp
  ring

theorem xi_act {s : St} (g : GI s) {k : ℕ} (hk : (s.ctag k).inactive = false) (x : ℕ → D) :
    xi s x k = (x k).toQ := by
  unfold xi
  rw [if_neg (g.notFixed hk), hk]; rfl

/-- A column is substituted out through one of its rows. -/
theorem ObjAt.subst {P : LP} {s t : St} {σ τ σ' : Sol} (g : GI s) (hr : InRng s) {i k : ℕ} {q : ℚ}
    {side : D} (hk : (s.ctag k).inactive = false) (hT : s.AT k = [(i, q)])
    (hi : (s.rtag i).inactive = false) (hcols : ∀ p ∈ s.A i, (s.ctag p.1).inactive = false)
    (h : ObjAt P s τ σ')
    (hx : τ.x = upd σ.x k (D.divq ((s.A i).foldl (fun a p => if p.1 = k then a
      else D.sub a (D.smul p.2 (σ.x p.1))) side) (scanCoef k 0 (s.A i))))
    (n : t.n = s.n) (c : t.c = costSub s (s.A i) k q) (off : t.off = offSub s k q side)
    (hct : ∀ j, j ≠ k → (t.ctag j).inactive = (s.ctag j).inactive) (hkt : (t.ctag k).inactive = true)
    (fc : t.fixedCols = s.fixedCols) (lb : t.lb = s.lb) (ub : t.ub = s.ub) : ObjAt P t σ σ' := by
  generalize hv : D.divq ((s.A i).foldl (fun a p => if p.1 = k then a
      else D.sub a (D.smul p.2 (σ.x p.1))) side) (scanCoef k 0 (s.A i)) = v at hx
  have hnf := g.notFixed hk
  have hmem : (k, q) ∈ s.A i := (g.agree i k q (g.rowActive hi) (g.colActive hk)).mpr (by rw [hT]; simp)
  have hq : q ≠ 0 := (g.rowRange i _ hmem).2.2
  have hvf := h.act k hk
  rw [hx, upd_same] at hvf
  have hoth : ∀ p ∈ s.A i, p.1 ≠ k → ∃ r, σ.x p.1 = .fin r := fun p hp hne => by
    have := h.act p.1 (hcols p hp)
    rwa [hx, upd_ne _ _ hne] at this
  obtain ⟨b, rfl, hdot⟩ := retSubCol_row (g.rowSorted i).nodup hmem hq hv.symm hvf hoth
  obtain ⟨e1, e2⟩ := xi_gone (t := t) g hk fc (fun j hj => by rw [ub]) hct hkt σ.x v
  have hrow : dot (s.A i) (xi s τ.x) = b := by
    rw [← hdot, hx]
    exact dot_congr (fun p hp => xi_act g (hcols p hp) _)
  obtain ⟨o, ho, hobj⟩ := h.obj
  obtain ⟨o', ho', hsum⟩ := objective_sub (k := k) (q := q) (fun p hp => (g.rowRange i p hp).2.1) ho hrow
  refine ⟨n.trans h.n, fun j hj => ?_, fun j hj => ?_, o', off.trans ho', ?_⟩
  · have hne : j ≠ k := by rintro rfl; rw [hkt] at hj; cases hj
    rw [hct j hne] at hj
    have := h.act j hj
    rwa [hx, upd_ne _ _ hne] at this
  · rw [fc] at hj
    rw [lb, ub]; exact h.fixed j hj
  · unfold objective at hsum
    rw [hobj, n, c]
    have e3 : ∑ j ∈ Finset.range s.n, costSub s (s.A i) k q j * xi s τ.x j =
        ∑ j ∈ Finset.range s.n, costSub s (s.A i) k q j * xi t σ.x j := by
      rw [hx, e1, sum_setAt _ _ (g.colLt hr hk), ← e2, costSub_zero (g.rowSorted i).nodup hmem hq]
      ring
    linarith

theorem foldl_x (L : List Rec) (hL : ∀ r ∈ L, ∀ σ, (retRec σ r).x = σ.x) (σ : Sol) :
    (L.foldl retRec σ).x = σ.x := by
  induction L generalizing σ with
  | nil => rfl
  | cons r L ih =>
    rw [List.foldl_cons, ih (fun r hr => hL r (List.mem_cons_of_mem _ hr)), hL r List.mem_cons_self]

theorem retBoundChange_x (σ : Sol) (i : ℕ) (cells : List Cell) (j : ℕ) (im ot : D) (low : Bool) :
    (retBoundChange σ i cells j im ot low).x = σ.x := by
  unfold retBoundChange
  split
  · rfl
  · split <;> rfl

theorem retLhsChange_x (σ : Sol) (i j : ℕ) (cells : List Cell) (side : D) (ratio : ℚ) :
    (retLhsChange σ i j cells side ratio).x = σ.x := by
  unfold retLhsChange
  split
  · rfl
  · simp only
    split <;> rfl

theorem retRhsChange_x (σ : Sol) (i j : ℕ) (cells : List Cell) (side : D) (ratio : ℚ) :
    (retRhsChange σ i j cells side ratio).x = σ.x := by
  unfold retRhsChange
  split
  · rfl
  · simp only
    split <;> rfl

theorem isFin_sub_right {a b : D} (h : (D.sub a b).isFin = true) : b.isFin = true := by
  cases a <;> cases b <;> simp_all [D.sub, D.add, D.neg, D.isFin]

/-- If both parts are numbers then so is the merged value, and the parts add up. -/
theorem parSplit_sum {xnew : D} {tj tk : CTag} {lbj ubj lbk ubk : D} {ratio a b : ℚ}
    (h1 : (parSplit xnew tj tk lbj ubj lbk ubk ratio).1 = .fin a)
    (h2 : (parSplit xnew tj tk lbj ubj lbk ubk ratio).2 = .fin b) :
    xnew = .fin (a + ratio * b) := by
  have key : ∀ l : D, D.sub xnew (D.smul ratio l) = .fin a → l = .fin b → xnew = .fin (a + ratio * b) := by
    rintro l h1 rfl
    cases xnew <;> simp_all [D.sub, D.add, D.neg, D.smul]
    linarith
  unfold parSplit at h1 h2
  simp only at h1 h2
  split at h1
  · rename_i hc
    rw [if_pos hc] at h2
    exact key _ h1 h2
  · rename_i hc
    rw [if_neg hc] at h2
    split at h1
    · rename_i hc'
      rw [if_pos hc'] at h2
      exact key _ h1 h2
    · rename_i hc'
      rw [if_neg hc'] at h2
      simp only at h1 h2
      rw [h1] at h2
      cases xnew with
      | fin x =>
        rw [D.sub_fin] at h2
        by_cases hz : ratio = 0
        · exfalso
          subst hz
          simp only [D.divq, if_true, D.infOf] at h2
          split_ifs at h2
        · rw [D.divq_fin hz, D.fin.injEq] at h2
          rw [← h2]; congr 1; field_simp; ring
      | pinf => by_cases hz : ratio < 0 <;> simp [D.sub, D.add, D.neg, D.divq, hz] at h2
      | ninf => by_cases hz : ratio < 0 <;> simp [D.sub, D.add, D.neg, D.divq, hz] at h2
      | nan => simp [D.sub, D.add, D.neg, D.divq] at h2

theorem sum_mem_list {n : ℕ} (f : ℕ → ℚ) (L : List ℕ) (hnd : L.Nodup) (hL : ∀ k ∈ L, k < n) :
    ∑ k ∈ Finset.range n, (if k ∈ L then f k else 0) = (L.map f).sum := by
  induction L with
  | nil => simp
  | cons k L ih =>
    rw [List.nodup_cons] at hnd
    rw [List.map_cons, List.sum_cons, ← ih hnd.2 (fun j hj => hL j (List.mem_cons_of_mem _ hj))]
    have h : k ∈ Finset.range n := Finset.mem_range.mpr (hL k List.mem_cons_self)
    rw [← Finset.add_sum_erase _ _ h, ← Finset.add_sum_erase (a := k) _ (fun j => if j ∈ L then f j else 0) h,
      if_pos List.mem_cons_self, if_neg hnd.1, zero_add]
    congr 1
    refine Finset.sum_congr rfl (fun j hj => ?_)
    have := Finset.ne_of_mem_erase hj
    simp [this]

/-- What deleting the fixed columns does to the offset. -/
theorem deleteFixedCols_off (s : St) {o : ℚ} (ho : s.off = .fin o)
    (hf : ∀ k ∈ s.fixedCols, ∃ q, s.ub k = .fin q) :
    (deleteFixedCols s).off = .fin (o + (s.fixedCols.map (fun k => s.c k * (s.ub k).toQ)).sum) := by
  have h1 : ∀ (v : D) (L : List Cell) (s : St), (L.foldl (shiftSides v) s).off = s.off ∧
      (L.foldl (shiftSides v) s).c = s.c ∧ (L.foldl (shiftSides v) s).ub = s.ub := by
    intro v L
    induction L with
    | nil => intro s; exact ⟨rfl, rfl, rfl⟩
    | cons p L ih =>
      intro s
      rw [List.foldl_cons]
      have hp : (shiftSides v s p).off = s.off ∧ (shiftSides v s p).c = s.c ∧ (shiftSides v s p).ub = s.ub := by
        unfold shiftSides; split <;> exact ⟨rfl, rfl, rfl⟩
      obtain ⟨a, b, c⟩ := ih (shiftSides v s p)
      exact ⟨a.trans hp.1, b.trans hp.2.1, c.trans hp.2.2⟩
  have h2 : ∀ (s : St) (k : ℕ) (q o : ℚ), s.ub k = .fin q → s.off = .fin o →
      (delFixedCol s k).off = .fin (o + s.c k * q) ∧ (delFixedCol s k).c = s.c ∧ (delFixedCol s k).ub = s.ub := by
    intro s k q o hq ho
    unfold delFixedCol
    simp only
    have hu : (((s.check (s.ctag k).fixed).check (!D.isInf (s.ub k))).check (D.eqb (s.lb k) (s.ub k))).ub k = .fin q := hq
    split
    · rename_i h0
      rw [hu] at h0
      simp at h0
      refine ⟨?_, rfl, rfl⟩
      show s.off = _
      rw [ho, h0]; simp
    · unfold fixVarInObj
      obtain ⟨a, b, c⟩ := h1 (.fin q) (s.AT k) (((s.check (s.ctag k).fixed).check (!D.isInf (s.ub k))).check (D.eqb (s.lb k) (s.ub k)))
      refine ⟨?_, ?_, ?_⟩
      · show D.add _ (D.smul _ _) = _
        rw [hu]
        have a' : (List.foldl (shiftSides (.fin q)) (((s.check (s.ctag k).fixed).check (!D.isInf (s.ub k))).check (D.eqb (s.lb k) (s.ub k)))
          ((((s.check (s.ctag k).fixed).check (!D.isInf (s.ub k))).check (D.eqb (s.lb k) (s.ub k))).AT k)).off = D.fin o := a.trans ho
        have b' : (List.foldl (shiftSides (.fin q)) (((s.check (s.ctag k).fixed).check (!D.isInf (s.ub k))).check (D.eqb (s.lb k) (s.ub k)))
          ((((s.check (s.ctag k).fixed).check (!D.isInf (s.ub k))).check (D.eqb (s.lb k) (s.ub k))).AT k)).c = s.c := b
        rw [a', b']; rfl
      · rw [hu]; exact b
      · rw [hu]; exact c
  unfold deleteFixedCols
  generalize s.fixedCols = L at hf
  induction L generalizing s o with
  | nil => simp [ho]
  | cons k L ih =>
    obtain ⟨q, hq⟩ := hf k List.mem_cons_self
    obtain ⟨a, b, c⟩ := h2 s k q o hq ho
    rw [List.foldl_cons, ih (delFixedCol s k) a (fun j hj => by rw [c]; exact hf j (List.mem_cons_of_mem _ hj)),
      b, c, List.map_cons, List.sum_cons, hq, D.toQ_fin]
    congr 1; ring

theorem ObjAt.delCols {P : LP} {s : St} {σ σ' : Sol} (g : GI s) (hr : InRng s) (hd : s.rowsToDelete = [])
    (h : ObjAt P s σ σ') : ObjAt P (deleteInactiveCols (deleteFixedCols s)) σ σ' := by
  obtain ⟨o, ho, hobj⟩ := h.obj
  have hoff := deleteFixedCols_off s ho (fun k hk => (h.fixed k hk).imp (fun _ hq => hq.2))
  obtain ⟨l, r, a, o', b, e⟩ := deleteFixedCols_eq s
  rw [e] at hoff ⊢
  have hdel := deleteInactiveCols_deleted
    (s := { s with lhs := l, rhs := r, act := a, off := o', asrt := b })
    (g.of_eq rfl rfl rfl rfl rfl (fun _ => rfl) rfl rfl rfl rfl rfl rfl rfl rfl) hd
  generalize deleteInactiveCols { s with lhs := l, rhs := r, act := a, off := o', asrt := b } = t at hdel
  have e := hdel.eq
  have n : t.n = s.n := by have h := congrArg St.n e; exact h
  have c : t.c = s.c := by have h := congrArg St.c e; exact h
  have ct : t.ctag = s.ctag := by have h := congrArg St.ctag e; exact h
  have fc : t.fixedCols = [] := by have h := congrArg St.fixedCols e; exact h
  have off : t.off = o' := by have h := congrArg St.off e; exact h
  refine ⟨n.trans h.n, fun k hk => ?_, fun k hk => absurd (fc ▸ hk) (by simp), ?_⟩
  · rw [ct] at hk; exact h.act k hk
  · refine ⟨_, off.trans hoff, ?_⟩
    rw [hobj, n, c, ← sum_mem_list (n := s.n) _ s.fixedCols (List.Nodup.of_append_left g.colsNodup)
      (fun k hk => hr.2 k (g.colsDel k (List.mem_append_left _ hk)).2), add_assoc, ← Finset.sum_add_distrib]
    congr 1
    refine Finset.sum_congr rfl (fun k _ => ?_)
    unfold xi
    rw [fc, ct]
    simp only [List.not_mem_nil, if_false]
    by_cases hk : k ∈ s.fixedCols
    · rw [if_pos hk, if_pos hk, g.fixedIn hk]; simp
    · rw [if_neg hk, if_neg hk, zero_add]

theorem retAddedRow_x (σ : Sol) (i j : ℕ) (r : ℚ) : (retAddedRow σ i j r).x = σ.x := rfl

theorem ObjAt.dton {P : LP} {s t : St} {σ τ σ' : Sol} (g : GI s) (hr : InRng s) {i j k : ℕ} {aij aik b : ℚ}
    (hd : DtonOut s t i j k aij aik b) (h : ObjAt P s τ σ')
    (hx : τ.x = upd σ.x k (D.divq ((s.A i).foldl (fun a p => if p.1 = k then a
      else D.sub a (D.smul p.2 (σ.x p.1))) (.fin b)) (scanCoef k 0 (s.A i)))) : ObjAt P t σ σ' := by
  generalize hv : D.divq ((s.A i).foldl (fun a p => if p.1 = k then a
      else D.sub a (D.smul p.2 (σ.x p.1))) (.fin b)) (scanCoef k 0 (s.A i)) = v at hx
  have hmem : (k, aik) ∈ s.A i := by rcases hd.cells with e | e <;> rw [e] <;> simp
  have hmemj : (j, aij) ∈ s.A i := by rcases hd.cells with e | e <;> rw [e] <;> simp
  have hnd := (g.rowSorted i).nodup
  have hjk : j ≠ k := by
    rintro rfl
    rcases hd.cells with e | e <;> rw [e] at hnd <;> simp at hnd
  have hq : aik ≠ 0 := (g.rowRange i _ hmem).2.2
  have hvf := h.act k hd.colk
  rw [hx, upd_same] at hvf
  have hall : ∀ p ∈ s.A i, (s.ctag p.1).inactive = false := by
    intro p hp
    rcases hd.cells with e | e <;> rw [e] at hp <;> simp at hp <;> rcases hp with rfl | rfl
    · exact hd.colj
    · exact hd.colk
    · exact hd.colk
    · exact hd.colj
  have hoth : ∀ p ∈ s.A i, p.1 ≠ k → ∃ r, σ.x p.1 = .fin r := fun p hp hne => by
    have := h.act p.1 (hall p hp)
    rwa [hx, upd_ne _ _ hne] at this
  obtain ⟨b', hb', hdot⟩ := retSubCol_row hnd hmem hq hv.symm hvf hoth
  cases hb'
  have hkt : (t.ctag k).inactive = true := by rw [hd.ctag, upd_same]; rfl
  have hct : ∀ j, j ≠ k → (t.ctag j).inactive = (s.ctag j).inactive := fun j hj => by
    rw [hd.ctag, upd_ne _ _ hj]
  have fc : t.fixedCols = s.fixedCols := hd.fixedCols
  obtain ⟨e1, e2⟩ := xi_gone (t := t) g hd.colk fc (fun j hj => by rw [hd.ub]) hct hkt σ.x v
  have hrow : aij * (σ.x j).toQ + aik * v.toQ = b := by
    rw [← hdot]
    rcases hd.cells with e | e <;> rw [e] <;> simp [upd_ne _ _ hjk] <;> ring
  obtain ⟨o, ho, hobj⟩ := h.obj
  refine ⟨hd.n.trans h.n, fun j hj => ?_, fun j hj => ?_, ?_⟩
  · have hne : j ≠ k := by rintro rfl; rw [hkt] at hj; cases hj
    rw [hct j hne] at hj
    have := h.act j hj
    rwa [hx, upd_ne _ _ hne] at this
  · rw [fc] at hj
    rw [hd.lb, hd.ub]; exact h.fixed j hj
  · refine ⟨o + s.c k * (b / aik), by rw [hd.off, ho, D.divq_fin hq]; rfl, ?_⟩
    have e3 : xi t σ.x j = (σ.x j).toQ := by
      unfold xi
      rw [fc, if_neg (g.notFixed hd.colj), hct j hjk, hd.colj]; rfl
    rw [hobj, hd.n, hd.c, sum_upd s.n s.c _ (g.colLt hr hd.colj), e3, hx, e1,
      sum_setAt _ _ (g.colLt hr hd.colk), ← e2, ← hrow]
    field_simp
    ring

theorem upd_swap {α : Type} (f : ℕ → α) {j k : ℕ} (h : j ≠ k) (a b : α) :
    upd (upd f j a) k b = upd (upd f k b) j a := by
  funext p
  unfold upd
  by_cases h1 : p = k
  · subst h1; rw [if_pos rfl, if_neg (Ne.symm h), if_pos rfl]
  · rw [if_neg h1, if_neg h1]

theorem ObjAt.merge {P : LP} {s t : St} {σ τ σ' : Sol} (g : GI s) (hr : InRng s) {j k : ℕ} {ratio : ℚ}
    (hjk : j ≠ k) (hj : (s.ctag j).inactive = false) (hk : (s.ctag k).inactive = false)
    (hc : s.c k = ratio * s.c j) (h : ObjAt P s τ σ') {v : D × D}
    (hx : τ.x = upd (upd σ.x j v.1) k v.2)
    (hv : ∀ a b, v.1 = .fin a → v.2 = .fin b → σ.x j = .fin (a + ratio * b))
    (n : t.n = s.n) (c : t.c = s.c) (off : t.off = s.off)
    (hct : ∀ p, p ≠ k → (t.ctag p).inactive = (s.ctag p).inactive) (hkt : (t.ctag k).inactive = true)
    (fc : t.fixedCols = s.fixedCols) (hb : ∀ p, p ≠ j → t.lb p = s.lb p ∧ t.ub p = s.ub p) :
    ObjAt P t σ σ' := by
  obtain ⟨b, hvb⟩ := h.act k hk
  rw [hx, upd_same] at hvb
  obtain ⟨a, hva⟩ := h.act j hj
  rw [hx, upd_ne _ _ hjk, upd_same] at hva
  have hxj := hv a b hva hvb
  have hjt : (t.ctag j).inactive = false := by rw [hct j hjk]; exact hj
  have hnj := g.notFixed hj
  have hnk := g.notFixed hk
  refine ⟨n.trans h.n, fun p hp => ?_, fun p hp => ?_, ?_⟩
  · have hne : p ≠ k := by rintro rfl; rw [hkt] at hp; cases hp
    by_cases e : p = j
    · subst e; exact ⟨_, hxj⟩
    · rw [hct p hne] at hp
      have := h.act p hp
      rwa [hx, upd_ne _ _ hne, upd_ne _ _ e] at this
  · rw [fc] at hp
    have hne : p ≠ j := by rintro rfl; exact hnj hp
    rw [(hb p hne).1, (hb p hne).2]; exact h.fixed p hp
  · obtain ⟨o, ho, hobj⟩ := h.obj
    refine ⟨o, off.trans ho, ?_⟩
    have e1 : xi s τ.x = upd (upd (xi t σ.x) j a) k b := by
      funext p
      by_cases hpk : p = k
      · subst hpk; rw [upd_same, xi_act g hk, hx, upd_same, hvb, D.toQ_fin]
      · rw [upd_ne _ _ hpk]
        by_cases hpj : p = j
        · subst hpj; rw [upd_same, xi_act g hj, hx, upd_ne _ _ hpk, upd_same, hva, D.toQ_fin]
        · rw [upd_ne _ _ hpj]
          unfold xi
          rw [hx, upd_ne _ _ hpk, upd_ne _ _ hpj, fc, (hb p hpj).2, hct p hpk]
    have e2 : xi t σ.x = upd (upd (xi t σ.x) j (a + ratio * b)) k 0 := by
      funext p
      by_cases hpk : p = k
      · subst hpk
        rw [upd_same]; unfold xi; rw [fc, if_neg hnk, hkt]; rfl
      · rw [upd_ne _ _ hpk]
        by_cases hpj : p = j
        · subst hpj
          rw [upd_same]; unfold xi; rw [fc, if_neg hnj, hjt, hxj]; rfl
        · rw [upd_ne _ _ hpj]
    have hcomm : ∀ (f : ℕ → ℚ) v, upd (upd f j v) k 0 = upd (upd f k 0) j v := fun f v =>
      upd_swap _ hjk _ _
    have s1 : ∑ p ∈ Finset.range s.n, s.c p * xi t σ.x p =
        ∑ p ∈ Finset.range s.n, s.c p * upd (upd (xi t σ.x) k 0) j 0 p + s.c j * (a + ratio * b) := by
      conv_lhs => rw [e2, hcomm, sum_setAt _ _ (g.colLt hr hj)]
    rw [hobj, n, c, s1, e1, sum_setAt _ _ (g.colLt hr hk), hcomm, sum_setAt _ _ (g.colLt hr hj), hc]
    ring

/-- Every elementary step carries the objective over, as long as nothing is rounded. -/
theorem objBackward (P : LP) (μ : Mode) (hμ : μ.round = false) : Backward solInterp μ (ObjRel P) where
  core := fun s t h σ o hR σ' ho hf => (hR σ' ho hf).frame rfl h.n h.c h.off (fun k => by rw [h.ctag])
    h.fixedCols (fun k _ => by rw [h.lb, h.ub]; exact ⟨rfl, rfl⟩)
  fix := fun s k val g _ hk _ => objRel_tr (fun σ σ' h => h.toFixed g hk rfl rfl rfl rfl rfl rfl rfl rfl)
  fixInf := fun _ s k pos bound v g hr hk hc => objRel_tr (fun σ σ' h => by
    rw [List.foldl_append] at h
    refine h.gone (t := fixInfStep s k pos bound v) (val := fixInfLoop pos k
        (((liveRows s k).map (fun i => Rec.deletedRow i 0)).reverse.foldl retRec σ).x ((s.AT k).map (fun p =>
          ((if (s.rtag p.1).lhsInf then s.rhs p.1 else s.lhs p.1), (s.A p.1).take (s.rowSize p.1).toNat))) 0 bound)
      g hr hk ?_ rfl rfl (Or.inr ⟨hc, rfl⟩) (fun j hj => ?_) ?_ rfl (fun j hj => ?_)
    · show upd (_ : Sol).x k _ = _
      congr 1
      refine foldl_x _ (fun r hr' τ => ?_) σ
      simp only [List.mem_reverse, List.mem_map] at hr'
      obtain ⟨p, _, rfl⟩ := hr'
      rfl
    · show ((upd s.ctag k _) j).inactive = _
      rw [upd_ne _ _ hj]
    · show ((upd s.ctag k _) k).inactive = _
      rw [upd_same]; rfl
    · exact ⟨upd_ne _ _ hj, upd_ne _ _ hj⟩)
  deact := fun s i g _ hi => objRel_tr (fun σ σ' h => h.frame rfl rfl rfl rfl (fun _ => rfl) rfl
    (fun _ _ => ⟨rfl, rfl⟩))
  sides := fun s i t l r u d g _ hi ht => objRel_tr (fun σ σ' h => h.frame rfl rfl rfl rfl (fun _ => rfl) rfl
    (fun _ _ => ⟨rfl, rfl⟩))
  sideRec := fun _ s i other t l r u d rc g _ _ _ _ _ _ hrc => objRel_tr (fun σ σ' h => h.frame (by
      obtain ⟨side, ratio, rfl | rfl⟩ := hrc
      · exact retRhsChange_x _ _ _ _ _ _
      · exact retLhsChange_x _ _ _ _ _ _) rfl rfl rfl (fun _ => rfl) rfl (fun _ _ => ⟨rfl, rfl⟩))
  stonEq := fun s row k a val g _ _ hk _ _ => objRel_tr (fun σ σ' h =>
    h.toFixed g hk rfl rfl rfl rfl rfl rfl rfl rfl)
  emptyRow := fun s i g _ _ _ => objRel_tr (fun σ σ' h => h.frame rfl rfl rfl rfl (fun _ => rfl) rfl
    (fun _ _ => ⟨rfl, rfl⟩))
  emptyCol := fun s k v g hr hk _ => objRel_tr (fun σ σ' h =>
    h.gone (t := emptyColStep s k v) g hr hk rfl rfl rfl (Or.inl rfl)
      (fun j hj => by show ((upd s.ctag k _) j).inactive = _; rw [upd_ne _ _ hj])
      (by show ((upd s.ctag k _) k).inactive = _; rw [upd_same]; rfl) rfl
      (fun j hj => by
        constructor
        · show (if s.c k < 0 then upd s.lb k (s.ub k) else s.lb) j = _
          split <;> simp [upd_ne _ _ hj]
        · show (if 0 < s.c k then upd s.ub k (s.lb k) else s.ub) j = _
          split <;> simp [upd_ne _ _ hj]))
  freeSton := fun _ s i k q side g hr hi hk hT hcols => objRel_tr (fun σ σ' h => by
    have e : freeColIneq s i k q side = setRowToInactive (({ s with
        c := costSub s (s.A i) k q, off := offSub s k q side
        ctag := upd s.ctag k { s.ctag k with subst := true }
        AT := upd s.AT k [], colSize := upd s.colSize k (-1) }).save
          (.subCol k (s.A i) side i (s.c k))) i (s.c k / q) := by
      unfold freeColIneq
      rw [subVarInObj_eq]; rfl
    rw [e]
    exact h.subst g hr hk hT hi hcols rfl rfl rfl rfl
      (fun j hj => by show ((upd s.ctag k _) j).inactive = _; rw [upd_ne _ _ hj])
      (by show ((upd s.ctag k _) k).inactive = _; rw [upd_same]; exact CTag.inactive_subst _) rfl rfl rfl)
  half := fun _ s i k q b upper g hr hi hk hT _ hcols => objRel_tr (fun σ σ' h => by
    obtain ⟨l, r, u, d, e, _⟩ := halfStep_eq s i k q b upper
    rw [e]
    exact h.subst (t := sidesStep (halfMid s i k q) i _ l r u d []) g hr hk hT hi hcols rfl rfl rfl rfl
      (fun j hj => by show ((upd s.ctag k _) j).inactive = _; rw [upd_ne _ _ hj])
      (by show ((upd s.ctag k _) k).inactive = _; rw [upd_same]; exact CTag.inactive_subst _) rfl rfl rfl)
  fixSton := fun s i k q v g hr hi hk hT => objRel_tr (fun σ σ' h =>
    h.gone (t := fixColSton s i k q v) g hr hk rfl rfl rfl (Or.inl rfl)
      (fun j hj => by show ((upd s.ctag k _) j).inactive = _; rw [upd_ne _ _ hj])
      (by show ((upd s.ctag k _) k).inactive = _; rw [upd_same]; rfl) rfl
      (fun j hj => ⟨rfl, rfl⟩))
  bound := fun s i j lb ub t implied other low g _ hi hj _ ht σ => by
    refine ⟨fun τ o hτ hR σ' ho hf => ?_, fun h => by cases h⟩
    cases hτ
    refine (hR σ' ho hf).frame (t := boundStep s j lb ub t implied other low)
      (retBoundChange_x _ _ _ _ _ _ _) rfl rfl rfl (fun k => ?_) rfl (fun k hk => ?_)
    · show ((upd s.ctag j t) k).inactive = _
      by_cases hkj : k = j
      · subst hkj; rw [upd_same, ht, hj]
      · rw [upd_ne _ _ hkj]
    · have hkj : k ≠ j := by rintro rfl; exact g.notFixed hj hk
      exact ⟨upd_ne _ _ hkj, upd_ne _ _ hkj⟩
  dton := fun s t i j k aij aik b g hr hd _ _ => objRel_tr (fun σ σ' h => by
    refine h.dton g hr hd ?_
    rw [List.foldl_cons, List.foldl_cons, foldl_x]
    · rfl
    · intro r hr' σ
      simp only [List.mem_reverse, List.mem_map] at hr'
      obtain ⟨p, _, rfl⟩ := hr'
      rfl)
  merge := fun _ s j k ratio g hr hjk hj hk hex => objRel_tr (fun σ σ' h => by
    have hc := (hex.resolve_left (by rw [hμ]; decide)).1
    refine h.merge (t := mergeCols s j k ratio) g hr hjk hj hk hc rfl
      (fun a b h1 h2 => parSplit_sum h1 h2) rfl rfl rfl (fun p hp => ?_) ?_ rfl (fun p hp => ?_)
    · show ((upd (upd s.ctag j _) k _) p).inactive = _
      rw [upd_ne _ _ hp]
      by_cases e : p = j
      · subst e; rw [upd_same, mergeTag_inactive]
      · rw [upd_ne _ _ e]
    · show ((upd (upd s.ctag j _) k _) k).inactive = _
      rw [upd_same]; exact CTag.inactive_subst _
    · exact ⟨upd_ne _ _ hp, upd_ne _ _ hp⟩)
  relax := fun s k t ht => objRel_tr (fun σ σ' h => h.frame (t := { s with ctag := upd s.ctag k t }) rfl rfl rfl rfl
    (fun p => by
      show ((upd s.ctag k t) p).inactive = _
      by_cases e : p = k
      · subst e; rw [upd_same, ht]
      · rw [upd_ne _ _ e]) rfl (fun _ _ => ⟨rfl, rfl⟩))
  delRows := fun s g _ => objRel_tr (fun σ σ' h => by
    have e := (deleteInactiveRows_deleted g).eq
    generalize deleteInactiveRows s = t at e
    have n : t.n = s.n := by have h := congrArg St.n e; exact h
    have c : t.c = s.c := by have h := congrArg St.c e; exact h
    have ct : t.ctag = s.ctag := by have h := congrArg St.ctag e; exact h
    have fc : t.fixedCols = s.fixedCols := by have h := congrArg St.fixedCols e; exact h
    have off : t.off = s.off := by have h := congrArg St.off e; exact h
    have lb : t.lb = s.lb := by have h := congrArg St.lb e; exact h
    have ub : t.ub = s.ub := by have h := congrArg St.ub e; exact h
    exact h.frame rfl n c off (fun _ => by rw [ct]) fc (fun _ _ => by rw [lb, ub]; exact ⟨rfl, rfl⟩))
  delCols := fun s g hr hd => objRel_tr (fun σ σ' h => h.delCols g hr hd)

end Verif
