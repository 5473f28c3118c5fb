import Verif.Inv.Numbers

/-!
# Postsolved values are numbers: substituted and merged columns

What the values of substituted and merged columns are computed from is in the records.  If the sides
and bounds there that stand for finite ones are numbers, numbers are postsolved to numbers.
-/

namespace Verif

/-- The side of a substituted column is a number; the bounds of two merged columns are numbers where
the tags say that they are finite, and the ratio is not zero. -/
def Rec.Numeric : Rec → Prop
  | .subCol _ _ side _ _ => D.isFin side = true
  | .parallelCol _ _ tj tk lbj ubj lbk ubk ratio => ratio ≠ 0 ∧
      (tj.lbInf = false → D.isFin lbj = true) ∧ (tj.ubInf = false → D.isFin ubj = true) ∧
      (tk.lbInf = false → D.isFin lbk = true) ∧ (tk.ubInf = false → D.isFin ubk = true)
  | _ => True

instance : DecidablePred Rec.Numeric := fun r => by
  cases r <;> unfold Rec.Numeric <;> infer_instance

/-- Postsolve that stops at a record that is not numeric. -/
def finInterp : Interp Sol where
  record := fun σ r => if r.Numeric then some (retRec σ r) else none
  bound := fun σ i cells j implied other low => some (retBoundChange σ i cells j implied other low)

theorem finInterp_record {σ : Sol} {r : Rec} (h : r.Numeric) : finInterp.record σ r = some (retRec σ r) := if_pos h

theorem finInterp_run {l : List Rec} {σ τ : Sol} (h : finInterp.run l σ = some τ) :
    τ = l.foldl retRec σ ∧ ∀ r ∈ l, r.Numeric := by
  induction l generalizing σ with
  | nil => cases h; exact ⟨rfl, fun _ hr => by cases hr⟩
  | cons r l ih =>
    by_cases e : r.Numeric
    · have h : finInterp.run l (retRec σ r) = some τ := by
        have h : (finInterp.record σ r).bind (finInterp.run l) = some τ := h
        rwa [finInterp_record e] at h
      obtain ⟨a, b⟩ := ih h
      exact ⟨a, fun p hp => by
        rcases List.mem_cons.mp hp with rfl | hp
        · exact e
        · exact b p hp⟩
    · have h : (finInterp.record σ r).bind (finInterp.run l) = some τ := h
      rw [show finInterp.record σ r = none from if_neg e] at h
      cases h

theorem finInterp_replay (g : Option Group) (l : List Rec) (σ : Sol) (hl : ∀ r ∈ l, r.Numeric) :
    finInterp.replay g l σ = replay g l σ := by
  induction l generalizing g σ with
  | nil => cases g <;> rfl
  | cons r l ih =>
    have ih := fun g σ => ih g σ (fun p hp => hl p (List.mem_cons_of_mem _ hp))
    have hr := hl r List.mem_cons_self
    cases g with
    | none =>
      cases r <;> first
        | exact ih _ _
        | (show (finInterp.record σ _).bind (finInterp.replay none l) = replay none l _
           rw [finInterp_record hr]; exact ih _ _)
    | some g =>
      obtain ⟨i, cells, k⟩ := g
      cases r <;> first
        | rfl
        | exact ih _ _

theorem numRel_fin {n : ℕ} {new : List Rec} {s t : St}
    (h : ∀ σ, (∀ r ∈ new, r.Numeric) → NumSol t σ → NumSol s (new.foldl retRec σ)) :
    Tr finInterp (NumRel n) new s t := by
  intro σ
  refine ⟨fun b o hb hr hn => ?_, fun _ _ σ' h => by cases h⟩
  obtain ⟨rfl, hnew⟩ := finInterp_run hb
  exact hr (h σ hnew hn)

theorem numRel_of {n : ℕ} {new : List Rec} {s t : St} (h : Tr solInterp (NumRel n) new s t) :
    Tr finInterp (NumRel n) new s t := by
  intro σ
  refine ⟨fun b o hb hr => ?_, fun _ _ σ' h => by cases h⟩
  obtain ⟨rfl, -⟩ := finInterp_run hb
  exact (h σ).1 _ o (solInterp_run _ _) hr

theorem fold_sub_fin {k : ℕ} {x : ℕ → D} (cells : List Cell) (hx : ∀ p ∈ cells, p.1 ≠ k → ∃ r, x p.1 = .fin r) (b : ℚ) :
    ∃ q, cells.foldl (fun a p => if p.1 = k then a else D.sub a (D.smul p.2 (x p.1))) (.fin b) = .fin q := by
  induction cells generalizing b with
  | nil => exact ⟨b, rfl⟩
  | cons p l ih =>
    have ih := ih (fun r hr => hx r (List.mem_cons_of_mem _ hr))
    rw [List.foldl_cons]
    by_cases e : p.1 = k
    · rw [if_pos e]; exact ih b
    · rw [if_neg e]
      obtain ⟨r, hr⟩ := hx p List.mem_cons_self e
      rw [hr]
      exact ih _

theorem NumSol.subst {s t : St} {σ τ : Sol} (g : GI s) {i k : ℕ} {q : ℚ} {side : D}
    (hk : (s.ctag k).inactive = false) (hT : s.AT k = [(i, q)])
    (hi : (s.rtag i).inactive = false) (hcols : ∀ p ∈ s.A i, (s.ctag p.1).inactive = false)
    (hside : ∃ b, side = .fin b) (h : NumSol t σ)
    (hx : τ.x = upd σ.x k (D.divq ((s.A i).foldl (fun a p => if p.1 = k then a
      else D.sub a (D.smul p.2 (σ.x p.1))) side) (scanCoef k 0 (s.A i))))
    (off : t.off = offSub s k q side)
    (hct : ∀ j, j ≠ k → (t.ctag j).inactive = (s.ctag j).inactive)
    (fc : t.fixedCols = s.fixedCols) (ub : t.ub = s.ub) : NumSol s τ := by
  have hmem : (k, q) ∈ s.A i := (g.agree i k q (g.rowActive hi) (g.colActive hk)).mpr (by rw [hT]; simp)
  have hq : q ≠ 0 := (g.rowRange i _ hmem).2.2
  have hsc : scanCoef k 0 (s.A i) = q := by
    obtain ⟨l1, l2, e, h1, h2⟩ := split_col (g.rowSorted i).nodup hmem
    rw [e, scan_split h2]
  obtain ⟨o, ho⟩ := h.off
  refine ⟨?_, fun j hj => ?_, fun j hj => ?_⟩
  · rw [off] at ho
    unfold offSub at ho
    split at ho
    · exact ⟨o, ho⟩
    · exact (fin_add ho).1
  · rw [← ub]; exact h.pend j (fc ▸ hj)
  · rw [hx]
    by_cases e : j = k
    · subst e
      rw [upd_same, hsc]
      obtain ⟨b, rfl⟩ := hside
      obtain ⟨v, hv⟩ := fold_sub_fin (k := j) (x := σ.x) (s.A i)
        (fun p hp hne => h.act p.1 ((hct p.1 hne).trans (hcols p hp))) b
      rw [hv, D.divq_fin hq]
      exact ⟨_, rfl⟩
    · rw [upd_ne _ _ e]
      exact h.act j ((hct j e).trans hj)

theorem parSplit_fin {x : ℚ} {tj tk : CTag} {lbj ubj lbk ubk : D} {ratio : ℚ} (hr : ratio ≠ 0)
    (h1 : tj.lbInf = false → D.isFin lbj = true) (h2 : tj.ubInf = false → D.isFin ubj = true)
    (h3 : tk.lbInf = false → D.isFin lbk = true) (h4 : tk.ubInf = false → D.isFin ubk = true) :
    (∃ a, (parSplit (.fin x) tj tk lbj ubj lbk ubk ratio).1 = .fin a) ∧
    ∃ b, (parSplit (.fin x) tj tk lbj ubj lbk ubk ratio).2 = .fin b := by
  have ht : ∃ v, parTry tj lbj ubj = .fin v := by
    unfold parTry
    cases e : tj.lbInf
    · obtain ⟨q, hq⟩ := D.isFin_iff.mp (h1 e); exact ⟨q, by simpa using hq⟩
    · cases e' : tj.ubInf
      · obtain ⟨q, hq⟩ := D.isFin_iff.mp (h2 e'); exact ⟨q, by simpa using hq⟩
      · exact ⟨0, by simp⟩
  obtain ⟨v, hv⟩ := ht
  unfold parSplit
  simp only [hv, D.sub_fin, D.divq_fin hr]
  split
  · rename_i h
    simp only [Bool.and_eq_true, Bool.not_eq_true'] at h
    obtain ⟨q, rfl⟩ := D.isFin_iff.mp (h3 h.1)
    exact ⟨⟨_, rfl⟩, _, rfl⟩
  · split
    · rename_i h
      simp only [Bool.and_eq_true, Bool.not_eq_true'] at h
      obtain ⟨q, rfl⟩ := D.isFin_iff.mp (h4 h.1)
      exact ⟨⟨_, rfl⟩, _, rfl⟩
    · exact ⟨⟨_, rfl⟩, _, rfl⟩

/-- Every elementary step other than a fixing at infinity carries numbers over. -/
theorem finBackward (n : ℕ) (μ : Mode) (hn : μ.near = false) : Backward finInterp μ (NumRel n) :=
  have B := numBackward n ⟨false, true, true, false, false⟩ rfl rfl rfl
  { core := B.core
    fix := fun s k val g hr hk h => numRel_of (B.fix s k val g hr hk h)
    fixInf := fun h => absurd (hn.symm.trans h) (by decide)
    deact := fun s i g hr hi => numRel_of (B.deact s i g hr hi)
    sides := fun s i t l r u d g hr hi ht => numRel_of (B.sides s i t l r u d g hr hi ht)
    sideRec := fun _ s i other t l r u d rc g h1 h2 h3 h4 h5 h6 h7 =>
      numRel_of (B.sideRec rfl s i other t l r u d rc g h1 h2 h3 h4 h5 h6 h7)
    stonEq := fun s row k a val g h1 h2 h3 h4 h5 => numRel_of (B.stonEq s row k a val g h1 h2 h3 h4 h5)
    emptyRow := fun s i g h1 h2 h3 => numRel_of (B.emptyRow s i g h1 h2 h3)
    emptyCol := fun s k v g h1 h2 h3 => numRel_of (B.emptyCol s k v g h1 h2 h3)
    freeSton := fun _ s i k q side g hr hi hk hT hcols => numRel_fin (fun σ hN h => by
      have e : freeColIneq s i k q side = setRowToInactive (({ s with
          c := costSub s (s.A i) k q, off := offSub s k q side
          ctag := upd s.ctag k { s.ctag k with subst := true }
          AT := upd s.AT k [], colSize := upd s.colSize k (-1) }).save
            (.subCol k (s.A i) side i (s.c k))) i (s.c k / q) := by
        unfold freeColIneq
        rw [subVarInObj_eq]; rfl
      rw [e] at h
      exact NumSol.subst g hk hT hi hcols (D.isFin_iff.mp (hN (.subCol k (s.A i) side i (s.c k)) (by simp))) h rfl rfl
        (fun j hj => by show ((upd s.ctag k _) j).inactive = _; rw [upd_ne _ _ hj]) rfl rfl)
    half := fun _ s i k q b upper g hr hi hk hT _ hcols => numRel_fin (fun σ hN h => by
      obtain ⟨l, r, u, d, e, _⟩ := halfStep_eq s i k q b upper
      rw [e] at h
      exact NumSol.subst (t := sidesStep (halfMid s i k q) i _ l r u d []) g hk hT hi hcols
        (D.isFin_iff.mp (hN (.subCol k (s.A i) (s.rhs i) i 0) (by simp))) h rfl rfl
        (fun j hj => by show ((upd s.ctag k _) j).inactive = _; rw [upd_ne _ _ hj]) rfl rfl)
    fixSton := fun s i k q v g hr hi hk hT => numRel_of (B.fixSton s i k q v g hr hi hk hT)
    bound := B.bound
    dton := fun s t i j k aij aik b g hr hd hc _ => numRel_of (B.dton s t i j k aij aik b g hr hd hc (.inl rfl))
    merge := fun _ s j k ratio g hr hjk hj hk _ => numRel_fin (fun σ hN h => by
      obtain ⟨h0, h1, h2, h3, h4⟩ := hN _ List.mem_cons_self
      have hct : ∀ p, p ≠ k → ((mergeCols s j k ratio).ctag p).inactive = (s.ctag p).inactive := fun p hp => by
        show ((upd (upd s.ctag j _) k _) p).inactive = _
        rw [upd_ne _ _ hp]
        by_cases e : p = j
        · subst e; rw [upd_same, mergeTag_inactive]
        · rw [upd_ne _ _ e]
      obtain ⟨x, hx⟩ := h.act j ((hct j hjk).trans hj)
      obtain ⟨f1, f2⟩ := parSplit_fin (x := x) h0 h1 h2 h3 h4
      refine ⟨h.off, fun p hp => ?_, fun p hp => ?_⟩
      · have := h.pend p hp
        rwa [show (mergeCols s j k ratio).ub p = s.ub p from
          upd_ne _ _ (by rintro rfl; exact g.notFixed hj hp)] at this
      · show ∃ q, (upd (upd σ.x j (parSplit (σ.x j) _ _ _ _ _ _ ratio).1) k (parSplit (σ.x j) _ _ _ _ _ _ ratio).2) p = D.fin q
        rw [hx]
        by_cases e : p = k
        · subst e; rw [upd_same]; exact f2
        · rw [upd_ne _ _ e]
          by_cases e' : p = j
          · subst e'; rw [upd_same]; exact f1
          · rw [upd_ne _ _ e']
            exact h.act p ((hct p e).trans hp))
    relax := fun s k t ht => numRel_of (B.relax s k t ht)
    delRows := fun s g hr => numRel_of (B.delRows s g hr)
    delCols := fun s g hr hd => numRel_of (B.delCols s g hr hd) }

end Verif
