import Verif.Inv.TrivialGood

/-!
# Dual fixing and the trivial explorers as elementary steps
-/

namespace Verif

theorem deactivateRows_eq (cells : List Cell) (hnd : (cells.map Prod.fst).Nodup) (s : St) :
    deactivateRows s cells =
      { s with
        rtag := fun i => if i ∈ (cells.map Prod.fst).filter (fun i => !(s.rtag i).inactive) then
          { s.rtag i with inactive := true } else s.rtag i
        rowsToDelete := s.rowsToDelete ++ (cells.map Prod.fst).filter (fun i => !(s.rtag i).inactive)
        log := (((cells.map Prod.fst).filter (fun i => !(s.rtag i).inactive)).map
          (fun i => Rec.deletedRow i 0)).reverse ++ s.log } := by
  unfold deactivateRows
  induction cells generalizing s with
  | nil => simp
  | cons p cells ih =>
    rw [List.map_cons, List.nodup_cons] at hnd
    rw [List.foldl_cons]
    by_cases hp : (s.rtag p.1).inactive = true
    · rw [if_pos hp, ih hnd.2]
      have e : ((p :: cells).map Prod.fst).filter (fun i => !(s.rtag i).inactive) =
          (cells.map Prod.fst).filter (fun i => !(s.rtag i).inactive) := by
        rw [List.map_cons, List.filter_cons, if_neg (by simp [hp])]
      rw [e]
    · rw [if_neg hp]
      have hp' : (s.rtag p.1).inactive = false := by simpa using hp
      have es : setRowToInactive s p.1 0 = deactStep s p.1 0 := by
        unfold setRowToInactive deactStep
        rw [hp']
        simp [St.check]
      rw [es, ih hnd.2]
      have e : ((p :: cells).map Prod.fst).filter (fun i => !(s.rtag i).inactive) =
          p.1 :: (cells.map Prod.fst).filter (fun i => !(s.rtag i).inactive) := by
        rw [List.map_cons, List.filter_cons, if_pos (by simp [hp'])]
      have e2 : (cells.map Prod.fst).filter (fun i => !((deactStep s p.1 0).rtag i).inactive) =
          (cells.map Prod.fst).filter (fun i => !(s.rtag i).inactive) := by
        refine List.filter_congr (fun i hi => ?_)
        have : i ≠ p.1 := by rintro rfl; exact hnd.1 hi
        show (!(upd s.rtag p.1 _ i).inactive) = _
        rw [upd_ne _ _ this]
      rw [e, e2]
      generalize hL : (cells.map Prod.fst).filter (fun i => !(s.rtag i).inactive) = L
      have hpL : p.1 ∉ L := by
        intro h; rw [← hL] at h
        exact hnd.1 (List.mem_filter.mp h).1
      have er : (fun i => if i ∈ L then { (deactStep s p.1 0).rtag i with inactive := true }
          else (deactStep s p.1 0).rtag i) =
          (fun i => if i ∈ p.1 :: L then { s.rtag i with inactive := true } else s.rtag i) := by
        funext i
        show (if i ∈ L then { upd s.rtag p.1 _ i with inactive := true } else upd s.rtag p.1 _ i) = _
        by_cases hi : i = p.1
        · subst hi
          rw [if_neg hpL, upd_same, if_pos List.mem_cons_self]
        · rw [upd_ne _ _ hi]
          by_cases h : i ∈ L
          · rw [if_pos h, if_pos (List.mem_cons_of_mem _ h)]
          · rw [if_neg h, if_neg (by rw [List.mem_cons]; tauto)]
      rw [er]
      unfold deactStep
      simp

theorem deactivateRows_le (s : St) (cells : List Cell) : Le s (deactivateRows s cells) := by
  unfold deactivateRows
  refine Le.foldl _ (fun s p => ?_) _ _
  split
  · exact .refl s
  · exact (Le.check s (!(s.rtag p.1).inactive)).trans (.eq rfl rfl)

/-- The rest of `fixColNegInf` and `fixColPosInf`. -/
def fixColInfTail (s : St) (k : ℕ) (pos : Bool) (bound v : D) : St :=
  let s := saveFixedColInf s k pos bound
  let s := deactivateRows s (s.AT k)
  { s with ctag := upd s.ctag k { s.ctag k with fixed := true }
           colSize := upd s.colSize k (-1)
           AT := upd s.AT k []
           lb := upd s.lb k v
           ub := upd s.ub k v }

theorem saveFixedColInf_le (s : St) (k : ℕ) (pos : Bool) (bound : D) : Le s (saveFixedColInf s k pos bound) := by
  unfold saveFixedColInf
  refine Le.trans (t := s.flag ((s.AT k).any (fun p => decide (s.rowSize p.1 ≠ ((s.A p.1).length : ℤ))))) (.eq rfl rfl) ?_
  exact (Le.check _ _).trans ⟨id, id, fun h => (Bool.or_eq_false_iff.mp h).1⟩

theorem fixColInfTail_good (μ : Mode) (I J : St → Prop) (s : St) (k : ℕ) (pos : Bool) (bound v : D)
    (hI : I s → (s.ctag k).inactive = false ∧ s.c k = 0)
    (hJ : I s → ∀ t, SameCore (fixInfStep s k pos bound v) t → J t) :
    Good μ I J s (fixColInfTail s k pos bound v) := by
  have hle : Le s (fixColInfTail s k pos bound v) :=
    ((saveFixedColInf_le s k pos bound).trans (deactivateRows_le _ _)).trans (.eq rfl rfl)
  refine .of hle.ok (fun o i hi => ?_)
  obtain ⟨hk, hc⟩ := hI hi
  have hflag : (s.AT k).any (fun p => decide (s.rowSize p.1 ≠ ((s.A p.1).length : ℤ))) = false := by
    rw [List.any_eq_false]
    intro p hp
    have := i.gi.rowSz p.1 (i.gi.colIn k hk p hp)
    simp [this]
  have es : ∃ b, saveFixedColInf s k pos bound =
      { s with log := fixedColInfRec s k pos bound :: s.log, asrt := b, near := true } := by
    unfold saveFixedColInf
    rw [hflag]
    refine ⟨s.asrt && ((s.AT k).all (fun p =>
        !((s.rtag p.1).lhsInf && (s.rtag p.1).rhsInf) && ((s.rtag p.1).lhsInf || (s.rtag p.1).rhsInf))), ?_⟩
    simp [St.flag, St.check, St.save, St.fuzz]
  obtain ⟨b, es⟩ := es
  have ef : fixColInfTail s k pos bound v = { fixInfStep s k pos bound v with asrt := b, near := true } := by
    unfold fixColInfTail
    rw [es]
    simp only
    rw [deactivateRows_eq (s.AT k) (i.gi.colSorted k).nodup]
    rfl
  rw [ef] at o ⊢
  have hμ : μ.near = true := by
    cases h : μ.near with
    | true => rfl
    | false => exact absurd (o.2.2 h) (by simp)
  have hsame : SameCore (fixInfStep s k pos bound v) { fixInfStep s k pos bound v with asrt := b, near := true } := by
    constructor <;> rfl
  exact ⟨.of_raw (.fixInf k pos bound v hk hc hsame hμ) i.gi rfl rfl rfl (hT := fun j => by
    by_cases e : j = k
    · left
      show (upd s.ctag k _ j).inactive = true
      rw [e, upd_same]; rfl
    · right
      exact upd_ne _ _ e), hJ hi _ hsame⟩

/-- The costs of the listed columns are zero. -/
def ZeroCost (q : List (ℕ × Bool)) (s : St) : Prop := ∀ p ∈ q, s.c p.1 = 0

theorem fixColInf_good (μ : Mode) (q : List (ℕ × Bool)) (s : St) (p : ℕ × Bool) (hp : p ∈ q) :
    Good μ (ZeroCost q) (ZeroCost q) s (if p.2 then fixColPosInf s p.1 else fixColNegInf s p.1) := by
  split
  · have g1 : Good μ (ZeroCost q) (fun s => (s.ctag p.1).inactive = false ∧ ZeroCost q s) s
        (((s.check (!(s.ctag p.1).inactive)).check (s.ctag p.1).ubInf).check (decide (s.up p.1 = 0))) := by
      refine .trans (J := fun s => (s.ctag p.1).inactive = false ∧ ZeroCost q s) (.check s (!(s.ctag p.1).inactive) (fun h hz => ⟨Bool.not_eq_true' _ |>.mp h, hz⟩)) ?_
      exact .trans (J := fun s => (s.ctag p.1).inactive = false ∧ ZeroCost q s) (.check _ _ (fun _ h => h)) (.check _ _ (fun _ h => h))
    have g2 := fixColInfTail_good μ (fun s => (s.ctag p.1).inactive = false ∧ ZeroCost q s) (ZeroCost q)
      (((s.check (!(s.ctag p.1).inactive)).check (s.ctag p.1).ubInf).check (decide (s.up p.1 = 0)))
      p.1 true (s.lb p.1) .pinf (fun h => ⟨h.1, h.2 p hp⟩) (fun h t ht x hx => by rw [ht.c]; exact h.2 x hx)
    exact g1.trans g2
  · have g1 : Good μ (ZeroCost q) (fun s => (s.ctag p.1).inactive = false ∧ ZeroCost q s) s
        (((s.check (!(s.ctag p.1).inactive)).check (s.ctag p.1).lbInf).check (decide (s.down p.1 = 0))) := by
      refine .trans (J := fun s => (s.ctag p.1).inactive = false ∧ ZeroCost q s) (.check s (!(s.ctag p.1).inactive) (fun h hz => ⟨Bool.not_eq_true' _ |>.mp h, hz⟩)) ?_
      exact .trans (J := fun s => (s.ctag p.1).inactive = false ∧ ZeroCost q s) (.check _ _ (fun _ h => h)) (.check _ _ (fun _ h => h))
    have g2 := fixColInfTail_good μ (fun s => (s.ctag p.1).inactive = false ∧ ZeroCost q s) (ZeroCost q)
      (((s.check (!(s.ctag p.1).inactive)).check (s.ctag p.1).lbInf).check (decide (s.down p.1 = 0)))
      p.1 false (s.ub p.1) .ninf (fun h => ⟨h.1, h.2 p hp⟩) (fun h t ht x hx => by rw [ht.c]; exact h.2 x hx)
    exact g1.trans g2

theorem zeroCost_fixStable (q : List (ℕ × Bool)) : FixStable (fun s => NoRows s ∧ ZeroCost q s) :=
  ⟨fun s t h e => ⟨h.rowsToDelete.trans e.1, fun p hp => by rw [h.c]; exact e.2 p hp⟩, fun _ _ _ _ h => h⟩

theorem dualFixDecide_inf {ck : ℚ} {u d : ℤ} {t : CTag} (h : dualFixDecide ck u d t = .toNegInf ∨
    dualFixDecide ck u d t = .toPosInf) : ck = 0 := by
  by_contra hc
  unfold dualFixDecide at h
  rw [if_neg hc] at h
  split_ifs at h <;> simp at h

theorem dualFixStep_good (μ : Mode) (s : St) (q : List (ℕ × Bool)) (st : Status) (k : ℕ) :
    Good μ (fun s => NoRows s ∧ ZeroCost q s)
      (fun s' => NoRows s' ∧ ZeroCost (dualFixStep (s, q, st) k).2.1 s') s (dualFixStep (s, q, st) k).1 := by
  unfold dualFixStep
  simp only
  split
  · exact .refl μ _ s
  · split
    · exact .refl μ _ s
    · exact .refl μ _ s
    · exact .trans (.check s _ (fun _ h => h)) (fixCol_good μ _ (zeroCost_fixStable q) (fun _ h => h.1) _ k _)
    · exact .trans (.check s _ (fun _ h => h)) (fixCol_good μ _ (zeroCost_fixStable q) (fun _ h => h.1) _ k _)
    · rename_i h
      refine .of id (fun _ _ hi => ⟨.refl μ s, hi.1, fun p hp => ?_⟩)
      rcases List.mem_append.mp hp with hp | hp
      · exact hi.2 p hp
      · rw [List.mem_singleton.mp hp]; exact dualFixDecide_inf (Or.inl h)
    · rename_i h
      refine .of id (fun _ _ hi => ⟨.refl μ s, hi.1, fun p hp => ?_⟩)
      rcases List.mem_append.mp hp with hp | hp
      · exact hi.2 p hp
      · rw [List.mem_singleton.mp hp]; exact dualFixDecide_inf (Or.inr h)

theorem dualFixFold_good (μ : Mode) (L : List ℕ) (s : St) (q : List (ℕ × Bool)) (st : Status) :
    Good μ (fun s => NoRows s ∧ ZeroCost q s)
      (fun s' => NoRows s' ∧ ZeroCost (L.foldl dualFixStep (s, q, st)).2.1 s') s
      (L.foldl dualFixStep (s, q, st)).1 := by
  induction L generalizing s q st with
  | nil => exact .refl μ _ s
  | cons k L ih =>
    rw [List.foldl_cons]
    exact (dualFixStep_good μ s q st k).trans (ih _ _ _)

theorem fixInfFold_good (μ : Mode) (q L : List (ℕ × Bool)) (hL : ∀ p ∈ L, p ∈ q) (s : St) :
    Good μ (ZeroCost q) (ZeroCost q) s
      (L.foldl (fun s p => if p.2 then fixColPosInf s p.1 else fixColNegInf s p.1) s) := by
  induction L generalizing s with
  | nil => exact .refl μ _ s
  | cons p L ih =>
    rw [List.foldl_cons]
    exact (fixColInf_good μ q s p (hL p List.mem_cons_self)).trans
      (ih (fun x hx => hL x (List.mem_cons_of_mem _ hx)) _)

theorem simpleDualFix_good (μ : Mode) (s : St) : Good μ Clean Clean s (simpleDualFix s).1 := by
  unfold simpleDualFix
  simp only
  generalize hs1 : s.check (decide (s.emptyCols = [])) = s1
  have g0 : Good μ Clean (fun s => NoRows s ∧ ZeroCost [] s) s s1 := by
    rw [← hs1]
    exact .check s _ (fun _ h => ⟨h.1, fun p hp => by cases hp⟩)
  have g1 := dualFixFold_good μ (List.range s1.n) s1 [] UNCHANGED
  refine (g0.trans g1).trans ?_
  have g2 := fixInfFold_good μ ((List.range s1.n).foldl dualFixStep (s1, [], UNCHANGED)).2.1
    ((List.range s1.n).foldl dualFixStep (s1, [], UNCHANGED)).2.1 (fun p hp => hp)
    ((List.range s1.n).foldl dualFixStep (s1, [], UNCHANGED)).1
  refine (g2.weaken (fun _ h => h.2) (fun _ h => h)).trans ?_
  exact delBoth_good μ _ _

end Verif
