import Verif.Inv.Step

/-!
# Every elementary step keeps the structural invariant
-/

namespace Verif

theorem countLocks_congr {r r' : ℕ → RTag} {l : List Cell} (h : ∀ p ∈ l, r p.1 = r' p.1) :
    countLocks r l = countLocks r' l := by
  rw [countLocks_eq, countLocks_eq]
  congr 1
  · congr 1; exact List.map_congr_left (fun p hp => by rw [h p hp])
  · congr 1; exact List.map_congr_left (fun p hp => by rw [h p hp])

theorem DtonOut.memI {s s' : St} {i j k : ℕ} {aij aik b : ℚ} (d : DtonOut s s' i j k aij aik b)
    {t : ℕ} {v : ℚ} : (t, v) ∈ s.A i ↔ (t = j ∧ v = aij) ∨ (t = k ∧ v = aik) := by
  rcases d.cells with h | h <;> rw [h] <;> simp <;> tauto

theorem DtonOut.ne {s s' : St} {i j k : ℕ} {aij aik b : ℚ} (d : DtonOut s s' i j k aij aik b)
    (g : GI s) : j ≠ k := by
  have h := g.rowSorted i
  rintro rfl
  rcases d.cells with e | e <;> rw [e] at h <;> simp [SortedC] at h

theorem DtonOut.gi {s s' : St} {i j k : ℕ} {aij aik b : ℚ} (d : DtonOut s s' i j k aij aik b)
    (g : GI s) : GI s' := by
  have hjk := d.ne g
  have hsz : ∀ q, q ≠ i → (s'.rowSize q = -1 ↔ s.rowSize q = -1) ∧
      (s.rowSize q ≠ -1 → s'.rowSize q = ((s'.A q).length : ℤ)) := by
    intro q hq
    have h := d.rowSize q hq
    by_cases e : s.rowSize q = -1
    · have hmiss : ∀ a, (q, a) ∉ s.AT k := fun a ha => g.rowActive (d.rows _ ha) e
      rw [(d.miss q hq hmiss).1, e] at h
      refine ⟨by omega, fun h => absurd e h⟩
    · rw [g.rowSz q e] at h
      refine ⟨by omega, fun _ => by omega⟩
  have hct : ∀ t, t ≠ k → s'.ctag t = s.ctag t := fun t ht => by rw [d.ctag, upd_ne _ _ ht]
  have hrt : ∀ t, t ≠ i → s'.rtag t = s.rtag t := fun t ht => by rw [d.rtag, upd_ne _ _ ht]
  have hik : (i, aik) ∈ s.AT k := (g.agree i k aik (g.rowActive d.row) (g.colActive d.colk)).mp
    (d.memI.mpr (Or.inr ⟨rfl, rfl⟩))
  have hij : (i, aij) ∈ s.AT j := (g.agree i j aij (g.rowActive d.row) (g.colActive d.colj)).mp
    (d.memI.mpr (Or.inl ⟨rfl, rfl⟩))
  have hnoti : ∀ t, t ≠ j → t ≠ k → s.colSize t ≠ -1 → ∀ v, (i, v) ∉ s.AT t := by
    intro t h1 h2 h3 v hv
    rcases d.memI.mp ((g.agree i t v (g.rowActive d.row) h3).mpr hv) with ⟨e, _⟩ | ⟨e, _⟩
    · exact h1 e
    · exact h2 e
  have hcs : ∀ t, t ≠ k → (s'.colSize t = -1 ↔ s.colSize t = -1) := by
    intro t ht
    by_cases e : t = j
    · rw [e, d.colSize]
      have := g.colActive d.colj
      exact ⟨fun h => by omega, fun h => absurd h this⟩
    · rw [(d.col t e ht).2]
  have hnk : s'.colSize k = -1 := d.goneT.2
  have hni : s'.rowSize i = -1 := d.goneRow
  -- membership in the new rows
  have hmem : ∀ q t v, q ≠ i → t ≠ j → t ≠ k → ((t, v) ∈ s'.A q ↔ (t, v) ∈ s.A q) := by
    intro q t v hq h1 h2
    by_cases hh : ∃ a, (q, a) ∈ s.AT k
    · obtain ⟨a, ha⟩ := hh
      rw [(d.hit q a hq ha).1, mem_newRow, if_neg h1]
      tauto
    · rw [(d.miss q hq (fun a ha => hh ⟨a, ha⟩)).1]
  have hmemk : ∀ q v, q ≠ i → s.rowSize q ≠ -1 → (k, v) ∉ s'.A q := by
    intro q v hq hs hm
    by_cases hh : ∃ a, (q, a) ∈ s.AT k
    · obtain ⟨a, ha⟩ := hh
      rw [(d.hit q a hq ha).1, mem_newRow, if_neg (Ne.symm hjk)] at hm
      exact hm.2 rfl
    · rw [(d.miss q hq (fun a ha => hh ⟨a, ha⟩)).1] at hm
      exact hh ⟨v, (g.agree q k v hs (g.colActive d.colk)).mp hm⟩
  have hmemj : ∀ q v, q ≠ i → s.rowSize q ≠ -1 → ((j, v) ∈ s'.A q ↔ (q, v) ∈ s'.AT j) := by
    intro q v hq hs
    rw [d.colMem]
    by_cases hh : ∃ a, (q, a) ∈ s.AT k
    · obtain ⟨a, ha⟩ := hh
      rw [(d.hit q a hq ha).1, mem_newRow, if_pos rfl]
      constructor
      · intro h; exact ⟨hq, Or.inl ⟨⟨a, ha⟩, h⟩⟩
      · rintro ⟨_, ⟨_, h⟩ | ⟨h, _⟩⟩
        · exact h
        · exact absurd ha (h a)
    · have hh' : ∀ a, (q, a) ∉ s.AT k := fun a ha => hh ⟨a, ha⟩
      rw [(d.miss q hq hh').1, g.agree q j v hs (g.colActive d.colj)]
      constructor
      · intro h; exact ⟨hq, Or.inr ⟨hh', h⟩⟩
      · rintro ⟨_, ⟨h, _⟩ | ⟨_, h⟩⟩
        · exact absurd h hh
        · exact h
  have hztol : ∀ x : ℚ, ¬ |x| ≤ ZERO_TOL → x ≠ 0 := by
    rintro x hx rfl
    exact hx (by norm_num [ZERO_TOL])
  have hin : ∀ t, (s'.ctag t).inactive = false → t ≠ k := by
    rintro t ht rfl
    rw [d.ctag, upd_same] at ht
    cases ht
  have hini : ∀ t, (s'.rtag t).inactive = false → t ≠ i := by
    rintro t ht rfl
    rw [d.rtag, upd_same] at ht
    cases ht
  have hjn : j < s.n := (g.colRange j _ hij).1
  constructor
  · intro q hs
    have hq : q ≠ i := by rintro rfl; exact hs hni
    exact (hsz q hq).2 (fun h => hs ((hsz q hq).1.mpr h))
  · intro q hs
    by_cases hq : q = i
    · rw [hq, d.rtag, upd_same]; exact ⟨d.goneA, rfl⟩
    · have e := (hsz q hq).1.mp hs
      have hmiss : ∀ a, (q, a) ∉ s.AT k := fun a ha => g.rowActive (d.rows _ ha) e
      rw [(d.miss q hq hmiss).1, hrt q hq]
      exact g.rowGone q e
  · intro t ht
    by_cases e : t = k
    · rw [e, d.ctag, upd_same]; exact ⟨d.goneT.1, rfl⟩
    · have h := (hcs t e).mp ht
      have e' : t ≠ j := by rintro rfl; exact g.colActive d.colj h
      rw [hct t e, (d.col t e' e).1]
      exact g.colGone t h
  · intro t ht
    have e := hin t ht
    by_cases e' : t = j
    · rw [e']; exact d.colSize
    · rw [hct t e] at ht
      rw [(d.col t e' e).1, (d.col t e' e).2]
      exact g.colSz t ht
  · intro t ht
    have e : t ≠ k := by rintro rfl; exact ht hnk
    by_cases e' : t = j
    · rw [e', d.colSize]; exact_mod_cast List.length_filter_le _ _
    · rw [(d.col t e' e).1, (d.col t e' e).2]
      have hs : s.colSize t ≠ -1 := fun h => ht ((hcs t e).mpr h)
      refine le_trans ?_ (g.colPend t hs)
      have : ((s.AT t).filter (fun p => decide (s'.rowSize p.1 ≠ -1))).Sublist
          ((s.AT t).filter (fun p => decide (s.rowSize p.1 ≠ -1))) := by
        refine List.monotone_filter_right _ (fun p hp => ?_)
        rw [decide_eq_true_eq] at hp ⊢
        intro hc
        by_cases hq : p.1 = i
        · rw [hq] at hp; exact hp hni
        · exact hp ((hsz p.1 hq).1.mpr hc)
      exact_mod_cast this.length_le
  · intro q t v hq ht
    have hqi : q ≠ i := by rintro rfl; exact hq hni
    have htk : t ≠ k := by rintro rfl; exact ht hnk
    have hs : s.rowSize q ≠ -1 := fun h => hq ((hsz q hqi).1.mpr h)
    by_cases e : t = j
    · rw [e]; exact hmemj q v hqi hs
    · rw [hmem q t v hqi e htk, (d.col t e htk).1]
      exact g.agree q t v hs (fun h => ht ((hcs t htk).mpr h))
  · intro q hq p hp
    have hqi := hini q hq
    rw [hrt q hqi] at hq
    have hpk : p.1 ≠ k := by
      intro e
      exact hmemk q p.2 hqi (g.rowActive hq) (by rw [← e]; exact hp)
    rw [Ne, hcs p.1 hpk]
    by_cases e : p.1 = j
    · rw [e]; exact g.colActive d.colj
    · exact g.rowIn q hq p ((hmem q p.1 p.2 hqi e hpk).mp hp)
  · intro t ht p hp
    have htk := hin t ht
    rw [hct t htk] at ht
    by_cases e : t = j
    · rw [e] at hp
      obtain ⟨hpi, h⟩ := (d.colMem p.1 p.2).mp hp
      rw [Ne, (hsz p.1 hpi).1]
      rcases h with ⟨⟨a, ha⟩, _⟩ | ⟨_, h⟩
      · exact g.rowActive (d.rows (p.1, a) ha)
      · exact g.colIn j d.colj p h
    · rw [(d.col t e htk).1] at hp
      have hpi : p.1 ≠ i := fun h => hnoti t e htk (g.colActive ht) p.2 (by rw [← h]; exact hp)
      rw [Ne, (hsz p.1 hpi).1]
      exact g.colIn t ht p hp
  · intro q
    by_cases hq : q = i
    · rw [hq, d.goneA]; exact List.Pairwise.nil
    · by_cases hh : ∃ a, (q, a) ∈ s.AT k
      · obtain ⟨a, ha⟩ := hh
        rw [(d.hit q a hq ha).1]; exact newRow_sorted (g.rowSorted q)
      · rw [(d.miss q hq (fun a ha => hh ⟨a, ha⟩)).1]; exact g.rowSorted q
  · intro t
    by_cases e : t = j
    · rw [e]; exact d.colSorted
    · by_cases e' : t = k
      · rw [e', d.goneT.1]; exact List.Pairwise.nil
      · rw [(d.col t e e').1]; exact g.colSorted t
  · intro q p hp
    rw [d.m, d.n]
    by_cases hq : q = i
    · rw [hq, d.goneA] at hp; cases hp
    · by_cases hh : ∃ a, (q, a) ∈ s.AT k
      · obtain ⟨a, ha⟩ := hh
        rw [(d.hit q a hq ha).1] at hp
        have hp' := (mem_newRow (r := p.1) (v := p.2)).mp hp
        split at hp'
        · rename_i e
          rw [e, hp'.1]
          exact ⟨(g.colRange k _ ha).2.1, hjn, hztol _ hp'.2⟩
        · exact g.rowRange q p hp'.1
      · rw [(d.miss q hq (fun a ha => hh ⟨a, ha⟩)).1] at hp; exact g.rowRange q p hp
  · intro t p hp
    rw [d.m, d.n]
    by_cases e : t = j
    · rw [e] at hp ⊢
      obtain ⟨hpi, h⟩ := (d.colMem p.1 p.2).mp hp
      rcases h with ⟨⟨a, ha⟩, h1, h2⟩ | ⟨_, h⟩
      · rw [h1]; exact ⟨hjn, (g.colRange k _ ha).2.1, hztol _ h2⟩
      · exact g.colRange j p h
    · by_cases e' : t = k
      · rw [e', d.goneT.1] at hp; cases hp
      · rw [(d.col t e e').1] at hp; exact g.colRange t p hp
  · intro q hq hs
    have hqi : q ≠ i := by rintro rfl; exact hs hni
    rw [hrt q hqi] at hq
    rw [d.rowsToDelete]
    exact g.rowPend q hq (fun h => hs ((hsz q hqi).1.mpr h))
  · intro t ht hs
    have htk : t ≠ k := by rintro rfl; exact hs hnk
    rw [hct t htk] at ht
    rw [d.fixedCols, d.subCols]
    exact g.colPendIn t ht (fun h => hs ((hcs t htk).mpr h))
  · intro q hq
    rw [d.rowsToDelete] at hq
    have hqi : q ≠ i := by rintro rfl; exact g.rowNotDel d.row hq
    rw [hrt q hqi, Ne, (hsz q hqi).1]
    exact g.rowsDel q hq
  · rw [d.rowsToDelete]; exact g.rowsNodup
  · intro t ht
    rw [d.fixedCols, d.subCols] at ht
    have htk : t ≠ k := by rintro rfl; exact g.colNotDel d.colk ht
    rw [hct t htk, Ne, hcs t htk]
    exact g.colsDel t ht
  · rw [d.fixedCols, d.subCols]; exact g.colsNodup
  · rw [d.nnz, d.m]
  · intro t ht
    have htk := hin t ht
    rw [hct t htk] at ht
    by_cases e : t = j
    · rw [e]; exact d.locks
    · rw [(d.up t e).1, (d.up t e).2, (d.col t e htk).1, g.locks t ht]
      refine countLocks_congr (fun p hp => ?_)
      have hpi : p.1 ≠ i := fun h => hnoti t e htk (g.colActive ht) p.2 (by rw [← h]; exact hp)
      rw [hrt p.1 hpi]

theorem Raw.gi {μ : Mode} {s s' : St} (r : Raw μ s s') (g : GI s) : GI s' := by
  cases r with
  | same h => exact h.gi g
  | fix k val hk hrows h => exact h.gi (fixStep_gi g hk _ _)
  | fixInf k pos bound v hk hc h => exact h.gi (fixInfStep_gi g hk _ _ _)
  | deact i hi h => exact h.gi (deactStep_gi g hi _)
  | sides i t l r u d hi ht hl h => exact h.gi (sidesStep_gi g hi ht hl _ _ _)
  | sideRec i o t l r u d rc hi ho hne hcols ht hl hrec hμ h => exact h.gi (sidesStep_gi g hi ht hl _ _ _)
  | stonEq row k a val hi hk hrow hrows h => exact h.gi (stonEqStep_gi g hi hk hrow _)
  | emptyRow i hi hA h => exact h.gi (emptyRowStep_gi g hi hA)
  | emptyCol k v hk hT h => exact h.gi (emptyColStep_gi g hk hT _)
  | freeSton i k q side hi hk hT hcols h => exact h.gi (freeColIneq_gi g hi hk hT _)
  | half i k q b upper hi hk hT hs hcols h => exact h.gi (halfStep_gi g hi hk hT hs _ _)
  | fixSton i k q v hi hk hT h => exact h.gi (fixColSton_gi g hi hk hT _)
  | prop i num t hi hnum hrun h =>
    exact h.gi ((hrun.gi g).of_eq rfl rfl rfl rfl rfl (fun _ => rfl) rfl rfl rfl rfl rfl rfl rfl rfl)
  | dton i j k aij aik b h hcols hμ => exact h.gi g
  | merge j k ratio hjk hj hk hμ hex h => exact h.gi (mergeCols_gi g hjk hj hk _)
  | relax k t ht h =>
    refine h.gi (g.of_eq rfl rfl rfl rfl rfl (fun j => ?_) rfl rfl rfl rfl rfl rfl rfl rfl)
    show (upd s.ctag k t j).inactive = _
    by_cases e : j = k
    · rw [e, upd_same, ht]
    · rw [upd_ne _ _ e]
  | delRows h => exact h.gi (deleteInactiveRows_deleted g).gi
  | delCols hd h =>
    obtain ⟨l, r, a, o, b, e⟩ := deleteFixedCols_eq s
    have g1 : GI (deleteFixedCols s) := by
      rw [e]
      exact g.of_eq rfl rfl rfl rfl rfl (fun _ => rfl) rfl rfl rfl rfl rfl rfl rfl rfl
    exact h.gi (deleteInactiveCols_deleted g1 (by rw [e]; exact hd)).gi

end Verif
