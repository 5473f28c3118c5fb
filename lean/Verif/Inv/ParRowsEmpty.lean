import Verif.Inv.Calls

/-!
# Removing parallel rows empties no column

Each deleted row leaves a row with the same columns behind, so that no column loses its last cell.
-/

namespace Verif

/-- What the trivial explorers leave behind. -/
structure TE (s : St) : Prop where
  ston : s.stonRows = []
  row : s.emptyRows = []
  col : s.emptyCols = []

/-- Sides, kinds and counters of rows may change, but neither the matrix nor the lists. -/
structure SideOnly (s t : St) : Prop where
  A : t.A = s.A
  AT : t.AT = s.AT
  ston : t.stonRows = s.stonRows
  row : t.emptyRows = s.emptyRows
  col : t.emptyCols = s.emptyCols
  del : t.rowsToDelete = s.rowsToDelete

theorem SideOnly.refl (s : St) : SideOnly s s := ⟨rfl, rfl, rfl, rfl, rfl, rfl⟩

theorem SideOnly.trans {a b c : St} (h : SideOnly a b) (k : SideOnly b c) : SideOnly a c :=
  ⟨k.A.trans h.A, k.AT.trans h.AT, k.ston.trans h.ston, k.row.trans h.row, k.col.trans h.col, k.del.trans h.del⟩

theorem changeRhs_side (s : St) (i : ℕ) (q : D) (o : ℕ) (ρ : ℚ) : SideOnly s (changeRhs s i q o ρ).1 := by
  rcases changeRhs_form s i q o ρ with ⟨b, e, -⟩ | ⟨tag, r, u, d, dt, b, e, -⟩
  · rw [e]; exact ⟨rfl, rfl, rfl, rfl, rfl, rfl⟩
  · rw [e]; exact ⟨rfl, rfl, rfl, rfl, rfl, rfl⟩

theorem changeLhs_side (s : St) (i : ℕ) (q : D) (o : ℕ) (ρ : ℚ) : SideOnly s (changeLhs s i q o ρ).1 := by
  rcases changeLhs_form s i q o ρ with ⟨b, e, -⟩ | ⟨tag, r, u, d, dt, b, e, -⟩
  · rw [e]; exact ⟨rfl, rfl, rfl, rfl, rfl, rfl⟩
  · rw [e]; exact ⟨rfl, rfl, rfl, rfl, rfl, rfl⟩

theorem parApply_side (s : St) (p : ParRow) : SideOnly s (parApply s p).1 := by
  unfold parApply
  simp only
  have k := changeRhs_side s p.rem p.newRhs p.rhsIdx p.rhsRatio
  split_ifs
  all_goals first
    | exact .refl s
    | exact k
    | exact k.trans (changeLhs_side _ _ _ _ _)
    | exact changeLhs_side _ _ _ _ _

/-- Rows are deleted; the matrix and the lists stay. -/
structure RowsMarked (s t : St) : Prop where
  A : t.A = s.A
  AT : t.AT = s.AT
  ston : t.stonRows = s.stonRows
  row : t.emptyRows = s.emptyRows
  col : t.emptyCols = s.emptyCols

theorem RowsMarked.trans {a b c : St} (h : RowsMarked a b) (k : RowsMarked b c) : RowsMarked a c :=
  ⟨k.A.trans h.A, k.AT.trans h.AT, k.ston.trans h.ston, k.row.trans h.row, k.col.trans h.col⟩

theorem SideOnly.marked {s t : St} (h : SideOnly s t) : RowsMarked s t := ⟨h.A, h.AT, h.ston, h.row, h.col⟩

theorem setRows_marked (keep : ℕ) (L : List ℕ) (s : St) :
    RowsMarked s (L.foldl (fun s i => if i = keep then s else setRowToInactive s i 0) s) ∧
    (L.foldl (fun s i => if i = keep then s else setRowToInactive s i 0) s).rowsToDelete =
      s.rowsToDelete ++ L.filter (fun i => decide (i ≠ keep)) := by
  induction L generalizing s with
  | nil => exact ⟨⟨rfl, rfl, rfl, rfl, rfl⟩, by simp⟩
  | cons i L ih =>
    rw [List.foldl_cons]
    by_cases e : i = keep
    · rw [if_pos e]
      refine ⟨(ih s).1, ?_⟩
      rw [(ih s).2, List.filter_cons_of_neg (by simp [e])]
    · rw [if_neg e]
      refine ⟨RowsMarked.trans (b := setRowToInactive s i 0) ⟨rfl, rfl, rfl, rfl, rfl⟩ (ih _).1, ?_⟩
      rw [(ih _).2, List.filter_cons_of_pos (by simp [e])]
      show (s.rowsToDelete ++ [i]) ++ _ = _
      rw [List.append_assoc]; rfl

theorem parRowsBin_marked (s : St) (bin : List ℕ) (hnd : bin.Nodup) (h : (parRowsBin s bin).2 ≠ INFEASIBLE) :
    RowsMarked s (parRowsBin s bin).1 ∧
    (bin = [] ∧ (parRowsBin s bin).1.rowsToDelete = s.rowsToDelete ∨
      ∃ k ∈ bin, (parRowsBin s bin).1.rowsToDelete = s.rowsToDelete ++ bin.filter (fun i => decide (i ≠ k))) := by
  unfold parRowsBin at h ⊢
  cases bin with
  | nil => exact ⟨⟨rfl, rfl, rfl, rfl, rfl⟩, .inl ⟨rfl, rfl⟩⟩
  | cons r rest =>
    simp only at h ⊢
    generalize hs : s.flag ((r :: rest).any (fun i => decide (s.A i = []))) = s1 at h ⊢
    have h1 : SideOnly s s1 := by rw [← hs]; exact ⟨rfl, rfl, rfl, rfl, rfl, rfl⟩
    cases hp : parRowLoop s1 rest (parRowInit s1 r) with
    | none => rw [hp] at h; exact absurd rfl h
    | some p =>
      rw [hp] at h
      simp only at h ⊢
      have hmem : p.rem ∈ r :: rest := by
        refine (parRowLoop_parInv (s := s1) (r := r) (bin := r :: rest) rest (p := parRowInit s1 r)
          ⟨fun _ => rfl, fun _ => .inl ⟨rfl, rfl⟩, fun _ => .inl ⟨rfl, rfl⟩, List.mem_cons_self⟩
          (fun i hi => ⟨List.mem_cons_of_mem _ hi, fun e => ?_⟩) hp).mem
        rw [e] at hi
        exact (List.nodup_cons.mp hnd).1 hi
      have h2 := h1.trans (parApply_side s1 p)
      by_cases hi : (parApply s1 p).2 = INFEASIBLE
      · rw [if_pos hi] at h; exact absurd rfl h
      · rw [if_neg hi]
        obtain ⟨a, b⟩ := setRows_marked p.rem (r :: rest) (parApply s1 p).1
        refine ⟨h2.marked.trans a, .inr ⟨p.rem, hmem, ?_⟩⟩
        rw [b, h2.del]

/-- Each row of a group that is marked has a companion in its group that is not. -/
theorem parRowsBins_marked (groups : List (List ℕ)) (hnd : groups.flatten.Nodup) (s : St)
    (hd : ∀ i ∈ groups.flatten, i ∉ s.rowsToDelete) (h : (parRowsBins groups s).2 ≠ INFEASIBLE) :
    RowsMarked s (parRowsBins groups s).1 ∧
    ∀ i ∈ (parRowsBins groups s).1.rowsToDelete, i ∈ s.rowsToDelete ∨
      ∃ g ∈ groups, i ∈ g ∧ ∃ k ∈ g, k ∉ (parRowsBins groups s).1.rowsToDelete := by
  induction groups generalizing s with
  | nil => exact ⟨⟨rfl, rfl, rfl, rfl, rfl⟩, fun i hi => .inl hi⟩
  | cons bin rest ih =>
    rw [List.flatten_cons] at hnd hd
    obtain ⟨hb, hr, hdis⟩ := List.nodup_append.mp hnd
    unfold parRowsBins at h ⊢
    simp only at h ⊢
    by_cases hi : (parRowsBin s bin).2 = INFEASIBLE
    · rw [if_pos hi] at h; exact absurd hi h
    rw [if_neg hi] at h ⊢
    obtain ⟨m1, c1⟩ := parRowsBin_marked s bin hb hi
    generalize (parRowsBin s bin).1 = t at m1 c1 h
    have hsub : ∀ i ∈ t.rowsToDelete, i ∈ s.rowsToDelete ∨ i ∈ bin := by
      intro i hi
      rcases c1 with ⟨-, e⟩ | ⟨k, -, e⟩
      · exact .inl (e ▸ hi)
      · rw [e] at hi
        exact (List.mem_append.mp hi).imp id (fun h => (List.mem_filter.mp h).1)
    obtain ⟨m2, c2⟩ := ih hr t (fun i hi ht => by
      rcases hsub i ht with h | h
      · exact hd i (List.mem_append_right _ hi) h
      · exact hdis i h i hi rfl) h
    refine ⟨m1.trans m2, fun i hi => ?_⟩
    rcases c2 i hi with h3 | ⟨g, hg, h3⟩
    · rcases hsub i h3 with h4 | h4
      · exact .inl h4
      · refine .inr ⟨bin, List.mem_cons_self, h4, ?_⟩
        rcases c1 with ⟨e, -⟩ | ⟨k, hk, e⟩
        · rw [e] at h4; cases h4
        refine ⟨k, hk, fun hk' => ?_⟩
        rcases c2 k hk' with h5 | ⟨g, hg, h5, -⟩
        · rw [e] at h5
          rcases List.mem_append.mp h5 with h5 | h5
          · exact hd k (List.mem_append_left _ hk) h5
          · exact of_decide_eq_true (List.mem_filter.mp h5).2 rfl
        · exact hdis k hk k (List.mem_flatten.mpr ⟨g, hg, h5⟩) rfl
    · exact .inr ⟨g, List.mem_cons_of_mem _ hg, h3⟩

/-- The members of a group have the same columns. -/
theorem groups_supp {env : Env} (hs : env.SortOK) {tick : ℕ} {M : ℕ → List Cell} {inactive : ℕ → Bool} {n : ℕ}
    {g : List ℕ} (hg : g ∈ findParallel env tick M inactive n) {i k : ℕ} (hi : i ∈ g) (hk : k ∈ g) :
    (M i).map Prod.fst = (M k).map Prod.fst := by
  have hp := hs.perm tick (rowKey env tick M inactive) (List.range n)
  obtain ⟨par, f, e, -, -, hpar⟩ := (findGroups_sound (rowKey env tick M inactive) inactive M
    (env.sort tick (rowKey env tick M inactive) (List.range n)) (hp.nodup_iff.mpr List.nodup_range)).2.2 g hg
  have key : ∀ j ∈ g, (M f).map Prod.fst = (M j).map Prod.fst := by
    intro j hj
    rw [e] at hj
    rcases List.mem_append.mp hj with h | h
    · exact (ParallelTol_of (hpar j h).2).1
    · rw [List.mem_singleton.mp h]
  exact (key i hi).symm.trans (key k hk)

theorem delOneRow_nec (L : List ℕ) (s : St) :
    (L.foldl delOneRow s).emptyCols = s.emptyCols ∧ (L.foldl delOneRow s).n = s.n := by
  have hc : ∀ (t : RTag) (cells : List Cell) (s : St), (cells.foldl (delRowCell t) s).emptyCols = s.emptyCols ∧
      (cells.foldl (delRowCell t) s).n = s.n := by
    intro t cells
    induction cells with
    | nil => exact fun _ => ⟨rfl, rfl⟩
    | cons p cells ih =>
      intro s
      rw [List.foldl_cons, (ih _).1, (ih _).2]
      unfold delRowCell lockDel
      split
      · exact ⟨rfl, rfl⟩
      · exact ⟨rfl, rfl⟩
  induction L generalizing s with
  | nil => exact ⟨rfl, rfl⟩
  | cons i L ih =>
    rw [List.foldl_cons, (ih _).1, (ih _).2]
    unfold delOneRow
    simp only
    split
    · exact ⟨rfl, rfl⟩
    · exact hc _ _ _

theorem deleteInactiveRows_newEmpty (s : St) (k : ℕ) (hk : k ∈ (deleteInactiveRows s).emptyCols) :
    k ∈ s.emptyCols ∨ k < s.n := by
  unfold deleteInactiveRows at hk
  split at hk
  · exact .inl hk
  · simp only at hk
    obtain ⟨e, hn⟩ := delOneRow_nec s.rowsToDelete s
    rw [hn] at hk
    generalize s.rowsToDelete.foldl delOneRow s = t at e hk
    have key : ∀ (L : List ℕ) (t : St), k ∈ (L.foldl delCompactCol t).emptyCols → k ∈ t.emptyCols ∨ k ∈ L := by
      intro L
      induction L with
      | nil => exact fun _ h => .inl h
      | cons c L ih =>
        intro t h
        rw [List.foldl_cons] at h
        rcases ih _ h with h | h
        · unfold delCompactCol at h
          simp only at h
          split at h
          · exact .inl h
          · split at h
            · rcases List.mem_append.mp h with h | h
              · exact .inl h
              · exact .inr (List.mem_singleton.mp h ▸ List.mem_cons_self)
            · split at h
              · exact .inl h
              · exact .inl h
        · exact .inr (List.mem_cons_of_mem _ h)
    rcases key _ t hk with h | h
    · exact .inl (e ▸ h)
    · exact .inr (List.mem_range.mp h)

theorem removeParallelRows_te {env : Env} (hs : env.SortOK) {s : St} (inv : Inv s) (c : CE s)
    (h : (removeParallelRows env s).2 ≠ INFEASIBLE) (o : (removeParallelRows env s).1.asrt = true) :
    TE (removeParallelRows env s).1 := by
  unfold removeParallelRows at h o ⊢
  simp only at h o ⊢
  generalize hs1 : ((s.check (decide (s.stonRows = []))).check (decide (s.emptyRows = []))).check
    (decide (s.emptyCols = [])) = s1 at h o ⊢
  have g1 : Good Mode.all CE (fun t => CE t ∧ TE t) s s1 := by
    rw [← hs1]
    refine .trans (J := fun t => CE t ∧ t.stonRows = []) (.check s _ (fun h h' => ⟨h', of_decide_eq_true h⟩))
      (.trans (J := fun t => (CE t ∧ t.stonRows = []) ∧ t.emptyRows = []) (.check _ _ (fun h h' => ⟨h', of_decide_eq_true h⟩))
      (.check _ _ (fun h h' => ⟨h'.1.1, ⟨h'.1.2, h'.2, of_decide_eq_true h⟩⟩)))
  have hg : Inv s1 → (CE s1 ∧ TE s1) →
      RowsReady (findParallel env s1.tick s1.A (fun i => (s1.rtag i).inactive) s1.m).flatten s1 := by
    intro inv h
    have hc := groups_cells hs (tick := s1.tick) (M := s1.A) (inactive := fun i => (s1.rtag i).inactive) (n := s1.m)
      (fun i hi ha hA => by
        have := h.1.2.1 i hi ha hA
        rw [h.2.row] at this; cases this)
    refine ⟨h.1.1.2, fun i hi => ⟨?_, (hc.2 i hi).2⟩⟩
    cases hx : (s1.rtag i).inactive with
    | false => rfl
    | true =>
      exfalso
      by_cases hr : s1.rowSize i = -1
      · exact (hc.2 i hi).2 (inv.gi.rowGone i hr).1
      · have := inv.gi.rowPend i hx hr
        rw [h.1.1.1] at this; cases this
  have hnd : (findParallel env s1.tick s1.A (fun i => (s1.rtag i).inactive) s1.m).flatten.Nodup := (findGroups_sound (rowKey env s1.tick s1.A (fun i => (s1.rtag i).inactive))
    (fun i => (s1.rtag i).inactive) s1.A
    (env.sort s1.tick (rowKey env s1.tick s1.A (fun i => (s1.rtag i).inactive)) (List.range s1.m))
    ((hs.perm _ _ _).nodup_iff.mpr List.nodup_range)).1
  have gt : Good Mode.all (fun t => CE t ∧ TE t)
      (RowsReady (findParallel env s1.tick s1.A (fun i => (s1.rtag i).inactive) s1.m).flatten) s1
      { s1 with tick := s1.tick + 1 } :=
    .of (fun o => o) (fun _ inv h => ⟨.of_same (by constructor <;> rfl) rfl rfl rfl, hg inv h⟩)
  have g2 := gt.trans (parRowsBins_good Mode.all rfl _ hnd _)
  have hm := parRowsBins_marked _ hnd { s1 with tick := s1.tick + 1 }
  have hsupp := fun g hg i k hi hk => groups_supp hs (tick := s1.tick) (M := s1.A)
    (inactive := fun i => (s1.rtag i).inactive) (n := s1.m) (g := g) hg (i := i) (k := k) hi hk
  have o2 : (parRowsBins (findParallel env s1.tick s1.A (fun i => (s1.rtag i).inactive) s1.m)
      { s1 with tick := s1.tick + 1 }).1.asrt = true := ok_all.mp ((deleteInactiveRows_le _).ok (ok_all.mpr o))
  obtain ⟨o1, k2⟩ := g2 (ok_all.mpr o2)
  obtain ⟨-, k1⟩ := g1 o1
  obtain ⟨R1, c1, e1⟩ := k1 inv c
  have inv1 := R1.inv inv
  obtain ⟨R2, -⟩ := k2 inv1 ⟨c1, e1⟩
  have gi2 := (R2.inv inv1).gi
  have em2 := (R2.em c1.2).2
  have hmk := hm (fun i _ hi => by
    have hi : i ∈ s1.rowsToDelete := hi
    rw [c1.1.1] at hi; cases hi) h
  generalize parRowsBins (findParallel env s1.tick s1.A (fun i => (s1.rtag i).inactive) s1.m)
      { s1 with tick := s1.tick + 1 } = r at gi2 em2 hmk
  obtain ⟨m, hdel⟩ := hmk
  have d := deleteInactiveRows_deleted gi2
  have mA : r.1.A = s1.A := m.A
  refine ⟨?_, ?_, ?_⟩
  · rw [d.eq]; exact m.ston.trans e1.ston
  · rw [d.eq]; exact m.row.trans e1.row
  · refine List.eq_nil_iff_forall_not_mem.mpr (fun k hk => ?_)
    rcases d.empty k hk with h0 | ⟨hact, hnil⟩
    · rw [m.col.trans e1.col] at h0; cases h0
    rw [d.AT k hact] at hnil
    have hkn : k < r.1.n := (deleteInactiveRows_newEmpty r.1 k hk).resolve_left (fun h => by
      rw [m.col.trans e1.col] at h; cases h)
    have hne : r.1.AT k ≠ [] := fun h0 => by
      have := em2 k hkn hact h0
      rw [m.col.trans e1.col] at this; cases this
    obtain ⟨p, hp⟩ := List.exists_mem_of_ne_nil _ hne
    have hpd : ∀ q ∈ r.1.AT k, q.1 ∈ r.1.rowsToDelete := fun q hq => by
      by_contra hq'
      have : q ∈ offRows r.1.rowsToDelete (r.1.AT k) := List.mem_filter.mpr ⟨hq, by simpa using hq'⟩
      rw [hnil] at this; cases this
    rcases hdel p.1 (hpd p hp) with h0 | ⟨g, hg, hpg, i, hi, hnot⟩
    · have h0 : p.1 ∈ s1.rowsToDelete := h0
      rw [c1.1.1] at h0; cases h0
    have hrow : (k, p.2) ∈ r.1.A p.1 := (gi2.agree p.1 k p.2 (gi2.colIn k hact p hp) (gi2.colActive hact)).mpr hp
    have hk2 : k ∈ (r.1.A i).map Prod.fst := by
      have h0 := hsupp g hg p.1 i hpg hi
      rw [mA, ← h0, ← mA]
      exact List.mem_map.mpr ⟨_, hrow, rfl⟩
    obtain ⟨q, hq, hqk⟩ := List.mem_map.mp hk2
    have hi1 : r.1.rowSize i ≠ -1 := fun h0 => by
      rw [(gi2.rowGone i h0).1] at hq; cases hq
    have hq : (k, q.2) ∈ r.1.A i := by rw [← hqk]; exact hq
    exact hnot (hpd _ ((gi2.agree i k q.2 hi1 (gi2.colActive hact)).mp hq))

end Verif
