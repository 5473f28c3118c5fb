import Verif.Inv.Del
import Verif.Props.C32_Dton

/-!
# The loop of the doubleton elimination when all tracked assertions held

`dtonFold` supposes that every rewritten row is representable.  Here that is derived from the
assertion of `insert_or_update_coeff`, and the work lists, the log and the ghost flags are followed.
-/

namespace Verif

/-- The value `update_row_A_dton` computes, also when the row is not representable. -/
theorem dtonRow_new {l : List Cell} (h : SortedC l) {j k : ℕ} (hjk : j ≠ k) {a : ℚ} (hk : (k, a) ∈ l)
    {ratio : ℚ} {r : DtonRow} (e : dtonRow l j k ratio = some r) : r.newStay = newCoef j k ratio l := by
  by_cases hf : RowFits j k ratio l
  · rw [dtonRow_eq h hjk hk hf] at e
    rw [← Option.some.inj e]
  · unfold RowFits at hf
    push Not at hf
    have hn : NoCol j l := fun p hp e => hf.2 p.2 (by rw [← e]; exact hp)
    obtain ⟨l1, l2, el, n1, n2⟩ := split_col h.nodup hk
    have hsub : l.findIdx (fun p => decide (p.1 = k)) = l1.length := by rw [el]; exact findIdx_col n1
    have hget : l[l1.length]? = some (k, a) := by rw [el]; simp
    have hold : (match l[l.findIdx (fun p => decide (j ≤ p.1))]? with
        | none => (0 : ℚ)
        | some p => if p.1 = j then p.2 else 0) = 0 := by
      cases hg : l[l.findIdx (fun p => decide (j ≤ p.1))]? with
      | none => rfl
      | some p => simp only; rw [if_neg (hn p (List.mem_of_getElem? hg))]
    unfold dtonRow at e
    simp only at e
    rw [hsub, hget] at e
    simp only at e
    have hv : newCoef j k ratio l = 0 - ratio * a := by
      unfold newCoef; rw [coefAt_noCol hn, coefAt_cell h hk]
    rw [hv]
    generalize (if l1.length < l.findIdx (fun p => decide (j ≤ p.1)) then
      l.findIdx (fun p => decide (j ≤ p.1)) - 1 else l.findIdx (fun p => decide (j ≤ p.1))) = z at e
    generalize l[l.findIdx (fun p => decide (j ≤ p.1))]? = g at hold e
    cases g with
    | none =>
      simp only at e
      split at e
      · split at e
        · rw [← Option.some.inj e]
        · cases e
      · rw [← Option.some.inj e]
    | some p =>
      simp only at e hold
      rw [hold] at e
      split at e
      · split at e
        · rw [← Option.some.inj e]
        · cases e
      · rw [← Option.some.inj e]

/-- Flags and work lists. -/
def gh (s : St) : Bool × Bool × Bool × List ℕ × List ℕ × List ℕ × List ℕ :=
  (s.asrt, s.tiny, s.near, s.emptyRows, s.stonRows, s.dtonRows, s.emptyCols)

theorem dtonNoteAct_gh (s : St) (q : ℕ) : gh (dtonNoteAct s q) = gh s := by
  unfold dtonNoteAct
  split <;> rfl

theorem dtonAct_gh (s : St) (q j k : ℕ) (r : DtonRow) : gh (dtonAct s q j k r) = gh s := by
  unfold dtonAct
  simp only
  split
  · rw [dtonNoteAct_gh]
    split
    · exact dtonNoteAct_gh _ _
    · rfl
  · split
    · rw [dtonNoteAct_gh]; rfl
    · rfl

theorem dtonSides_gh (s : St) (q : ℕ) (aik : ℚ) (b : D) (a : ℚ) : gh (dtonSides s q aik b a) = gh s := by
  unfold dtonSides
  split <;> rfl

/-- What the size bookkeeping does to the lists. -/
structure NoteOut (s u : St) (q : ℕ) (buf buf' : List ℕ) : Prop where
  asrt : u.asrt = true → s.asrt = true
  tiny : u.tiny = s.tiny
  near : u.near = s.near
  dtonRows : u.dtonRows = s.dtonRows
  emptyCols : u.emptyCols = s.emptyCols
  er : ∀ x ∈ s.emptyRows, x ∈ u.emptyRows
  er' : s.rowSize q = 0 → q ∈ u.emptyRows
  ston : ∀ x ∈ u.stonRows, x ∈ s.stonRows ∨ (x = q ∧ s.rowSize q = 1)
  buf : ∀ x ∈ buf', x ∈ buf ∨ (x = q ∧ s.rowSize q = 2)

theorem dtonNoteSize_out (s : St) (q : ℕ) (o : ℤ) (buf : List ℕ) :
    NoteOut s (dtonNoteSize s q o buf).1 q buf (dtonNoteSize s q o buf).2 := by
  unfold dtonNoteSize
  split
  · rename_i h
    refine ⟨check_asrt, rfl, rfl, rfl, rfl, fun x hx => List.mem_append_left _ hx,
      fun _ => List.mem_append_right _ (by simp), fun x hx => .inl hx, fun x hx => .inl hx⟩
  · rename_i h0
    split
    · rename_i h
      split
      · refine ⟨check_asrt, rfl, rfl, rfl, rfl, fun x hx => hx, fun e => absurd e h0, fun x hx => ?_,
          fun x hx => .inl hx⟩
        rcases List.mem_append.mp hx with hx | hx
        · exact .inl hx
        · exact .inr ⟨List.mem_singleton.mp hx, h⟩
      · exact ⟨id, rfl, rfl, rfl, rfl, fun x hx => hx, fun e => absurd e h0, fun x hx => .inl hx,
          fun x hx => .inl hx⟩
    · split
      · rename_i h
        refine ⟨id, rfl, rfl, rfl, rfl, fun x hx => hx, fun e => absurd e h0, fun x hx => .inl hx,
          fun x hx => ?_⟩
        rcases List.mem_append.mp hx with hx | hx
        · exact .inl hx
        · exact .inr ⟨List.mem_singleton.mp hx, h.1⟩
      · exact ⟨id, rfl, rfl, rfl, rfl, fun x hx => hx, fun e => absurd e h0, fun x hx => .inl hx,
          fun x hx => .inl hx⟩

theorem dtonNoteSize_out' {s : St} {q : ℕ} {o : ℤ} {buf : List ℕ} {u : St × List ℕ}
    (h : dtonNoteSize s q o buf = u) : NoteOut s u.1 q buf u.2 := by
  subst h; exact dtonNoteSize_out s q o buf

/-- If all assertions held, the rewritten row is representable. -/
theorem dtonSubstRow_asrt {i j k : ℕ} {aij aik : ℚ} (s : St) (buf : List ℕ) (p : Cell) :
    Le s (dtonSubstRow i j k aij aik (s, buf) p).1 ∧
    ((s.rtag p.1).inactive = false → (dtonSubstRow i j k aij aik (s, buf) p).1.asrt = true →
      ∃ r, dtonRow (s.A p.1) j k (aij / aik) = some r ∧ insertAssert (s.AT j) p.1 r.newStay = true) := by
  generalize he : dtonSubstRow i j k aij aik (s, buf) p = e
  unfold dtonSubstRow at he
  simp only at he
  split at he
  · rename_i h
    subst he
    exact ⟨.refl s, fun h' => by rw [h] at h'; cases h'⟩
  · rename_i h
    have h : (s.rtag p.1).inactive = false := by simpa using h
    rw [show (s.check (decide (p.1 ≠ i))).A = s.A from rfl] at he
    split at he
    · subst he
      have hF : ∀ t : St, (t.check false).asrt = false := fun t => by simp [St.check]
      refine ⟨⟨fun h => ?_, id, id⟩, fun _ h => ?_⟩
      · rw [hF] at h; cases h
      · rw [hF] at h; cases h
    · rename_i r hr
      generalize hu : dtonNoteSize _ _ _ _ = u at he
      have N := dtonNoteSize_out' hu
      have hN := dtonNoteSize_core' hu
      clear hu
      obtain ⟨u1, u2⟩ := u
      simp only at he N hN
      have Na : u1.asrt = true → s.asrt = true ∧ insertAssert (s.AT j) p.1 r.newStay = true := by
        intro h
        have h1 := N.asrt h
        simp only [St.check, St.save, Bool.and_eq_true] at h1
        exact ⟨h1.1.1.1, h1.2⟩
      have Nt : u1.tiny = false → s.tiny = false := by
        intro h
        rw [N.tiny] at h
        simp only [St.check, St.save, Bool.or_eq_false_iff] at h
        exact h.1
      have Nn : u1.near = false → s.near = false := by
        intro h
        rw [N.near] at h
        exact h
      split at he
      · subst he
        refine ⟨⟨fun h => (Na (check_asrt (s := u1.flag true) h)).1, Nt, Nn⟩, fun _ h => ?_⟩
        exact ⟨r, hr, (Na (check_asrt (s := u1.flag true) h)).2⟩
      · have G := congrArg (fun e => gh e.1) he
        simp only at G
        rw [dtonAct_gh, dtonSides_gh] at G
        simp only [gh, Prod.mk.injEq] at G
        rw [← G.1]
        exact ⟨⟨fun h => (Na (by rw [G.1]; exact h)).1, fun h => Nt (by rw [G.2.1]; exact h),
          fun h => Nn (by rw [G.2.2.1]; exact h)⟩,
          fun _ h => ⟨r, hr, (Na h).2⟩⟩

/-- What one pass of the loop body does to flags and lists. -/
theorem dtonSubstRow_out {i j k : ℕ} {aij aik : ℚ} (s : St) (buf : List ℕ) (p : Cell)
    (hact : (s.rtag p.1).inactive = false) (hrow : SortedC (s.A p.1)) (hjk : j ≠ k)
    (hk : ∃ a, (k, a) ∈ s.A p.1) (hf : RowFits j k (aij / aik) (s.A p.1))
    (hcol : SortedC (s.AT j))
    (hcf : |newCoef j k (aij / aik) (s.A p.1)| ≤ ZERO_TOL → ∃ w, (p.1, w) ∈ s.AT j)
    (hsz : s.rowSize p.1 = ((s.A p.1).length : ℤ)) :
    let r := dtonSubstRow i j k aij aik (s, buf) p
    let row := newRow j k (aij / aik) (s.A p.1)
    let new := newCoef j k (aij / aik) (s.A p.1)
    r.1.tiny = (s.tiny || (decide (new ≠ 0) && decide (|new| ≤ ZERO_TOL))) ∧
    r.1.dtonRows = s.dtonRows ∧ r.1.emptyCols = s.emptyCols ∧
    (∀ x ∈ s.emptyRows, x ∈ r.1.emptyRows) ∧ (row = [] → p.1 ∈ r.1.emptyRows) ∧
    (∀ x ∈ r.1.stonRows, x ∈ s.stonRows ∨ (x = p.1 ∧ row.length = 1)) ∧
    (∀ x ∈ r.2, x ∈ buf ∨ (x = p.1 ∧ row.length = 2)) := by
  intro e row new
  have he : e = dtonSubstRow i j k aij aik (s, buf) p := rfl
  clear_value e
  obtain ⟨a, ha⟩ := hk
  unfold dtonSubstRow at he
  simp only at he
  rw [if_neg (by rw [hact]; decide)] at he
  rw [show (s.check (decide (p.1 ≠ i))).A = s.A from rfl, dtonRow_eq hrow hjk ha hf] at he
  simp only at he
  generalize hu : dtonNoteSize _ _ _ _ = u at he
  have N := dtonNoteSize_out' hu
  have hN := dtonNoteSize_core' hu
  clear hu
  obtain ⟨u1, u2⟩ := u
  simp only at he N hN
  have hAT : u1.AT = s.AT := congrArg (fun t => t.1) hN.2
  rw [hAT, insertOrUpd_eq hcol hcf] at he
  simp only at he
  have G := congrArg (fun e => gh e.1) he
  have G2 := congrArg (fun e => e.2) he
  simp only at G G2
  rw [dtonAct_gh, dtonSides_gh] at G
  simp only [gh, Prod.mk.injEq] at G
  obtain ⟨g1, g2, -, g3, g4, g5, g6⟩ := G
  have hS : ∀ z : ℤ, upd s.rowSize p.1 (s.rowSize p.1 - (((s.A p.1).length : ℤ) - (row.length : ℤ))) p.1 = z ↔
      (row.length : ℤ) = z := by
    intro z; rw [upd_same, hsz]
    constructor <;> intro h <;> omega
  rw [g2, g3, g4, g5, g6, G2]
  refine ⟨N.tiny, N.dtonRows, N.emptyCols, N.er, fun h => N.er' ((hS 0).mpr (by rw [h]; rfl)),
    fun x hx => ?_, fun x hx => ?_⟩
  · rcases N.ston x hx with h | ⟨h, h'⟩
    · exact .inl h
    · exact .inr ⟨h, by have := (hS 1).mp h'; omega⟩
  · rcases N.buf x hx with h | ⟨h, h'⟩
    · exact .inl h
    · exact .inr ⟨h, by have := (hS 2).mp h'; omega⟩

/-- What the loop does to flags, lists and log. -/
structure DtonGhost (s s' : St) (buf buf' : List ℕ) (L : List Cell) (i j k : ℕ) (aij aik : ℚ) : Prop where
  fits : ∀ p ∈ L, (s.rtag p.1).inactive = false →
    |newCoef j k (aij / aik) (s.A p.1)| ≤ ZERO_TOL → ∃ w, (p.1, w) ∈ s.AT j
  tiny : s'.tiny = false → ∀ p ∈ L, (s.rtag p.1).inactive = false →
    |newCoef j k (aij / aik) (s.A p.1)| ≤ ZERO_TOL → newCoef j k (aij / aik) (s.A p.1) = 0
  dtonRows : s'.dtonRows = s.dtonRows
  emptyCols : s'.emptyCols = s.emptyCols
  er : ∀ x ∈ s.emptyRows, x ∈ s'.emptyRows
  er' : ∀ p ∈ L, (s.rtag p.1).inactive = false → s'.A p.1 = [] → p.1 ∈ s'.emptyRows
  ston : ∀ x ∈ s'.stonRows, x ∈ s.stonRows ∨ (s'.A x).length ≤ 1
  buf : ∀ x ∈ buf', x ∈ buf ∨ (s'.A x).length ≤ 2
  log : s'.log = ((L.filter (fun p => !(s.rtag p.1).inactive)).map
    (fun p => Rec.addedRow i p.1 (-p.2 / aik))).reverse ++ s.log

theorem dtonFold_le {i j k : ℕ} {aij aik : ℚ} (L : List Cell) (s : St) (buf : List ℕ) :
    Le s (L.foldl (dtonSubstRow i j k aij aik) (s, buf)).1 := by
  induction L generalizing s buf with
  | nil => exact .refl s
  | cons p L ih =>
    rw [List.foldl_cons]
    exact (dtonSubstRow_asrt s buf p).1.trans (ih _ _)

theorem insertAssert_iff {l : List Cell} {q : ℕ} {v : ℚ} (h : insertAssert l q v = true) :
    |v| ≤ ZERO_TOL → ∃ w, (q, w) ∈ l := by
  intro hv
  unfold insertAssert at h
  rw [Bool.or_eq_true] at h
  rcases h with h | h
  · exact absurd hv (not_le.mpr (by simpa using h))
  · obtain ⟨p, hp, e⟩ := List.any_eq_true.mp h
    exact ⟨p.2, by rw [← of_decide_eq_true e]; exact hp⟩

/-- The loop when all assertions held. -/
theorem dtonFold_asrt {i j k : ℕ} {aij aik b : ℚ} (hjk : j ≠ k) (L : List Cell) (s : St) (buf : List ℕ)
    (hnd : (L.map Prod.fst).Nodup) (hi : (s.rtag i).inactive = true)
    (hrows : ∀ p ∈ L, (s.rtag p.1).inactive = false → SortedC (s.A p.1) ∧ (k, p.2) ∈ s.A p.1 ∧
      s.rowSize p.1 = ((s.A p.1).length : ℤ) ∧ ((∃ w, (p.1, w) ∈ s.AT j) → ∃ w, (j, w) ∈ s.A p.1))
    (hcol : SortedC (s.AT j)) (hb : s.rhs i = .fin b)
    (ha : (L.foldl (dtonSubstRow i j k aij aik) (s, buf)).1.asrt = true) :
    DtonGhost s (L.foldl (dtonSubstRow i j k aij aik) (s, buf)).1 buf
      (L.foldl (dtonSubstRow i j k aij aik) (s, buf)).2 L i j k aij aik ∧
    DtonDone s (L.foldl (dtonSubstRow i j k aij aik) (s, buf)).1 L i j k aij aik b := by
  suffices H : DtonGhost s (L.foldl (dtonSubstRow i j k aij aik) (s, buf)).1 buf
      (L.foldl (dtonSubstRow i j k aij aik) (s, buf)).2 L i j k aij aik by
    refine ⟨H, dtonFold hjk L s buf hnd hi (fun q hq => ?_) hcol hb⟩
    obtain ⟨p, hp, rfl⟩ := List.mem_map.mp hq.1
    obtain ⟨h1, h2, h3, h4⟩ := hrows p hp hq.2
    exact ⟨h1, ⟨_, h2⟩, fun h => h4 (H.fits p hp hq.2 h), H.fits p hp hq.2⟩
  induction L generalizing s buf with
  | nil =>
    exact ⟨by simp, by simp, rfl, rfl, fun _ h => h, by simp, fun _ h => .inl h, fun _ h => .inl h, rfl⟩
  | cons p L ih =>
    rw [List.map_cons, List.nodup_cons] at hnd
    rw [List.foldl_cons] at ha ⊢
    have hrowsT : ∀ p ∈ L, _ := fun q hq => hrows q (List.mem_cons_of_mem _ hq)
    by_cases hact : (s.rtag p.1).inactive = true
    · have e : dtonSubstRow i j k aij aik (s, buf) p = (s, buf) := by
        unfold dtonSubstRow; simp only; rw [if_pos hact]
      rw [e] at ha ⊢
      have H := ih s buf hnd.2 hi hrowsT hcol hb ha
      refine ⟨fun q hq hqa => ?_, fun ht q hq hqa => ?_, H.dtonRows, H.emptyCols, H.er, fun q hq hqa => ?_,
        H.ston, H.buf, ?_⟩
      · rcases List.mem_cons.mp hq with rfl | hq
        · rw [hact] at hqa; cases hqa
        · exact H.fits q hq hqa
      · rcases List.mem_cons.mp hq with rfl | hq
        · rw [hact] at hqa; cases hqa
        · exact H.tiny ht q hq hqa
      · rcases List.mem_cons.mp hq with rfl | hq
        · rw [hact] at hqa; cases hqa
        · exact H.er' q hq hqa
      · rw [List.filter_cons_of_neg (by simp [hact])]; exact H.log
    · have hact : (s.rtag p.1).inactive = false := by simpa using hact
      obtain ⟨g1, g2, g3, g4⟩ := hrows p List.mem_cons_self hact
      have hau : (dtonSubstRow i j k aij aik (s, buf) p).1.asrt = true :=
        (dtonFold_le L _ _).asrt ha
      obtain ⟨r, hr, hr'⟩ := (dtonSubstRow_asrt s buf p).2 hact hau
      rw [dtonRow_new g1 hjk g2 hr] at hr'
      have hcf := insertAssert_iff hr'
      have hf : RowFits j k (aij / aik) (s.A p.1) := fun h => g4 (hcf h)
      obtain ⟨hC, hS⟩ := dtonSubstRow_step s buf p hact g1 hjk ⟨_, g2⟩ hf hcol hcf hb
      have hO := dtonSubstRow_out (i := i) s buf p hact g1 hjk ⟨_, g2⟩ hf hcol hcf g3
      generalize dtonSubstRow i j k aij aik (s, buf) p = u at hC hS hO ha hau
      obtain ⟨u, buf'⟩ := u
      simp only at hC hS hO hau
      obtain ⟨o1, o2, o3, o4, o5, o6, o7⟩ := hO
      have C := core_iff hC
      simp only [skel, Prod.mk.injEq] at hS
      obtain ⟨s1, s2, s3, s4, s5, s6, s7, s8, s9⟩ := hS
      have hpi : i ≠ p.1 := by intro e; rw [e, hact] at hi; cases hi
      have hne : ∀ q ∈ L, q.1 ≠ p.1 := fun q hq e => hnd.1 (List.mem_map.mpr ⟨q, hq, e⟩)
      have hAq : ∀ q, q ≠ p.1 → u.A q = s.A q := fun q hq => by rw [C.A, upd_ne _ _ hq]
      have hcolu : SortedC (u.AT j) := by rw [s1, upd_same]; exact newCol_sorted hcol
      have hmemu : ∀ q, q ≠ p.1 → ∀ v, (q, v) ∈ u.AT j ↔ (q, v) ∈ s.AT j := by
        intro q hq v; rw [s1, upd_same, mem_newCol, if_neg hq]
      have hbu : u.rhs i = .fin b := by rw [C.rhs, upd_ne _ _ hpi]; exact hb
      have hiu : (u.rtag i).inactive = true := by rw [C.rtag]; exact hi
      have hrowsU : ∀ q ∈ L, (u.rtag q.1).inactive = false → SortedC (u.A q.1) ∧ (k, q.2) ∈ u.A q.1 ∧
          u.rowSize q.1 = ((u.A q.1).length : ℤ) ∧
          ((∃ w, (q.1, w) ∈ u.AT j) → ∃ w, (j, w) ∈ u.A q.1) := by
        intro q hq hqa
        have hq' := hne q hq
        rw [C.rtag] at hqa
        obtain ⟨k1, k2, k3, k4⟩ := hrowsT q hq hqa
        rw [hAq _ hq', s2, upd_ne _ _ hq']
        exact ⟨k1, k2, k3, fun ⟨w, hw⟩ => k4 ⟨w, (hmemu _ hq' w).mp hw⟩⟩
      have H := ih u buf' hnd.2 hiu hrowsU hcolu hbu ha
      have D := dtonFold hjk L u buf' hnd.2 hiu (fun q hq => by
        obtain ⟨p', hp', rfl⟩ := List.mem_map.mp hq.1
        obtain ⟨h1, h2, h3, h4⟩ := hrowsU p' hp' hq.2
        exact ⟨h1, ⟨_, h2⟩, fun h => h4 (H.fits p' hp' hq.2 h), H.fits p' hp' hq.2⟩) hcolu hbu
      have hLe := dtonFold_le (i := i) (j := j) (k := k) (aij := aij) (aik := aik) L u buf'
      generalize L.foldl (dtonSubstRow i j k aij aik) (u, buf') = f at H D ha hLe
      have hnot : ¬ Hit u L p.1 := fun h => hnd.1 h.1
      have hfA : f.1.A p.1 = newRow j k (aij / aik) (s.A p.1) := by
        rw [(D.miss p.1 hnot).1, C.A, upd_same]
      refine ⟨fun q hq hqa hle => ?_, fun ht q hq hqa hle => ?_, H.dtonRows.trans o2,
        H.emptyCols.trans o3, fun x hx => H.er x (o4 x hx), fun q hq hqa hA => ?_, fun x hx => ?_,
        fun x hx => ?_, ?_⟩
      · rcases List.mem_cons.mp hq with rfl | hq
        · exact hcf hle
        · obtain ⟨w, hw⟩ := H.fits q hq (by rw [C.rtag]; exact hqa) (by rw [hAq _ (hne q hq)]; exact hle)
          exact ⟨w, (hmemu _ (hne q hq) w).mp hw⟩
      · rcases List.mem_cons.mp hq with rfl | hq
        · have h1 := hLe.tiny ht
          rw [o1, Bool.or_eq_false_iff] at h1
          by_contra h0
          have := h1.2
          rw [Bool.and_eq_false_iff] at this
          simp [h0, hle] at this
        · have := H.tiny ht q hq (by rw [C.rtag]; exact hqa) (by rw [hAq _ (hne q hq)]; exact hle)
          rwa [hAq _ (hne q hq)] at this
      · rcases List.mem_cons.mp hq with rfl | hq
        · exact H.er _ (o5 (hfA ▸ hA))
        · exact H.er' q hq (by rw [C.rtag]; exact hqa) hA
      · rcases H.ston x hx with h | h
        · rcases o6 x h with h | ⟨h, h'⟩
          · exact .inl h
          · exact .inr (by rw [h, hfA, h'])
        · exact .inr h
      · rcases H.buf x hx with h | h
        · rcases o7 x h with h | ⟨h, h'⟩
          · exact .inl h
          · exact .inr (by rw [h, hfA, h'])
        · exact .inr h
      · rw [H.log, C.log, List.filter_cons_of_pos (by simp [hact]), C.rtag, coefAt_cell g1 g2]
        simp

end Verif
