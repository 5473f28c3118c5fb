import Verif.Inv.QueuedRun

/-!
# The list of rows waiting for propagation, and the row tags

`UpdOK s` says that the list `updated_activities` and the status of the activities fit together: a row is
listed exactly when its status is `ADDED`, and nothing is listed twice.  `Weak s` is what remains of it
inside propagation.  `TagOK s` says that the infinite sides of the rows and their tags fit together.
`Lup s t` says that a piece of a run preserves the three.
-/

namespace Verif

/-- The list of updated activities and the status of the activities fit together. -/
structure UpdOK (s : St) : Prop where
  nodup : s.updActs.Nodup
  mem : ∀ i, i ∈ s.updActs ↔ (s.act i).status = .added
  range : ∀ i ∈ s.updActs, i < s.m
  status : ∀ i, (s.act i).status = .notAdded ∨ (s.act i).status = .added
  rows : ∀ k, ∀ p ∈ s.AT k, p.1 < s.m

/-- Only rows of the problem are listed or have a status. -/
structure Weak (s : St) : Prop where
  range : ∀ i ∈ s.updActs, i < s.m
  status : ∀ i, s.m ≤ i → (s.act i).status = .notAdded
  rows : ∀ k, ∀ p ∈ s.AT k, p.1 < s.m

theorem UpdOK.weak {s : St} (h : UpdOK s) : Weak s :=
  ⟨h.range, fun i hi => (h.status i).resolve_right (fun e => absurd (h.range i ((h.mem i).mpr e)) (by omega)), h.rows⟩

/-- The tag of a row fits its sides. -/
structure TagRow (t : RTag) (l r : D) : Prop where
  lInf : t.lhsInf = true → l = .ninf
  lFin : t.inactive = false → t.lhsInf = false → D.isInf l = false
  rInf : t.rhsInf = true → r = .pinf
  rFin : t.inactive = false → t.rhsInf = false → D.isInf r = false
  eq : t.inactive = false → t.lhsInf = false → t.rhsInf = false → D.eqb l r = true → t.eq = true

/-- The tags of all rows fit their sides. -/
def TagOK (s : St) : Prop := ∀ i, TagRow (s.rtag i) (s.lhs i) (s.rhs i)

/-- A piece of a run that keeps the list of updated activities and the row tags right. -/
structure Lup (s t : St) : Prop where
  asrt : t.asrt = true → s.asrt = true
  upd : UpdOK s → UpdOK t
  weak : Weak s → Weak t
  tag : t.asrt = true → Weak s → TagOK s → TagOK t

theorem Lup.refl (s : St) : Lup s s := ⟨id, id, id, fun _ _ => id⟩

theorem Lup.trans {s t u : St} (h : Lup s t) (h' : Lup t u) : Lup s u :=
  ⟨fun o => h.asrt (h'.asrt o), fun x => h'.upd (h.upd x), fun x => h'.weak (h.weak x),
    fun o w x => h'.tag o (h.weak w) (h.tag (h'.asrt o) w x)⟩

theorem Lup.foldl {α : Type} (f : St → α → St) (h : ∀ s p, Lup s (f s p)) (l : List α) (s : St) :
    Lup s (l.foldl f s) := by
  induction l generalizing s with
  | nil => exact .refl s
  | cons p l ih => exact (h s p).trans (ih _)

/-- Neither the list nor a status changes, and no new rows occur in the columns. -/
theorem Lup.of {s t : St} (ha : t.asrt = true → s.asrt = true) (hm : t.m = s.m) (hu : t.updActs = s.updActs)
    (hs : ∀ i, (t.act i).status = (s.act i).status)
    (hT : ∀ k, ∀ p ∈ t.AT k, ∃ j, ∃ q ∈ s.AT j, q.1 = p.1)
    (ht : t.asrt = true → TagOK s → TagOK t) : Lup s t := by
  have hr : (∀ k, ∀ p ∈ s.AT k, p.1 < s.m) → ∀ k, ∀ p ∈ t.AT k, p.1 < t.m := by
    intro h k p hp
    obtain ⟨j, q, hq, e⟩ := hT k p hp
    rw [hm, ← e]; exact h j q hq
  refine ⟨ha, fun c => ⟨by rw [hu]; exact c.nodup, fun i => ?_, fun i => ?_, fun i => ?_, hr c.rows⟩,
    fun c => ⟨fun i => ?_, fun i => ?_, hr c.rows⟩, fun o _ => ht o⟩
  · rw [hu, hs]; exact c.mem i
  · rw [hu, hm]; exact c.range i
  · rw [hs]; exact c.status i
  · rw [hu, hm]; exact c.range i
  · rw [hs, hm]; exact c.status i

theorem sub_of_eq {s t : St} (h : t.AT = s.AT) : ∀ k, ∀ p ∈ t.AT k, ∃ j, ∃ q ∈ s.AT j, q.1 = p.1 :=
  fun k p hp => ⟨k, p, h ▸ hp, rfl⟩

/-- Columns only lose cells. -/
theorem sub_of_sub {s t : St} (h : ∀ k, t.AT k ⊆ s.AT k) : ∀ k, ∀ p ∈ t.AT k, ∃ j, ∃ q ∈ s.AT j, q.1 = p.1 :=
  fun k p hp => ⟨k, p, h k hp, rfl⟩

theorem tag_of_eq {s t : St} (hr : t.rtag = s.rtag) (hl : t.lhs = s.lhs) (hh : t.rhs = s.rhs) : TagOK s → TagOK t := by
  intro h i; rw [hr, hl, hh]; exact h i

theorem Lup.same {s t : St} (ha : t.asrt = true → s.asrt = true) (hm : t.m = s.m) (hu : t.updActs = s.updActs)
    (hs : t.act = s.act) (hT : t.AT = s.AT) (hr : t.rtag = s.rtag) (hl : t.lhs = s.lhs) (hh : t.rhs = s.rhs) :
    Lup s t :=
  .of ha hm hu (fun i => by rw [hs]) (sub_of_eq hT) (fun _ => tag_of_eq hr hl hh)

theorem Lup.check (s : St) (b : Bool) : Lup s (s.check b) :=
  .same (fun h => (Bool.and_eq_true_iff.mp (show (s.asrt && b) = true from h)).1) rfl rfl rfl rfl rfl rfl rfl
theorem Lup.flag (s : St) (b : Bool) : Lup s (s.flag b) := .same id rfl rfl rfl rfl rfl rfl rfl
theorem Lup.fuzz (s : St) (b : Bool) : Lup s (s.fuzz b) := .same id rfl rfl rfl rfl rfl rfl rfl
theorem Lup.save (s : St) (r : Rec) : Lup s (s.save r) := .same id rfl rfl rfl rfl rfl rfl rfl

/-! ### Tags -/

theorem TagRow.deact {t : RTag} {l r : D} (h : TagRow t l r) : TagRow { t with inactive := true } l r :=
  ⟨h.lInf, (by simp), h.rInf, (by simp), (by simp)⟩

theorem TagRow.gone (l r : D) : TagRow { inactive := true } l r :=
  ⟨(by simp), (by simp), (by simp), (by simp), (by simp)⟩

/-- One row changes. -/
theorem TagOK.row {s t : St} {i : ℕ} (h : TagOK s) (hn : ∀ j, j ≠ i → t.rtag j = s.rtag j ∧ t.lhs j = s.lhs j ∧ t.rhs j = s.rhs j)
    (hi : TagRow (s.rtag i) (s.lhs i) (s.rhs i) → TagRow (t.rtag i) (t.lhs i) (t.rhs i)) : TagOK t := by
  intro j
  by_cases e : j = i
  · rw [e]; exact hi (h i)
  · obtain ⟨h1, h2, h3⟩ := hn j e
    rw [h1, h2, h3]; exact h j

theorem isInf_smul {q : ℚ} {v : D} (h : D.isInf v = false) : D.isInf (D.smul q v) = false := by
  cases v <;> first | rfl | cases h

theorem isInf_sub {a d : D} (h : D.isInf a = false) (h' : D.isInf d = false) : D.isInf (D.sub a d) = false := by
  cases a <;> cases d <;> simp_all [D.sub, D.neg, D.add, D.isInf]

theorem eqb_sub {a b d : D} (ha : D.isInf a = false) (hb : D.isInf b = false) (hd : D.isInf d = false)
    (h : D.eqb (D.sub a d) (D.sub b d) = true) : D.eqb a b = true := by
  cases a <;> cases b <;> cases d <;>
    simp_all [D.sub, D.neg, D.add, D.eqb, D.isInf]

/-- Both finite sides of a row move by the same finite amount. -/
theorem TagRow.shift {t : RTag} {l r d : D} (h : TagRow t l r) (hd : D.isInf d = false) :
    TagRow t (if t.lhsInf then l else D.sub l d) (if t.rhsInf then r else D.sub r d) := by
  refine ⟨fun e => by rw [if_pos e]; exact h.lInf e, fun e e' => ?_, fun e => by rw [if_pos e]; exact h.rInf e,
    fun e e' => ?_, fun e e1 e2 e3 => ?_⟩
  · rw [e', if_neg Bool.false_ne_true]; exact isInf_sub (h.lFin e e') hd
  · rw [e', if_neg Bool.false_ne_true]; exact isInf_sub (h.rFin e e') hd
  · rw [e1, e2, if_neg Bool.false_ne_true, if_neg Bool.false_ne_true] at e3
    exact h.eq e e1 e2 (eqb_sub (h.lFin e e1) (h.rFin e e2) hd e3)

/-! ### Activities -/

theorem status_upd {f : ℕ → Act} {i : ℕ} {a : Act} (h : a.status = (f i).status) (j : ℕ) :
    ((upd f i a) j).status = (f j).status := by
  by_cases e : j = i
  · rw [e, upd_same]; exact h
  · rw [upd_ne _ _ e]

/-- The activity of one row changes, not its status. -/
theorem Lup.act (s : St) (i : ℕ) (a : Act) (h : a.status = (s.act i).status) : Lup s { s with act := Verif.upd s.act i a } :=
  .of id rfl rfl (status_upd h) (sub_of_eq rfl) (fun _ => id)

/-- A row is listed. -/
theorem UpdOK.push {s : St} {i : ℕ} {a : Act} (h : UpdOK s) (hi : i < s.m) (hs : (s.act i).status = .notAdded) :
    UpdOK { s with act := Verif.upd s.act i { a with status := .added }, updActs := s.updActs ++ [i] } := by
  have hni : i ∉ s.updActs := by rw [h.mem, hs]; exact fun e => by cases e
  refine ⟨?_, fun j => ?_, fun j hj => ?_, fun j => ?_, h.rows⟩
  · show (s.updActs ++ [i]).Nodup
    rw [List.nodup_append]
    refine ⟨h.nodup, List.nodup_singleton _, fun a ha b hb e => hni ?_⟩
    rw [← List.mem_singleton.mp hb, ← e]; exact ha
  · show j ∈ s.updActs ++ [i] ↔ (upd s.act i _ j).status = .added
    rw [List.mem_append, List.mem_singleton]
    by_cases e : j = i
    · rw [e, upd_same]; simp
    · rw [upd_ne _ _ e, ← h.mem j]; simp [e]
  · have hj : j ∈ s.updActs ++ [i] := hj
    rcases List.mem_append.mp hj with hj | hj
    · exact h.range j hj
    · rw [List.mem_singleton.mp hj]; exact hi
  · show (upd s.act i _ j).status = _ ∨ _
    by_cases e : j = i
    · rw [e]; exact .inr (by simp)
    · show (upd s.act i _ j).status = _ ∨ (upd s.act i _ j).status = _
      rw [upd_ne _ _ e]; exact h.status j

theorem Weak.push {s : St} {i : ℕ} {a : Act} (h : Weak s) (hi : i < s.m) :
    Weak { s with act := Verif.upd s.act i a, updActs := s.updActs ++ [i] } := by
  refine ⟨fun j hj => ?_, fun j hj => ?_, h.rows⟩
  · have hj : j ∈ s.updActs ++ [i] := hj
    rcases List.mem_append.mp hj with hj | hj
    · exact h.range j hj
    · rw [List.mem_singleton.mp hj]; exact hi
  · show (Verif.upd s.act i a j).status = _
    have hj : s.m ≤ j := hj
    rw [upd_ne _ _ (by omega)]; exact h.status j hj

theorem noteAltered_lupd {s : St} {i : ℕ} {alt : Altered} (hi : i < s.m) :
    (UpdOK s → UpdOK (noteAltered s i alt)) ∧ (Weak s → Weak (noteAltered s i alt)) := by
  unfold noteAltered
  simp only
  split
  · split
    · rename_i hs
      exact ⟨fun h => h.push hi hs, fun h => h.push hi⟩
    · rename_i hs
      refine ⟨fun h => ?_, fun h => h.push hi⟩
      rcases h.status i with e | e <;> rw [hs] at e <;> cases e
    · exact ⟨id, id⟩
  · exact ⟨id, id⟩

theorem noteAltered_m (s : St) (i : ℕ) (alt : Altered) : (noteAltered s i alt).m = s.m := by
  obtain ⟨a, u, e⟩ := noteAltered_only s i alt
  rw [e]

/-- A loop over cells in rows of the problem that changes activities. -/
theorem actFold_upd (f : St → Cell → St) (hm : ∀ s p, (f s p).m = s.m)
    (hf : ∀ s p, p.1 < s.m → (UpdOK s → UpdOK (f s p)) ∧ (Weak s → Weak (f s p))) (cells : List Cell) (s : St)
    (h : ∀ p ∈ cells, p.1 < s.m) :
    (UpdOK s → UpdOK (cells.foldl f s)) ∧ (Weak s → Weak (cells.foldl f s)) := by
  induction cells generalizing s with
  | nil => exact ⟨id, id⟩
  | cons p cells ih =>
    have h1 := hf s p (h p List.mem_cons_self)
    have h2 := ih (f s p) (fun q hq => by rw [hm]; exact h q (List.mem_cons_of_mem _ hq))
    exact ⟨fun x => h2.1 (h1.1 x), fun x => h2.2 (h1.2 x)⟩

theorem ActOnly.lup {s t : St} (h : ActOnly s t) (h1 : UpdOK s → UpdOK t) (h2 : Weak s → Weak t) : Lup s t := by
  obtain ⟨a, u, rfl⟩ := h
  exact ⟨id, h1, h2, fun _ _ => id⟩

/-- The activity of one row changes and the row may be listed. -/
theorem noteAct_upd {s : St} {i : ℕ} {a : Act} {alt : Altered} (hi : i < s.m) (ha : a.status = (s.act i).status) :
    (UpdOK s → UpdOK (noteAltered { s with act := upd s.act i a } i alt)) ∧
      (Weak s → Weak (noteAltered { s with act := upd s.act i a } i alt)) := by
  have h1 := Lup.act s i a ha
  have h2 := noteAltered_lupd (s := { s with act := upd s.act i a }) (i := i) (alt := alt) hi
  exact ⟨fun x => h2.1 (h1.upd x), fun x => h2.2 (h1.weak x)⟩

theorem updActsBoundChange_lup (s : St) (k : ℕ) (o n : D) (f l : Bool) : Lup s (updActsBoundChange s (s.AT k) o n f l) := by
  have key := fun h => actFold_upd (fun (s : St) (p : Cell) =>
    noteAltered { s with act := upd s.act p.1 (updActBoundChange (s.act p.1) p.2 o n f l s.lb s.ub (s.A p.1)).1 } p.1
      (updActBoundChange (s.act p.1) p.2 o n f l s.lb s.ub (s.A p.1)).2)
    (fun s p => noteAltered_m _ _ _) (fun s p hp => noteAct_upd hp (updActBoundChange_status ..)) (s.AT k) s h
  exact (updActsBoundChange_only s (s.AT k) o n f l).lup (fun x => (key (x.rows k)).1 x) (fun x => (key (x.rows k)).2 x)

theorem fixedColStep_m (ou ol v : D) (a b c d : Bool) (s : St) (p : Cell) :
    (updActsFixedColStep ou ol v a b c d s p).m = s.m := by
  unfold updActsFixedColStep
  exact noteAltered_m _ _ _

theorem updActsFixedCol_lup (s : St) (k : ℕ) (ou ol v : D) (a b c d : Bool) :
    Lup s (updActsFixedCol s (s.AT k) ou ol v a b c d) := by
  have key := fun h => actFold_upd (updActsFixedColStep ou ol v a b c d) (fixedColStep_m ou ol v a b c d)
    (fun s p hp => by
      unfold updActsFixedColStep
      refine noteAct_upd hp ?_
      cases a <;> cases b <;> simp [updActBoundChange_status]) (s.AT k) s h
  exact (updActsFixedCol_only s (s.AT k) ou ol v a b c d).lup (fun x => (key (x.rows k)).1 x) (fun x => (key (x.rows k)).2 x)

/-! ### Bounds and rows -/

theorem Lup.deact {s t : St} {i : ℕ} (ha : t.asrt = true → s.asrt = true) (hm : t.m = s.m) (hu : t.updActs = s.updActs)
    (hs : t.act = s.act) (hT : t.AT = s.AT)
    (hr : t.rtag = Verif.upd s.rtag i { s.rtag i with inactive := true } ∨ t.rtag = Verif.upd s.rtag i { inactive := true })
    (hl : t.lhs = s.lhs) (hh : t.rhs = s.rhs) : Lup s t := by
  refine .of ha hm hu (fun j => by rw [hs]) (sub_of_eq hT) (fun _ h => h.row (i := i) (fun j hj => ?_) (fun x => ?_))
  · refine ⟨?_, by rw [hl], by rw [hh]⟩
    rcases hr with e | e <;> rw [e, upd_ne _ _ hj]
  · rw [hl, hh]
    rcases hr with e | e <;> rw [e, upd_same]
    · exact x.deact
    · exact .gone _ _

theorem setRowToInactive_lup (s : St) (i : ℕ) (val : ℚ) : Lup s (setRowToInactive s i val) :=
  (Lup.check s (!(s.rtag i).inactive)).trans (.deact (i := i) id rfl rfl rfl rfl (.inl rfl) rfl rfl)

theorem fixCol_lup (s : St) (k : ℕ) (val : D) (ck : ℚ) : Lup s (fixCol s k val ck).1 := by
  unfold fixCol
  simp only
  split
  · exact (Lup.check s _).trans (Lup.check _ _)
  · refine ((Lup.check s (decide (0 < s.colSize k))).trans (Lup.check _ (!(s.ctag k).inactive))).trans ?_
    generalize (s.check (decide (0 < s.colSize k))).check (!(s.ctag k).inactive) = t
    refine Lup.trans (t := { (setColToFixed t k).save (.fixedCol k val ck (t.AT k)) with
      ub := upd t.ub k val, lb := upd t.lb k val }) ?_ (updActsFixedCol_lup _ k _ _ _ _ _ _ _)
    exact (Lup.check t (!(t.ctag k).inactive)).trans (.same id rfl rfl rfl rfl rfl rfl rfl)

theorem updateLb_lup (s : St) (k : ℕ) (v : D) (row : ℕ) : Lup s (updateLb s k v row).1 := by
  unfold updateLb
  simp only
  split
  · exact Lup.check s _
  · split
    · refine (Lup.check s (!(s.ctag k).inactive)).trans ?_
      generalize s.check (!(s.ctag k).inactive) = t
      have e := updActsBoundChange_lup { t with lb := upd t.lb k v } k (s.lb k) v (!(t.ctag k).lbInf) true
      simp only at e
      generalize updActsBoundChange { t with lb := upd t.lb k v } (t.AT k) (s.lb k) v (!(t.ctag k).lbInf) true = w at e ⊢
      refine Lup.trans (t := { t with lb := upd t.lb k v }) (.same id rfl rfl rfl rfl rfl rfl rfl) (e.trans ?_)
      exact .same id rfl rfl rfl rfl rfl rfl rfl
    · exact Lup.check s _

theorem updateUb_lup (s : St) (k : ℕ) (v : D) (row : ℕ) : Lup s (updateUb s k v row).1 := by
  unfold updateUb
  simp only
  split
  · exact Lup.check s _
  · split
    · refine (Lup.check s (!(s.ctag k).inactive)).trans ?_
      generalize s.check (!(s.ctag k).inactive) = t
      have e := updActsBoundChange_lup { t with ub := upd t.ub k v } k (s.ub k) v (!(t.ctag k).ubInf) false
      simp only at e
      generalize updActsBoundChange { t with ub := upd t.ub k v } (t.AT k) (s.ub k) v (!(t.ctag k).ubInf) false = w at e ⊢
      refine Lup.trans (t := { t with ub := upd t.ub k v }) (.same id rfl rfl rfl rfl rfl rfl rfl) (e.trans ?_)
      exact .same id rfl rfl rfl rfl rfl rfl rfl
    · exact Lup.check s _

/-! ### Deletions -/

theorem delRowCell_lup (t : RTag) (s : St) (p : Cell) : Lup s (delRowCell t s p) := by
  unfold delRowCell
  split
  · exact .refl s
  · exact .same id rfl rfl rfl rfl rfl rfl rfl

theorem delOneRow_lup (s : St) (row : ℕ) : Lup s (delOneRow s row) := by
  unfold delOneRow
  simp only
  refine (Lup.check s (decide (s.rowSize row ≠ -1))).trans ?_
  generalize s.check (decide (s.rowSize row ≠ -1)) = t
  split
  · exact .same id rfl rfl rfl rfl rfl rfl rfl
  · refine Lup.trans (t := { t with nnz := t.nnz - t.rowSize row, rowSize := upd t.rowSize row (-1) })
      (.same id rfl rfl rfl rfl rfl rfl rfl) ?_
    exact (Lup.foldl _ (delRowCell_lup (t.rtag row)) (t.A row) _).trans (.same id rfl rfl rfl rfl rfl rfl rfl)

/-- One column loses cells. -/
theorem Lup.cut {s t : St} {k : ℕ} {cells : List Cell} (hc : cells ⊆ s.AT k) (ha : t.asrt = true → s.asrt = true) (hm : t.m = s.m)
    (hu : t.updActs = s.updActs) (hs : t.act = s.act) (hT : t.AT = Verif.upd s.AT k cells) (hr : t.rtag = s.rtag)
    (hl : t.lhs = s.lhs) (hh : t.rhs = s.rhs) : Lup s t := by
  refine .of ha hm hu (fun i => by rw [hs]) (sub_of_sub (fun j => ?_)) (fun _ => tag_of_eq hr hl hh)
  rw [hT]
  by_cases e : j = k
  · rw [e, upd_same]; exact hc
  · rw [upd_ne _ _ e]; exact List.Subset.refl _

theorem delCompactCol_lup (s : St) (col : ℕ) : Lup s (delCompactCol s col) := by
  unfold delCompactCol
  split
  · exact .refl s
  · simp only
    refine (Lup.check s (decide (s.colSize col ≠ -1))).trans ?_
    generalize s.check (decide (s.colSize col ≠ -1)) = t
    have h1 : Lup t (if t.colSize col = 0 then { t with emptyCols := t.emptyCols ++ [col], AT := upd t.AT col [] }
        else if t.colSize col = 1 then { t with stonCols := t.stonCols ++ [col] } else t) := by
      split_ifs
      · exact .cut (k := col) (cells := []) (by simp) id rfl rfl rfl rfl rfl rfl rfl
      · exact .same id rfl rfl rfl rfl rfl rfl rfl
      · exact .refl t
    refine h1.trans ?_
    generalize (if t.colSize col = 0 then { t with emptyCols := t.emptyCols ++ [col], AT := upd t.AT col [] }
        else if t.colSize col = 1 then { t with stonCols := t.stonCols ++ [col] } else t) = w
    exact Lup.trans (t := { w with AT := upd w.AT col ((w.AT col).filter (fun p => decide (w.rowSize p.1 ≠ -1))) })
      (.cut (k := col) (List.filter_subset' _) id rfl rfl rfl rfl rfl rfl rfl) (Lup.check _ _)

theorem deleteInactiveRows_lup (s : St) : Lup s (deleteInactiveRows s) := by
  unfold deleteInactiveRows
  split
  · exact .refl s
  · simp only
    refine (Lup.foldl delOneRow delOneRow_lup s.rowsToDelete s).trans ?_
    generalize s.rowsToDelete.foldl delOneRow s = t
    refine (Lup.foldl delCompactCol delCompactCol_lup (List.range t.n) t).trans ?_
    exact .same id rfl rfl rfl rfl rfl rfl rfl

theorem delOneCol_lup (s : St) (col : ℕ) : Lup s (delOneCol s col) :=
  .cut (k := col) (cells := []) (by simp) id rfl rfl rfl rfl rfl rfl rfl

theorem delCompactRow_lup (s : St) (row : ℕ) : Lup s (delCompactRow s row) := by
  unfold delCompactRow
  split
  · exact .refl s
  · simp only
    refine (Lup.check s (decide (s.rowSize row ≠ -1))).trans ?_
    generalize s.check (decide (s.rowSize row ≠ -1)) = t
    refine Lup.trans ?_ (Lup.check _ _)
    split_ifs
    · exact (Lup.check t (!t.emptyRows.contains row)).trans (.same id rfl rfl rfl rfl rfl rfl rfl)
    · exact (Lup.check t (!t.stonRows.contains row)).trans (.same id rfl rfl rfl rfl rfl rfl rfl)
    · exact (Lup.check t (!t.dtonRows.contains row)).trans (.same id rfl rfl rfl rfl rfl rfl rfl)
    · exact .same id rfl rfl rfl rfl rfl rfl rfl

theorem deleteInactiveCols_lup (s : St) : Lup s (deleteInactiveCols s) := by
  unfold deleteInactiveCols
  simp only
  refine (Lup.foldl delOneCol delOneCol_lup s.fixedCols s).trans ?_
  generalize s.fixedCols.foldl delOneCol s = t
  refine (Lup.foldl delOneCol delOneCol_lup t.subCols t).trans ?_
  generalize t.subCols.foldl delOneCol t = t
  refine (Lup.foldl delCompactRow delCompactRow_lup (List.range t.m) t).trans ?_
  exact .same id rfl rfl rfl rfl rfl rfl rfl

/-- The finite sides of one row move by the same finite amount. -/
theorem Lup.shift {s t : St} {i : ℕ} {d : D} (hd : t.asrt = true → D.isInf d = false) (ha : t.asrt = true → s.asrt = true)
    (hm : t.m = s.m) (hu : t.updActs = s.updActs) (hs : ∀ i, (t.act i).status = (s.act i).status) (hT : t.AT = s.AT)
    (hr : t.rtag = s.rtag)
    (hl : t.lhs = if (s.rtag i).lhsInf then s.lhs else Verif.upd s.lhs i (D.sub (s.lhs i) d))
    (hh : t.rhs = if (s.rtag i).rhsInf then s.rhs else Verif.upd s.rhs i (D.sub (s.rhs i) d)) : Lup s t := by
  refine .of ha hm hu hs (sub_of_eq hT) (fun o h => h.row (i := i) (fun j hj => ?_) (fun x => ?_))
  · rw [hr, hl, hh]
    refine ⟨rfl, ?_, ?_⟩
    · split
      · rfl
      · exact upd_ne _ _ hj
    · split
      · rfl
      · exact upd_ne _ _ hj
  · have := x.shift (hd o)
    rw [hr, hl, hh]
    convert this using 1
    · split <;> simp
    · split <;> simp

theorem shiftSides_lup {v : D} (s : St) (p : Cell) (hv : s.asrt = true → D.isInf v = false) : Lup s (shiftSides v s p) := by
  unfold shiftSides
  split
  · exact .refl s
  · simp only
    refine .shift (i := p.1) (d := D.smul p.2 v) (fun o => isInf_smul (hv o)) id rfl rfl (status_upd ?_) rfl rfl rfl rfl
    split_ifs <;> rfl

theorem shiftSides_asrt (v : D) (s : St) (p : Cell) : (shiftSides v s p).asrt = s.asrt := by
  unfold shiftSides
  split <;> rfl

theorem shiftFold_lup {v : D} (L : List Cell) (s : St) (hv : s.asrt = true → D.isInf v = false) :
    Lup s (L.foldl (shiftSides v) s) := by
  induction L generalizing s with
  | nil => exact .refl s
  | cons p L ih => exact (shiftSides_lup s p hv).trans (ih _ (by rw [shiftSides_asrt]; exact hv))

theorem delFixedCol_lup (s : St) (k : ℕ) : Lup s (delFixedCol s k) := by
  unfold delFixedCol
  simp only
  refine (((Lup.check s (s.ctag k).fixed).trans (Lup.check _ (!D.isInf (s.ub k)))).trans
    (Lup.check _ (D.eqb (s.lb k) (s.ub k)))).trans ?_
  have hv : (((s.check (s.ctag k).fixed).check (!D.isInf (s.ub k))).check (D.eqb (s.lb k) (s.ub k))).asrt = true →
      D.isInf ((((s.check (s.ctag k).fixed).check (!D.isInf (s.ub k))).check (D.eqb (s.lb k) (s.ub k))).ub k) = false := by
    intro o
    have o : (s.asrt && (s.ctag k).fixed && (!D.isInf (s.ub k)) && D.eqb (s.lb k) (s.ub k)) = true := o
    simp only [Bool.and_eq_true] at o
    have := o.1.2
    show D.isInf (s.ub k) = false
    simpa using this
  generalize ((s.check (s.ctag k).fixed).check (!D.isInf (s.ub k))).check (D.eqb (s.lb k) (s.ub k)) = t at hv ⊢
  split
  · exact .refl t
  · exact (shiftFold_lup (t.AT k) t hv).trans (.same id rfl rfl rfl rfl rfl rfl rfl)

theorem delCols_lup (s : St) : Lup s (deleteInactiveCols (deleteFixedCols s)) :=
  (Lup.foldl delFixedCol delFixedCol_lup s.fixedCols s).trans (deleteInactiveCols_lup _)

theorem delBoth_lup (s : St) : Lup s (deleteInactiveCols (deleteFixedCols (deleteInactiveRows s))) :=
  (deleteInactiveRows_lup s).trans (delCols_lup _)

/-! ### The trivial explorers -/

theorem emptyRowLoop_lup (L : List ℕ) (s : St) : Lup s (emptyRowLoop L s).1 := by
  induction L generalizing s with
  | nil => exact .refl s
  | cons row rest ih =>
    unfold emptyRowLoop
    simp only
    refine (Lup.check s (decide (s.rowSize row = 0))).trans ?_
    split
    · exact .refl _
    · refine Lup.trans ?_ (ih _)
      exact .deact (i := row) id rfl rfl rfl rfl (.inl rfl) rfl rfl

theorem removeEmptyRows_lup (s : St) : Lup s (removeEmptyRows s).1 := by
  unfold removeEmptyRows
  simp only
  split
  · exact emptyRowLoop_lup _ _
  · exact (emptyRowLoop_lup _ _).trans (.same id rfl rfl rfl rfl rfl rfl rfl)

theorem emptyColLoop_lup (L : List ℕ) (s : St) : Lup s (emptyColLoop L s).1 := by
  induction L generalizing s with
  | nil => exact .refl s
  | cons k rest ih =>
    unfold emptyColLoop
    simp only
    refine (Lup.check s (decide (s.colSize k = 0) && !(s.ctag k).inactive)).trans ?_
    split
    · exact .refl _
    · refine Lup.trans ?_ (ih _)
      exact .same id rfl rfl rfl rfl rfl rfl rfl

theorem removeEmptyCols_lup (s : St) : Lup s (removeEmptyCols s).1 := by
  unfold removeEmptyCols
  simp only
  split
  · exact emptyColLoop_lup _ _
  · exact (emptyColLoop_lup _ _).trans (.same id rfl rfl rfl rfl rfl rfl rfl)

theorem closeBoundsLoop_lup (L : List ℕ) (s : St) : Lup s (closeBoundsLoop L s).1 := by
  induction L generalizing s with
  | nil => exact .refl s
  | cons k rest ih =>
    unfold closeBoundsLoop
    split
    · exact ih s
    · simp only
      refine (Lup.check s (!(s.ctag k).inactive)).trans ?_
      split
      · exact ((Lup.fuzz _ _).trans (fixCol_lup _ _ _ _)).trans (ih _)
      · split
        · exact .refl _
        · exact ih _

theorem closeBounds_lup (s : St) : Lup s (closeBounds s).1 := by
  unfold closeBounds
  simp only
  split
  · exact closeBoundsLoop_lup _ _
  · exact (closeBoundsLoop_lup _ _).trans (delCols_lup _)

theorem dualFixStep_lup (a : St × List (ℕ × Bool) × Status) (k : ℕ) : Lup a.1 (dualFixStep a k).1 := by
  unfold dualFixStep
  simp only
  split
  · exact .refl _
  · split
    · exact .refl _
    · exact .refl _
    · exact (Lup.check _ _).trans (fixCol_lup _ _ _ _)
    · exact (Lup.check _ _).trans (fixCol_lup _ _ _ _)
    · exact .refl _
    · exact .refl _

theorem dualFixFold_lup (L : List ℕ) (a : St × List (ℕ × Bool) × Status) : Lup a.1 (L.foldl dualFixStep a).1 := by
  induction L generalizing a with
  | nil => exact .refl _
  | cons k L ih => exact (dualFixStep_lup a k).trans (ih _)

theorem fixColInfTail_lup (s : St) (k : ℕ) (pos : Bool) (bound v : D) : Lup s (fixColInfTail s k pos bound v) := by
  unfold fixColInfTail
  simp only
  have h : Lup s (saveFixedColInf s k pos bound) := by
    unfold saveFixedColInf
    exact (((Lup.flag s _).trans (Lup.check _ _)).trans (Lup.save _ _)).trans (Lup.fuzz _ _)
  have h2 : Lup (saveFixedColInf s k pos bound) (deactivateRows (saveFixedColInf s k pos bound) ((saveFixedColInf s k pos bound).AT k)) := by
    refine Lup.foldl _ (fun s p => ?_) _ _
    split
    · exact .refl s
    · exact setRowToInactive_lup _ _ _
  exact (h.trans h2).trans (.cut (k := k) (cells := []) (by simp) id rfl rfl rfl rfl rfl rfl rfl)

theorem fixColInf_lup (s : St) (p : ℕ × Bool) : Lup s (if p.2 then fixColPosInf s p.1 else fixColNegInf s p.1) := by
  split
  · exact (((Lup.check s _).trans (Lup.check _ (s.ctag p.1).ubInf)).trans (Lup.check _ (decide (s.up p.1 = 0)))).trans
      (fixColInfTail_lup _ p.1 true (s.lb p.1) .pinf)
  · exact (((Lup.check s _).trans (Lup.check _ (s.ctag p.1).lbInf)).trans (Lup.check _ (decide (s.down p.1 = 0)))).trans
      (fixColInfTail_lup _ p.1 false (s.ub p.1) .ninf)

theorem simpleDualFix_lup (s : St) : Lup s (simpleDualFix s).1 := by
  unfold simpleDualFix
  simp only
  refine (Lup.check s (decide (s.emptyCols = []))).trans ?_
  generalize s.check (decide (s.emptyCols = [])) = t
  refine (dualFixFold_lup (List.range t.n) (t, [], UNCHANGED)).trans ?_
  exact (Lup.foldl _ fixColInf_lup _ _).trans (delBoth_lup _)

/-! ### Singleton rows -/

theorem removeStonRow_lup (s : St) (row : ℕ) : Lup s (removeStonRow s row).1 := by
  unfold removeStonRow
  split
  · exact .refl s
  · rename_i k aik rest _
    simp only
    refine (Lup.check s (!(s.rtag row).inactive && !(s.ctag k).subst)).trans ?_
    generalize s.check (!(s.rtag row).inactive && !(s.ctag k).subst) = t
    split
    · exact .refl t
    · refine (Lup.check t (!(t.ctag k).inactive)).trans ?_
      generalize t.check (!(t.ctag k).inactive) = t
      split
      · refine (Lup.check t (D.eqb (s.lhs row) (s.rhs row))).trans ?_
        generalize t.check (D.eqb (s.lhs row) (s.rhs row)) = t
        have h := fixCol_lup t k (D.divq (s.rhs row) aik) (t.c k)
        split
        · exact h
        · refine h.trans ?_
          generalize (fixCol t k (D.divq (s.rhs row) aik) (t.c k)).1 = t
          exact .deact (i := row) id rfl rfl rfl rfl (.inr rfl) rfl rfl
      · have hU : ∀ (b : Bool) (t : St) (v : D), Lup t (if b then (t, UNCHANGED) else updateUb t k v row).1 := by
          intro b t v; cases b
          · exact updateUb_lup _ _ _ _
          · exact .refl t
        have hL : ∀ (b : Bool) (t : St) (v : D), Lup t (if b then (t, UNCHANGED) else updateLb t k v row).1 := by
          intro b t v; cases b
          · exact updateLb_lup _ _ _ _
          · exact .refl t
        split
        · have h1 := hU (t.rtag row).rhsInf t (D.divq (s.rhs row) aik)
          generalize (if (t.rtag row).rhsInf = true then (t, UNCHANGED) else updateUb t k (D.divq (s.rhs row) aik) row) = r at h1 ⊢
          have h2 := hL (t.rtag row).lhsInf r.1 (D.divq (s.lhs row) aik)
          generalize (if (t.rtag row).lhsInf = true then (r.1, UNCHANGED) else updateLb r.1 k (D.divq (s.lhs row) aik) row) = r' at h2 ⊢
          split_ifs
          · exact h1
          · exact h1.trans h2
          · exact (h1.trans h2).trans (setRowToInactive_lup _ _ _)
        · have h1 := hL (t.rtag row).rhsInf t (D.divq (s.rhs row) aik)
          generalize (if (t.rtag row).rhsInf = true then (t, UNCHANGED) else updateLb t k (D.divq (s.rhs row) aik) row) = r at h1 ⊢
          have h2 := hU (t.rtag row).lhsInf r.1 (D.divq (s.lhs row) aik)
          generalize (if (t.rtag row).lhsInf = true then (r.1, UNCHANGED) else updateUb r.1 k (D.divq (s.lhs row) aik) row) = r' at h2 ⊢
          split_ifs
          · exact h1
          · exact h1.trans h2
          · exact (h1.trans h2).trans (setRowToInactive_lup _ _ _)

theorem stonEqLoop_lup (L : List ℕ) (s : St) : Lup s (stonEqLoop L s).1 := by
  induction L generalizing s with
  | nil => exact .refl s
  | cons row rest ih =>
    unfold stonEqLoop
    split
    · exact ih s
    · simp only
      split
      · exact removeStonRow_lup s row
      · exact (removeStonRow_lup s row).trans (ih _)

theorem stonIneqLoop_lup (L : List ℕ) (s : St) : Lup s (stonIneqLoop L s).1 := by
  induction L generalizing s with
  | nil => exact .refl s
  | cons row rest ih =>
    unfold stonIneqLoop
    split
    · exact ih s
    · simp only
      split
      · exact removeStonRow_lup s row
      · exact (removeStonRow_lup s row).trans (ih _)

theorem removeStonRows_lup (s : St) : Lup s (removeStonRows s).1 := by
  unfold removeStonRows
  split
  · exact .refl s
  · simp only
    split
    · exact stonEqLoop_lup _ _
    · split
      · exact (stonEqLoop_lup _ _).trans (stonIneqLoop_lup _ _)
      · refine ((stonEqLoop_lup s.stonRows s).trans (stonIneqLoop_lup s.stonRows _)).trans ?_
        generalize (stonIneqLoop s.stonRows (stonEqLoop s.stonRows s).1).1 = t
        exact Lup.trans (t := { t with stonRows := [] }) (.same id rfl rfl rfl rfl rfl rfl rfl) (delBoth_lup _)

theorem stonRowsLoop_lup (fuel : ℕ) (s : St) : Lup s (stonRowsLoop fuel s).1 := by
  induction fuel generalizing s with
  | zero => exact Lup.flag s true
  | succ fuel ih =>
    unfold stonRowsLoop
    simp only
    split_ifs
    · exact removeStonRows_lup s
    · exact (removeStonRows_lup s).trans (ih _)
    · exact removeStonRows_lup s

end Verif
