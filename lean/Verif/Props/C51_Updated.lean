import Verif.Inv.ListedRun
import Verif.Props.C01_Objective
import Verif.Props.Counterexamples

/-!
# C51: the list of rows waiting for propagation

Primal propagation only looks at the rows listed in `updated_activities`; the field `status` of an activity
says whether its row is listed.  First part: the functions that change activities after a bound has moved or
a column has been fixed leave no row with news behind.  Second part: between explorers, list and status agree in
every run.
-/

namespace Verif

/-- A finite minimal or maximal activity has a new value: it changed, or it has just become finite. -/
def ActNews (a b : Act) : Prop :=
  (b.nInfMax = 0 ∧ (b.max ≠ a.max ∨ a.nInfMax ≠ 0)) ∨ (b.nInfMin = 0 ∧ (b.min ≠ a.min ∨ a.nInfMin ≠ 0))

/-- The status says that propagation will still visit the row. -/
def Act.Waits (a : Act) : Prop := a.status = .added ∨ a.status = .propagateNextRound

/-- What a function that updates the activities of the rows of a column must do to the list. -/
structure ListsNews (s t : St) (cells : List Cell) : Prop where
  /-- rows with news wait, and are listed unless they were waiting before -/
  news : ∀ p ∈ cells, ActNews (s.act p.1) (t.act p.1) → (t.act p.1).Waits ∧ (p.1 ∈ t.updActs ∨ (s.act p.1).Waits)
  /-- nobody stops waiting -/
  keep : ∀ i, (s.act i).Waits → (t.act i).Waits
  /-- other rows are not touched -/
  other : ∀ i, i ∉ cells.map Prod.fst → t.act i = s.act i ∧ (i ∈ t.updActs ↔ i ∈ s.updActs)
  /-- rows are appended, each at most once, in the order of the column -/
  append : ∃ l, t.updActs = s.updActs ++ l ∧ l.Sublist (cells.map Prod.fst)
  /-- rows that are appended were not waiting before -/
  fresh : ∀ l, t.updActs = s.updActs ++ l → ∀ i ∈ l, ¬ (s.act i).Waits

/-- What is altered is reported. -/
def Tracks (a : Act) (r : Act × Altered) : Prop :=
  r.1.status = a.status ∧ (r.2.min = false → r.1.min = a.min ∧ r.1.nInfMin = a.nInfMin) ∧
    (r.2.max = false → r.1.max = a.max ∧ r.1.nInfMax = a.nInfMax)

theorem bumpMax_min (a : Act) (q : ℚ) (o n : D) (f : Bool) (lb ub : ℕ → D) (cells : List Cell) :
    (bumpMax a q o n f lb ub cells).min = a.min ∧ (bumpMax a q o n f lb ub cells).nInfMin = a.nInfMin := by
  unfold bumpMax
  simp only
  split_ifs <;> exact ⟨rfl, rfl⟩

theorem bumpMin_max (a : Act) (q : ℚ) (o n : D) (f : Bool) (lb ub : ℕ → D) (cells : List Cell) :
    (bumpMin a q o n f lb ub cells).max = a.max ∧ (bumpMin a q o n f lb ub cells).nInfMax = a.nInfMax := by
  unfold bumpMin
  simp only
  split_ifs <;> exact ⟨rfl, rfl⟩

theorem updActBoundChange_tracks (a : Act) (q : ℚ) (o n : D) (f l : Bool) (lb ub : ℕ → D) (cells : List Cell) :
    Tracks a (updActBoundChange a q o n f l lb ub cells) := by
  refine ⟨updActBoundChange_status .., ?_, ?_⟩ <;> unfold updActBoundChange
  · split_ifs <;> intro h <;> first | exact bumpMax_min .. | cases h
  · split_ifs <;> intro h <;> first | exact bumpMin_max .. | cases h

theorem Tracks.refl (a : Act) : Tracks a (a, {}) := ⟨rfl, fun _ => ⟨rfl, rfl⟩, fun _ => ⟨rfl, rfl⟩⟩

theorem Tracks.trans {a : Act} {r r' : Act × Altered} (h : Tracks a r) (h' : Tracks r.1 r') :
    Tracks a (r'.1, { min := r.2.min || r'.2.min, max := r.2.max || r'.2.max }) := by
  refine ⟨h'.1.trans h.1, fun e => ?_, fun e => ?_⟩
  · obtain ⟨e1, e2⟩ := Bool.or_eq_false_iff.mp e
    exact ⟨(h'.2.1 e2).1.trans (h.2.1 e1).1, (h'.2.1 e2).2.trans (h.2.1 e1).2⟩
  · obtain ⟨e1, e2⟩ := Bool.or_eq_false_iff.mp e
    exact ⟨(h'.2.2 e2).1.trans (h.2.2 e1).1, (h'.2.2 e2).2.trans (h.2.2 e1).2⟩

/-- One row. -/
theorem noteAltered_lists {s : St} {p : Cell} {r : Act × Altered} (h : Tracks (s.act p.1) r) :
    ListsNews s (noteAltered { s with act := upd s.act p.1 r.1 } p.1 r.2) [p] := by
  have hcond : ActNews (s.act p.1) r.1 → (r.1.nInfMax = 0 ∧ r.2.max = true) ∨ (r.1.nInfMin = 0 ∧ r.2.min = true) := by
    rintro (⟨h1, h2⟩ | ⟨h1, h2⟩)
    · refine .inl ⟨h1, ?_⟩
      by_contra hc
      obtain ⟨e1, e2⟩ := h.2.2 (by simpa using hc)
      rcases h2 with h2 | h2
      · exact h2 e1
      · exact h2 (by rw [← e2]; exact h1)
    · refine .inr ⟨h1, ?_⟩
      by_contra hc
      obtain ⟨e1, e2⟩ := h.2.1 (by simpa using hc)
      rcases h2 with h2 | h2
      · exact h2 e1
      · exact h2 (by rw [← e2]; exact h1)
  have hS := h.1
  have quiet : ∀ (hn : ActNews (s.act p.1) r.1 → r.1.Waits ∧ (s.act p.1).Waits),
      ListsNews s { s with act := upd s.act p.1 r.1 } [p] := by
    intro hn
    refine ⟨fun q hq hw => ?_, fun i hi => ?_, fun i hi => ?_, ⟨[], (List.append_nil _).symm, List.nil_sublist _⟩, fun l hl i hi => ?_⟩
    · rw [List.mem_singleton.mp hq] at hw ⊢
      simp only [upd_same] at hw ⊢
      exact ⟨(hn hw).1, .inr (hn hw).2⟩
    · show (upd s.act p.1 r.1 i).Waits
      unfold Act.Waits
      rw [status_upd hS]; exact hi
    · rw [List.map_singleton, List.mem_singleton] at hi
      exact ⟨upd_ne _ _ hi, Iff.rfl⟩
    · have : l = [] := List.self_eq_append_right.mp hl
      rw [this] at hi; cases hi
  have push : ∀ (st : ActStatus), (st = .added ∨ st = .propagateNextRound) → ¬ (s.act p.1).Waits →
      ListsNews s { s with act := upd (upd s.act p.1 r.1) p.1 { r.1 with status := st }, updActs := s.updActs ++ [p.1] } [p] := by
    intro st hst hn
    refine ⟨fun q hq hw => ?_, fun i hi => ?_, fun i hi => ?_, ⟨[p.1], rfl, List.Sublist.refl _⟩, fun l hl i hi => ?_⟩
    · rw [List.mem_singleton.mp hq]
      simp only [upd_same]
      exact ⟨hst, .inl (List.mem_append_right _ (List.mem_singleton_self _))⟩
    · have e : i ≠ p.1 := fun e => hn (e ▸ hi)
      simp only [upd_ne _ _ e]; exact hi
    · rw [List.map_singleton, List.mem_singleton] at hi
      refine ⟨by simp only [upd_ne _ _ hi], ?_⟩
      show i ∈ s.updActs ++ [p.1] ↔ _
      simp [hi]
    · have : l = [p.1] := (List.append_cancel_left hl).symm
      rw [this, List.mem_singleton] at hi
      rw [hi]; exact hn
  unfold noteAltered
  simp only [upd_same]
  split
  · split
    · rename_i e
      exact push _ (.inl rfl) (by rw [hS] at e; unfold Act.Waits; rw [e]; simp)
    · rename_i e
      exact push _ (.inr rfl) (by rw [hS] at e; unfold Act.Waits; rw [e]; simp)
    · rename_i e1 e2
      have hw : r.1.Waits := by
        unfold Act.Waits
        cases hs : r.1.status
        · exact absurd hs e1
        · exact .inl rfl
        · exact absurd hs e2
        · exact .inr rfl
      exact quiet (fun _ => ⟨hw, by unfold Act.Waits at hw ⊢; rw [hS] at hw; exact hw⟩)
  · rename_i hc
    exact quiet (fun hn => absurd (hcond hn) hc)

theorem ListsNews.cons {s t u : St} {p : Cell} {cells : List Cell} (hn : ((p :: cells).map Prod.fst).Nodup)
    (h : ListsNews s t [p]) (h' : ListsNews t u cells) : ListsNews s u (p :: cells) := by
  rw [List.map_cons, List.nodup_cons] at hn
  have o1 : ∀ i, i ≠ p.1 → t.act i = s.act i ∧ (i ∈ t.updActs ↔ i ∈ s.updActs) := fun i hi =>
    h.other i (by rw [List.map_singleton, List.mem_singleton]; exact hi)
  have hne : ∀ q ∈ cells, q.1 ≠ p.1 := fun q hq e => hn.1 (e ▸ List.mem_map_of_mem hq)
  obtain ⟨l1, e1, s1⟩ := h.append
  obtain ⟨l2, e2, s2⟩ := h'.append
  refine ⟨fun q hq hw => ?_, fun i hi => h'.keep i (h.keep i hi), fun i hi => ?_,
    ⟨l1 ++ l2, by rw [e2, e1, List.append_assoc], s1.append s2⟩, fun l hl i hi => ?_⟩
  · rcases List.mem_cons.mp hq with rfl | hq
    · obtain ⟨e3, e4⟩ := h'.other q.1 hn.1
      rw [e3] at hw ⊢
      rw [e4]
      exact h.news q List.mem_cons_self hw
    · obtain ⟨e3, e4⟩ := o1 q.1 (hne q hq)
      have := h'.news q hq (by rw [e3]; exact hw)
      rw [e3] at this; exact this
  · rw [List.map_cons, List.mem_cons, not_or] at hi
    obtain ⟨a1, a2⟩ := o1 i hi.1
    obtain ⟨a3, a4⟩ := h'.other i hi.2
    exact ⟨a3.trans a1, a4.trans a2⟩
  · have e : l = l1 ++ l2 := by
      rw [e2, e1, List.append_assoc] at hl
      exact (List.append_cancel_left hl).symm
    rw [e] at hi
    rcases List.mem_append.mp hi with hi | hi
    · exact h.fresh l1 e1 i hi
    · have hm : i ∈ cells.map Prod.fst := s2.subset hi
      have hi' : i ≠ p.1 := fun e => hn.1 (e ▸ hm)
      rw [← (o1 i hi').1]; exact h'.fresh l2 e2 i hi

theorem foldl_lists (f : St → Cell → St) (hf : ∀ s p, ListsNews s (f s p) [p]) (cells : List Cell)
    (hn : (cells.map Prod.fst).Nodup) (s : St) : ListsNews s (cells.foldl f s) cells := by
  induction cells generalizing s with
  | nil =>
    refine ⟨fun p hp => (by cases hp), fun _ h => h, fun _ _ => ⟨rfl, Iff.rfl⟩, ⟨[], (List.append_nil _).symm, List.nil_sublist _⟩,
      fun l hl i hi => ?_⟩
    rw [List.self_eq_append_right.mp hl] at hi; cases hi
  | cons p cells ih =>
    have hn' := hn
    rw [List.map_cons, List.nodup_cons] at hn'
    exact (hf s p).cons hn (ih hn'.2 _)

/-- **C51, a bound has moved.**  Every row of the column whose finite activity has news waits for propagation; only
rows that were not waiting are appended, each once. -/
theorem C51_boundChange {s : St} {cells : List Cell} {oldB newB : D} {finite lower : Bool}
    (hn : (cells.map Prod.fst).Nodup) : ListsNews s (updActsBoundChange s cells oldB newB finite lower) cells := by
  unfold updActsBoundChange
  exact foldl_lists _ (fun s p => noteAltered_lists (updActBoundChange_tracks ..)) cells hn s

/-- **C51, a column has been fixed.** -/
theorem C51_fixedCol {s : St} {cells : List Cell} {oldUb oldLb val : D} {ubUpd lbUpd ubInf lbInf : Bool}
    (hn : (cells.map Prod.fst).Nodup) :
    ListsNews s (updActsFixedCol s cells oldUb oldLb val ubUpd lbUpd ubInf lbInf) cells := by
  unfold updActsFixedCol
  refine foldl_lists _ (fun s p => ?_) cells hn s
  unfold updActsFixedColStep
  have hc : ∀ (c : Bool) (a : Act) (x : Act × Altered), Tracks a x → Tracks a (if c then x else (a, {})) := by
    intro c a x hx
    cases c
    · exact .refl a
    · exact hx
  exact noteAltered_lists ((hc ubUpd _ _ (updActBoundChange_tracks ..)).trans (hc lbUpd _ _ (updActBoundChange_tracks ..)))

/-- **C51, in every run.**  At every call of the debugger: no row is listed twice, the listed rows are those with
status `ADDED`, they exist, and no status of the inside of propagation is left over. -/
theorem C51_run {P : LP} {env : Env} {stgs : Settings} {fuel : ℕ} {t : St} {finished : Bool}
    (h : (t, finished) ∈ debugPoints env stgs fuel P) :
    t.updActs.Nodup ∧ (∀ i, i ∈ t.updActs ↔ (t.act i).status = .added) ∧ (∀ i ∈ t.updActs, i < t.m) ∧
      ∀ i, i ∉ t.updActs → (t.act i).status = .notAdded := by
  have u := (debugPoints_lup h).upd (initSt_updOK P)
  exact ⟨u.nodup, u.mem, u.range, fun i hi => (u.status i).resolve_right (fun e => hi ((u.mem i).mpr e))⟩

/-- **C51, any order of calls.** -/
theorem C51_calls {P : LP} {env : Env} {stgs : Settings} {t : St} (h : Calls env stgs (initSt P) t) :
    t.updActs.Nodup ∧ (∀ i, i ∈ t.updActs ↔ (t.act i).status = .added) ∧ (∀ i ∈ t.updActs, i < t.m) ∧
      ∀ i, i ∉ t.updActs → (t.act i).status = .notAdded := by
  have u := h.lup.upd (initSt_updOK P)
  exact ⟨u.nodup, u.mem, u.range, fun i hi => (u.status i).resolve_right (fun e => hi ((u.mem i).mpr e))⟩

/-- **C51, the result of a run.** -/
theorem C51_result {P : LP} {env : Env} {stgs : Settings} {fuel : ℕ} (hf : fine (runPresolver env stgs fuel P).2.1) :
    (runPresolver env stgs fuel P).1.updActs.Nodup ∧
      ∀ i, i ∈ (runPresolver env stgs fuel P).1.updActs ↔ ((runPresolver env stgs fuel P).1.act i).status = .added := by
  have u := (runPresolver_lup hf).upd (initSt_updOK P)
  exact ⟨u.nodup, u.mem⟩

/-- The lists in the run on `exMix`: row 0 leaves the list when it is propagated. -/
example : (debugPoints envEx stgsAll 20 exMix).map (fun p => p.1.updActs) =
    [[0, 2, 3], [0, 2, 3], [0, 2, 3], [0, 2, 3], [0, 2, 3], [2, 3], [2, 3], [2, 3]] ∧
    fine (runPresolver envEx stgsAll 20 exMix).2.1 := by
  unfold fine
  decide +kernel

/-- A state in which nothing waits. -/
def exIdle : St := { initSt exMix with updActs := [], act := fun i => { (initSt exMix).act i with status := .notAdded } }

/-- Lowering the upper bound of column 5 from 10 to 8 changes the maximal activities of rows 2, 3 and 4; row 4 still
has infinitely many (one) infinite bounds on that side and is not listed.  Fixing the column at 5 changes both sides. -/
example : ((exIdle.AT 5).map Prod.fst).Nodup ∧
    (updActsBoundChange { exIdle with ub := upd exIdle.ub 5 (.fin 8) } (exIdle.AT 5) (.fin 10) (.fin 8) true false).updActs =
      [2, 3] ∧
    ((updActsBoundChange { exIdle with ub := upd exIdle.ub 5 (.fin 8) } (exIdle.AT 5) (.fin 10) (.fin 8) true false).act 3).max ≠
      (exIdle.act 3).max ∧
    (updActsFixedCol { exIdle with ub := upd exIdle.ub 5 (.fin 5), lb := upd exIdle.lb 5 (.fin 5) } (exIdle.AT 5)
      (.fin 10) (.fin 0) (.fin 5) true true false false).updActs = [2, 3] := by
  decide +kernel

end Verif
