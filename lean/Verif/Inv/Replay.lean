import Verif.Inv.Good
import Verif.Model.Postsolve

/-!
# Postsolve as an induction over elementary steps

Postsolve replays the records newest first, so what it computes from the log of `t` is what it
computes from the log of `s` after undoing the step from `s` to `t`.  A relation `R s a o` between a
state, the data `a` postsolve starts from and the outcome `o` of replaying the log of `s` holds for
every state that is reached if every elementary step carries it over (`Backward`).
-/

namespace Verif

/-- An interpretation of the records: what each of them does to the data (`none` if it fails). -/
structure Interp (α : Type) where
  record : α → Rec → Option α
  bound : α → ℕ → List Cell → ℕ → D → D → Bool → Option α

/-- The loop of `postsolver_run`, `/repo/src/core/Postsolver.c:527-656`, for an interpretation of
the records. -/
def Interp.replay {α : Type} (I : Interp α) : Option Group → List Rec → α → Option α
  | none, [], a => some a
  | some _, [], _ => none
  | none, .boundChangeTheRow i cells num :: rest, a => I.replay (Group.next i cells num) rest a
  | none, r :: rest, a => (I.record a r).bind (I.replay none rest)
  | some g, .fixedCol col val ck cells :: rest, a =>
    (I.record a (.fixedCol col val ck cells)).bind (I.replay (some g) rest)
  | some (i, cells, k), .boundChangeNoRow j implied other lower :: rest, a =>
    (I.bound a i cells j implied other lower).bind (I.replay (Group.next i cells (k - 1)) rest)
  | some _, _ :: _, _ => none

/-- The records of one step, newest first. -/
def Interp.run {α : Type} (I : Interp α) : List Rec → α → Option α
  | [], a => some a
  | r :: rest, a => (I.record a r).bind (I.run rest)

/-- The interpretation that computes primal values, row duals and reduced costs. -/
def solInterp : Interp Sol where
  record := fun σ r => some (retRec σ r)
  bound := fun σ i cells j implied other low => some (retBoundChange σ i cells j implied other low)

theorem solInterp_replay (g : Option Group) (l : List Rec) (σ : Sol) :
    solInterp.replay g l σ = replay g l σ := by
  induction l generalizing g σ with
  | nil => cases g <;> rfl
  | cons r l ih =>
    cases g with
    | none =>
      cases r <;> first
        | exact ih _ _
        | (show solInterp.replay none l _ = replay none l _; exact ih _ _)
    | some g =>
      obtain ⟨i, cells, k⟩ := g
      cases r <;> first
        | rfl
        | (show solInterp.replay _ l _ = replay _ l _; exact ih _ _)

theorem solInterp_run (l : List Rec) (σ : Sol) : solInterp.run l σ = some (l.foldl retRec σ) := by
  induction l generalizing σ with
  | nil => rfl
  | cons r l ih => exact ih _

/-- The record that opens a group of bound changes. -/
def Rec.isHead : Rec → Bool
  | .boundChangeTheRow _ _ _ => true
  | _ => false

theorem Interp.replay_append {α : Type} (I : Interp α) (new rest : List Rec) (a : α)
    (h : ∀ r ∈ new, r.isHead = false) :
    I.replay none (new ++ rest) a = (I.run new a).bind (I.replay none rest) := by
  induction new generalizing a with
  | nil => rfl
  | cons r new ih =>
    have hr := h r List.mem_cons_self
    have ih := fun a => ih a (fun r hr => h r (List.mem_cons_of_mem _ hr))
    have e : I.replay none (r :: (new ++ rest)) a = (I.record a r).bind (I.replay none (new ++ rest)) := by
      cases r <;> first | rfl | cases hr
    rw [List.cons_append, e, Interp.run]
    cases I.record a r with
    | none => rfl
    | some b => exact ih b

/-- Undoing the records `new` carries `R` from `s` to `t`. -/
def Tr {α : Type} (I : Interp α) (R : St → α → Option α → Prop) (new : List Rec) (s t : St) : Prop :=
  ∀ a, (∀ b o, I.run new a = some b → R s b o → R t a o) ∧ (I.run new a = none → R t a none)

/-- The part of the state a relation may depend on: everything but the log. -/
def SameButLog (s t : St) : Prop := SameCore s { t with log := s.log }

/-- Rows and columns that are not gone are in range. -/
def InRng (s : St) : Prop :=
  (∀ i, s.rowSize i ≠ -1 → i < s.m) ∧ (∀ k, s.colSize k ≠ -1 → k < s.n)

theorem initSt_inRng {P : LP} (h : P.Valid) : InRng (initSt P) := by
  refine ⟨fun i hi => ?_, fun k hk => ?_⟩
  · rcases initSt_rowSize h i with e | e
    · exact e.1
    · exact absurd e.2.1 hi
  · rcases initSt_colSize h k with e | e
    · exact e.1
    · exact absurd e.2.1 hk

theorem GI.rowLt {s : St} (g : GI s) (hr : InRng s) {i : ℕ} (hi : (s.rtag i).inactive = false) : i < s.m :=
  hr.1 i (g.rowActive hi)

theorem GI.colLt {s : St} (g : GI s) (hr : InRng s) {k : ℕ} (hk : (s.ctag k).inactive = false) : k < s.n :=
  hr.2 k (g.colActive hk)

/-- What a relation has to satisfy, step by step. -/
structure Backward {α : Type} (I : Interp α) (μ : Mode) (R : St → α → Option α → Prop) : Prop where
  core : ∀ s t, SameButLog s t → ∀ a o, R s a o → R t a o
  fix : ∀ s k val, GI s → InRng s → (s.ctag k).inactive = false →
    (∀ p ∈ s.AT k, (s.rtag p.1).inactive = false) →
    Tr I R [.fixedCol k val (s.c k) (s.AT k)] s (fixStep s k val (s.c k))
  fixInf : μ.near = true → ∀ s k pos bound v, GI s → InRng s → (s.ctag k).inactive = false → s.c k = 0 →
    Tr I R (((liveRows s k).map (fun i => Rec.deletedRow i 0)).reverse ++ [fixedColInfRec s k pos bound]) s
      (fixInfStep s k pos bound v)
  deact : ∀ s i, GI s → InRng s → (s.rtag i).inactive = false → Tr I R [.deletedRow i 0] s (deactStep s i 0)
  sides : ∀ s i t l r u d, GI s → InRng s → (s.rtag i).inactive = false → t.inactive = false →
    Tr I R [] s (sidesStep s i t l r u d [])
  sideRec : μ.sideRec = true → ∀ s i other t l r u d rc, GI s → InRng s → (s.rtag i).inactive = false →
    (s.rtag other).inactive = false → i ≠ other → (∀ p ∈ s.A i, (s.ctag p.1).inactive = false) →
    t.inactive = false → (∃ side ratio, rc = .rhsChange i other (s.A i) side ratio ∨
        rc = .lhsChange i other (s.A i) side ratio) →
    Tr I R [rc] s (sidesStep s i t l r u d [rc])
  stonEq : ∀ s row k a val, GI s → InRng s → (s.rtag row).inactive = false → (s.ctag k).inactive = false →
    s.A row = [(k, a)] → (∀ p ∈ s.AT k, (s.rtag p.1).inactive = false) →
    Tr I R [.deletedRow row (s.c k / a), .addedRows row (s.AT k) a, .fixedCol k val (s.c k) (s.AT k)] s
      (stonEqStep s row k a val)
  emptyRow : ∀ s i, GI s → InRng s → (s.rtag i).inactive = false → s.A i = [] →
    Tr I R [.deletedRow i 0] s (emptyRowStep s i)
  emptyCol : ∀ s k v, GI s → InRng s → (s.ctag k).inactive = false → s.AT k = [] →
    Tr I R [.fixedCol k v (s.c k) []] s (emptyColStep s k v)
  freeSton : μ.ston = true → ∀ s i k q side, GI s → InRng s → (s.rtag i).inactive = false → (s.ctag k).inactive = false →
    s.AT k = [(i, q)] → (∀ p ∈ s.A i, (s.ctag p.1).inactive = false) →
    Tr I R [.deletedRow i (s.c k / q), .subCol k (s.A i) side i (s.c k)] s (freeColIneq s i k q side)
  half : μ.ston = true → ∀ s i k q b upper, GI s → InRng s → (s.rtag i).inactive = false → (s.ctag k).inactive = false →
    s.AT k = [(i, q)] → (s.rtag i).lhsInf = false ∧ (s.rtag i).rhsInf = false →
    (∀ p ∈ s.A i, (s.ctag p.1).inactive = false) →
    Tr I R [.subCol k (s.A i) (s.rhs i) i 0, .eqToIneq i (s.c k / q)] s (halfStep s i k q b upper)
  fixSton : ∀ s i k q v, GI s → InRng s → (s.rtag i).inactive = false → (s.ctag k).inactive = false →
    s.AT k = [(i, q)] → Tr I R [.fixedCol k v (s.c k) [(i, q)]] s (fixColSton s i k q v)
  bound : ∀ s i j lb ub t implied other low, GI s → InRng s → (s.rtag i).inactive = false →
    (s.ctag j).inactive = false → (∃ v, (j, v) ∈ s.A i) → t.inactive = false →
    ∀ a, (∀ b o, I.bound a i (s.A i) j implied other low = some b → R s b o →
        R (boundStep s j lb ub t implied other low) a o) ∧
      (I.bound a i (s.A i) j implied other low = none → R (boundStep s j lb ub t implied other low) a none)
  dton : ∀ s t i j k aij aik b, GI s → InRng s → DtonOut s t i j k aij aik b →
    (∀ p ∈ s.A i, (s.ctag p.1).inactive = false) →
    (μ.round = true ∨ ∀ q a, q ≠ i → (q, a) ∈ s.AT k →
      |newCoef j k (aij / aik) (s.A q)| ≤ ZERO_TOL → newCoef j k (aij / aik) (s.A q) = 0) →
    Tr I R (.deletedRow i (s.c k / aik) :: .subCol k (s.A i) (.fin b) i (s.c k) ::
      (((s.AT k).filter (fun p => decide (p.1 ≠ i))).map
        (fun p => Rec.addedRow i p.1 (-p.2 / aik))).reverse) s t
  merge : μ.merge = true → ∀ s j k ratio, GI s → InRng s → j ≠ k → (s.ctag j).inactive = false →
    (s.ctag k).inactive = false → (μ.round = true ∨ (s.c k = ratio * s.c j ∧
        s.AT k = (s.AT j).map (fun p => (p.1, ratio * p.2)))) →
    Tr I R [.parallelCol j k (mergeTag ratio (s.ctag j) (s.ctag k)) { s.ctag k with subst := true }
      (s.lb j) (s.ub j) (s.lb k) (s.ub k) ratio] s (mergeCols s j k ratio)
  relax : ∀ s k t, t.inactive = (s.ctag k).inactive → Tr I R [] s { s with ctag := upd s.ctag k t }
  delRows : ∀ s, GI s → InRng s → Tr I R [] s (deleteInactiveRows s)
  delCols : ∀ s, GI s → InRng s → s.rowsToDelete = [] →
    Tr I R [] s (deleteInactiveCols (deleteFixedCols s))

theorem SameCore.butLog {s t : St} (h : SameCore s t) : SameButLog s t :=
  ⟨h.m, h.n, h.A, h.AT, h.lhs, h.rhs, h.lb, h.ub, h.rtag, h.ctag, h.c, h.off, h.rowSize, h.colSize,
    h.up, h.down, h.rowsToDelete, h.fixedCols, h.subCols, h.nnz, rfl⟩

section
variable {α : Type} {I : Interp α} {μ : Mode} {R : St → α → Option α → Prop}

/-- A step whose records are `new`. -/
theorem Tr.step (B : Backward I μ R) {new : List Rec} {s t t' : St} (h : Tr I R new s t)
    (hn : ∀ r ∈ new, r.isHead = false) (hl : t.log = new ++ s.log) (e : SameCore t t')
    (hs : ∀ a, R s a (I.replay none s.log a)) (a : α) : R t' a (I.replay none t'.log a) := by
  apply B.core t t' e.butLog
  rw [e.log, hl, I.replay_append new _ _ hn]
  cases hr : I.run new a with
  | none => exact (h a).2 hr
  | some b => exact (h a).1 b _ hr (hs b)

theorem PropFrame.inRng {s t : St} (f : PropFrame s t) (h : InRng s) : InRng t := by
  unfold InRng
  rw [f.rowSize, f.colSize, f.m, f.n]
  exact h

theorem PropRun.rel (B : Backward I μ R) {i num : ℕ} {s t : St} (h : PropRun i s num t)
    (g : GI s) (hr : InRng s) (hi : (s.rtag i).inactive = false)
    (hs : ∀ a, R s a (I.replay none s.log a)) (a : α) :
    R t a (I.replay (Group.next i (s.A i) num) t.log a) := by
  induction h generalizing a with
  | nil => exact hs a
  | @same num t t' h e ih =>
    apply B.core t t' e.butLog
    rw [e.log]
    exact ih a
  | @bound num t t' j lb ub tag implied other low h hj hcell htag e ih =>
    apply B.core _ t' e.butLog
    rw [e.log]
    have hA : t.A = s.A := h.frame.A
    have hb := B.bound t i j lb ub tag implied other low (h.gi g) (h.frame.inRng hr)
      (by rw [h.frame.rtag]; exact hi) hj hcell htag a
    rw [hA] at hb
    show R _ a ((I.bound a i (s.A i) j implied other low).bind
      (I.replay (Group.next i (s.A i) (num + 1 - 1)) t.log))
    cases hx : I.bound a i (s.A i) j implied other low with
    | none => exact hb.2 hx
    | some b => exact hb.1 b _ hx (ih b)
  | @fix num t t' k val h hk hrows e ih =>
    apply B.core _ t' e.butLog
    rw [e.log]
    have hb := B.fix t k val (h.gi g) (h.frame.inRng hr) hk hrows a
    show R _ a ((I.record a (.fixedCol k val (t.c k) (t.AT k))).bind
      (I.replay (some (i, s.A i, num + 1)) t.log))
    have er : I.run [.fixedCol k val (t.c k) (t.AT k)] a = I.record a (.fixedCol k val (t.c k) (t.AT k)) := by
      unfold Interp.run
      cases I.record a (.fixedCol k val (t.c k) (t.AT k)) <;> rfl
    rw [er] at hb
    cases hx : I.record a (.fixedCol k val (t.c k) (t.AT k)) with
    | none => exact hb.2 hx
    | some b => exact hb.1 b _ hx (ih b)

theorem freeColIneq_log (s : St) (i k : ℕ) (q : ℚ) (side : D) :
    (freeColIneq s i k q side).log =
      [Rec.deletedRow i (s.c k / q), .subCol k (s.A i) side i (s.c k)] ++ s.log := by
  unfold freeColIneq setRowToInactive dropCol St.save St.check subVarInObj
  split <;> rfl

theorem halfStep_log (s : St) (i k : ℕ) (q : ℚ) (b : D) (upper : Bool) :
    (halfStep s i k q b upper).log =
      [Rec.subCol k (s.A i) (s.rhs i) i 0, .eqToIneq i (s.c k / q)] ++ s.log := by
  obtain ⟨l, r, u, d, h, _⟩ := halfStep_eq s i k q b upper
  rw [h]; rfl

theorem Raw.rel (B : Backward I μ R) {s t : St} (h : Raw μ s t) (g : GI s) (hr : InRng s)
    (hs : ∀ a, R s a (I.replay none s.log a)) (a : α) : R t a (I.replay none t.log a) := by
  have nil : ∀ r ∈ ([] : List Rec), r.isHead = false := fun _ h => by cases h
  cases h with
  | same h => exact B.core s t h.butLog _ _ (by rw [h.log]; exact hs a)
  | fix k val hk hrows h =>
    exact (B.fix s k val g hr hk hrows).step B (by simp [Rec.isHead]) rfl h hs a
  | fixInf k pos bound v hk hc h hμ =>
    refine (B.fixInf hμ s k pos bound v g hr hk hc).step B ?_ ?_ h hs a
    · intro r hr
      simp only [List.mem_append, List.mem_reverse, List.mem_map, List.mem_singleton] at hr
      rcases hr with ⟨_, _, rfl⟩ | rfl <;> rfl
    · show _ = (_ ++ [_]) ++ s.log
      rw [List.append_assoc]; rfl
  | deact i hi h => exact (B.deact s i g hr hi).step B (by simp [Rec.isHead]) rfl h hs a
  | sides i t l r u d hi ht hl h => exact (B.sides s i t l r u d g hr hi ht).step B nil rfl h hs a
  | sideRec i other t l r u d rc hi hother hne hcols ht hl hrec hμ h =>
    refine (B.sideRec hμ s i other t l r u d rc g hr hi hother hne hcols ht hrec).step B ?_ rfl h hs a
    obtain ⟨side, ratio, rfl | rfl⟩ := hrec <;> simp [Rec.isHead]
  | stonEq row k a' val hi hk hrow hrows h =>
    exact (B.stonEq s row k a' val g hr hi hk hrow hrows).step B (by simp [Rec.isHead]) rfl h hs a
  | emptyRow i hi hA h => exact (B.emptyRow s i g hr hi hA).step B (by simp [Rec.isHead]) rfl h hs a
  | emptyCol k v hk hT h => exact (B.emptyCol s k v g hr hk hT).step B (by simp [Rec.isHead]) rfl h hs a
  | freeSton i k q side hi hk hT hcols h hμ =>
    exact (B.freeSton hμ s i k q side g hr hi hk hT hcols).step B (by simp [Rec.isHead])
      (freeColIneq_log s i k q side) h hs a
  | half i k q b upper hi hk hT hsides hcols h hμ =>
    exact (B.half hμ s i k q b upper g hr hi hk hT hsides hcols).step B (by simp [Rec.isHead])
      (halfStep_log s i k q b upper) h hs a
  | fixSton i k q v hi hk hT h =>
    exact (B.fixSton s i k q v g hr hi hk hT).step B (by simp [Rec.isHead]) rfl h hs a
  | prop i num u hi hnum hrun h =>
    apply B.core _ t h.butLog
    rw [h.log]
    apply B.core u _ (by constructor <;> rfl)
    show R u a (I.replay (Group.next i (u.A i) num) u.log a)
    rw [hrun.frame.A]
    exact hrun.rel B g hr hi hs a
  | dton i j k aij aik b h hcols hμ =>
    refine (B.dton s t i j k aij aik b g hr h hcols hμ).step B ?_ h.log (.refl t) hs a
    intro r hr
    simp only [List.mem_cons, List.mem_reverse, List.mem_map] at hr
    rcases hr with rfl | rfl | ⟨_, _, rfl⟩ <;> rfl
  | merge j k ratio hjk hj hk hμ hex h =>
    refine (B.merge hμ s j k ratio g hr hjk hj hk hex).step B (by simp [Rec.isHead]) ?_ h hs a
    unfold mergeCols setColToSubstituted St.check St.save
    simp only [List.cons_append, List.nil_append, List.cons.injEq, Rec.parallelCol.injEq, true_and, and_true]
    rw [upd_ne _ _ hjk, upd_same, upd_same, upd_ne _ _ hjk.symm]
    simp [upd_ne _ _ hjk.symm]
  | relax k tg ht h => exact (B.relax s k tg ht).step B nil rfl h hs a
  | delRows h =>
    refine (B.delRows s g hr).step B nil ?_ h hs a
    have e := congrArg St.log (deleteInactiveRows_deleted g).eq
    exact e
  | delCols hd h =>
    refine (B.delCols s g hr hd).step B nil ?_ h hs a
    obtain ⟨l, r, a, o, b, e⟩ := deleteFixedCols_eq s
    rw [e]
    have e := congrArg St.log (deleteInactiveCols_deleted
      (s := { s with lhs := l, rhs := r, act := a, off := o, asrt := b })
      (g.of_eq rfl rfl rfl rfl rfl (fun _ => rfl) rfl rfl rfl rfl rfl rfl rfl rfl) hd).eq
    exact e

theorem Steps.inRng {s t : St} (h : Steps μ s t) (g : GI s) (hr : InRng s) : InRng t := by
  have m := h.mono g
  exact ⟨fun i hi => by rw [m.m]; exact hr.1 i (fun e => hi (m.rowGone i e)),
    fun k hk => by rw [m.n]; exact hr.2 k (fun e => hk (m.colGone k e))⟩

/-- A relation that every elementary step carries over holds for whatever is reached. -/
theorem Steps.rel (B : Backward I μ R) {s t : St} (h : Steps μ s t) (g : GI s) (hr : InRng s)
    (hs : ∀ a, R s a (I.replay none s.log a)) (a : α) : R t a (I.replay none t.log a) := by
  induction h generalizing a with
  | refl => exact hs a
  | tail h r ih => exact r.rel B (h.gi g) (h.inRng g hr) ih a

end

end Verif
