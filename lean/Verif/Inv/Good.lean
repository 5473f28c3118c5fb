import Verif.Inv.Mono
import Verif.Inv.Steps

/-!
# Combinators for showing that a function is a sequence of elementary steps

The ghost flags `asrt`, `tiny` and `near` are sticky, so a run whose final state has `asrt = true` has
`asrt = true` everywhere.  `Good μ I J s s'` says: if the final state is `Ok` then so is the initial
one, and if the initial one satisfies the invariant and `I` then `s'` comes from `s` by elementary
steps and satisfies `J`.
-/

namespace Verif

theorem Steps.mono {μ : Mode} {s t : St} (h : Steps μ s t) (g : GI s) : Mono s t := by
  induction h with
  | refl => exact .refl _
  | tail h r ih => exact ih.trans (r.mono (h.gi g))

/-- All tracked assertions held; nothing was rounded and no column was fixed because of a tolerance
unless the mode allows it. -/
def Ok (μ : Mode) (s : St) : Prop :=
  s.asrt = true ∧ (μ.round = false → s.tiny = false) ∧ (μ.near = false → s.near = false)

/-- The structural invariant together with what the lists of short rows contain. -/
structure Inv (s : St) : Prop where
  gi : GI s
  ston : ∀ i ∈ s.stonRows, (s.A i).length ≤ 1
  dton : ∀ i ∈ s.dtonRows, (s.A i).length ≤ 2

/-- Every empty active row and column is on the list of empty rows or columns. -/
def Em (s : St) : Prop :=
  (∀ i, i < s.m → (s.rtag i).inactive = false → s.A i = [] → i ∈ s.emptyRows) ∧
    (∀ k, k < s.n → (s.ctag k).inactive = false → s.AT k = [] → k ∈ s.emptyCols)

/-- `s'` comes from `s` by elementary steps; the lists of short rows only gain short rows; nothing
undefined happens; empty rows and columns stay listed. -/
structure Run (μ : Mode) (s s' : St) : Prop where
  steps : Steps μ s s'
  ston : ∀ i ∈ s'.stonRows, i ∈ s.stonRows ∨ (s'.A i).length ≤ 1
  dton : ∀ i ∈ s'.dtonRows, i ∈ s.dtonRows ∨ (s'.A i).length ≤ 2
  undef : s'.undef = s.undef
  em : Em s → Em s'

theorem Run.refl (μ : Mode) (s : St) : Run μ s s := ⟨.refl s, fun _ => .inl, fun _ => .inl, rfl, id⟩

theorem Run.inv {μ : Mode} {s t : St} (h : Run μ s t) (i : Inv s) : Inv t := by
  have m := h.steps.mono i.gi
  refine ⟨h.steps.gi i.gi, fun r hr => ?_, fun r hr => ?_⟩
  · rcases h.ston r hr with e | e
    · exact (m.len r).trans (i.ston r e)
    · exact e
  · rcases h.dton r hr with e | e
    · exact (m.len r).trans (i.dton r e)
    · exact e

theorem Run.mono {μ : Mode} {s t : St} (h : Run μ s t) (i : Inv s) : Mono s t := h.steps.mono i.gi

theorem Run.trans {μ : Mode} {s t u : St} (h : Run μ s t) (h' : Run μ t u) (i : Inv s) :
    Run μ s u := by
  have m := h'.mono (h.inv i)
  refine ⟨h.steps.trans h'.steps, fun r hr => ?_, fun r hr => ?_, h'.undef.trans h.undef,
    fun e => h'.em (h.em e)⟩
  · rcases h'.ston r hr with e | e
    · rcases h.ston r e with e | e
      · exact Or.inl e
      · exact Or.inr ((m.len r).trans e)
    · exact Or.inr e
  · rcases h'.dton r hr with e | e
    · rcases h.dton r e with e | e
      · exact Or.inl e
      · exact Or.inr ((m.len r).trans e)
    · exact Or.inr e

theorem Mono.em {s t : St} (h : Mono s t) (hA : ∀ i, (t.rtag i).inactive = true ∨ t.A i = s.A i)
    (hT : ∀ k, (t.ctag k).inactive = true ∨ t.AT k = s.AT k) (hr : ∀ i ∈ s.emptyRows, i ∈ t.emptyRows)
    (hc : ∀ k ∈ s.emptyCols, k ∈ t.emptyCols) (e : Em s) : Em t := by
  constructor
  · intro i hi ha hA'
    have h1 : (s.rtag i).inactive = false := by
      cases hx : (s.rtag i).inactive with
      | false => rfl
      | true => rw [h.rowIn i hx] at ha; cases ha
    rcases hA i with h2 | h2
    · rw [ha] at h2; cases h2
    · exact hr i (e.1 i (h.m ▸ hi) h1 (h2 ▸ hA'))
  · intro k hk ha hA'
    have h1 : (s.ctag k).inactive = false := by
      cases hx : (s.ctag k).inactive with
      | false => rfl
      | true => rw [h.colIn k hx] at ha; cases ha
    rcases hT k with h2 | h2
    · rw [ha] at h2; cases h2
    · exact hc k (e.2 k (h.n ▸ hk) h1 (h2 ▸ hA'))

theorem SameCore.em {s t : St} (h : SameCore s t) (hr : ∀ i ∈ s.emptyRows, i ∈ t.emptyRows)
    (hc : ∀ k ∈ s.emptyCols, k ∈ t.emptyCols) (e : Em s) : Em t :=
  h.mono.em (fun i => .inr (by rw [h.A])) (fun k => .inr (by rw [h.AT])) hr hc e

/-- One elementary step that leaves the lists of short and empty rows and columns alone. -/
theorem Run.of_raw {μ : Mode} {s t : St} (h : Raw μ s t) (g : GI s) (hs : t.stonRows = s.stonRows)
    (hd : t.dtonRows = s.dtonRows) (hu : t.undef = s.undef)
    (hA : ∀ i, (t.rtag i).inactive = true ∨ t.A i = s.A i := by exact fun _ => Or.inr rfl)
    (hT : ∀ k, (t.ctag k).inactive = true ∨ t.AT k = s.AT k := by exact fun _ => Or.inr rfl)
    (hr : ∀ i ∈ s.emptyRows, i ∈ t.emptyRows := by exact fun _ h => h)
    (hc : ∀ k ∈ s.emptyCols, k ∈ t.emptyCols := by exact fun _ h => h) : Run μ s t :=
  ⟨.single h, fun _ hr => Or.inl (hs ▸ hr), fun _ hr => Or.inl (hd ▸ hr), hu, (h.mono g).em hA hT hr hc⟩

/-- Only activities, work lists other than the short rows, the clock and the assertions change. -/
theorem Run.of_same {μ : Mode} {s t : St} (h : SameCore s t) (hs : t.stonRows = s.stonRows)
    (hd : t.dtonRows = s.dtonRows) (hu : t.undef = s.undef)
    (hr : ∀ i ∈ s.emptyRows, i ∈ t.emptyRows := by exact fun _ h => h)
    (hc : ∀ k ∈ s.emptyCols, k ∈ t.emptyCols := by exact fun _ h => h) : Run μ s t :=
  ⟨.single (.same h), fun _ hr => Or.inl (hs ▸ hr), fun _ hr => Or.inl (hd ▸ hr), hu, h.em hr hc⟩

def Good (μ : Mode) (I J : St → Prop) (s s' : St) : Prop :=
  Ok μ s' → Ok μ s ∧ (Inv s → I s → Run μ s s' ∧ J s')

section
variable {μ : Mode} {I J K : St → Prop} {a b c : St}

theorem Good.refl (μ : Mode) (I : St → Prop) (s : St) : Good μ I I s s :=
  fun h => ⟨h, fun _ hi => ⟨.refl μ s, hi⟩⟩

theorem Good.trans (h : Good μ I J a b) (h' : Good μ J K b c) : Good μ I K a c := by
  intro o
  obtain ⟨o', k'⟩ := h' o
  obtain ⟨o'', k''⟩ := h o'
  refine ⟨o'', fun i hi => ?_⟩
  obtain ⟨r, hj⟩ := k'' i hi
  obtain ⟨r', hk⟩ := k' (r.inv i) hj
  exact ⟨r.trans r' i, hk⟩

theorem Good.weaken {I' J' : St → Prop} (h : Good μ I J a b) (hI : Inv a → I' a → I a)
    (hJ : Inv b → J b → J' b) : Good μ I' J' a b := by
  intro o
  obtain ⟨o', k⟩ := h o
  exact ⟨o', fun i hi => by
    obtain ⟨r, hj⟩ := k i (hI i hi)
    exact ⟨r, hJ (r.inv i) hj⟩⟩

/-- Use the invariant, the precondition and `Ok` of the first state. -/
theorem Good.assume (h : Ok μ a → Inv a → I a → Good μ I J a b) (ho : Ok μ b → Ok μ a) :
    Good μ I J a b := by
  intro o
  exact ⟨ho o, fun i hi => (h (ho o) i hi o).2 i hi⟩

theorem Good.of (ho : Ok μ b → Ok μ a) (h : Ok μ b → Inv a → I a → Run μ a b ∧ J b) :
    Good μ I J a b := fun o => ⟨ho o, h o⟩

/-- Only activities, work lists other than the short rows, the clock and the assertions change. -/
theorem Good.same (h : SameCore a b) (hs : b.stonRows = a.stonRows) (hd : b.dtonRows = a.dtonRows)
    (hu : b.undef = a.undef) (ho : Ok μ b → Ok μ a) (hj : Ok μ b → I a → J b)
    (hr : ∀ i ∈ a.emptyRows, i ∈ b.emptyRows := by exact fun _ h => h)
    (hc : ∀ k ∈ a.emptyCols, k ∈ b.emptyCols := by exact fun _ h => h) : Good μ I J a b :=
  .of ho (fun o _ hi => ⟨.of_same h hs hd hu hr hc, hj o hi⟩)

/-- Use a consequence of `Ok` of the last state. -/
theorem Good.use {X : Prop} (h : Ok μ b → X) (g : X → Good μ I J a b) : Good μ I J a b :=
  fun o => g (h o) o

theorem Ok.check {s : St} {x : Bool} (h : Ok μ (s.check x)) : Ok μ s ∧ x = true := by
  obtain ⟨h1, h2⟩ := h
  have : (s.asrt && x) = true := h1
  rw [Bool.and_eq_true] at this
  exact ⟨⟨this.1, h2⟩, this.2⟩

/-- A tracked assertion: afterwards it is known to hold. -/
theorem Good.check (s : St) (x : Bool) (hj : x = true → I s → J (s.check x)) :
    Good μ I J s (s.check x) :=
  .same (sameCore_check s x) rfl rfl rfl (fun o => o.check.1) (fun o hi => hj o.check.2 hi)

theorem Good.fuzz (s : St) (x : Bool) (hj : I s → J (s.fuzz x)) : Good μ I J s (s.fuzz x) :=
  .same (by constructor <;> rfl) rfl rfl rfl
    (fun o => ⟨o.1, o.2.1, fun h => (Bool.or_eq_false_iff.mp (o.2.2 h)).1⟩) (fun _ hi => hj hi)

/-- Start from the state in which assertions have been evaluated. -/
theorem Good.from_check {s : St} {x : Bool} (h : x = true → Good μ I J (s.check x) b)
    (ho : Ok μ b → Ok μ (s.check x)) (hI : I s → I (s.check x)) : Good μ I J s b := by
  refine .of (fun o => (ho o).check.1) (fun o i hi => ?_)
  have hx := (ho o).check.2
  have i' : Inv (s.check x) := ⟨(sameCore_check s x).gi i.gi, i.ston, i.dton⟩
  obtain ⟨r, hj⟩ := (h hx o).2 i' (hI hi)
  have r1 : Run μ s (s.check x) := .of_same (sameCore_check s x) rfl rfl rfl
  exact ⟨r1.trans r i, hj⟩

theorem Good.ok (h : Good μ I J a b) (o : Ok μ b) : Ok μ a := (h o).1

end

/-- No rows are waiting for deletion. -/
def NoRows (s : St) : Prop := s.rowsToDelete = []

/-- No columns are waiting for deletion. -/
def NoCols (s : St) : Prop := s.fixedCols = [] ∧ s.subCols = []

/-- Nothing is waiting for deletion. -/
def Clean (s : St) : Prop := s.rowsToDelete = [] ∧ s.fixedCols = [] ∧ s.subCols = []

end Verif
