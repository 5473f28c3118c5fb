import Verif.Props.C50_Debugger

/-!
# C52: row tags and sides agree

The code never tests a side of a row for infinity, it tests the tag; the locks, the activities and the
implied bounds all rest on it.
-/

namespace Verif

/-- The tags of the rows in use say which sides are infinite, and every row with equal finite sides is tagged as
an equality. -/
structure TagsRight (s : St) : Prop where
  lhs : ∀ i, (s.rtag i).inactive = false → ((s.rtag i).lhsInf = true ↔ s.lhs i = .ninf)
  rhs : ∀ i, (s.rtag i).inactive = false → ((s.rtag i).rhsInf = true ↔ s.rhs i = .pinf)
  lhsSide : ∀ i, (s.rtag i).inactive = false → s.lhs i ≠ .pinf
  rhsSide : ∀ i, (s.rtag i).inactive = false → s.rhs i ≠ .ninf
  eq : ∀ i q, (s.rtag i).inactive = false → s.lhs i = .fin q → s.rhs i = .fin q → (s.rtag i).eq = true

theorem TagOK.right {s : St} (h : TagOK s) : TagsRight s := by
  refine ⟨fun i hi => ⟨(h i).lInf, fun e => ?_⟩, fun i hi => ⟨(h i).rInf, fun e => ?_⟩, fun i hi e => ?_, fun i hi e => ?_,
    fun i q hi e1 e2 => ?_⟩
  · by_contra hc
    have := (h i).lFin hi (by simpa using hc)
    rw [e] at this; cases this
  · by_contra hc
    have := (h i).rFin hi (by simpa using hc)
    rw [e] at this; cases this
  · cases hc : (s.rtag i).lhsInf with
    | true => rw [(h i).lInf hc] at e; cases e
    | false => have := (h i).lFin hi hc; rw [e] at this; cases this
  · cases hc : (s.rtag i).rhsInf with
    | true => rw [(h i).rInf hc] at e; cases e
    | false => have := (h i).rFin hi hc; rw [e] at this; cases this
  · refine (h i).eq hi ?_ ?_ ?_
    · cases hc : (s.rtag i).lhsInf with
      | true => rw [(h i).lInf hc] at e1; cases e1
      | false => rfl
    · cases hc : (s.rtag i).rhsInf with
      | true => rw [(h i).rInf hc] at e2; cases e2
      | false => rfl
    · rw [e1, e2]; simp [D.eqb]

/-- **C52, in every run.**  At every call of the debugger. -/
theorem C52_run {P : LP} (hS : P.Sides) {env : Env} {stgs : Settings} {fuel : ℕ} {t : St} {finished : Bool}
    (h : (t, finished) ∈ debugPoints env stgs fuel P) (o : t.asrt = true) : TagsRight t :=
  TagOK.right ((debugPoints_lup h).tag o (initSt_updOK P).weak (initSt_tagOK hS))

/-- **C52, any order of calls.** -/
theorem C52_calls {P : LP} (hS : P.Sides) {env : Env} {stgs : Settings} {t : St} (h : Calls env stgs (initSt P) t)
    (o : t.asrt = true) : TagsRight t :=
  TagOK.right (h.lup.tag o (initSt_updOK P).weak (initSt_tagOK hS))

/-- **C52, the result of a run.** -/
theorem C52_result {P : LP} (hS : P.Sides) {env : Env} {stgs : Settings} {fuel : ℕ}
    (hf : fine (runPresolver env stgs fuel P).2.1) (o : (runPresolver env stgs fuel P).1.asrt = true) :
    TagsRight (runPresolver env stgs fuel P).1 :=
  TagOK.right ((runPresolver_lup hf).tag o (initSt_updOK P).weak (initSt_tagOK hS))

/-- In the run on `exMix` two rows are left, with an infinite left side and a finite right side. -/
example : exMix.Sides ∧ fine (runPresolver envEx stgsAll 20 exMix).2.1 ∧ (runPresolver envEx stgsAll 20 exMix).1.asrt = true ∧
    ((List.range 5).filter (fun i => !((runPresolver envEx stgsAll 20 exMix).1.rtag i).inactive)).map
      (fun i => (i, ((runPresolver envEx stgsAll 20 exMix).1.rtag i).lhsInf, (runPresolver envEx stgsAll 20 exMix).1.lhs i,
        ((runPresolver envEx stgsAll 20 exMix).1.rtag i).rhsInf)) = [(2, true, .ninf, false), (3, true, .ninf, false)] := by
  unfold fine LP.Sides
  decide +kernel

/-- The sides must be meant as sides: with a left side `+∞` the first state is already wrong. -/
example : ¬ TagsRight (initSt { exMix with lhs := fun _ => .pinf }) := fun h =>
  h.lhsSide 0 (by decide +kernel) rfl

end Verif
