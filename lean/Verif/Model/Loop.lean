import Verif.Model.Driver

/-!
# The main loop of `run_presolver` over arbitrary explorers

The loop only looks at the number of nonzeros, at the statuses and at the clock.  Here the three
groups of explorers are parameters, so a statement about this loop holds for every outcome of
every explorer call.
-/

namespace Verif

/-- What the main loop uses: the three groups of explorers
(`/repo/src/core/Presolver.c:422-571`), the number of nonzeros `A->nnz` and the clock
(`update_termination`, lines 377-383; reading it may change the state of the clock). -/
structure Phases (σ : Type) where
  trivial : σ → σ × Status
  fast : σ → σ × Status
  medium : σ → σ × Status
  nnz : σ → ℤ
  clock : σ → Bool × σ

/-- Main loop of `run_presolver`, `/repo/src/core/Presolver.c:682-733`; the first argument bounds
the number of iterations, the Boolean in the result says that the loop ended by itself. -/
def presolveLoop {σ : Type} (ph : Phases σ) : ℕ → σ → Complexity → ℤ → ℤ → σ × Status × Bool
  | 0, s, _, _, _ => (s, UNCHANGED, false)
  | fuel + 1, s, c, beforeCycle, afterCycle =>
    let r := ph.trivial s
    if r.2 ≠ UNCHANGED then (r.1, r.2, true)
    else
      let beforePhase := ph.nnz r.1
      let q := match c with
        | .fast => ph.fast r.1
        | .medium => ph.medium r.1
      let afterCycle := if c = .medium then ph.nnz q.1 else afterCycle
      let t := ph.clock q.1
      if updateTermination afterCycle beforeCycle c q.2 t.1 then (t.2, q.2, true)
      else
        presolveLoop ph fuel t.2 (updateComplexity c beforePhase (ph.nnz t.2))
          (if c = .medium then afterCycle else beforeCycle) afterCycle

/-- The explorers of the model, `/repo/src/core/Presolver.c:422-571`. -/
def pslpPhases (env : Env) (stgs : Settings) : Phases St where
  trivial := runTrivial stgs
  fast := runFast env stgs
  medium := runMedium env stgs
  nnz := fun s => s.nnz
  clock := fun s => (env.timeUp s.tick, { s with tick := s.tick + 1 })

/-- `mainLoop` is this loop with the explorers of the model. -/
theorem mainLoop_eq (env : Env) (stgs : Settings) : ∀ (fuel : ℕ) (s : St) (c : Complexity) (b a : ℤ),
    mainLoop env stgs fuel s c b a = presolveLoop (pslpPhases env stgs) fuel s c b a
  | 0, _, _, _, _ => rfl
  | fuel + 1, s, c, b, a => by
    unfold mainLoop presolveLoop
    simp only [mainLoop_eq env stgs fuel]
    rfl

end Verif
