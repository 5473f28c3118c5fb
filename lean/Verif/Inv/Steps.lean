import Verif.Inv.Init

/-!
# Sequences of elementary steps
-/

namespace Verif

/-- Any number of elementary steps. -/
inductive Steps (μ : Mode) : St → St → Prop
  | refl (s : St) : Steps μ s s
  | tail {s t u : St} (h : Steps μ s t) (h' : Raw μ t u) : Steps μ s u

theorem Steps.single {μ : Mode} {s t : St} (h : Raw μ s t) : Steps μ s t := .tail (.refl s) h

theorem Steps.trans {μ : Mode} {s t u : St} (h : Steps μ s t) (h' : Steps μ t u) : Steps μ s u := by
  induction h' with
  | refl => exact h
  | tail _ r ih => exact .tail ih r

theorem Steps.gi {μ : Mode} {s t : St} (h : Steps μ s t) (g : GI s) : GI t := by
  induction h with
  | refl => exact g
  | tail _ r ih => exact r.gi ih

end Verif
