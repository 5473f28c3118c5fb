import Verif.Inv.DualFixGood
import Verif.Props.C12_Status

/-!
# The trivial explorers as elementary steps
-/

namespace Verif

theorem fine_of_two {st a : Status} (h : st = UNCHANGED ∨ st = a) (hn : st ≠ a) : fine st := by
  rcases h with h | h
  · rw [h]; exact fine_unchanged
  · exact absurd h hn

theorem stonRowsLoop_st (fuel : ℕ) (s : St) :
    (stonRowsLoop fuel s).2 = UNCHANGED ∨ (stonRowsLoop fuel s).2 = INFEASIBLE := by
  induction fuel generalizing s with
  | zero => exact Or.inl rfl
  | succ fuel ih =>
    unfold stonRowsLoop
    simp only
    split
    · rename_i h; exact Or.inr h
    · split
      · exact ih _
      · rename_i h1 h2
        rcases removeStonRows_st s with h | h | h
        · exact Or.inl h
        · exact absurd h h2
        · exact absurd h h1

theorem trivialHead_good (μ : Mode) (stgs : Settings) (s : St) :
    Good μ Clean (fun t => (trivialHead stgs s).2 ≠ INFEASIBLE → Clean t) s (trivialHead stgs s).1 := by
  unfold trivialHead
  simp only
  have g := closeBounds_good μ s
  split
  · rename_i h
    exact Good.weaken g (fun _ h => h) (fun _ _ hn => absurd h hn)
  · rename_i h
    have g1 := GoodX.to_good g (fine_of_two (closeBounds_st s) h)
    split
    · exact ((g1.trans (removeEmptyCols_good μ _)).trans (simpleDualFix_good μ _)).weaken (fun _ h => h) (fun _ h _ => h)
    · exact g1.weaken (fun _ h => h) (fun _ h _ => h)

theorem clean_check3 (μ : Mode) (s : St) (a b c : Bool) :
    Good μ Clean Clean s (((s.check a).check b).check c) := by
  refine Good.trans (J := Clean) (b := (s.check a).check b) (Good.trans (J := Clean) (b := s.check a) ?_ ?_) ?_
  · exact .check s a (fun _ h => h)
  · exact .check _ b (fun _ h => h)
  · exact .check _ c (fun _ h => h)

theorem runTrivial_good (μ : Mode) (stgs : Settings) (s : St) : GoodX μ Clean Clean s (runTrivial stgs s) := by
  unfold runTrivial
  simp only
  have g := trivialHead_good μ stgs s
  split
  · rename_i h
    exact g.weaken (fun _ h => h) (fun _ _ hf => absurd (h ▸ hf) not_fine_infeasible)
  · rename_i h1
    have g1 : Good μ Clean Clean s (trivialHead stgs s).1 := g.weaken (fun _ h => h) (fun _ h => h h1)
    split
    · exact g1.weaken (fun _ h => h) (fun _ h _ => h)
    · generalize (trivialHead stgs s).1 = t at g1
      have g2 : GoodX μ Clean Clean s (stonRowsLoop (t.m + 2) t) :=
        g1.trans ((stonRowsLoop_good μ (t.m + 2) t).weaken (fun _ h => ⟨h, Or.inr (by have := long_le t; omega)⟩)
          (fun _ h => h))
      split
      · exact g2
      · rename_i h2
        have g3 := (g2.to_good (fine_of_two (stonRowsLoop_st _ _) h2)).trans (removeEmptyRows_good μ _)
        split
        · exact g3.weaken (fun _ h => h) (fun _ h _ => h)
        · have g4 := g3.trans (removeEmptyCols_good μ _)
          split
          · exact g4.weaken (fun _ h => h) (fun _ h _ => h)
          · exact .of_good (g4.trans (clean_check3 μ _ _ _ _))

end Verif
