import Verif.Inv.PtDton
import Verif.Inv.LiveEnd
import Verif.Inv.ListedRun

/-!
# Optimality conditions of the problem that is left: whole runs
-/

namespace Verif

section
variable {μ : Mode} {s t : St}

theorem runFast_P (hn : μ.near = false) (hμ : μ.round = false) (env : Env) (stgs : Settings)
    (h1 : stgs.stonCols = false) (s : St) : KeepsP μ CleanTags CleanTags s (runFast env stgs s) := by
  unfold runFast
  rw [h1]
  simp only [Bool.false_eq_true, if_false]
  split
  · have h := (removeDtonRows_P hμ env s).trans ((runTrivial_P hn stgs (removeDtonRows env s)).tags
      (runTrivial_lup stgs (removeDtonRows env s)))
    exact h
  · exact .refl _ _ _

theorem runMedium_off_P (env : Env) (stgs : Settings) (h3 : stgs.primalPropagation = false)
    (hr : stgs.parallelRows = false) (hc : stgs.parallelCols = false) (s : St) :
    KeepsP μ CleanTags CleanTags s (runMedium env stgs s) := by
  unfold runMedium
  rw [h3, hr, hc]
  simp only [Bool.false_eq_true, if_false]
  rw [ite_self, ite_self]
  exact .refl _ _ _

theorem CleanTags.core (h : CleanTags s) (c : SameCore s t) (l : Lup s t) (o : t.asrt = true) : CleanTags t :=
  ⟨c.clean h.1, h.2.lup l o⟩

theorem mainLoop_P (hn : μ.near = false) (hμ : μ.round = false) (env : Env) (stgs : Settings)
    (h1 : stgs.stonCols = false) (hm : ∀ s, KeepsP μ CleanTags CleanTags s (runMedium env stgs s))
    (fuel : ℕ) (s : St) (c : Complexity) (b a : ℤ) :
    KeepsP μ CleanTags CleanTags s ((mainLoop env stgs fuel s c b a).1, (mainLoop env stgs fuel s c b a).2.1) := by
  induction fuel generalizing s c b a with
  | zero => exact .refl _ _ _
  | succ fuel ih =>
    unfold mainLoop
    simp only
    have hT : KeepsP μ CleanTags CleanTags s (runTrivial stgs s) := (runTrivial_P hn stgs s).tags (runTrivial_lup stgs s)
    generalize runTrivial stgs s = r at hT
    split
    · exact hT
    · rename_i hu
      have hu : r.2 = UNCHANGED := by simpa using hu
      have key : ∀ q : St × Status, KeepsP μ CleanTags CleanTags r.1 q → KeepsP μ CleanTags CleanTags s
          ((if updateTermination (if c = .medium then q.1.nnz else a) b c q.2 (env.timeUp q.1.tick) = true then
            ({ q.1 with tick := q.1.tick + 1 }, q.2, true)
          else mainLoop env stgs fuel { q.1 with tick := q.1.tick + 1 } (updateComplexity c r.1.nnz q.1.nnz)
            (if c = .medium then (if c = .medium then q.1.nnz else a) else b)
            (if c = .medium then q.1.nnz else a)).1,
          (if updateTermination (if c = .medium then q.1.nnz else a) b c q.2 (env.timeUp q.1.tick) = true then
            ({ q.1 with tick := q.1.tick + 1 }, q.2, true)
          else mainLoop env stgs fuel { q.1 with tick := q.1.tick + 1 } (updateComplexity c r.1.nnz q.1.nnz)
            (if c = .medium then (if c = .medium then q.1.nnz else a) else b)
            (if c = .medium then q.1.nnz else a)).2.1) := by
        intro q h2
        have h3 := KeepsP.then hT (by rw [hu]; exact fine_unchanged) h2
        have sc : SameCore q.1 { q.1 with tick := q.1.tick + 1 } := by constructor <;> rfl
        have gt : Good μ CleanTags CleanTags q.1 { q.1 with tick := q.1.tick + 1 } :=
          .same sc rfl rfl rfl (fun o => ⟨o.1, o.2⟩) (fun _ h => ⟨h.1, ⟨⟨h.2.1.range, h.2.1.status, h.2.1.rows⟩, h.2.2⟩⟩)
        have h4 : KeepsP μ CleanTags CleanTags s ({ q.1 with tick := q.1.tick + 1 }, q.2) := by
          have := h3.trans (KeepsP.core (st := UNCHANGED) sc gt)
          have e : q.2 ||| UNCHANGED = q.2 := Nat.or_zero _
          rw [e] at this; exact this
        generalize (if c = .medium then q.1.nnz else a) = a'
        generalize (if c = .medium then a' else b) = b'
        split
        · exact h4
        · rename_i ht
          have hq : fine q.2 := by
            unfold updateTermination at ht
            simp only [Bool.or_eq_true, not_or, Bool.not_eq_true] at ht
            exact ht.1.1
          exact KeepsP.then h4 hq (ih { q.1 with tick := q.1.tick + 1 } (updateComplexity c r.1.nnz q.1.nnz) b' a')
      cases c with
      | fast => exact key _ (runFast_P hn hμ env stgs h1 _)
      | medium => exact key _ (hm _)

/-- The optimality conditions of the reduced problem read in the state the run ends in. -/
theorem kktP_reduced (g : GI t) (hr : InRng t) (c : Clean t) (n : Num t) (tg : TagOK t)
    {x y z : ℕ → ℚ} (h : (reducedLP t).Kkt x y z) :
    KktP t (copyReduced (idxMapOf t.colSize) (idxMapOf t.rowSize) (fun j => .fin (x j)) (fun j => .fin (y j))
      (fun j => .fin (z j))) := by
  have hx : ∀ k, (t.ctag k).inactive = false → (copyReduced (idxMapOf t.colSize) (idxMapOf t.rowSize)
      (fun j => .fin (x j)) (fun j => .fin (y j)) (fun j => .fin (z j))).x k =
      .fin (x (liveIdx t.colSize k).length) := by
    intro k hk
    show (match idxMapOf t.colSize k with | none => D.pinf | some k => .fin (x k)) = _
    rw [idxMapOf_live (g.colActive hk)]
  have hyi : ∀ i, (t.rtag i).inactive = false → (copyReduced (idxMapOf t.colSize) (idxMapOf t.rowSize)
      (fun j => .fin (x j)) (fun j => .fin (y j)) (fun j => .fin (z j))).y i =
      .fin (y (liveIdx t.rowSize i).length) := by
    intro i hi
    show (match idxMapOf t.rowSize i with | none => D.pinf | some k => .fin (y k)) = _
    rw [idxMapOf_live (g.rowActive hi)]
  have hzk : ∀ k, (t.ctag k).inactive = false → (copyReduced (idxMapOf t.colSize) (idxMapOf t.rowSize)
      (fun j => .fin (x j)) (fun j => .fin (y j)) (fun j => .fin (z j))).z k =
      .fin (z (liveIdx t.colSize k).length) := by
    intro k hk
    show (match idxMapOf t.colSize k with | none => D.pinf | some k => .fin (z k)) = _
    rw [idxMapOf_live (g.colActive hk)]
  have hst := statAt_reduced (t := t) g hr c (x := fun j => .fin (x j)) (y := fun j => .fin (y j)) (z := fun j => .fin (z j))
    ⟨fun i _ => ⟨_, rfl⟩, fun k hk => by rw [h.cost k hk]; rfl⟩
  refine KktAt.toP g c ?_
  generalize copyReduced (idxMapOf t.colSize) (idxMapOf t.rowSize) (fun j => .fin (x j)) (fun j => .fin (y j))
      (fun j => .fin (z j)) = σ at *
  have hrow : ∀ i, (t.rtag i).inactive = false →
      (liveIdx t.rowSize i).length < (reducedLP t).m ∧
      (reducedLP t).lhs (liveIdx t.rowSize i).length = t.lhs i ∧
      (reducedLP t).rhs (liveIdx t.rowSize i).length = t.rhs i ∧
      dot ((reducedLP t).A (liveIdx t.rowSize i).length) x = dot (t.A i) (fun k => (σ.x k).toQ) := by
    intro i hi
    have him := g.rowLt hr hi
    have hrk := liveIdx_rank him (g.rowActive hi)
    refine ⟨(List.getElem?_eq_some_iff.mp hrk).1, ?_, ?_, ?_⟩
    · show shrunk _ _ _ _ = _
      unfold shrunk; rw [hrk]
    · show shrunk _ _ _ _ = _
      unfold shrunk; rw [hrk]
    · rw [reduced_dot him (g.rowActive hi)]
      unfold dot
      congr 1
      refine List.map_congr_left (fun p hp => ?_)
      have hc := g.rowIn i hi p hp
      have ha : (t.ctag p.1).inactive = false := by
        by_contra hn
        exact hc ((g.colGone_iff c p.1).mpr (by simpa using hn))
      show p.2 * x ((idxMapOf t.colSize p.1).getD 0) = p.2 * (σ.x p.1).toQ
      rw [idxMapOf_live hc, Option.getD_some, hx p.1 ha]; rfl
  have hcol : ∀ k, (t.ctag k).inactive = false →
      (liveIdx t.colSize k).length < (reducedLP t).n ∧
      (reducedLP t).lb (liveIdx t.colSize k).length = t.lb k ∧
      (reducedLP t).ub (liveIdx t.colSize k).length = t.ub k := by
    intro k hk
    have hrk := liveIdx_rank (g.colLt hr hk) (g.colActive hk)
    refine ⟨(List.getElem?_eq_some_iff.mp hrk).1, ?_, ?_⟩
    · show shrunk _ _ _ _ = _
      unfold shrunk; rw [hrk]
    · show shrunk _ _ _ _ = _
      unfold shrunk; rw [hrk]
  refine ⟨fun k hk => ⟨_, hx k hk⟩, hst, fun i hi hp => ?_, fun i hi hp => ?_, fun k hk hp => ?_, fun k hk hp => ?_⟩
  · rw [hyi i hi, D.toQ_fin] at hp
    obtain ⟨h1, h2, -, h4⟩ := hrow i hi
    have := h.lhs _ h1 hp
    rw [h2, h4] at this
    refine ⟨?_, this⟩
    cases e : (t.rtag i).lhsInf with
    | false => rfl
    | true => rw [(tg i).lInf e] at this; cases this
  · rw [hyi i hi, D.toQ_fin] at hp
    obtain ⟨h1, -, h3, h4⟩ := hrow i hi
    have := h.rhs _ h1 hp
    rw [h3, h4] at this
    refine ⟨?_, this⟩
    cases e : (t.rtag i).rhsInf with
    | false => rfl
    | true => rw [(tg i).rInf e] at this; cases this
  · rw [hzk k hk, D.toQ_fin] at hp
    obtain ⟨h1, h2, -⟩ := hcol k hk
    have := h.lb _ h1 hp
    rw [h2] at this
    rcases n.lb k hk with ⟨-, e⟩ | ⟨e, -⟩
    · rw [e] at this; cases this
    · rw [this, hx k hk]; exact ⟨e, rfl⟩
  · rw [hzk k hk, D.toQ_fin] at hp
    obtain ⟨h1, -, h3⟩ := hcol k hk
    have := h.ub _ h1 hp
    rw [h3] at this
    rcases n.ub k hk with ⟨-, e⟩ | ⟨e, -⟩
    · rw [e] at this; cases this
    · rw [this, hx k hk]; exact ⟨e, rfl⟩

end

end Verif
