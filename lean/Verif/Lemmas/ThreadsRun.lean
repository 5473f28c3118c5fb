import Verif.Props.C38_Threads
import Verif.Inv.Init

/-!
# Sequential execution of the initialization programs
-/

namespace Verif

theorem run_bind {α β : Type} : ∀ (p : Prog α) (f : α → Prog β) (μ : Mem),
    (p.bind f).run μ = (f (p.run μ).1).run (p.run μ).2
  | .ret _, _, _ => rfl
  | .rd l k, f, μ => run_bind (k (μ l)) f μ
  | .wr l v k, f, μ => run_bind k f (μ.set l v)

theorem run_bind' {α β : Type} (p : Prog α) (f : α → Prog β) (μ : Mem) :
    (p >>= f).run μ = (f (p.run μ).1).run (p.run μ).2 := run_bind p f μ

theorem run_pure {α : Type} (a : α) (μ : Mem) : (pure a : Prog α).run μ = (a, μ) := rfl

theorem run_put (a : Arr) (i : ℤ) (v : Val) (μ : Mem) : (put a i v).run μ = ((), μ.set (a, i) v) := rfl

theorem run_rdInt {a : Arr} {i z : ℤ} {μ : Mem} (h : μ (a, i) = .int z) : (rdInt a i).run μ = (z, μ) := by
  show ((match μ (a, i) with | .int z => z | _ => 0), μ) = _
  rw [h]

theorem run_rdDbl {a : Arr} {i : ℤ} {d : D} {μ : Mem} (h : μ (a, i) = .dbl d) : (rdDbl a i).run μ = (d, μ) := by
  show ((match μ (a, i) with | .dbl d => d | _ => .nan), μ) = _
  rw [h]

theorem run_rdRt {i : ℤ} {t : RTag} {μ : Mem} (h : μ (.rowTags, i) = .rt t) : (rdRt i).run μ = (t, μ) := by
  show ((match μ (.rowTags, i) with | .rt t => t | _ => {}), μ) = _
  rw [h]

theorem run_rdCt {i : ℤ} {t : CTag} {μ : Mem} (h : μ (.colTags, i) = .ct t) : (rdCt i).run μ = (t, μ) := by
  show ((match μ (.colTags, i) with | .ct t => t | _ => {}), μ) = _
  rw [h]

theorem run_incr {a : Arr} {i z : ℤ} {μ : Mem} (h : μ (a, i) = .int z) :
    (incr a i).run μ = ((), μ.set (a, i) (.int (z + 1))) := by
  unfold incr
  rw [run_bind', run_rdInt h]; rfl

theorem set_here (μ : Mem) (l : Loc) (v : Val) : μ.set l v l = v := if_pos rfl
theorem set_off (μ : Mem) {l k : Loc} (v : Val) (h : k ≠ l) : μ.set l v k = μ k := if_neg h
theorem set_id {μ : Mem} {l : Loc} {v : Val} (h : μ l = v) : μ.set l v = μ := by
  funext k
  unfold Mem.set
  split
  · subst_vars; rfl
  · rfl
theorem set_set (μ : Mem) (l : Loc) (v w : Val) : (μ.set l v).set l w = μ.set l w := by
  funext k
  unfold Mem.set
  split <;> rfl

/-- Rule for `for` loops. -/
theorem forFrom_inv {I : ℕ → Mem → Prop} {f : ℤ → Prog Unit} (n : ℕ) : ∀ (j : ℤ) (μ : Mem), I 0 μ →
    (∀ t < n, ∀ μ, I t μ → I (t + 1) ((f (j + t)).run μ).2) → I n ((forFrom n j f).run μ).2 := by
  induction n generalizing I with
  | zero => exact fun j μ h _ => h
  | succ n ih =>
    intro j μ h hs
    unfold forFrom
    rw [run_bind]
    refine ih (I := fun t => I (t + 1)) (j + 1) _ ?_ (fun t ht μ hi => ?_)
    · have := hs 0 (Nat.succ_pos n) μ h
      simpa using this
    · have := hs (t + 1) (Nat.succ_lt_succ ht) μ hi
      have e : j + ((t + 1 : ℕ) : ℤ) = j + 1 + (t : ℤ) := by push_cast; ring
      rw [e] at this
      exact this

/-- The matrix of `P` lies in memory, row `i` from `st i` on. -/
structure HasMat (P : LP) (st : ℕ → ℤ) (μ : Mem) : Prop where
  s : ∀ i < P.m, μ (.ApStart, i) = .int (st i)
  e : ∀ i < P.m, μ (.ApEnd, i) = .int (st i + (P.A i).length)
  col : ∀ i < P.m, ∀ t (h : t < (P.A i).length), μ (.Ai, st i + t) = .int ((P.A i)[t].1)
  val : ∀ i < P.m, ∀ t (h : t < (P.A i).length), μ (.Ax, st i + t) = .dbl (.fin (P.A i)[t].2)

/-- The arrays of the matrix. -/
def matArrs : List Arr := [.Ax, .Ai, .ApStart, .ApEnd]

theorem HasMat.frame {P : LP} {st : ℕ → ℤ} {μ μ' : Mem} (h : HasMat P st μ)
    (hf : ∀ l : Loc, l.1 ∈ matArrs → μ' l = μ l) : HasMat P st μ' :=
  ⟨fun i hi => (hf _ (by simp [matArrs])).trans (h.s i hi), fun i hi => (hf _ (by simp [matArrs])).trans (h.e i hi),
    fun i hi t ht => (hf _ (by simp [matArrs])).trans (h.col i hi t ht),
    fun i hi t ht => (hf _ (by simp [matArrs])).trans (h.val i hi t ht)⟩

theorem HasMat.run {P : LP} {st : ℕ → ℤ} {μ : Mem} (h : HasMat P st μ) {α : Type} {p : Prog α} {R W : List Arr}
    (hw : p.Within R W) (hd : ∀ a ∈ matArrs, a ∉ W) : HasMat P st (p.run μ).2 :=
  h.frame (fun l hl => run_frame p hw μ l (hd _ hl))

/-- Rule for loops over the cells of a row. -/
theorem forRow_inv {P : LP} {st : ℕ → ℤ} {μ : Mem} {i : ℕ} (hi : i < P.m) {f : ℤ → Prog Unit}
    {I : List Cell → Mem → Prop} (hm : ∀ l μ, I l μ → HasMat P st μ) (h0 : I [] μ)
    (hs : ∀ l p r j μ, P.A i = l ++ p :: r → μ (.Ai, j) = .int p.1 → μ (.Ax, j) = .dbl (.fin p.2) → I l μ →
      I (l ++ [p]) ((f j).run μ).2) : I (P.A i) ((forRow i f).run μ).2 := by
  have H := hm _ _ h0
  unfold forRow
  rw [run_bind', run_rdInt (H.s i hi)]
  simp only
  rw [run_bind', run_rdInt (H.e i hi)]
  simp only
  rw [show (st i + ((P.A i).length : ℤ) - st i).toNat = (P.A i).length by omega]
  have := forFrom_inv (I := fun t μ => I ((P.A i).take t) μ) (f := f) (P.A i).length (st i) μ (by simpa using h0)
    (fun t ht μ hI => by
      have hH := hm _ _ hI
      have := hs ((P.A i).take t) (P.A i)[t] ((P.A i).drop (t + 1)) (st i + t) μ
        (by rw [List.getElem_cons_drop, List.take_append_drop]) (hH.col i hi t ht) (hH.val i hi t ht) hI
      rw [List.take_concat_get'] at this
      exact this)
  rw [List.take_length] at this
  exact this

end Verif
