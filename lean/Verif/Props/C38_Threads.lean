import Verif.Model.Threads

/-!
# C38: concurrent initialization has one outcome
-/

namespace Verif

/-! ### Footprints -/

/-- All reads are of arrays in `R` or `W`, all writes of arrays in `W`, whatever values are
read. -/
def Prog.Within (R W : List Arr) {α : Type} : Prog α → Prop
  | .ret _ => True
  | .rd l k => (l.1 ∈ R ∨ l.1 ∈ W) ∧ ∀ v, (k v).Within R W
  | .wr l _ k => l.1 ∈ W ∧ k.Within R W

theorem Prog.Within.bind {R W : List Arr} {α β : Type} :
    ∀ {p : Prog α} {f : α → Prog β}, p.Within R W → (∀ a, (f a).Within R W) →
      (p.bind f).Within R W
  | .ret a, _, _, hf => hf a
  | .rd _ _, _, h, hf => ⟨h.1, fun v => Prog.Within.bind (h.2 v) hf⟩
  | .wr _ _ _, _, h, hf => ⟨h.1, Prog.Within.bind h.2 hf⟩

theorem Prog.Within.bind' {R W : List Arr} {α β : Type} {p : Prog α} {f : α → Prog β}
    (h : p.Within R W) (hf : ∀ a, (f a).Within R W) : (p >>= f).Within R W :=
  Prog.Within.bind h hf

theorem within_for {R W : List Arr} : ∀ (n : ℕ) (j : ℤ) {f : ℤ → Prog Unit},
    (∀ i, (f i).Within R W) → (forFrom n j f).Within R W
  | 0, _, _, _ => trivial
  | n + 1, j, _, hf => Prog.Within.bind (hf j) (fun _ => within_for n (j + 1) hf)

theorem within_rdInt {R W : List Arr} {a : Arr} (i : ℤ) (h : a ∈ R ∨ a ∈ W) :
    (rdInt a i).Within R W := ⟨h, fun _ => trivial⟩
theorem within_rdDbl {R W : List Arr} {a : Arr} (i : ℤ) (h : a ∈ R ∨ a ∈ W) :
    (rdDbl a i).Within R W := ⟨h, fun _ => trivial⟩
theorem within_rdRt {R W : List Arr} (i : ℤ) (h : Arr.rowTags ∈ R ∨ Arr.rowTags ∈ W) :
    (rdRt i).Within R W := ⟨h, fun _ => trivial⟩
theorem within_rdCt {R W : List Arr} (i : ℤ) (h : Arr.colTags ∈ R ∨ Arr.colTags ∈ W) :
    (rdCt i).Within R W := ⟨h, fun _ => trivial⟩
theorem within_put {R W : List Arr} {a : Arr} (i : ℤ) (v : Val) (h : a ∈ W) :
    (put a i v).Within R W := ⟨h, trivial⟩
theorem within_incr {R W : List Arr} {a : Arr} (i : ℤ) (h : a ∈ W) : (incr a i).Within R W :=
  Prog.Within.bind' (within_rdInt i (.inr h)) (fun _ => within_put i _ h)
theorem within_pure {R W : List Arr} {α : Type} (a : α) : (pure a : Prog α).Within R W := trivial

theorem within_forRow {R W : List Arr} (i : ℤ) {f : ℤ → Prog Unit}
    (hs : Arr.ApStart ∈ R ∨ Arr.ApStart ∈ W) (he : Arr.ApEnd ∈ R ∨ Arr.ApEnd ∈ W)
    (hf : ∀ i, (f i).Within R W) : (forRow i f).Within R W :=
  Prog.Within.bind' (within_rdInt i hs) (fun _ => Prog.Within.bind' (within_rdInt i he)
    (fun _ => within_for _ _ hf))

/-- Decompose a footprint goal. -/
macro "within" : tactic => `(tactic| repeat' (first
  | (intro _)
  | exact within_pure _
  | (apply within_rdInt; decide)
  | (apply within_rdDbl; decide)
  | (apply within_rdRt; decide)
  | (apply within_rdCt; decide)
  | (apply within_put; decide)
  | (apply within_incr; decide)
  | (apply within_forRow _ (by decide) (by decide))
  | apply within_for
  | apply Prog.Within.bind'
  | split))

/-- Arrays read by the main thread but not written. -/
def mainReads : List Arr := [.Ax, .Ai, .ApStart, .ApEnd]
/-- Arrays written by the main thread. -/
def mainWrites : List Arr := [.iwork, .ATx, .ATi, .ATpStart, .ATpEnd, .colSizes]
/-- Arrays read by the second thread but not written. -/
def sndReads : List Arr := [.Ax, .Ai, .ApStart, .ApEnd, .lbs, .ubs]
/-- Arrays written by the second thread. -/
def sndWrites : List Arr := [.lhs, .rhs, .bndLb, .bndUb, .colTags, .rowTags, .lockUp, .lockDown,
  .actMin, .actMax, .actInfMin, .actInfMax, .actStatus, .rowSizes]

theorem mainThread_within (m n : ℕ) (rowMem : RowMem) (nAlloc : ℤ) :
    (mainThread m n rowMem nAlloc).Within mainReads mainWrites := by
  unfold mainThread transposeP countRowsP
  within

theorem actSumP_within (out : Arr) (h : out ∈ sndWrites) (b : Bool) (i : ℤ) :
    (actSumP out b i).Within sndReads sndWrites := by
  unfold actSumP
  apply within_forRow _ (by decide) (by decide)
  intro j
  apply Prog.Within.bind' (within_rdDbl _ (by decide)); intro v
  apply Prog.Within.bind' (within_rdInt _ (by decide)); intro k
  refine Prog.Within.bind' (within_rdDbl _ ?_) (fun _ => ?_)
  · split <;> decide
  · exact Prog.Within.bind' (within_rdDbl _ (.inr h)) (fun _ => within_put _ _ h)

theorem initThread_within (m n : ℕ) : (initThread m n).Within sndReads sndWrites := by
  unfold initThread
  apply Prog.Within.bind'
  · unfold rowTagsP; within
  intro _
  apply Prog.Within.bind'
  · unfold boundsP; within
  intro _
  apply Prog.Within.bind'
  · unfold locksP; within
  intro _
  apply Prog.Within.bind'
  · unfold activitiesP
    apply within_for
    intro i
    iterate 5
      apply Prog.Within.bind' (within_put _ _ (by decide)); intro _
    apply Prog.Within.bind'
    · within
    intro _
    apply Prog.Within.bind' (within_rdInt _ (by decide)); intro _
    have tl : ∀ _ : Unit, Prog.Within sndReads sndWrites (do
        let y ← rdInt .actInfMin i
        if y = 0 then actSumP .actMin false i else pure ()) := fun _ =>
      Prog.Within.bind' (within_rdInt _ (by decide)) (fun _ => by
        split
        · exact actSumP_within _ (by decide) _ _
        · exact within_pure _)
    dsimp only
    split
    · exact Prog.Within.bind' (actSumP_within _ (by decide) _ _) tl
    · exact tl ()
  intro _
  unfold countRowsP
  within

/-! ### Interleavings of programs with disjoint footprints -/

/-- Neither thread writes an array the other one accesses. -/
structure Disjoint2 (R1 W1 R2 W2 : List Arr) : Prop where
  w1 : ∀ a ∈ W1, a ∉ R2 ∧ a ∉ W2
  w2 : ∀ a ∈ W2, a ∉ R1 ∧ a ∉ W1

theorem Mem.set_comm (μ : Mem) {l l' : Loc} (h : l ≠ l') (v v' : Val) :
    (μ.set l v).set l' v' = (μ.set l' v').set l v := by
  funext k
  unfold Mem.set
  by_cases h1 : k = l' <;> by_cases h2 : k = l <;> simp_all

/-- A write to a foreign cell commutes with a whole program. -/
theorem run_set {R W : List Arr} {α : Type} : ∀ (p : Prog α), p.Within R W →
    ∀ (μ : Mem) (l : Loc) (v : Val), l.1 ∉ R → l.1 ∉ W →
    p.run (μ.set l v) = ((p.run μ).1, (p.run μ).2.set l v)
  | .ret _, _, _, _, _, _, _ => rfl
  | .rd l' k, h, μ, l, v, hr, hw => by
    have hne : l' ≠ l := by
      rintro rfl
      exact h.1.elim hr hw
    have e : (μ.set l v) l' = μ l' := if_neg hne
    simp only [Prog.run, e]
    exact run_set (k (μ l')) (h.2 _) μ l v hr hw
  | .wr l' v' k, h, μ, l, v, hr, hw => by
    have hne : l ≠ l' := by
      rintro rfl
      exact hw h.1
    simp only [Prog.run]
    rw [Mem.set_comm μ hne v v']
    exact run_set k h.2 (μ.set l' v') l v hr hw

/-- A program leaves foreign cells alone. -/
theorem run_frame {R W : List Arr} {α : Type} : ∀ (p : Prog α), p.Within R W →
    ∀ (μ : Mem) (l : Loc), l.1 ∉ W → (p.run μ).2 l = μ l
  | .ret _, _, _, _, _ => rfl
  | .rd l' k, h, μ, l, hw => run_frame (k (μ l')) (h.2 _) μ l hw
  | .wr l' v' k, h, μ, l, hw => by
    have hne : l ≠ l' := by
      rintro rfl
      exact hw h.1
    have := run_frame k h.2 (μ.set l' v') l hw
    simp only [Prog.run]
    rw [this]
    exact if_neg hne

/-- What a configuration will come to: main thread first, then the second one. -/
def outcome {α β : Type} (c : Config α β) : α × β × Mem :=
  let r := c.1.run c.2.2
  let q := c.2.1.run r.2
  (r.1, q.1, q.2)

/-- Footprints of what is left of the two threads. -/
def ConfigOK (R1 W1 R2 W2 : List Arr) {α β : Type} (c : Config α β) : Prop :=
  c.1.Within R1 W1 ∧ c.2.1.Within R2 W2

theorem TStep.ok {R1 W1 R2 W2 : List Arr} {α β : Type} {c d : Config α β} {a : Access}
    (h : TStep c a d) (hc : ConfigOK R1 W1 R2 W2 c) : ConfigOK R1 W1 R2 W2 d := by
  cases h with
  | mainRd l k q μ => exact ⟨hc.1.2 _, hc.2⟩
  | mainWr l v k q μ => exact ⟨hc.1.2, hc.2⟩
  | sndRd l k p μ => exact ⟨hc.1, hc.2.2 _⟩
  | sndWr l v k p μ => exact ⟨hc.1, hc.2.2⟩

theorem TStep.outcome {R1 W1 R2 W2 : List Arr} (hd : Disjoint2 R1 W1 R2 W2) {α β : Type}
    {c d : Config α β} {a : Access} (h : TStep c a d) (hc : ConfigOK R1 W1 R2 W2 c) :
    Verif.outcome d = Verif.outcome c := by
  cases h with
  | mainRd l k q μ => rfl
  | mainWr l v k q μ => rfl
  | sndRd l k p μ =>
    have hl : l.1 ∉ W1 := fun hw => hc.2.1.elim (hd.w1 _ hw).1 (hd.w1 _ hw).2
    have e := run_frame p hc.1 μ l hl
    simp only [Verif.outcome, Prog.run, e]
  | sndWr l v k p μ =>
    have hl := hd.w2 _ hc.2.1
    have e := run_set p hc.1 μ l v hl.1 hl.2
    simp only [Verif.outcome, Prog.run, e]

theorem TSteps.outcome {R1 W1 R2 W2 : List Arr} (hd : Disjoint2 R1 W1 R2 W2) {α β : Type}
    {c d : Config α β} {tr : List Access} (h : TSteps c tr d) (hc : ConfigOK R1 W1 R2 W2 c) :
    Verif.outcome d = Verif.outcome c := by
  induction h with
  | refl => rfl
  | step h1 _ ih => rw [ih (h1.ok hc), h1.outcome hd hc]

/-- Every access is within the footprint of the thread that made it. -/
theorem TSteps.accesses {R1 W1 R2 W2 : List Arr} {α β : Type} {c d : Config α β}
    {tr : List Access} (h : TSteps c tr d) (hc : ConfigOK R1 W1 R2 W2 c) :
    ∀ a ∈ tr,
      (a.main = true → (a.loc.1 ∈ R1 ∨ a.loc.1 ∈ W1) ∧ (a.write = true → a.loc.1 ∈ W1)) ∧
      (a.main = false → (a.loc.1 ∈ R2 ∨ a.loc.1 ∈ W2) ∧ (a.write = true → a.loc.1 ∈ W2)) := by
  induction h with
  | refl => exact fun a ha => (List.not_mem_nil ha).elim
  | step h1 _ ih =>
    intro a ha
    rcases List.mem_cons.mp ha with rfl | ha
    · cases h1 with
      | mainRd l k q μ => exact ⟨fun _ => ⟨hc.1.1, fun h => (by cases h)⟩, fun h => (by cases h)⟩
      | mainWr l v k q μ =>
        exact ⟨fun _ => ⟨.inr hc.1.1, fun _ => hc.1.1⟩, fun h => (by cases h)⟩
      | sndRd l k p μ => exact ⟨fun h => (by cases h), fun _ => ⟨hc.2.1, fun h => (by cases h)⟩⟩
      | sndWr l v k p μ =>
        exact ⟨fun h => (by cases h), fun _ => ⟨.inr hc.2.1, fun _ => hc.2.1⟩⟩
    · exact ih (h1.ok hc) a ha

/-- There is no infinite schedule. -/
theorem config_acc {α β : Type} : ∀ (p : Prog α) (q : Prog β) (μ : Mem),
    Acc (fun d c : Config α β => ∃ a, TStep c a d) (p, q, μ) := by
  intro p
  induction p with
  | ret a =>
    intro q
    induction q with
    | ret b =>
      intro μ
      exact ⟨_, fun d ⟨a, h⟩ => by cases h⟩
    | rd l k ih =>
      intro μ
      refine ⟨_, fun d ⟨a, h⟩ => ?_⟩
      cases h with
      | sndRd => exact ih _ μ
    | wr l v k ih =>
      intro μ
      refine ⟨_, fun d ⟨a, h⟩ => ?_⟩
      cases h with
      | sndWr => exact ih _
  | rd l k ih =>
    intro q
    induction q with
    | ret b =>
      intro μ
      refine ⟨_, fun d ⟨a, h⟩ => ?_⟩
      cases h with
      | mainRd => exact ih _ _ μ
    | rd l' k' ih' =>
      intro μ
      refine ⟨_, fun d ⟨a, h⟩ => ?_⟩
      cases h with
      | mainRd => exact ih _ _ μ
      | sndRd => exact ih' _ μ
    | wr l' v' k' ih' =>
      intro μ
      refine ⟨_, fun d ⟨a, h⟩ => ?_⟩
      cases h with
      | mainRd => exact ih _ _ μ
      | sndWr => exact ih' _
  | wr l v k ih =>
    intro q
    induction q with
    | ret b =>
      intro μ
      refine ⟨_, fun d ⟨a, h⟩ => ?_⟩
      cases h with
      | mainWr => exact ih _ _
    | rd l' k' ih' =>
      intro μ
      refine ⟨_, fun d ⟨a, h⟩ => ?_⟩
      cases h with
      | mainWr => exact ih _ _
      | sndRd => exact ih' _ μ
    | wr l' v' k' ih' =>
      intro μ
      refine ⟨_, fun d ⟨a, h⟩ => ?_⟩
      cases h with
      | mainWr => exact ih _ _
      | sndWr => exact ih' _

/-! ### The two threads of `new_presolver` -/

theorem threads_disjoint : Disjoint2 mainReads mainWrites sndReads sndWrites := by
  constructor <;> decide

/-- The configuration after `ps_thread_create`. -/
def startThreads (m n : ℕ) (rowMem : RowMem) (nAlloc : ℤ) (μ : Mem) : Config Unit Unit :=
  (mainThread m n rowMem nAlloc, initThread m n, μ)

/-- **C38, one outcome.**  Whatever the matrix, sides and bounds in memory, and whatever the
schedule: when both threads have finished, memory is what the main thread followed by the second
thread would have produced. -/
theorem C38_one_outcome (m n : ℕ) (rowMem : RowMem) (nAlloc : ℤ) (μ μ' : Mem) (tr : List Access)
    (h : TSteps (startThreads m n rowMem nAlloc μ) tr (.ret (), .ret (), μ')) :
    μ' = ((initThread m n).run ((mainThread m n rowMem nAlloc).run μ).2).2 := by
  have := h.outcome threads_disjoint
    ⟨mainThread_within m n rowMem nAlloc, initThread_within m n⟩
  exact congrArg (fun w => w.2.2) this

/-- **C38, no data race.**  In every (also unfinished) execution, two accesses to the same cell
by different threads are both reads. -/
theorem C38_no_race (m n : ℕ) (rowMem : RowMem) (nAlloc : ℤ) (μ : Mem) (tr : List Access)
    (d : Config Unit Unit) (h : TSteps (startThreads m n rowMem nAlloc μ) tr d)
    (a b : Access) (ha : a ∈ tr) (hb : b ∈ tr) (hab : a.main ≠ b.main) (hl : a.loc = b.loc) :
    a.write = false ∧ b.write = false := by
  have hacc := h.accesses (R1 := mainReads) (W1 := mainWrites) (R2 := sndReads)
    (W2 := sndWrites) ⟨mainThread_within m n rowMem nAlloc, initThread_within m n⟩
  have hd := threads_disjoint
  have key : ∀ a b : Access, a ∈ tr → b ∈ tr → a.main = true → b.main = false → a.loc = b.loc →
      a.write = false ∧ b.write = false := by
    intro a b ha hb h1 h2 hl
    have xa := (hacc a ha).1 h1
    have xb := (hacc b hb).2 h2
    rw [hl] at xa
    constructor
    · by_contra hw
      have := hd.w1 _ (xa.2 (by simpa using hw))
      exact xb.1.elim this.1 this.2
    · by_contra hw
      have := hd.w2 _ (xb.2 (by simpa using hw))
      exact xa.1.elim this.1 this.2
  cases e : a.main with
  | true => exact key a b ha hb e (by cases f : b.main <;> simp_all) hl
  | false =>
    have := key b a hb ha (by cases f : b.main <;> simp_all) e hl.symm
    exact ⟨this.2, this.1⟩

/-- **C38, it ends.**  No schedule goes on forever, and a configuration in which no thread can
move is one in which both have finished: every schedule leads to the outcome above. -/
theorem C38_ends (m n : ℕ) (rowMem : RowMem) (nAlloc : ℤ) (μ : Mem) :
    Acc (fun d c : Config Unit Unit => ∃ a, TStep c a d) (startThreads m n rowMem nAlloc μ) ∧
    ∀ c : Config Unit Unit, (∀ a d, ¬TStep c a d) → ∃ μ', c = (.ret (), .ret (), μ') := by
  refine ⟨config_acc _ _ _, ?_⟩
  rintro ⟨p, q, μ'⟩ h
  cases p with
  | rd l k => exact (h _ _ (.mainRd l k q μ')).elim
  | wr l v k => exact (h _ _ (.mainWr l v k q μ')).elim
  | ret a =>
    cases q with
    | rd l k => exact (h _ _ (.sndRd l k _ μ')).elim
    | wr l v k => exact (h _ _ (.sndWr l v k _ μ')).elim
    | ret b => exact ⟨μ', rfl⟩

/-- An execution that runs the second thread to its end first. -/
theorem exists_snd_first {α β : Type} : ∀ (q : Prog β) (p : Prog α) (μ : Mem),
    ∃ tr, TSteps (p, q, μ) tr (p, .ret (q.run μ).1, (q.run μ).2)
  | .ret b, p, μ => ⟨[], .refl _⟩
  | .rd l k, p, μ => by
    obtain ⟨tr, h⟩ := exists_snd_first (k (μ l)) p μ
    exact ⟨_, .step (.sndRd l k p μ) h⟩
  | .wr l v k, p, μ => by
    obtain ⟨tr, h⟩ := exists_snd_first k p (μ.set l v)
    exact ⟨_, .step (.sndWr l v k p μ) h⟩

theorem exists_main {α β : Type} : ∀ (p : Prog α) (b : β) (μ : Mem),
    ∃ tr, TSteps (p, .ret b, μ) tr (.ret (p.run μ).1, .ret b, (p.run μ).2)
  | .ret b, p, μ => ⟨[], .refl _⟩
  | .rd l k, p, μ => by
    obtain ⟨tr, h⟩ := exists_main (k (μ l)) p μ
    exact ⟨_, .step (.mainRd l k _ μ) h⟩
  | .wr l v k, p, μ => by
    obtain ⟨tr, h⟩ := exists_main k p (μ.set l v)
    exact ⟨_, .step (.mainWr l v k _ μ) h⟩

theorem TSteps.trans {α β : Type} {c d e : Config α β} {t u : List Access}
    (h : TSteps c t d) (g : TSteps d u e) : TSteps c (t ++ u) e := by
  induction h with
  | refl => exact g
  | step h1 _ ih => exact .step h1 (ih g)

/-- The other sequential order gives the same memory. -/
theorem C38_order (m n : ℕ) (rowMem : RowMem) (nAlloc : ℤ) (μ : Mem) :
    ((mainThread m n rowMem nAlloc).run ((initThread m n).run μ).2).2 =
      ((initThread m n).run ((mainThread m n rowMem nAlloc).run μ).2).2 := by
  obtain ⟨t, h⟩ := exists_snd_first (initThread m n) (mainThread m n rowMem nAlloc) μ
  obtain ⟨u, g⟩ := exists_main (mainThread m n rowMem nAlloc) ((initThread m n).run μ).1
    ((initThread m n).run μ).2
  exact C38_one_outcome m n rowMem nAlloc μ _ _ (h.trans g)

/-- Memory for `x0 + 2 x1 = 3`, `x0 ≥ 0`, `x1` free. -/
def memEx : Mem := fun l =>
  match l with
  | (.Ax, 0) => .dbl (.fin 1) | (.Ax, 1) => .dbl (.fin 2)
  | (.Ai, 0) => .int 0 | (.Ai, 1) => .int 1
  | (.ApStart, 0) => .int 0 | (.ApEnd, 0) => .int 2
  | (.lhs, 0) => .dbl (.fin 3) | (.rhs, 0) => .dbl (.fin 3)
  | (.lbs, 0) => .dbl (.fin 0) | (.ubs, 0) => .dbl .pinf
  | (.lbs, 1) => .dbl .ninf | (.ubs, 1) => .dbl .pinf
  | (.colTags, _) => .ct {}
  | _ => .int 77

/-- For these data every schedule ends with an equality tag on the row, one infinite term in the
minimal and two in the maximal activity, one lock of each kind on the second column, and the
column start of the second column of the transpose at 3 (one cell and two spare ones). -/
example (μ' : Mem) (tr : List Access)
    (h : TSteps (startThreads 1 2 (fun c => c + 2) 8 memEx) tr (.ret (), .ret (), μ')) :
    μ' (.rowTags, 0) = .rt { eq := true } ∧ μ' (.actInfMin, 0) = .int 1 ∧
    μ' (.actInfMax, 0) = .int 2 ∧ μ' (.lockUp, 1) = .int 1 ∧ μ' (.lockDown, 1) = .int 1 ∧
    μ' (.colTags, 1) = .ct { lbInf := true, ubInf := true } ∧ μ' (.rowSizes, 0) = .int 2 ∧
    μ' (.colSizes, 1) = .int 1 ∧ μ' (.ATpStart, 1) = .int 3 ∧ μ' (.ATx, 3) = .dbl (.fin 2) := by
  rw [C38_one_outcome _ _ _ _ _ _ _ h]
  decide +kernel

end Verif
