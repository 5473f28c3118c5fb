import Verif.Model.Marks
import Verif.Inv.Obj
import Verif.Inv.StatStep

/-!
# Marks along a run and back through postsolve
-/

namespace Verif

/-- Exactly the active rows and columns have been retrieved. -/
structure Exact (s : St) (a : Marks) : Prop where
  x : ∀ k, a.x k = !(s.ctag k).inactive
  y : ∀ i, a.y i = !(s.rtag i).inactive
  z : ∀ k, a.z k = !(s.ctag k).inactive

def MarkRel (Post : Marks → Prop) (s : St) (a : Marks) (o : Option Marks) : Prop :=
  Exact s a → ∃ a', o = some a' ∧ Post a'

theorem markRel_tr {Post : Marks → Prop} {new : List Rec} {s t : St}
    (h : ∀ a, Exact t a → ∃ b, markInterp.run new a = some b ∧ Exact s b) :
    Tr markInterp (MarkRel Post) new s t := by
  intro a
  refine ⟨fun b o hb hr he => ?_, fun hb he => ?_⟩
  · obtain ⟨b', h1, h2⟩ := h a he
    rw [hb] at h1; cases h1
    exact hr h2
  · obtain ⟨b', h1, h2⟩ := h a he
    rw [hb] at h1; cases h1

theorem Exact.frame {s t : St} {a : Marks} (h : Exact t a) (hr : ∀ i, (t.rtag i).inactive = (s.rtag i).inactive)
    (hc : ∀ k, (t.ctag k).inactive = (s.ctag k).inactive) : Exact s a :=
  ⟨fun k => by rw [h.x, hc], fun i => by rw [h.y, hr], fun k => by rw [h.z, hc]⟩

/-- Column `k` is retrieved. -/
theorem Exact.col {s t : St} {a : Marks} {k : ℕ} (h : Exact t a) (hk : (s.ctag k).inactive = false)
    (hkt : (t.ctag k).inactive = true) (hr : ∀ i, (t.rtag i).inactive = (s.rtag i).inactive)
    (hc : ∀ j, j ≠ k → (t.ctag j).inactive = (s.ctag j).inactive) {ok : Bool} (hok : ok = true) :
    ∃ b, a.col k ok = some b ∧ Exact s b := by
  refine ⟨_, by unfold Marks.col; rw [h.x, h.z, hkt, hok]; rfl, fun j => ?_, fun i => by rw [← hr]; exact h.y i,
    fun j => ?_⟩
  · show upd a.x k true j = _
    by_cases e : j = k
    · subst e; rw [upd_same, hk]; rfl
    · rw [upd_ne _ _ e, h.x, hc j e]
  · show upd a.z k true j = _
    by_cases e : j = k
    · subst e; rw [upd_same, hk]; rfl
    · rw [upd_ne _ _ e, h.z, hc j e]

/-- Row `i` is retrieved. -/
theorem Exact.row {s t : St} {a : Marks} {i : ℕ} {v : ℚ} (h : Exact t a) (hi : (s.rtag i).inactive = false)
    (hit : (t.rtag i).inactive = true) (hr : ∀ r, r ≠ i → (t.rtag r).inactive = (s.rtag r).inactive)
    (hc : ∀ k, (t.ctag k).inactive = (s.ctag k).inactive) :
    ∃ b, markRec a (.deletedRow i v) = some b ∧ Exact s b := by
  have h0 : a.y i = false := by rw [h.y, hit]; rfl
  refine ⟨{ a with y := upd a.y i true }, by
    show (if a.y i then none else some _) = _
    rw [h0]; rfl, fun j => by rw [← hc]; exact h.x j, fun r => ?_, fun j => by rw [← hc]; exact h.z j⟩
  show upd a.y i true r = _
  by_cases e : r = i
  · subst e; rw [upd_same, hi]; rfl
  · rw [upd_ne _ _ e, h.y, hr r e]

theorem run_cons {a b : Marks} {r : Rec} {l : List Rec} (h : markRec a r = some b) :
    markInterp.run (r :: l) a = markInterp.run l b := by
  show (markRec a r).bind _ = _
  rw [h]; rfl

theorem run_nil (a : Marks) : markInterp.run [] a = some a := rfl

theorem run_append (l l' : List Rec) (a : Marks) :
    markInterp.run (l ++ l') a = (markInterp.run l a).bind (markInterp.run l') := by
  induction l generalizing a with
  | nil => rfl
  | cons r l ih =>
    show (markRec a r).bind (markInterp.run (l ++ l')) = ((markRec a r).bind (markInterp.run l)).bind _
    cases markRec a r with
    | none => rfl
    | some b => exact ih b

/-- Records that leave the marks as they are. -/
theorem run_keep (l : List Rec) (a : Marks) (h : ∀ r ∈ l, markRec a r = some a) : markInterp.run l a = some a := by
  induction l with
  | nil => rfl
  | cons r l ih =>
    rw [run_cons (h r List.mem_cons_self)]
    exact ih (fun r hr => h r (List.mem_cons_of_mem _ hr))

/-- A list of rows is retrieved. -/
theorem run_deleted (L : List ℕ) (hnd : L.Nodup) (a : Marks) (h : ∀ i ∈ L, a.y i = false) :
    markInterp.run (L.map (fun i => Rec.deletedRow i 0)) a =
      some { a with y := fun i => decide (i ∈ L) || a.y i } := by
  induction L generalizing a with
  | nil => simp [run_nil]
  | cons r L ih =>
    rw [List.nodup_cons] at hnd
    have hr : markRec a (.deletedRow r 0) = some { a with y := upd a.y r true } := by
      show (if a.y r then none else some _) = _
      rw [h r List.mem_cons_self]; rfl
    rw [List.map_cons, run_cons hr, ih hnd.2 _ (fun i hi => by
      show upd a.y r true i = _
      have : i ≠ r := by rintro rfl; exact hnd.1 hi
      rw [upd_ne _ _ this]; exact h i (List.mem_cons_of_mem _ hi))]
    congr 2
    funext i
    show (decide (i ∈ L) || upd a.y r true i) = _
    by_cases e : i = r
    · subst e; simp
    · rw [upd_ne _ _ e]; simp [e]

theorem Exact.fixInf {s : St} {k : ℕ} {pos : Bool} {bound v : D} {a : Marks} (g : GI s)
    (hk : (s.ctag k).inactive = false) (h : Exact (fixInfStep s k pos bound v) a) :
    ∃ b, markInterp.run (((liveRows s k).map (fun i => Rec.deletedRow i 0)).reverse ++
      [fixedColInfRec s k pos bound]) a = some b ∧ Exact s b := by
  have hrt : ∀ i, ((fixInfStep s k pos bound v).rtag i).inactive = (decide (i ∈ liveRows s k) || (s.rtag i).inactive) := by
    intro i
    show (if i ∈ liveRows s k then { s.rtag i with inactive := true } else s.rtag i).inactive = _
    by_cases e : i ∈ liveRows s k
    · rw [if_pos e]; simp [e]
    · rw [if_neg e]; simp [e]
  have hlive : ∀ i ∈ liveRows s k, (s.rtag i).inactive = false := by
    intro i hi
    have := (List.mem_filter.mp hi).2
    simpa using this
  rw [run_append, ← List.map_reverse, run_deleted _ (List.nodup_reverse.mpr (by
    unfold liveRows
    exact (g.colSorted k).nodup.filter _)) a (fun i hi => by
      rw [h.y, hrt]; simp [List.mem_reverse.mp hi])]
  set b : Marks := { a with y := fun i => decide (i ∈ (liveRows s k).reverse) || a.y i } with hb
  have hE : Exact { s with ctag := upd s.ctag k { s.ctag k with fixed := true } } b := by
    refine ⟨h.x, fun i => ?_, h.z⟩
    show (decide (i ∈ (liveRows s k).reverse) || a.y i) = !(s.rtag i).inactive
    rw [h.y, hrt]
    by_cases e : i ∈ liveRows s k
    · simp [e, hlive i e]
    · simp [e]
  obtain ⟨b', h1, h2⟩ := hE.col (s := s) (k := k) hk (by
      show ((upd s.ctag k _) k).inactive = _; rw [upd_same]; rfl) (fun _ => rfl)
    (fun j hj => by show ((upd s.ctag k _) j).inactive = _; rw [upd_ne _ _ hj]) (ok := true) rfl
  refine ⟨b', ?_, h2⟩
  show (markRec b (fixedColInfRec s k pos bound)).bind _ = _
  have : markRec b (fixedColInfRec s k pos bound) = b.col k true := rfl
  rw [this, h1]; rfl

theorem Exact.sub {s t u : St} {a : Marks} {i k : ℕ} {v : ℚ} {side : D} {ck : ℚ} (h : Exact t a)
    (hi : (s.rtag i).inactive = false) (hk : (s.ctag k).inactive = false)
    (hcols : ∀ p ∈ s.A i, (s.ctag p.1).inactive = false)
    (hit : (t.rtag i).inactive = true) (hkt : (t.ctag k).inactive = true)
    (hr : ∀ r, r ≠ i → (t.rtag r).inactive = (s.rtag r).inactive)
    (hc : ∀ j, j ≠ k → (t.ctag j).inactive = (s.ctag j).inactive) :
    ∃ b, markInterp.run [.deletedRow i v, .subCol k (s.A i) side i ck] a = some b ∧ Exact s b := by
  obtain ⟨b, h1, h2⟩ := h.row (s := { t with rtag := s.rtag }) (v := v) hi hit hr (fun _ => rfl)
  obtain ⟨b', h3, h4⟩ := h2.col (s := s) (k := k) hk hkt (fun _ => rfl) hc
    (ok := b.y i && (s.A i).all (fun p => decide (p.1 = k) || b.x p.1)) (by
      rw [h2.y]
      show (!(s.rtag i).inactive && _) = true
      rw [hi, Bool.not_false, Bool.true_and, List.all_eq_true]
      intro p hp
      by_cases e : p.1 = k
      · simp [e]
      · rw [h2.x]
        show (_ || !(t.ctag p.1).inactive) = true
        rw [hc _ e, hcols p hp]; simp)
  refine ⟨b', ?_, h4⟩
  rw [run_cons h1]
  show (markRec b (.subCol k (s.A i) side i ck)).bind _ = _
  have : markRec b (.subCol k (s.A i) side i ck) =
    b.col k (b.y i && (s.A i).all (fun p => decide (p.1 = k) || b.x p.1)) := rfl
  rw [this, h3]; rfl

theorem markBackward (Post : Marks → Prop) (μ : Mode) : Backward markInterp μ (MarkRel Post) where
  core := fun s t h a o hR he => hR (he.frame (fun i => by rw [h.rtag]) (fun k => by rw [h.ctag]))
  fix := fun s k val g _ hk hrows => markRel_tr (fun a h => by
    obtain ⟨b, h1, h2⟩ := h.col (s := s) (k := k) hk (by
        show ((upd s.ctag k _) k).inactive = _; rw [upd_same]; rfl) (fun _ => rfl)
      (fun j hj => by show ((upd s.ctag k _) j).inactive = _; rw [upd_ne _ _ hj])
      (ok := (s.AT k).all (fun p => a.y p.1)) (by
        rw [List.all_eq_true]
        intro p hp
        rw [h.y]
        show (!(s.rtag p.1).inactive) = true
        rw [hrows p hp]; rfl)
    exact ⟨b, run_cons (b := b) (l := []) h1, h2⟩)
  fixInf := fun _ s k pos bound v g hr hk hc => markRel_tr (fun a h => h.fixInf g hk)
  deact := fun s i g _ hi => markRel_tr (fun a h => by
    obtain ⟨b, h1, h2⟩ := h.row (s := s) (v := 0) hi (by
        show ((upd s.rtag i _) i).inactive = _; rw [upd_same])
      (fun r hr => by show ((upd s.rtag i _) r).inactive = _; rw [upd_ne _ _ hr]) (fun _ => rfl)
    exact ⟨b, by rw [run_cons h1]; rfl, h2⟩)
  sides := fun s i t l r u d g _ hi ht => markRel_tr (fun a h => ⟨a, rfl, h.frame
    (fun p => by
      show ((upd s.rtag i t) p).inactive = _
      by_cases e : p = i
      · subst e; rw [upd_same, ht, hi]
      · rw [upd_ne _ _ e]) (fun _ => rfl)⟩)
  sideRec := fun _ s i other t l r u d rc g _ hi hother hne hcols ht hrc => markRel_tr (fun a h => by
    have h := h.frame (s := s) (fun p => by
      show ((upd s.rtag i t) p).inactive = _
      by_cases e : p = i
      · subst e; rw [upd_same, ht, hi]
      · rw [upd_ne _ _ e]) (fun _ => rfl)
    refine ⟨a, ?_, h⟩
    have hok : (a.y i && (s.A i).all (fun p => a.x p.1)) = true := by
      rw [h.y, hi, Bool.not_false, Bool.true_and, List.all_eq_true]
      intro p hp
      rw [h.x, hcols p hp]; rfl
    have hrec : markRec a rc = some a := by
      obtain ⟨side, ratio, rfl | rfl⟩ := hrc <;>
        (show a.keep (a.y i && (s.A i).all (fun p => a.x p.1)) = _; rw [hok]; rfl)
    rw [run_cons hrec]; rfl)
  stonEq := fun s row k a' val g _ hi hk hrow hrows => markRel_tr (fun a h => by
    obtain ⟨b, h1, h2⟩ := h.row (s := { stonEqStep s row k a' val with rtag := s.rtag }) (v := s.c k / a') hi (by
        show ((upd s.rtag row _) row).inactive = _; rw [upd_same])
      (fun r hr => by show ((upd s.rtag row _) r).inactive = _; rw [upd_ne _ _ hr]) (fun _ => rfl)
    have hy : ∀ p ∈ s.AT k, b.y p.1 = true := by
      intro p hp
      rw [h2.y]
      show (!(s.rtag p.1).inactive) = true
      rw [hrows p hp]; rfl
    have hadd : markRec b (.addedRows row (s.AT k) a') = some b := by
      show b.keep (b.y row && (s.AT k).all (fun p => decide (p.1 = row) || b.y p.1)) = _
      have : (b.y row && (s.AT k).all (fun p => decide (p.1 = row) || b.y p.1)) = true := by
        rw [h2.y]
        show (!(s.rtag row).inactive && _) = true
        rw [hi, Bool.not_false, Bool.true_and, List.all_eq_true]
        intro p hp
        rw [hy p hp]; simp
      rw [this]; rfl
    obtain ⟨b', h3, h4⟩ := h2.col (s := s) (k := k) hk (by
        show ((upd s.ctag k _) k).inactive = _; rw [upd_same]; rfl) (fun _ => rfl)
      (fun j hj => by show ((upd s.ctag k _) j).inactive = _; rw [upd_ne _ _ hj])
      (ok := (s.AT k).all (fun p => b.y p.1)) (List.all_eq_true.mpr hy)
    exact ⟨b', by rw [run_cons h1, run_cons hadd]; exact run_cons (b := b') (l := []) h3, h4⟩)
  emptyRow := fun s i g _ hi hA => markRel_tr (fun a h => by
    obtain ⟨b, h1, h2⟩ := h.row (s := s) (v := 0) hi (by
        show ((upd s.rtag i _) i).inactive = _; rw [upd_same])
      (fun r hr => by show ((upd s.rtag i _) r).inactive = _; rw [upd_ne _ _ hr]) (fun _ => rfl)
    exact ⟨b, by rw [run_cons h1]; rfl, h2⟩)
  emptyCol := fun s k v g _ hk hT => markRel_tr (fun a h => by
    obtain ⟨b, h1, h2⟩ := h.col (s := s) (k := k) hk (by
        show ((upd s.ctag k _) k).inactive = _; rw [upd_same]; rfl) (fun _ => rfl)
      (fun j hj => by show ((upd s.ctag k _) j).inactive = _; rw [upd_ne _ _ hj]) (ok := true) rfl
    exact ⟨b, run_cons (b := b) (l := []) h1, h2⟩)
  freeSton := fun _ s i k q side g hr hi hk hT hcols => markRel_tr (fun a h => by
    have e : freeColIneq s i k q side = setRowToInactive (({ s with
        c := costSub s (s.A i) k q, off := offSub s k q side
        ctag := upd s.ctag k { s.ctag k with subst := true }
        AT := upd s.AT k [], colSize := upd s.colSize k (-1) }).save
          (.subCol k (s.A i) side i (s.c k))) i (s.c k / q) := by
      unfold freeColIneq
      rw [subVarInObj_eq]; rfl
    rw [e] at h
    exact h.sub (u := s) hi hk hcols (by show ((upd s.rtag i _) i).inactive = _; rw [upd_same])
      (by show ((upd s.ctag k _) k).inactive = _; rw [upd_same]; exact CTag.inactive_subst _)
      (fun r hr => by show ((upd s.rtag i _) r).inactive = _; rw [upd_ne _ _ hr])
      (fun j hj => by show ((upd s.ctag k _) j).inactive = _; rw [upd_ne _ _ hj]))
  half := fun _ s i k q b upper g hr hi hk hT _ hcols => markRel_tr (fun a h => by
    obtain ⟨l, r, u, d, e, _⟩ := halfStep_eq s i k q b upper
    rw [e] at h
    have hrt : ∀ p, ((sidesStep (halfMid s i k q) i (if upper then { lhsInf := true } else { rhsInf := true })
        l r u d []).rtag p).inactive = (s.rtag p).inactive := by
      intro p
      show ((upd s.rtag i _) p).inactive = _
      by_cases e : p = i
      · subst e; rw [upd_same, hi]; cases upper <;> rfl
      · rw [upd_ne _ _ e]
    have hct : ∀ j, j ≠ k → ((sidesStep (halfMid s i k q) i (if upper then { lhsInf := true } else { rhsInf := true })
        l r u d []).ctag j).inactive = (s.ctag j).inactive := fun j hj => by
      show ((upd s.ctag k _) j).inactive = _; rw [upd_ne _ _ hj]
    obtain ⟨b', h1, h2⟩ := h.col (s := s) (k := k) hk (by
        show ((upd s.ctag k _) k).inactive = _; rw [upd_same]; exact CTag.inactive_subst _) hrt hct
      (ok := a.y i && (s.A i).all (fun p => decide (p.1 = k) || a.x p.1)) (by
        rw [h.y, hrt, hi, Bool.not_false, Bool.true_and, List.all_eq_true]
        intro p hp
        by_cases e : p.1 = k
        · simp [e]
        · rw [h.x, hct _ e, hcols p hp]; simp)
    have h3 : markRec b' (.eqToIneq i (s.c k / q)) = some b' := by
      show b'.keep (b'.y i) = _
      rw [h2.y, hi]; rfl
    have h1 : markRec a (.subCol k (s.A i) (s.rhs i) i 0) = some b' := h1
    exact ⟨b', by rw [run_cons h1, run_cons h3]; rfl, h2⟩)
  fixSton := fun s i k q v g hr hi hk hT => markRel_tr (fun a h => by
    obtain ⟨b, h1, h2⟩ := h.col (s := s) (k := k) hk (by
        show ((upd s.ctag k _) k).inactive = _; rw [upd_same]; rfl) (fun _ => rfl)
      (fun j hj => by show ((upd s.ctag k _) j).inactive = _; rw [upd_ne _ _ hj])
      (ok := [(i, q)].all (fun p => a.y p.1)) (by
        have : a.y i = true := by
          rw [h.y]
          show (!(s.rtag i).inactive) = true
          rw [hi]; rfl
        simp [this])
    exact ⟨b, run_cons (b := b) (l := []) h1, h2⟩)
  bound := fun s i j lb ub t implied other low g _ hi hj hcell ht a => by
    have key : Exact (boundStep s j lb ub t implied other low) a → Exact s a ∧ markBound a i (s.A i) j = some a := by
      intro h
      have h := h.frame (s := s) (fun _ => rfl) (fun k => by
        show ((upd s.ctag j t) k).inactive = _
        by_cases hkj : k = j
        · subst hkj; rw [upd_same, ht, hj]
        · rw [upd_ne _ _ hkj])
      refine ⟨h, ?_⟩
      obtain ⟨v, hv⟩ := hcell
      have hany : (s.A i).any (fun p => decide (p.1 = j) && decide (p.2 ≠ 0)) = true := by
        rw [List.any_eq_true]
        exact ⟨_, hv, by simpa using (g.rowRange i _ hv).2.2⟩
      unfold markBound
      rw [h.x, h.y, h.z, hj, hi, hany]; rfl
    refine ⟨fun b o hb hR he => ?_, fun hb he => ?_⟩
    · have hb : markBound a i (s.A i) j = some b := hb
      obtain ⟨h1, h2⟩ := key he
      rw [hb] at h2; cases h2
      exact hR h1
    · have hb : markBound a i (s.A i) j = none := hb
      rw [(key he).2] at hb; cases hb
  dton := fun s t i j k aij aik b g hr hd hcols _ => markRel_tr (fun a h => by
    obtain ⟨b', h1, h2⟩ := h.sub (u := s) (v := s.c k / aik) (side := .fin b) (ck := s.c k) hd.row hd.colk hcols
      (by rw [hd.rtag, upd_same]) (by rw [hd.ctag, upd_same]; rfl)
      (fun r hr => by rw [hd.rtag, upd_ne _ _ hr]) (fun p hp => by rw [hd.ctag, upd_ne _ _ hp])
    refine ⟨b', ?_, h2⟩
    have e : ∀ L : List Rec, Rec.deletedRow i (s.c k / aik) :: .subCol k (s.A i) (.fin b) i (s.c k) :: L =
      [Rec.deletedRow i (s.c k / aik), .subCol k (s.A i) (.fin b) i (s.c k)] ++ L := fun _ => rfl
    rw [e, run_append, h1]
    refine run_keep _ _ (fun r hr => ?_)
    simp only [List.mem_reverse, List.mem_map] at hr
    obtain ⟨p, hp, rfl⟩ := hr
    show b'.keep (b'.y i && b'.y p.1) = _
    rw [h2.y, h2.y, hd.row, hd.rows p (List.mem_filter.mp hp).1]; rfl)
  merge := fun _ s j k ratio g hr hjk hj hk _ => markRel_tr (fun a h => by
    have hct : ∀ p, p ≠ k → ((mergeCols s j k ratio).ctag p).inactive = (s.ctag p).inactive := by
      intro p hp
      show ((upd (upd s.ctag j _) k _) p).inactive = _
      rw [upd_ne _ _ hp]
      by_cases e : p = j
      · subst e; rw [upd_same, mergeTag_inactive]
      · rw [upd_ne _ _ e]
    obtain ⟨b, h1, h2⟩ := h.col (s := s) (k := k) hk (by
        show ((upd (upd s.ctag j _) k _) k).inactive = _
        rw [upd_same]; exact CTag.inactive_subst _) (fun _ => rfl) hct
      (ok := a.x j && a.z j) (by rw [h.x, h.z, hct j hjk, hj]; rfl)
    exact ⟨b, run_cons (b := b) (l := []) h1, h2⟩)
  relax := fun s k t ht => markRel_tr (fun a h => ⟨a, rfl, h.frame (fun _ => rfl) (fun p => by
    show ((upd s.ctag k t) p).inactive = _
    by_cases e : p = k
    · subst e; rw [upd_same, ht]
    · rw [upd_ne _ _ e])⟩)
  delRows := fun s g _ => markRel_tr (fun a h => by
    have e := (deleteInactiveRows_deleted g).eq
    generalize deleteInactiveRows s = t at e h
    have ct : t.ctag = s.ctag := by have h := congrArg St.ctag e; exact h
    have rt : t.rtag = s.rtag := by have h := congrArg St.rtag e; exact h
    exact ⟨a, rfl, h.frame (fun _ => by rw [rt]) (fun _ => by rw [ct])⟩)
  delCols := fun s g hr hd => markRel_tr (fun a h => by
    obtain ⟨l, r, a', o', b, e⟩ := deleteFixedCols_eq s
    rw [e] at h
    have e := (deleteInactiveCols_deleted
      (s := { s with lhs := l, rhs := r, act := a', off := o', asrt := b })
      (g.of_eq rfl rfl rfl rfl rfl (fun _ => rfl) rfl rfl rfl rfl rfl rfl rfl rfl) hd).eq
    generalize deleteInactiveCols { s with lhs := l, rhs := r, act := a', off := o', asrt := b } = t at e h
    have ct : t.ctag = s.ctag := by have h := congrArg St.ctag e; exact h
    have rt : t.rtag = s.rtag := by have h := congrArg St.rtag e; exact h
    exact ⟨a, rfl, h.frame (fun _ => by rw [rt]) (fun _ => by rw [ct])⟩)

end Verif
