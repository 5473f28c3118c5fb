import Verif.Model.Log
import Mathlib.Tactic.Ring
import Mathlib.Data.List.Induction
import Mathlib.Data.Rat.Floor

/-!
# C14: the flat postsolve log round-trips
-/

namespace Verif

/-- The log after a history of saves (oldest first). -/
def FlatLog.ofList (rs : List Rec) : FlatLog := rs.foldl FlatLog.save FlatLog.new

/-- Type, indices and values of a record. -/
def encOf (r : Rec) : ℕ × List ℤ × List D :=
  let L := FlatLog.new.save r
  (L.types.headD 0, L.idx, L.vals)

theorem save_eq (L : FlatLog) (r : Rec) :
    L.save r = L.push (encOf r).1 (encOf r).2.1 (encOf r).2.2 := by
  cases r <;> simp [encOf, FlatLog.save, FlatLog.push, FlatLog.new]

theorem rows_len (rows : List (D × List Cell)) :
    (rows.flatMap (fun r => (r.2.length : ℤ) :: cellIdx r.2)).length =
      (rows.flatMap (fun r => r.1 :: cellVal r.2)).length := by
  induction rows with
  | nil => rfl
  | cons a l ih => simp [ih, cellIdx, cellVal]

theorem enc_len (r : Rec) : (encOf r).2.1.length = (encOf r).2.2.length := by
  cases r <;> simp [encOf, FlatLog.save, FlatLog.push, FlatLog.new, cellIdx, cellVal]

theorem natOf_cast (n : ℕ) : natOf (n : ℤ) = some n := by simp [natOf]
theorem countOf_cast (n : ℕ) : countOf (.fin (n : ℚ)) = some n := by
  simp only [countOf]
  rw [if_pos (by positivity), show Rat.floor (n : ℚ) = (n : ℤ) from Rat.floor_intCast n]
  rfl

theorem tagOfBits_tagBits (t : CTag) : tagOfBits (tagBits t) = t := by
  rcases t with ⟨a, b, c, d⟩
  cases a <;> cases b <;> cases c <;> cases d <;> decide

theorem readCells_enc (cells : List Cell) (I : List ℤ) (V : List D) :
    readCells cells.length (cellIdx cells ++ I) (cellVal cells ++ V) = some cells := by
  induction cells with
  | nil => simp [readCells]
  | cons p l ih =>
    simp only [cellIdx, cellVal, List.map_cons, List.cons_append, List.length_cons, readCells] at ih ⊢
    rw [ih]
    simp [natOf_cast, ratOf]

theorem readRows_enc (rows : List (D × List Cell)) (I : List ℤ) (V : List D) :
    readRows rows.length (rows.flatMap (fun r => (r.2.length : ℤ) :: cellIdx r.2) ++ I)
      (rows.flatMap (fun r => r.1 :: cellVal r.2) ++ V) = some rows := by
  induction rows with
  | nil => simp [readRows]
  | cons p l ih =>
    simp only [List.flatMap_cons, List.cons_append, List.append_assoc, List.length_cons, readRows,
      natOf_cast]
    have e1 : ∀ X, (cellIdx p.2 ++ X).drop p.2.length = X := by
      intro X; rw [List.drop_left']; simp [cellIdx]
    have e2 : ∀ X, (cellVal p.2 ++ X).drop p.2.length = X := by
      intro X; rw [List.drop_left']; simp [cellVal]
    simp only [Option.bind_eq_bind, Option.bind_some, readCells_enc, e1, e2, ih]

/-- One record reads back, whatever follows it. -/
theorem readRec_enc (r : Rec) (I : List ℤ) (V : List D) :
    readRec (encOf r).1 (encOf r).2.1.length ((encOf r).2.1 ++ I) ((encOf r).2.2 ++ V) = some r := by
  have hr := readCells_enc
  have hl : ∀ c : List Cell, (cellIdx c).length = c.length := by simp [cellIdx]
  have hl' : ∀ c : List Cell, (cellVal c).length = c.length := by simp [cellVal]
  cases r with
  | fixedColInf pos col bound rows =>
    have := readRows_enc rows I V
    cases pos <;>
    simp [encOf, FlatLog.save, FlatLog.push, FlatLog.new, readRec, natOf_cast, ratOf, countOf_cast, this]
  | subCol col cells rhs row ck =>
    simp [encOf, FlatLog.save, FlatLog.push, FlatLog.new, readRec, natOf_cast, ratOf, hr, hl]
    rw [List.getElem?_append_right (by rw [hl']), hl']
    simp
  | boundChangeNoRow j implied other lower =>
    cases lower <;> simp [encOf, FlatLog.save, FlatLog.push, FlatLog.new, readRec, natOf_cast]
  | _ =>
    simp [encOf, FlatLog.save, FlatLog.push, FlatLog.new, readRec, natOf_cast, ratOf, countOf_cast,
      hr, hl, tagOfBits_tagBits]

/-- Indices of the first records, one after the other. -/
def allIdx (rs : List Rec) : List ℤ := rs.flatMap (fun r => (encOf r).2.1)
/-- Values of the first records. -/
def allVals (rs : List Rec) : List D := rs.flatMap (fun r => (encOf r).2.2)

theorem allIdx_append (a b : List Rec) : allIdx (a ++ b) = allIdx a ++ allIdx b := by simp [allIdx]
theorem allVals_append (a b : List Rec) : allVals (a ++ b) = allVals a ++ allVals b := by
  simp [allVals]
theorem all_len (rs : List Rec) : (allIdx rs).length = (allVals rs).length := by
  induction rs with
  | nil => rfl
  | cons r l ih =>
    simp only [allIdx, allVals, List.flatMap_cons, List.length_append] at ih ⊢
    rw [ih, enc_len]

/-- Contents of the four vectors after any history. -/
theorem ofList_fields (rs : List Rec) :
    (FlatLog.ofList rs).types = rs.map (fun r => (encOf r).1) ∧
    (FlatLog.ofList rs).idx = allIdx rs ∧ (FlatLog.ofList rs).vals = allVals rs ∧
    (FlatLog.ofList rs).starts =
      (List.range (rs.length + 1)).map (fun i => (allIdx (rs.take i)).length) := by
  induction rs using List.reverseRecOn with
  | nil => simp [FlatLog.ofList, FlatLog.new, allIdx, allVals]
  | append_singleton rs r ih =>
    obtain ⟨h1, h2, h3, h4⟩ := ih
    have e : FlatLog.ofList (rs ++ [r]) =
        (FlatLog.ofList rs).push (encOf r).1 (encOf r).2.1 (encOf r).2.2 := by
      unfold FlatLog.ofList
      rw [List.foldl_append, List.foldl_cons, List.foldl_nil, save_eq]
    rw [e]
    refine ⟨by simp [FlatLog.push, h1], ?_, ?_, ?_⟩
    · rw [allIdx_append]; simp [FlatLog.push, h2, allIdx]
    · rw [allVals_append]; simp [FlatLog.push, h3, allVals]
    · simp only [FlatLog.push, h4, h2, List.length_append, List.length_singleton]
      rw [List.range_succ (n := rs.length + 1), List.map_append, List.map_singleton]
      congr 1
      · apply List.map_congr_left
        intro i hi
        rw [List.mem_range] at hi
        rw [List.take_append_of_le_length (by omega)]
      · rw [List.take_of_length_le (by simp), allIdx_append]
        simp [allIdx]

/-- **C14 (every record reads back).** After any history of saves, of records of any kinds and
lengths: the vectors have consistent lengths, the starts are those of the records, and reading record
`i` gives exactly the `i`-th record saved; there is nothing else to read. -/
theorem C14_read (rs : List Rec) :
    (FlatLog.ofList rs).types.length = rs.length ∧
    (FlatLog.ofList rs).starts.length = rs.length + 1 ∧
    (FlatLog.ofList rs).idx.length = (FlatLog.ofList rs).vals.length ∧
    ∀ i, (FlatLog.ofList rs).read i = rs[i]? := by
  obtain ⟨h1, h2, h3, h4⟩ := ofList_fields rs
  refine ⟨by rw [h1]; simp, by rw [h4]; simp, by rw [h2, h3, all_len], fun i => ?_⟩
  by_cases hi : i < rs.length
  · have hs : rs = rs.take i ++ rs[i] :: rs.drop (i + 1) := by
      rw [List.getElem_cons_drop, List.take_append_drop]
    unfold FlatLog.read
    rw [h1, h2, h3, h4]
    rw [List.getElem?_map, List.getElem?_eq_getElem hi, List.getElem?_map, List.getElem?_map,
      List.getElem?_range (by omega), List.getElem?_range (by omega)]
    simp only [Option.map_some, Option.bind_eq_bind, Option.bind_some]
    have e1 : (allIdx rs).drop (allIdx (rs.take i)).length =
        (encOf rs[i]).2.1 ++ allIdx (rs.drop (i + 1)) := by
      conv_lhs => rw [hs]
      rw [allIdx_append]
      have : allIdx (List.take i (List.take i rs ++ rs[i] :: List.drop (i + 1) rs)) =
          allIdx (List.take i rs) := by rw [← hs]
      rw [this, List.drop_left]
      simp only [allIdx, List.flatMap_cons]
    have e2 : (allVals rs).drop (allIdx (rs.take i)).length =
        (encOf rs[i]).2.2 ++ allVals (rs.drop (i + 1)) := by
      rw [all_len]
      conv_lhs => rw [hs]
      rw [allVals_append]
      have : allVals (List.take i (List.take i rs ++ rs[i] :: List.drop (i + 1) rs)) =
          allVals (List.take i rs) := by rw [← hs]
      rw [this, List.drop_left]
      simp only [allVals, List.flatMap_cons]
    have e3 : (allIdx (rs.take (i + 1))).length - (allIdx (rs.take i)).length =
        (encOf rs[i]).2.1.length := by
      rw [List.take_succ_eq_append_getElem hi, allIdx_append]
      simp [allIdx]
    rw [e1, e2, e3, readRec_enc]
  · rw [List.getElem?_eq_none (by omega)]
    unfold FlatLog.read
    rw [h1, List.getElem?_map, List.getElem?_eq_none (by omega)]
    rfl

/-- **C14 (replay).** Replaying the flat log visits exactly the recorded reductions, newest first:
the run on the flat vectors equals the run on the list of records, for every history and every starting
point, including the outcome "undefined". -/
theorem C14_replay (rs : List Rec) (σ : Sol) :
    (FlatLog.ofList rs).replay none rs.length σ = replay none rs.reverse σ := by
  have key : ∀ i, i ≤ rs.length → ∀ g σ, (FlatLog.ofList rs).replay g i σ =
      replay g (rs.take i).reverse σ := by
    intro i
    induction i with
    | zero => intro _ g σ; cases g <;> simp [FlatLog.replay, replay]
    | succ i ih =>
      intro hi g σ
      have hr : (FlatLog.ofList rs).read i = some rs[i] := by
        rw [(C14_read rs).2.2.2 i, List.getElem?_eq_getElem (by omega)]
      have ih := ih (by omega)
      rw [List.take_succ_eq_append_getElem (by omega), List.reverse_append]
      simp only [List.reverse_singleton, List.singleton_append]
      rcases g with _ | ⟨a, b, c⟩
      · simp only [FlatLog.replay, hr]
        cases rs[i] <;> simp only [replay, ih]
      · simp only [FlatLog.replay, hr]
        cases rs[i] <;> simp only [replay, ih]
  have := key rs.length le_rfl none σ
  rwa [List.take_length] at this

/-- A history with records of several kinds, with and without cells. -/
example : (FlatLog.ofList [.deletedRow 3 0, .subCol 2 [(0, 1), (2, -1)] (.fin 5) 1 7,
      .fixedColInf true 4 .ninf [(.fin 1, [(4, 2)]), (.fin 0, [(1, 1), (4, 1)])],
      .boundChangeNoRow 1 (.fin 2) .ninf true]).idx =
    [3, 2, 0, 2, 1, 1, 4, 1, 4, 2, 1, 4, 1, 1] := by decide +kernel

end Verif
