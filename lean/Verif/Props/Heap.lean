import Verif.Proofs.Heap
import Verif.Props.ConcPool

/-! Properties C04 and C09: what evaluation, folding and table arithmetic do to memory, for every memory state, aliasing,
capacity and growth policy. -/

set_option linter.unusedSectionVars false

namespace GkrMimc

open Spec Finset

variable {F : Type} [Field F] [DecidableEq F]

/-- C04. `DeepCopy` changes no existing cell; the copy has the same contents, lies in a new array. -/
theorem C04_deepCopy (h : Heap F) (bkt : Slice) (v : Valid h bkt) :
    Frame h (deepCopyH h bkt).2 ∧ (deepCopyH h bkt).2.vals (deepCopyH h bkt).1 = h.vals bkt ∧
    (deepCopyH h bkt).1.arr = h.next := by
  obtain ⟨h1, _, _, h2⟩ := deepCopy_spec (Frame.refl h) v
  exact ⟨h1, h2, rfl⟩

/-- C04. `Evaluate` changes no existing cell and returns (or panics) what the value-level function does on the contents of its
arguments, which may share memory. -/
theorem C04_evaluate (h : Heap F) (bkt coordinates : Slice) (vb : Valid h bkt) (vc : Valid h coordinates) :
    ∃ h', Frame h h' ∧
      evaluateH h bkt coordinates = (evaluate (h.vals bkt) (h.vals coordinates) >>= fun v => .ok (v, h')) := by
  obtain ⟨h', h1, _, h2⟩ := evaluateH_spec (Frame.refl h) vb vc
  exact ⟨h', h1, h2⟩

/-- C04. `EvaluateLeftAndRight` changes no existing cell; the slices may share memory with each other and with the table, and
`append` may leave any spare capacity. -/
theorem C04_evaluateLeftAndRight (h : Heap F) (bkt hPrime hL hR : Slice) (vb : Valid h bkt) (vp : Valid h hPrime)
    (vl : Valid h hL) (vr : Valid h hR) :
    ∃ h', Frame h h' ∧ evaluateLeftAndRightH h bkt hPrime hL hR =
      (evaluateLeftAndRight (h.vals bkt) (h.vals hPrime) (h.vals hL) (h.vals hR) >>= fun v => .ok (v, h')) :=
  evaluateLeftAndRightH_spec vb vp vl vr

/-- C04. `Fold` works in place: the header keeps array, offset and capacity, the length is halved, the contents are those of the
value-level function, and only cells of the table are written. Nothing is allocated. -/
theorem C04_fold (h : Heap F) (bkt : Slice) (r : F) (v : Valid h bkt) :
    ∃ h', foldH h bkt r = .ok (⟨bkt.arr, bkt.off, bkt.len / 2, bkt.cap⟩, h') ∧
      h'.vals ⟨bkt.arr, bkt.off, bkt.len / 2, bkt.cap⟩ = fold (h.vals bkt) r ∧ h'.next = h.next ∧
      ∀ a j, ¬ (a = bkt.arr ∧ bkt.off ≤ j ∧ j < bkt.off + bkt.len) → h'.cells a j = h.cells a j := by
  refine ⟨_, foldH_eq h bkt r v.len, fold_vals h bkt r bkt.cap, rfl, ?_⟩
  intro a j hj
  simp only [foldHeap]
  rw [if_neg (by omega), if_neg (by omega)]

/-- C04. `LinearCombinationOfBookKeepingTables` writes only cells of its two tables and allocates nothing. -/
theorem C04_linearCombination (h h' : Heap F) (t0 t1 t : Slice) (a0 a1 : F) (e : linearCombinationH h t0 t1 a0 a1 = .ok (t, h')) :
    t = t1 ∧ h'.next = h.next ∧ ∀ a j, ¬ (a = t0.arr ∧ t0.off ≤ j ∧ j < t0.off + t0.len) →
      ¬ (a = t1.arr ∧ t1.off ≤ j ∧ j < t1.off + t1.len) → h'.cells a j = h.cells a j :=
  linearCombinationH_cells e

/-- One array `1, 2, …` in memory. -/
def exampleHeap : Heap Fr := ⟨fun _ i => (i : Fr) + 1, 1, fun a => a⟩

example : Valid exampleHeap ⟨0, 0, 4, 8⟩ ∧ Valid exampleHeap ⟨0, 2, 2, 6⟩ := by
  refine ⟨⟨?_, ?_⟩, ⟨?_, ?_⟩⟩ <;> simp [exampleHeap]
example : (evaluateH exampleHeap ⟨0, 0, 4, 8⟩ ⟨0, 2, 2, 6⟩).map (·.1) = .ok 11 := by decide +kernel
example : (evaluateLeftAndRightH exampleHeap ⟨0, 0, 4, 8⟩ ⟨0, 2, 1, 6⟩ ⟨0, 0, 1, 8⟩ ⟨0, 1, 1, 7⟩).map (·.1) = .ok (6, 8) := by
  decide +kernel
example : (foldH exampleHeap ⟨0, 0, 4, 8⟩ 5).map (fun s => (s.1, s.2.vals ⟨0, 0, 6, 8⟩)) =
    .ok (⟨0, 0, 2, 8⟩, [11, 12, 10, 10, 5, 6]) := by decide +kernel

/-- C09. `Add`: the receiver gets the element-wise sum. It may be one of the operands, or hold anything before; otherwise only
cells of the receiver are written. -/
theorem C09_add (h : Heap F) (dst left right : Slice) (vd : Valid h dst) (vl : Valid h left) (vr : Valid h right)
    (hlen : right.len = left.len) (n1 : NoOverlap dst left left.len) (n2 : NoOverlap dst right left.len) :
    ∃ d h', addH h dst left right = .ok (d, h') ∧ h'.vals d = List.zipWith (· + ·) (h.vals left) (h.vals right) ∧
      ∀ a < h.next, ∀ j, ¬ (a = d.arr ∧ d.off ≤ j ∧ j < d.off + left.len) → h'.cells a j = h.cells a j := by
  obtain ⟨d, h1, R⟩ := resizeH_spec h dst left.len vd
  refine ⟨d, _, addH_spec R hlen (R.noOverlap vl le_rfl fun _ => n1) (R.noOverlap vr hlen.ge fun _ => n2), ?_,
    fun a ha j hj => R.cells _ ha hj⟩
  rw [← R.len, fillHeap_vals, vals_eq, vals_eq, hlen, zipWith_tab, R.len]
  apply tab_congr
  intro i hi
  rw [R.frame.get vl hi, R.frame.get vr (by omega)]

/-- C09. `Sub`: under every schedule of the chunks, and in the sequential run, the receiver gets the element-wise difference. -/
theorem C09_sub (h : Heap F) (dst left right : Slice) (nCore : Int) (hn : 1 ≤ nCore) (vd : Valid h dst) (vl : Valid h left)
    (vr : Valid h right) (hlen : right.len = left.len) (n1 : NoOverlap dst left left.len) (n2 : NoOverlap dst right left.len) :
    ∃ d h1 h', resizeH h dst left.len = .ok (d, h1) ∧ subH h dst left right nCore = .ok (d, h') ∧
      h'.vals d = List.zipWith (· - ·) (h.vals left) (h.vals right) ∧
      (∀ a < h.next, ∀ j, ¬ (a = d.arr ∧ d.off ≤ j ∧ j < d.off + left.len) → h'.cells a j = h.cells a j) ∧
      ∃ bound, GoodRun 0 nCore.toNat (fun s => s.mem = h') bound
        (startOf (chunkedLoopP (F := F) (subWriteH d left right) left.len nCore) h1 .tok) := by
  obtain ⟨d, h1, R⟩ := resizeH_spec h dst left.len vd
  have m1 := R.noOverlap vl le_rfl fun _ => n1
  have m2 := R.noOverlap vr hlen.ge fun _ => n2
  refine ⟨d, h1, _, R.eq, subH_spec hn R hlen m1 m2, ?_, fun a ha j hj => R.cells _ ha hj, ?_⟩
  · rw [← R.len, fillHeap_vals, vals_eq, vals_eq, hlen, zipWith_tab, R.len]
    apply tab_congr
    intro i hi
    rw [R.frame.get vl hi, R.frame.get vr (by omega)]
  · rw [← foldl_subWriteH m1 m2 left.len le_rfl]
    apply C21_chunked_loop _ _ _ hn
    intro i hi j hj hij m
    unfold subWriteH
    rw [put_get_other m1 hj hi hij.symm, put_get_other m2 hj hi hij.symm, put_get_other m1 hi hj hij,
      put_get_other m2 hi hj hij, put_comm m d hij]

/-- C09. `Mul`: under every schedule of the chunks, and in the sequential run, the receiver gets the multiple. -/
theorem C09_mul (h : Heap F) (dst x : Slice) (lambda : F) (nCore : Int) (hn : 1 ≤ nCore) (vd : Valid h dst) (vx : Valid h x)
    (n1 : NoOverlap dst x x.len) :
    ∃ d h1 h', resizeH h dst x.len = .ok (d, h1) ∧ mulH h dst lambda x nCore = .ok (d, h') ∧
      h'.vals d = (h.vals x).map (· * lambda) ∧
      (∀ a < h.next, ∀ j, ¬ (a = d.arr ∧ d.off ≤ j ∧ j < d.off + x.len) → h'.cells a j = h.cells a j) ∧
      ∃ bound, GoodRun 0 nCore.toNat (fun s => s.mem = h') bound
        (startOf (chunkedLoopP (F := F) (mulWriteH d x lambda) x.len nCore) h1 .tok) := by
  obtain ⟨d, h1, R⟩ := resizeH_spec h dst x.len vd
  have m1 := R.noOverlap vx le_rfl fun _ => n1
  refine ⟨d, h1, _, R.eq, mulH_spec hn R m1, ?_, fun a ha j hj => R.cells _ ha hj, ?_⟩
  · rw [← R.len, fillHeap_vals, vals_eq, tab_map, R.len]
    apply tab_congr
    intro i hi
    rw [R.frame.get vx hi]
  · rw [← foldl_mulWriteH m1 x.len le_rfl]
    apply C21_chunked_loop _ _ _ hn
    intro i hi j hj hij m
    unfold mulWriteH
    rw [put_get_other m1 hj hi hij.symm, put_get_other m1 hi hj hij, put_comm m d hij]

/-- C09. Operands of different lengths make `Add` and `Sub` panic. -/
theorem C09_length (h : Heap F) (dst left right : Slice) (nCore : Int) (hn : 1 ≤ nCore) (hlen : right.len ≠ left.len) :
    addH h dst left right = .error (.explicit "Left and right do not have the right size") ∧
    subH h dst left right nCore = .error (.explicit "Left and right do not have the right size") := by
  constructor
  · unfold addH
    simp [hlen]
  · unfold subH
    simp only
    rw [intoChunkRanges_eq (show nCore ≠ 0 by omega), ok_bind, show newSemaphore nCore = .ok () by simp [newSemaphore]; omega,
      ok_bind]
    simp [hlen]

/-- C09. With no core `Sub` and `Mul` panic (division by zero). -/
theorem C09_no_core (h : Heap F) (dst left right : Slice) (lambda : F) :
    subH h dst left right 0 = .error .divZero ∧ mulH h dst lambda left 0 = .error .divZero := ⟨rfl, rfl⟩

/-- C09 for `LinearCombinationOfBookKeepingTables`, of two tables that do not overlap, the first at least as long as the second.
Missing: tables that share cells; for these the claim is false, see `C09_linearCombination_negation`. -/
theorem C09_linearCombination_partial (h : Heap F) (t0 t1 : Slice) (a0 a1 : F) (hl : t1.len ≤ t0.len)
    (hd : SepCells t0 t1 t1.len) :
    ∃ h', linearCombinationH h t0 t1 a0 a1 = .ok (t1, h') ∧
      h'.vals t1 = List.zipWith (fun x y => a0 * x + a1 * y) (h.vals t0) (h.vals t1) := by
  refine ⟨_, linearCombinationH_spec hl hd, ?_⟩
  rw [fillHeap_vals]
  symm
  apply tab_eq_of
  · simp [hl]
  · intro i hi
    simp at hi
    simp [vals_eq]
    ring

/-- C09, the claim fails on aliased arguments: of a table with itself, `LinearCombinationOfBookKeepingTables` computes
`2*a0*a1*T` instead of `(a0+a1)*T`. (The callers in gkr/prover.go pass two different tables.) -/
theorem C09_linearCombination_negation :
    (linearCombinationH exampleHeap ⟨0, 0, 2, 2⟩ ⟨0, 0, 2, 2⟩ 3 5).map (fun s => s.2.vals s.1) = .ok [30, 60] ∧
    List.zipWith (fun x y => 3 * x + 5 * y) (exampleHeap.vals ⟨0, 0, 2, 2⟩) (exampleHeap.vals ⟨0, 0, 2, 2⟩) = [8, 16] := by
  decide +kernel

example : NoOverlap ⟨0, 0, 2, 8⟩ ⟨0, 0, 4, 8⟩ 4 ∧ NoOverlap ⟨0, 0, 2, 8⟩ ⟨0, 4, 4, 4⟩ 4 := by
  refine ⟨?_, ?_⟩ <;> intro _ <;> simp
example : (subH exampleHeap ⟨0, 0, 2, 8⟩ ⟨0, 0, 4, 8⟩ ⟨0, 4, 4, 4⟩ 3).map (fun s => (s.1, s.2.vals s.1)) =
    .ok (⟨0, 0, 4, 8⟩, [-4, -4, -4, -4]) := by decide +kernel
example : (mulH exampleHeap ⟨0, 0, 1, 1⟩ 7 ⟨0, 0, 2, 8⟩ 3).map (fun s => (s.1, s.2.vals s.1)) =
    .ok (⟨1, 0, 2, 2⟩, [7, 14]) := by decide +kernel
example : (linearCombinationH exampleHeap ⟨0, 0, 2, 2⟩ ⟨0, 2, 2, 2⟩ 3 5).map (fun s => s.2.vals s.1) = .ok [18, 26] := by
  decide +kernel

end GkrMimc
