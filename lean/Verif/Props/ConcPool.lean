import Verif.Proofs.ConcClaim
import Verif.Proofs.Tables
import Verif.Props.Circuit
import Verif.Props.SumcheckPar

/-! Property C21: the worker pools are schedule independent. The semaphore of `Evaluate`, `LayerAsBKTWithCopy`, `Sub` and
`Mul` is channel 0; in `GetClaim` channel 0 is `evalsChan` and channel 1 the semaphore. -/

set_option linter.unusedSectionVars false

namespace GkrMimc

open Spec Finset

variable {F : Type} [Field F] [DecidableEq F]

/-- C21. `Layer.Evaluate`: whenever the sequential loop gives `outs`, every schedule ends within a bound that does not depend
on the schedule, with `res = outs`; no schedule deadlocks, panics, sends on a closed channel, blocks in `Release`, or has
more than `nCore` goroutines between `Acquire` and `Release`. `res0` is the slice that `make` returned. -/
theorem C21_evaluate (l : Layer F) (inputs outs res0 : List (List F)) (nCore : Int) (hn : 1 ≤ nCore)
    (h : l.evaluate inputs nCore = .ok outs) (h0 : res0.length = inputs.length) :
    ∃ bound, GoodRun 0 nCore.toNat (fun s => s.mem = outs) bound (startOf (l.evaluateP inputs nCore) res0 .tok) := by
  unfold Layer.evaluate at h
  obtain ⟨_, _, h⟩ := bind_eq_ok.1 h
  exact evaluateP_good hn h h0

/-- C21. With `nCore = 0` and at least one chunk, `Layer.Evaluate` blocks for ever under every schedule. -/
theorem C21_evaluate_deadlock (l : Layer F) (inputs outs res0 : List (List F)) (hne : inputs ≠ [])
    (h : l.evaluate inputs 1 = .ok outs) :
    ∃ bound, Deadlocks bound (startOf (l.evaluateP inputs 0) res0 .tok) := by
  unfold Layer.evaluate at h
  obtain ⟨_, _, h⟩ := bind_eq_ok.1 h
  exact evaluateP_deadlock h hne

example : (newLayer [⟨1, 0, 0, cipherGate frString 3⟩, ⟨1, 0, 1, copyGate⟩] : Layer Fr).evaluate [[1, 2], [5, 6], [7, 8]] 2 =
    .ok [[2 + 4 ^ 7, 2], [6 + 8 ^ 7, 6], [8 + 10 ^ 7, 8]] := by decide +kernel

example : ∃ bound, GoodRun 0 2 (fun s => s.mem = [[2 + 4 ^ 7, 2], [6 + 8 ^ 7, 6], [8 + 10 ^ 7, 8]]) bound
    (startOf ((newLayer [⟨1, 0, 0, cipherGate frString 3⟩, ⟨1, 0, 1, copyGate⟩] : Layer Fr).evaluateP [[1, 2], [5, 6], [7, 8]] 2)
      [[], [], []] .tok) :=
  C21_evaluate _ _ _ _ 2 (by norm_num) (by decide +kernel) rfl

/-- C21. `LayerAsBKTWithCopy` returns a copy of the layer under every schedule. -/
theorem C21_layerAsBKTWithCopy (values : List (List (List F))) (layer : Nat) (v : List (Table F)) (res0 : List (Table F))
    (nCore : Int) (hn : 1 ≤ nCore) (h : layerAsBKTWithCopy values layer nCore = .ok v) (h0 : res0.length = v.length) :
    ∃ bound, GoodRun 0 nCore.toNat (fun s => s.mem = v) bound (startOf (layerAsBKTWithCopyP values layer nCore) res0 .tok) := by
  unfold layerAsBKTWithCopy at h
  obtain ⟨v', h1, h⟩ := bind_eq_ok.1 h
  obtain ⟨_, _, h⟩ := bind_eq_ok.1 h
  simp only [go_pure, Except.ok.injEq] at h
  subst h
  exact layerAsBKTWithCopyP_good hn h1 h0

/-- C21. With `nCore = 0` and at least one chunk, `LayerAsBKTWithCopy` blocks for ever under every schedule. -/
theorem C21_layerAsBKTWithCopy_deadlock (values : List (List (List F))) (layer : Nat) (v res0 : List (Table F))
    (h : layerAsBKTWithCopy values layer 1 = .ok v) (hne : v ≠ []) :
    ∃ bound, Deadlocks bound (startOf (layerAsBKTWithCopyP values layer 0) res0 .tok) := by
  unfold layerAsBKTWithCopy at h
  obtain ⟨v', h1, h⟩ := bind_eq_ok.1 h
  obtain ⟨_, _, h⟩ := bind_eq_ok.1 h
  simp only [go_pure, Except.ok.injEq] at h
  subst h
  exact layerAsBKTWithCopyP_deadlock h1 hne

example : layerAsBKTWithCopy [[[1, 2], [3, 4]], [[5], [6]]] 0 3 = .ok [[(1 : Fr), 2], [3, 4]] := by decide +kernel

/-- C21. The parallel loop of `Sub` and `Mul`, for any statement in the inner loop: if the statements for different indices
commute (they write different cells and read no cell that another one writes), every schedule has the effect of the sequential
loop. -/
theorem C21_chunked_loop {W : Type} (write : Nat → W → W) (size : Nat) (nCore : Int) (hn : 1 ≤ nCore) (m0 : W)
    (hcomm : ∀ i < size, ∀ j < size, i ≠ j → ∀ m, write i (write j m) = write j (write i m)) :
    ∃ bound, GoodRun 0 nCore.toNat (fun s => s.mem = (List.range size).foldl (fun m i => write i m) m0) bound
      (startOf (chunkedLoopP (F := F) write size nCore) m0 .tok) := by
  have := chunkedLoopP_good (F := F) write size hn m0 hcomm
  simpa only [runActs, List.foldl_map] using this

theorem foldl_set (f : Nat → F) (t : List F) : ∀ k, k ≤ t.length →
    (List.range k).foldl (fun t i => t.set i (f i)) t = tab k f ++ t.drop k
  | 0, _ => by simp
  | k + 1, hk => by
    rw [List.range_succ, List.foldl_append, foldl_set f t k (by omega), List.foldl_cons, List.foldl_nil, tab_succ',
      List.set_append_right _ _ (by simp), tab_length, Nat.sub_self, List.drop_eq_getElem_cons (by omega), List.set_cons_zero]
    simp

/-- C21. `Sub`: under every schedule the receiver is the element-wise difference, as in the sequential loop. -/
theorem C21_sub (dst left right : Table F) (hlen : right.length = left.length) (nCore : Int) (hn : 1 ≤ nCore) :
    tableSub dst left right nCore = .ok (List.zipWith (· - ·) left right) ∧
    ∃ bound, GoodRun 0 nCore.toNat (fun s => s.mem = List.zipWith (· - ·) left right) bound
      (startOf (chunkedLoopP (F := F) (subWrite left right) left.length nCore) (resizeDst dst left.length) .tok) := by
  refine ⟨tableSub_eq _ _ _ hn hlen, ?_⟩
  obtain ⟨B, hB⟩ := C21_chunked_loop (F := F) (subWrite left right) left.length nCore hn (resizeDst dst left.length)
    (fun i _ j _ hij m => List.set_comm _ _ (by omega))
  refine ⟨B, goodRun_post hB ?_⟩
  intro s hs
  rw [hs]
  unfold subWrite
  have hl : (resizeDst dst left.length).length = left.length := by
    unfold resizeDst; split_ifs <;> simp <;> omega
  rw [foldl_set (fun i => left.getD i 0 - right.getD i 0) _ _ (by omega), List.drop_of_length_le (by omega), List.append_nil]
  apply List.ext_getElem
  · simp [hlen]
  · intro i h1 h2
    simp at h1
    simp [h1, hlen]

/-- C21. `Mul`: under every schedule the receiver is the multiple, as in the sequential loop. -/
theorem C21_mul (dst x : Table F) (lambda : F) (nCore : Int) (hn : 1 ≤ nCore) :
    tableMul dst lambda x nCore = .ok (x.map (· * lambda)) ∧
    ∃ bound, GoodRun 0 nCore.toNat (fun s => s.mem = x.map (· * lambda)) bound
      (startOf (chunkedLoopP (F := F) (mulWrite lambda x) x.length nCore) (resizeDst dst x.length) .tok) := by
  refine ⟨tableMul_eq _ _ _ hn, ?_⟩
  obtain ⟨B, hB⟩ := C21_chunked_loop (F := F) (mulWrite lambda x) x.length nCore hn (resizeDst dst x.length)
    (fun i _ j _ hij m => List.set_comm _ _ (by omega))
  refine ⟨B, goodRun_post hB ?_⟩
  intro s hs
  rw [hs]
  unfold mulWrite
  have hl : (resizeDst dst x.length).length = x.length := by
    unfold resizeDst; split_ifs <;> simp <;> omega
  rw [foldl_set (fun i => x.getD i 0 * lambda) _ _ (by omega), List.drop_of_length_le (by omega), List.append_nil]
  apply List.ext_getElem
  · simp
  · intro i h1 h2
    simp at h1
    simp [h1]

example : tableSub [] [(5 : Fr), 7] [2, 3] 3 = .ok [3, 4] := by decide +kernel
example : tableMul [1, 1, 1] (2 : Fr) [2, 3] 3 = .ok [4, 6] := by decide +kernel

/-- C21. `GetClaim`: whenever the sequential loop gives `c`, every schedule ends within a bound, with result `c`; no deadlock,
no panic, no blocked send, at most `nCore` goroutines between `Acquire` and `Release`. -/
theorem C21_getClaim (p : MProver F) (nCore : Int) (hn : 1 ≤ nCore) (c : F) (h : p.getClaim nCore = .ok c) :
    ∃ bound, GoodRun 1 nCore.toNat (fun s => s.gs 0 = .ret (.elem c)) bound (startOf (p.getClaimP nCore) () .tok) := by
  obtain ⟨x, h1, h2⟩ := getClaim_chunks h
  rw [← h2]
  exact getClaimP_good hn h1

/-- C21. With `nCore = 0` and at least one chunk, `GetClaim` blocks for ever under every schedule. -/
theorem C21_getClaim_deadlock (p : MProver F) (hne : p.eq ≠ []) (c : F) (h : p.getClaim 1 = .ok c) :
    ∃ bound, Deadlocks bound (startOf (p.getClaimP 0) () .tok) := by
  obtain ⟨x, h1, _⟩ := getClaim_chunks h
  exact getClaimP_deadlock hne h1

example : (newMProver [[1, 2], [3, 4]] [[5, 6], [7, 8]] [[1], [2]] [(copyGate : Gate Fr)] [[1, 1, 1, 0]]).getClaim 2 =
    .ok 24 := by decide +kernel

end GkrMimc
