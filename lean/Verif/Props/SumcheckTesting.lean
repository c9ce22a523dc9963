import Verif.Model.SumcheckTesting
import Verif.Proofs.GkrComplete
import Verif.Props.Eq
import Verif.Props.ConcProve

/-! C46: the provers of sumcheck/testing.go. -/

set_option linter.unusedSectionVars false

namespace GkrMimc

open Spec

variable {F : Type} [Field F] [DecidableEq F]

theorem testGates_ok (toStr : F → String) : (∀ g ∈ testGates toStr, LawfulGate g) ∧ DegreesOk (testGates toStr) :=
  shippedGates_ok toStr _ (by
    intro g hg
    simp only [testGates, List.mem_cons, List.not_mem_nil, or_false] at hg
    rcases hg with rfl | rfl
    · exact .copy
    · exact .cipher 2)

theorem testStatics_eq : (testStatics : List (Table F)) = [[0, 0, 2, 0], [0, 0, -1, 0]] := by
  simp [testStatics, fold]; norm_num

theorem testInit_single (toStr : F → String) (bN : Nat) : initializeProverForTests toStr bN =
    .ok (newSProver (tab (2 ^ (bN + 1)) fun i => (i : F)) (tab (2 ^ (bN + 1)) fun i => (i : F))
      (tab (2 ^ bN) (chi (testQPrime bN))) (testGates toStr) testStatics) := by
  unfold initializeProverForTests
  rw [getFoldedEqTable_eq, ok_bind, Nat.shiftLeft_eq, one_mul]
  simp only [testQPrime, List.length_replicate]
  rfl

theorem testInit_multi (toStr : F → String) (m k : Nat) : initializeMultiThreadedProver toStr (m + k) (2 ^ k) =
    .ok (newMProver (chunksOf (2 ^ k) (2 ^ (1 + m)) fun i => (i : F)) (chunksOf (2 ^ k) (2 ^ (1 + m)) fun i => (i : F))
      (chunksOf (2 ^ k) (2 ^ m) (chi (testQPrime (m + k)))) (testGates toStr) testStatics) := by
  have hq : (testQPrime (m + k) : List F) = testQPrime m ++ testQPrime k := by
    simp [testQPrime, List.replicate_append_replicate]
  have he : getChunkedEqTable (testQPrime (m + k) : List F) (2 ^ k) 1 =
      .ok (chunksOf (2 ^ k) (2 ^ m) (chi (testQPrime (m + k)))) := by
    have := getChunkedEqTable_eq (testQPrime m : List F) (testQPrime k) (nCore := 1) le_rfl
    rw [hq]
    simpa [testQPrime] using this
  have hd : goDiv (1 <<< (m + k + 1)) (2 ^ k) = .ok (2 ^ (1 + m)) := by
    rw [goDiv_ok (Nat.two_pow_pos k), Nat.shiftLeft_eq, one_mul, show m + k + 1 = (1 + m) + k by omega, pow_add 2 (1 + m) k,
      Nat.mul_div_cancel _ (Nat.two_pow_pos k)]
  unfold initializeMultiThreadedProver
  rw [he, ok_bind, gen_ok (g := fun s => tab (2 ^ (1 + m)) fun u => ((u * 2 ^ k + s : Nat) : F))]
  · rw [ok_bind]; rfl
  · intro s _
    rw [hd, ok_bind]
    show Except.ok (testChunk _ _ _) = _
    congr 1
    apply tab_congr
    intro u _
    congr 1
    rw [Nat.mul_comm, Nat.add_comm]

theorem testInit_sized (toStr : F → String) (m k : Nat) : SizedChunks (testGates toStr) k m 1
    (chunksOf (2 ^ k) (2 ^ (1 + m)) fun i => (i : F)) (chunksOf (2 ^ k) (2 ^ (1 + m)) fun i => (i : F))
    (chunksOf (2 ^ k) (2 ^ m) (chi (testQPrime (m + k)))) testStatics where
  chunksL := by refine ⟨by simp, ?_⟩; simp [chunksOf, tab]
  chunksR := by refine ⟨by simp, ?_⟩; simp [chunksOf, tab]
  chunksEq := by refine ⟨by simp, ?_⟩; simp [chunksOf, tab]
  lenStatics := by rw [testStatics_eq]; rfl
  lenStatic := by rw [testStatics_eq]; simp

/-- C46. For every `bN` and every number `2^k` of chunks with `k ≤ bN`, the multi-threaded test prover "holds the same values
as the single threaded prover" (sumcheck/testing.go:10-11): its chunks interleave to the tables of the other, and the gates
and static tables are the same. -/
theorem C46_same_values (toStr : F → String) (bN k : Nat) (hk : k ≤ bN) :
    ∃ p s, initializeMultiThreadedProver toStr bN (2 ^ k) = .ok p ∧ initializeProverForTests toStr bN = .ok s ∧
      interleave (2 ^ k) (2 ^ (bN + 1 - k)) p.vL = s.vL ∧ interleave (2 ^ k) (2 ^ (bN + 1 - k)) p.vR = s.vR ∧
      interleave (2 ^ k) (2 ^ (bN - k)) p.eq = s.eq ∧ p.gates = s.gates ∧ p.statics = s.statics ∧
      s.vL = (List.range (2 ^ (bN + 1))).map (fun i : Nat => (i : F)) ∧ s.vR = s.vL := by
  obtain ⟨m, rfl⟩ := Nat.exists_eq_add_of_le' hk
  refine ⟨_, _, testInit_multi toStr m k, testInit_single toStr (m + k), ?_, ?_, ?_, rfl, rfl, rfl, rfl⟩
  · show interleave _ _ (chunksOf _ _ _) = tab _ _
    rw [show m + k + 1 - k = 1 + m by omega, interleave_chunksOf, ← pow_add, show 1 + m + k = m + k + 1 by omega]
  · show interleave _ _ (chunksOf _ _ _) = tab _ _
    rw [show m + k + 1 - k = 1 + m by omega, interleave_chunksOf, ← pow_add, show 1 + m + k = m + k + 1 by omega]
  · show interleave _ _ (chunksOf _ _ _) = tab _ _
    rw [show m + k - k = m by omega, interleave_chunksOf, ← pow_add]

/-- C46. So both provers give the same claim and the same proof, for every number of cores, and the verifier accepts it. -/
theorem C46_same_proof [SmallCasts F] (H : List F → F) (toStr : F → String) (bN k : Nat) (hk : k ≤ bN) (nCore : Int)
    (hc : 1 ≤ nCore) :
    ∃ p s claim out fc, initializeMultiThreadedProver toStr bN (2 ^ k) = .ok p ∧ initializeProverForTests toStr bN = .ok s ∧
      s.getClaim = .ok claim ∧ p.getClaim nCore = .ok claim ∧ s.prove H = .ok out ∧ p.prove H nCore = .ok out ∧
      sumcheckVerify H claim out.polyCoeffs 1 = .ok (some ⟨out.qPrime, out.qL, out.qR, fc⟩) ∧
      (∃ bound, GoodRun 2 nCore.toNat (fun st => st.gs 0 = .ret (.out out)) bound (startOf (p.proveP H nCore) () .tok)) := by
  obtain ⟨m, rfl⟩ := Nat.exists_eq_add_of_le' hk
  obtain ⟨hg, hd⟩ := testGates_ok toStr
  obtain ⟨claim, out, fc, h1, h2, h3, h4, -⟩ := C19_complete H (testGates toStr) (by simp [testGates]) hg hd k m 1 _ _ _ _
    (testInit_sized toStr m k) nCore hc
  have e1 := C18_prove H (testGates toStr) hg k m 1 _ _ _ _ (testInit_sized toStr m k) nCore hc
  have e2 := C18_getClaim (testGates toStr) k m 1 _ _ _ _ (testInit_sized toStr m k) nCore hc
  rw [h1] at e1
  rw [h2] at e2
  refine ⟨_, _, claim, out, fc, testInit_multi toStr m k, testInit_single toStr (m + k), ?_, e2, ?_, e1, h3, h4⟩
  · rw [← h2, interleave_chunksOf, interleave_chunksOf, ← pow_add, ← pow_add, show 1 + m + k = m + k + 1 by omega]
  · rw [← h1, interleave_chunksOf, interleave_chunksOf, ← pow_add, ← pow_add, show 1 + m + k = m + k + 1 by omega]

/-- The output of the layer that testing.go describes (cipher to output 0, copy to output 1, both reading wire 1 on the left and
wire 0 on the right) on the inputs `0, 1, 2, …`. -/
def testOutput (bN j : Nat) : F :=
  if j < 2 ^ bN then ((2 ^ bN + j : Nat) : F) + ((j : F) + 2) ^ 7 else (j : F)

/-- The wires described in the comments of testing.go:17-19. -/
def testWires (toStr : F → String) : List (Wire F) := [⟨1, 0, 1, copyGate⟩, ⟨1, 0, 0, cipherGate toStr 2⟩]

theorem test_ids (toStr : F → String) : (cipherGate toStr 2).id ≠ (copyGate : Gate F).id := by
  intro h
  have := congrArg (fun s => s.toList[1]?) h
  simp [cipherGate, copyGate] at this

theorem test_bG (toStr : F → String) : (newLayer (testWires toStr)).bGInputs = 1 ∧
    (newLayer (testWires toStr)).bGOutputs = 1 := by
  have h : log2Ceil 2 = 1 := log2Ceil_pow 1
  simp [newLayer, bGInputsOf, bGOutputsOf, testWires, h]

theorem testLayer_statics (toStr : F → String) :
    getStaticTable (newLayer (testWires toStr)) [2] = .ok testStatics := by
  have hG := (test_bG toStr).1
  rw [getStaticTable_eq _ (newLayer_inRange _) [2] (test_bG toStr).2.symm, hG, show (newLayer (testWires toStr)).gates = testGates toStr from
    gatesOf_eq _, testStatics_eq]
  have e := test_ids toStr
  have e' := (test_ids toStr).symm
  congr 1
  simp only [testGates, List.map_cons, List.map_nil, newLayer, testWires]
  have t4 : ∀ f : Nat → F, tab (2 ^ (2 * 1)) f = [f 0, f 1, f 2, f 3] := fun f => rfl
  rw [t4, t4]
  simp [staticF, e, e', chi]
  norm_num

theorem test_wired0 (toStr : F → String) (N : Nat) (inp : List F) (h : Nat) : wiredOutput (testWires toStr) N inp 0 h =
    inp.getD (N + h) 0 + (inp.getD h 0 + 2) ^ 7 := by
  simp [wiredOutput, testWires, (C10_functions toStr 2 _ _).2.2.2]

theorem test_wired1 (toStr : F → String) (N : Nat) (inp : List F) (h : Nat) : wiredOutput (testWires toStr) N inp 1 h =
    inp.getD (N + h) 0 := by
  simp [wiredOutput, testWires, copyGate]

/-- C46. The static tables of the test provers are those of that layer at `q = 2`, and the claim is the extension of its
outputs at `(2, …, 2)`. -/
theorem C46_claim (toStr : F → String) (bN : Nat) :
    ∃ s, initializeProverForTests toStr bN = .ok s ∧ getStaticTable (newLayer (testWires toStr)) [2] = .ok s.statics ∧
      s.getClaim = .ok (mle ((List.range (2 ^ (bN + 1))).map (testOutput bN)) (List.replicate (bN + 1) (2 : F))) := by
  refine ⟨_, testInit_single toStr bN, testLayer_statics toStr, ?_⟩
  have hids : ((testWires toStr).map (·.gate.id)).Nodup := by
    simp [testWires, (test_ids toStr).symm]
  obtain ⟨st, eq, h1, h2, h3⟩ := C15_layer_claim (testWires toStr) hids bN (tab (2 ^ (bN + 1)) fun i => (i : F))
    (by rw [tab_length, Nat.add_comm, (test_bG toStr).1]) [2] (testQPrime bN)
    (test_bG toStr).2.symm (by simp [testQPrime])
  rw [testLayer_statics] at h1
  rw [getFoldedEqTable_eq] at h2
  cases h1
  cases h2
  rw [show (newLayer (testWires toStr)).gates = testGates toStr from gatesOf_eq _] at h3
  simp only [testQPrime, List.length_replicate] at h3 ⊢
  rw [h3]
  congr 2
  show tab _ _ = tab _ _
  have hO : (newLayer (testWires toStr)).bGOutputs = 1 := (test_bG toStr).2
  rw [hO, pow_succ, Nat.mul_comm]
  apply tab_congr
  intro j hj
  have hN : 0 < 2 ^ bN := Nat.two_pow_pos _
  have gd : ∀ i, i < 2 * 2 ^ bN → (tab (2 ^ (bN + 1)) fun i => (i : F)).getD i 0 = i := by
    intro i hi
    rw [List.getD_eq_getElem?_getD, tab_getElem?, if_pos (by rw [pow_succ]; omega)]; rfl
  unfold testOutput
  by_cases hlt : j < 2 ^ bN
  · rw [if_pos hlt, Nat.div_eq_of_lt hlt, Nat.mod_eq_of_lt hlt, test_wired0, gd _ (by omega), gd _ (by omega)]
  · have h1 : j / 2 ^ bN = 1 := Nat.div_eq_of_lt_le (by omega) (by omega)
    have h2 : j % 2 ^ bN = j - 2 ^ bN := by rw [Nat.mod_eq_sub_mod (by omega), Nat.mod_eq_of_lt (by omega)]
    rw [if_neg hlt, h1, h2, test_wired1, gd _ (by omega)]
    congr 1
    omega

/-- C46. Any other number of chunks makes `InitializeMultiThreadedProver` panic. -/
theorem C46_panics (toStr : F → String) (bN nChunks : Nat) (h : ∀ k ≤ bN, nChunks ≠ 2 ^ k) :
    ∃ e, initializeMultiThreadedProver toStr bN nChunks = .error e := by
  obtain ⟨e, he⟩ := C06_chunkedEqTable_panics (testQPrime bN : List F) nChunks 1 (by simpa [testQPrime] using h)
  exact ⟨e, by unfold initializeMultiThreadedProver; rw [he]; rfl⟩

/-- 3 chunks of 8 values: not a power of two. -/
example : ∀ k ≤ 3, 3 ≠ 2 ^ k := by decide

example (H : List Fr → Fr) : ∃ p s claim out fc, initializeMultiThreadedProver frString 5 4 = .ok p ∧
    initializeProverForTests frString 5 = .ok s ∧ s.getClaim = .ok claim ∧ p.getClaim 3 = .ok claim ∧ s.prove H = .ok out ∧
    p.prove H 3 = .ok out ∧ sumcheckVerify H claim out.polyCoeffs 1 = .ok (some ⟨out.qPrime, out.qL, out.qR, fc⟩) ∧
    (∃ bound, GoodRun 2 3 (fun st => st.gs 0 = .ret (.out out)) bound (startOf (p.proveP H 3) () .tok)) :=
  C46_same_proof H frString 5 2 (by omega) 3 (by omega)

/-- With `bN = 1` the outputs are `2 + 2^7, 3 + 3^7, 2, 3` and the weights at `(2, 2)` are `1, -2, -2, 4`. -/
example : (initializeProverForTests frString 1 >>= SProver.getClaim) = .ok (-4242 : Fr) := by
  decide +kernel

end GkrMimc
