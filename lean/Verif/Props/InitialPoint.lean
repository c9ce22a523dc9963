import Verif.Props.Snark

/-! Property C54: the circuit in which the repository uses the GKR gadget (`GKRMimcTestCircuit`). Its variables include the initial
point, so the prover chooses this point after the outputs. -/

set_option linter.unusedSectionVars false

namespace GkrMimc

open Spec

/-- A witness, seen as slots which are all filled. -/
def GkrMimcTestCircuit.filled {F : Type} (c : GkrMimcTestCircuit F F) : GkrMimcTestCircuit F (Option F) :=
  { circuit := c.circuit
    proof := ⟨c.proof.sumcheckProofs.map (List.map (List.map some)), c.proof.claimsLeft.map some, c.proof.claimsRight.map some⟩
    qInitial := c.qInitial.map some
    qInitialprime := c.qInitialprime.map some
    vInput := c.vInput.map some
    vOutput := c.vOutput.map some }

theorem assignPoint_ok {F : Type} [Field F] (q : List F) :
    (forN q.length (List.replicate q.length none) fun i t => do
      let x ← idx q i
      slotsAssign t i x) = .ok (q.map some) := by
  rw [← map_none]
  apply forN_replace
  intro i hi f hf
  rw [idx_ok hi, ok_bind, slotsAssign_tab hi f hf]

/-- C54: the test of the repository, for every number of instances, every number `2^k` of chunks, all inputs and core counts: the
circuit is allocated, `Assign` fills all its slots without a panic, and the witness satisfies `Define`. -/
theorem C54_test (k m : Nat) (inputs : List (List Fr)) (hin : WellChunked k (1 + m) inputs)
    (nCore nCore' : Int) (hc : 1 ≤ nCore) (hc' : 1 ≤ nCore') :
    ∃ (c : Circuit Fr) (values : _) (outputs : _) (p : _) (proof : GkrProof Fr) (t : GkrMimcTestCircuit Fr (Option Fr))
        (w : GkrMimcTestCircuit Fr Fr), createMimcCircuit frString arks = .ok c ∧ c.assign inputs nCore = .ok values ∧
      values.getLast? = some outputs ∧ newGkrProver c values = .ok p ∧ p.prove mimcHash nCore' = .ok proof ∧
      allocateTestCircuit arks (m + k) = .ok t ∧
      t.assign proof inputs outputs (getInitialQPrimeAndQ (m + k) 0).1 = .ok w.filled ∧
      w.vInput = interleave (2 ^ k) (2 ^ (1 + m)) inputs ∧ w.vOutput = interleave (2 ^ k) (2 ^ m) outputs ∧
      (w.define arks).Satisfied := by
  obtain ⟨c, values, outputs, p, proof, h1, h2, h3, h4, h5, _, h7, _⟩ := honest_gadget k m inputs hin nCore nCore' hc hc'
  obtain ⟨c', values', outputs', p', proof', sc, g1, g2, g3, g4, g5, g6, _, g8, g9, g10⟩ := C37_assign k m inputs hin nCore nCore' hc hc'
  obtain rfl : c = c' := by rw [h1] at g1; exact Except.ok.inj g1
  obtain rfl : values = values' := by rw [h2] at g2; exact Except.ok.inj g2
  obtain rfl : outputs = outputs' := by rw [h3] at g3; exact Option.some.inj g3
  obtain rfl : p = p' := by rw [h4] at g4; exact Except.ok.inj g4
  obtain rfl : proof = proof' := by rw [h5] at g5; exact Except.ok.inj g5
  obtain rfl : snarkCircuit arks = sc := by rw [snark_circuit] at g6; exact Except.ok.inj g6
  refine ⟨c, values, outputs, p, proof, _,
    ⟨snarkCircuit arks, proof, [], qPrime0 (m + k), interleave (2 ^ k) (2 ^ (1 + m)) inputs, interleave (2 ^ k) (2 ^ m) outputs⟩,
    h1, h2, h3, h4, h5, by unfold allocateTestCircuit; rw [snark_circuit, ok_bind]; rfl, ?_, rfl, rfl, h7⟩
  have hq := assignPoint_ok (qPrime0 (m + k))
  rw [qPrime0_length] at hq
  unfold GkrMimcTestCircuit.assign
  dsimp only
  rw [g8, ok_bind]
  change (forN (qPrime0 (m + k)).length _ (fun i t => do
      let x ← idx (qPrime0 (m + k)) i
      slotsAssign t i x) >>= _) = _
  rw [qPrime0_length, hq, ok_bind, show m + k + 1 = 1 + (m + k) by omega, g9, ok_bind, g10, ok_bind]
  rfl

/-- A proof with empty slots of the allocated shape makes a witness of the allocated shape. -/
theorem shape_of_empty {bN : Nat} {proof : GkrProof Fr} (h : proof.empty = snarkAllocateProof bN (snarkCircuit arks)) {q' vi vo : List Fr}
    (hq : q'.length = bN) (hi : vi.length = 2 ^ (1 + bN)) (ho : vo.length = 2 ^ bN) :
    ∃ t, allocateTestCircuit arks bN = .ok t ∧ SameShape t ⟨snarkCircuit arks, proof, [], q', vi, vo⟩ := by
  refine ⟨⟨snarkCircuit arks, snarkAllocateProof bN (snarkCircuit arks), [], List.replicate bN none, allocateMultilinear (bN + 1),
    allocateMultilinear bN⟩, by unfold allocateTestCircuit; rw [snark_circuit, ok_bind]; rfl, ?_⟩
  rw [← h]
  refine ⟨?_, by simp [GkrProof.empty, emptySlots], by simp [GkrProof.empty, emptySlots], rfl, by simp [hq],
    by simp [allocateMultilinear, hi, Nat.add_comm], by simp [allocateMultilinear, ho]⟩
  unfold GkrProof.empty
  dsimp only
  rw [List.map_map]
  congr 1
  funext l
  simp [emptySlots]

/-- C54: completeness for **every** initial point `q'`: for all states and blocks there is a proof, of the shape which the circuit
allocates, which satisfies the circuit with the MiMC outputs. -/
theorem C54_complete (bN : Nat) (states blocks : List Fr) (hs : states.length = 2 ^ bN) (hb : blocks.length = 2 ^ bN)
    (q' : List Fr) (hq : q'.length = bN) :
    ∃ (sc : SnarkCircuit Fr) (proof : GkrProof Fr), createSnarkMimcCircuit arks = .ok sc ∧
      (GkrMimcTestCircuit.define arks
        ⟨sc, proof, [], q', mimcChunk (states, blocks), mimcExpected (states, blocks)⟩).Satisfied ∧
      ∃ t, allocateTestCircuit arks bN = .ok t ∧
        SameShape t ⟨sc, proof, [], q', mimcChunk (states, blocks), mimcExpected (states, blocks)⟩ := by
  have hlen : (mimcChunk (states, blocks)).length = 2 ^ (1 + bN) := by simp [mimcChunk, hs, hb, pow_add]; omega
  have hel : (mimcExpected (states, blocks)).length = 2 ^ bN := by simp [mimcExpected, hs, hb]
  have hG := mimcWiring_chained frString (arks.take 91)
  have hwc : WellChunked 0 (1 + bN) [mimcChunk (states, blocks)] := ⟨rfl, by simpa using hlen⟩
  have hA := honest_of_wired (mimcWiring frString (arks.take 91)) mimc_ne (mimcWiring_good _ _) 1 0 bN hG _ hwc
  obtain ⟨a, b, _, _⟩ := wiredAssignment_facts 0 bN _ 1 _ hG hwc
  have htrue := mimc_values (2 ^ bN) [(states, blocks)] (by simp [hs, hb])
  rw [List.map_singleton, List.map_singleton, List.getLast?_eq_getElem?, a, Nat.add_sub_cancel] at htrue
  have h0 := native_mid frString arks arks_91 (i := 0) (by omega)
  unfold nativeCircuit at h0
  obtain ⟨p, proof, _, _, _, _, h5, h6⟩ := gkr_honest_at mimcHash _ 0 bN _ hA _ _ b htrue 1 le_rfl _ _ h0 mimc_lastLayer [] q'
    (by rw [last_bGOutputs]; rfl) hq
  refine ⟨_, proof, snark_circuit, ?_, shape_of_empty (empty_eq_allocate bN proof (by rw [Nat.add_zero] at h5; exact h5)) hq hlen hel⟩
  unfold GkrMimcTestCircuit.define
  dsimp only
  rw [snarkAssertValid_iff frString arks mimcHash arks_91 snarkHash_pure proof bN q' _ _ hq hlen hel]
  refine ⟨⟨h5.rounds.ge, h5.left.ge, h5.right.ge⟩, ?_⟩
  unfold tableOf at h6
  rw [mid_bGInputs, last_bGOutputs, Nat.zero_add, Nat.add_zero, show (2 : Nat) ^ 0 = 1 from rfl, interleave_one _ _ hlen,
    interleave_one _ _ hel] at h6
  exact h6

/-- A table which is not constant has an extension with a zero. -/
theorem exists_zero {F : Type} [Field F] : ∀ (n : Nat) (T : Nat → F), (∃ i < 2 ^ n, T i ≠ T 0) →
    ∃ x : List F, x.length = n ∧ mleF T x = 0
  | 0, T, ⟨i, hi, h⟩ => by
    obtain rfl : i = 0 := by simpa using hi
    exact absurd rfl h
  | n + 1, T, ⟨i, hi, h⟩ => by
    by_cases hd : ∃ j < 2 ^ n, T (2 ^ n + j) ≠ T j
    · obtain ⟨j, hj, hd⟩ := hd
      refine ⟨(-T j / (T (2 ^ n + j) - T j)) :: bits n j, by simp, ?_⟩
      rw [mleF_cons, mleF_bits n _ hj, show (bits n j : List F).length = n by simp]
      rw [mul_div_cancel₀ _ (sub_ne_zero.2 hd)]
      ring
    · push Not at hd
      obtain ⟨x, hx, hz⟩ := exists_zero n T (by
        rcases Nat.lt_or_ge i (2 ^ n) with hi' | hi'
        · exact ⟨i, hi', h⟩
        · refine ⟨i - 2 ^ n, by rw [pow_succ] at hi; omega, ?_⟩
          rw [← hd (i - 2 ^ n) (by rw [pow_succ] at hi; omega), Nat.add_sub_cancel' hi']
          exact h)
      refine ⟨0 :: x, by simp [hx], ?_⟩
      rw [mleF_cons]
      simpa using hz

/-- C54 (full claim: the outputs of a satisfying witness are the MiMC outputs of its inputs). Proved: outputs which differ from
the MiMC outputs by the same non-zero number everywhere need an unlucky challenge, whatever the initial point of the witness.
Missing: all other wrong outputs, for which the claim is false. -/
theorem C54_sound_partial (bN : Nat) (states blocks : List Fr) (hs : states.length = 2 ^ bN) (hb : blocks.length = 2 ^ bN)
    (w : GkrMimcTestCircuit Fr Fr) (hsc : createSnarkMimcCircuit arks = .ok w.circuit) (hq : w.qInitial = [])
    (hq' : w.qInitialprime.length = bN) (hin : w.vInput = mimcChunk (states, blocks)) (hout : w.vOutput.length = 2 ^ bN)
    (hsat : (w.define arks).Satisfied)
    (d : Fr) (hd : d ≠ 0) (hwrong : ∀ i < 2 ^ bN, w.vOutput.getD i 0 = (mimcExpected (states, blocks)).getD i 0 + d)
    (c : Circuit Fr) (hc : createMimcCircuit frString arks = .ok c) :
    ∃ (i : Nat) (l : Layer Fr) (v : List Fr), c.layers[i]? = some l ∧
      (wiredAssignment (2 ^ bN) c.layers [mimcChunk (states, blocks)])[i]? = some [v] ∧
      (BadRound mimcHash l v (goalOf mimcHash c.layers w.proof ⟨mle w.vOutput w.qInitialprime, w.qInitialprime, chi []⟩ i)
          (msgOf w.proof i) 8 ∨
        BadCombination mimcHash l.bGInputs v (msgOf w.proof i)) := by
  unfold GkrMimcTestCircuit.define at hsat
  rw [hq, hin] at hsat
  apply C35_sound bN states blocks hs hb w.qInitialprime w.vOutput hq' hout w.proof w.circuit hsc c hc hsat
  intro h
  apply hd
  have e : mle w.vOutput w.qInitialprime = mle (mimcExpected (states, blocks)) w.qInitialprime + d := by
    have : mleF (fun i => (mimcExpected (states, blocks)).getD i 0 + d) w.qInitialprime =
        mle (mimcExpected (states, blocks)) w.qInitialprime + d := by
      unfold mle mleF
      simp only [add_mul, Finset.sum_add_distrib, ← Finset.mul_sum, sum_chi, mul_one]
    rw [← this]
    unfold mle
    apply mleF_congr
    intro i hi
    rw [hq'] at hi
    exact hwrong i hi
  rw [h] at e
  simpa using e

/-- C54 is false: for all inputs and **all** outputs, except those which differ from the MiMC outputs by the same non-zero number
everywhere, there is a witness of the allocated shape with these inputs and outputs that satisfies the circuit. -/
theorem C54_negation (bN : Nat) (states blocks : List Fr) (hs : states.length = 2 ^ bN) (hb : blocks.length = 2 ^ bN)
    (vOutput : List Fr) (hout : vOutput.length = 2 ^ bN)
    (hd : ¬ ∃ d : Fr, d ≠ 0 ∧ ∀ i < 2 ^ bN, vOutput.getD i 0 = (mimcExpected (states, blocks)).getD i 0 + d) :
    ∃ w : GkrMimcTestCircuit Fr Fr, createSnarkMimcCircuit arks = .ok w.circuit ∧ w.qInitial = [] ∧ w.qInitialprime.length = bN ∧
      w.vInput = mimcChunk (states, blocks) ∧ w.vOutput = vOutput ∧ (w.define arks).Satisfied ∧
      ∃ t, allocateTestCircuit arks bN = .ok t ∧ SameShape t w := by
  have hlen : (mimcChunk (states, blocks)).length = 2 ^ (1 + bN) := by simp [mimcChunk, hs, hb, pow_add]; omega
  have hel : (mimcExpected (states, blocks)).length = 2 ^ bN := by simp [mimcExpected, hs, hb]
  obtain ⟨q', hq, hz⟩ : ∃ q' : List Fr, q'.length = bN ∧
      mleF (fun i => vOutput.getD i 0 - (mimcExpected (states, blocks)).getD i 0) q' = 0 := by
    by_cases h : ∃ i < 2 ^ bN, vOutput.getD i 0 - (mimcExpected (states, blocks)).getD i 0 ≠
        vOutput.getD 0 0 - (mimcExpected (states, blocks)).getD 0 0
    · exact exists_zero bN _ h
    · push Not at h hd
      by_cases h0 : vOutput.getD 0 0 - (mimcExpected (states, blocks)).getD 0 0 = 0
      · refine ⟨List.replicate bN 0, by simp, ?_⟩
        unfold mleF
        apply Finset.sum_eq_zero
        intro i hi
        beta_reduce
        rw [h i (by simpa using hi), h0, zero_mul]
      · obtain ⟨i, hi, hne⟩ := hd _ h0
        exact absurd (by rw [← h i hi]; ring) hne
  have hz' : mle vOutput q' = mle (mimcExpected (states, blocks)) q' := by
    rw [← sub_eq_zero, ← hz]
    unfold mle mleF
    rw [← Finset.sum_sub_distrib]
    apply Finset.sum_congr rfl
    intro i _
    ring
  obtain ⟨sc, proof, h1, h2, t, ht, s1, s2, s3, s4, s5, s6, s7⟩ := C54_complete bN states blocks hs hb q' hq
  refine ⟨⟨sc, proof, [], q', mimcChunk (states, blocks), vOutput⟩, h1, rfl, hq, rfl, rfl, ?_, t, ht, s1, s2, s3, s4, s5, s6,
    s7.trans (hel.trans hout.symm)⟩
  rw [snark_circuit] at h1
  obtain rfl := Except.ok.inj h1
  unfold GkrMimcTestCircuit.define at h2 ⊢
  dsimp only at h2 ⊢
  have key := snarkAssertValid_iff frString arks mimcHash arks_91 snarkHash_pure proof bN q'
  rw [key _ _ hq hlen hel] at h2
  rw [key _ _ hq hlen hout, hz']
  exact h2

/-- Concrete wrong outputs that meet the hypothesis: the first of two outputs is right, the second is wrong. -/
example (y : Fr) : ¬ ∃ d : Fr, d ≠ 0 ∧ ∀ i < 2 ^ 1,
    ((mimcExpected ([1, 2], [3, 4])).set 1 y).getD i 0 = (mimcExpected ([1, 2], [3, 4])).getD i 0 + d := by
  rintro ⟨d, hd, h⟩
  have := h 0 (by norm_num)
  apply hd
  simpa [mimcExpected] using this

/-- The hypotheses of `C54_test`, `C54_complete` are met. -/
example : WellChunked 1 (1 + 1) [[1, 2, 5, 6], [3, 4, 7, (8 : Fr)]] ∧ ([1, 2] : List Fr).length = 2 ^ 1 := ⟨⟨rfl, by simp⟩, rfl⟩

end GkrMimc
