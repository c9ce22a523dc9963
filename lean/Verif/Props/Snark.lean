import Verif.Proofs.SnarkAssign
import Verif.Props.GkrUntrusted
import Verif.Props.Mimc

/-! Properties C31 to C37 and C40: the gadgets under `snark/`. -/

set_option linter.unusedSectionVars false

namespace GkrMimc

open Spec

section
variable {F : Type} [Field F] [DecidableEq F]

/-! ### C31, C32, C10 -/

/-- C31. For every list of constants and every message, the gadget computes what the native function computes, panics
included, without assertion. -/
theorem C31_computes (arks stream : List F) : (snarkMimcHash arks stream).Computes (mimcHashGo arks stream) :=
  (Cs.computes_iff _ _).2 (snarkMimcHash_eq arks stream)

/-- C31 with the constants of the code: the gadget computes MiMC, for every message. -/
theorem C31_mimc (stream : List Fr) : (snarkMimcHash arks stream).Computes (.ok (mimcHash stream)) := by
  have := C31_computes arks stream
  rwa [C26_hash] at this

theorem snarkHash_pure (stream : List Fr) : snarkMimcHash arks stream = pure (mimcHash stream) := by
  rw [snarkMimcHash_eq, C26_hash]; rfl

/-- C32. `MultilinearByValues.Eval` computes `BookKeepingTable.Evaluate`, panics included, for all sizes. -/
theorem C32_eval (t xs : List F) : (mlEval t xs).Computes (evaluate t xs) :=
  (Cs.computes_iff _ _).2 (mlEval_eq t xs)

/-- C32. `EvalMixed` computes `EvaluateLeftAndRight`, for points that fit the table. -/
theorem C32_evalMixed (t qL qR qPrime : List F) (hR : qR.length = qL.length)
    (ht : t.length = 2 ^ (qL.length + qPrime.length)) :
    (mlEvalMixed t qL qR qPrime).Computes (evaluateLeftAndRight t qPrime qL qR) :=
  (Cs.computes_iff _ _).2 (mlEvalMixed_eq t qL qR qPrime hR ht)

/-- C32. `EqEval` computes `EvalEq`, panics included, for all sizes. -/
theorem C32_eqEval (q h : List F) : (eqEvalGadget q h).Computes (evalEq q h) :=
  (Cs.computes_iff _ _).2 (eqEvalGadget_eq q h)

/-- C32. `Univariate.Eval` computes `EvaluatePolynomial` for every non-empty list of coefficients. -/
theorem C32_uniEval (c : List F) (hc : c ≠ []) (x : F) : (uniEval c x).Computes (evaluatePolynomial c x) := by
  rw [Cs.computes_iff, uniEval_eq, evaluatePolynomial_polyOf c hc]; rfl

/-- C32. On no coefficients the two differ: the native function panics, the gadget gives 0. -/
theorem C32_uniEval_nil (x : F) : (uniEval ([] : List F) x).Computes (.ok 0) ∧ evaluatePolynomial ([] : List F) x = .error .index := by
  refine ⟨?_, rfl⟩
  rw [Cs.computes_iff, uniEval_eq]
  simp [polyOf, Cs.go]
  rfl

/-- C32. `ZeroAndOne` computes `P(0) + P(1)` for every non-empty list of coefficients. -/
theorem C32_zeroAndOne (c : List F) (hc : c ≠ []) : (uniZeroAndOne c).Computes (do
    let a ← evaluatePolynomial c 0
    let b ← evaluatePolynomial c 1
    return a + b) := by
  rw [Cs.computes_iff, uniZeroAndOne_eq c hc, evaluatePolynomial_polyOf c hc, evaluatePolynomial_polyOf c hc]; rfl

example : (mlEvalMixed [1, 2, 3, (4 : Fr)] [5] [6] [7]).Computes (evaluateLeftAndRight [1, 2, 3, 4] [7] [5] [6]) :=
  C32_evalMixed _ _ _ _ rfl rfl
example : evaluateLeftAndRight [1, 2, 3, (4 : Fr)] [7] [5] [6] = .ok (18, 20) := by decide +kernel

/-- C10. The gates of package `snark/gkr` compute the gates of package `circuit`. -/
theorem C10_snark_gates (toStr : F → String) (ark vL vR : F) :
    (snarkCipherGate ark vL vR).Computes (.ok ((cipherGate toStr ark).eval vL vR)) ∧
      (snarkCopyGate vL vR).Computes (.ok (copyGate.eval vL vR)) := by
  refine ⟨?_, ?_⟩
  · rw [Cs.computes_iff, snarkCipher_eq, cipher_eval]; rfl
  · rw [Cs.computes_iff]; rfl

/-! ### C40 -/

/-- C40. For every table of `m * nChunk` entries, `InterleavedChunk` for `on = 0, …, nChunk-1` succeeds, and
`AssignFromChunkedBKT` of the chunks into empty slots gives back the table. -/
theorem C40_split_assign (nChunk m : Nat) (hc : 1 ≤ nChunk) (t : List F) (ht : t.length = m * nChunk) :
    ∃ chunks, gen nChunk (fun on => interleavedChunk t on nChunk) = .ok chunks ∧ chunks.length = nChunk ∧
      (∀ c ∈ chunks, c.length = m) ∧ assignFromChunkedBKT (List.replicate (m * nChunk) none) chunks = .ok (t.map some) := by
  have e := eq_tab t 0
  rw [ht] at e
  generalize (fun i => t.getD i 0) = f at e
  subst e
  refine ⟨chunksOf nChunk m f, ?_, by simp, ?_, assignChunked_ok nChunk m f⟩
  · exact gen_ok _ _ fun on hon => interleavedChunk_tab nChunk m on hc hon f
  · intro c hc
    obtain ⟨s, _, rfl⟩ := List.mem_map.1 hc
    simp

theorem chunks_eq {nChunk m : Nat} {chunks : List (List F)} (hl : chunks.length = nChunk) (hm : ∀ c ∈ chunks, c.length = m) :
    chunks = chunksOf nChunk m (fun i => (interleave nChunk m chunks).getD i 0) := by
  apply tab_eq_of hl
  intro s hs
  have hs' : s < nChunk := hl ▸ hs
  apply tab_eq_of (hm _ (List.getElem_mem hs))
  intro u hu
  have hu' : u < m := hm _ (List.getElem_mem hs) ▸ hu
  have hlt : u * nChunk + s < m * nChunk := mul_add_lt hu' hs'
  have := (div_mod_lt (O := u) (N := nChunk) (j := u * nChunk + s) hs').1 rfl
  unfold interleave
  beta_reduce
  rw [List.getD_eq_getElem?_getD, List.getElem?_map, List.getElem?_range hlt]
  simp only [Option.map_some, Option.getD_some, this.1, this.2]
  simp [hs, hu]

/-- C40. Conversely, storing any `nChunk` chunks of `m` entries gives the table that interleaves them, and
`InterleavedChunk` recovers each chunk from it. -/
theorem C40_assign_split (nChunk m : Nat) (hc : 1 ≤ nChunk) (chunks : List (List F)) (hl : chunks.length = nChunk)
    (hm : ∀ c ∈ chunks, c.length = m) :
    ∃ t, assignFromChunkedBKT (List.replicate (m * nChunk) none) chunks = .ok (t.map some) ∧
      t = interleave nChunk m chunks ∧ ∀ (on : Nat) (c : List F), chunks[on]? = some c → interleavedChunk t on nChunk = .ok c := by
  have e := chunks_eq hl hm
  have et : interleave nChunk m chunks = tab (m * nChunk) (fun i => (interleave nChunk m chunks).getD i 0) := by
    have := eq_tab (interleave nChunk m chunks) 0
    rwa [show (interleave nChunk m chunks).length = m * nChunk by simp [interleave]] at this
  refine ⟨interleave nChunk m chunks, ?_, rfl, ?_⟩
  · conv_lhs => rw [e]
    conv_rhs => rw [et]
    exact assignChunked_ok nChunk m _
  · intro on c hon
    have hlt : on < nChunk := hl ▸ (List.getElem?_eq_some_iff.1 hon).1
    conv_lhs => rw [et]
    rw [interleavedChunk_tab nChunk m on hc hlt]
    rw [e, chunksOf, tab_getElem?, if_pos hlt] at hon
    rw [Option.some.inj hon]

example : assignFromChunkedBKT (List.replicate 6 none) [[1, 2], [3, 4], [5, (6 : Fr)]] =
    .ok ([1, 3, 5, 2, 4, 6].map some) := by decide +kernel
example : interleavedChunk [1, 3, 5, 2, 4, (6 : Fr)] 1 3 = .ok [3, 4] := by decide +kernel

end

/-! ### C33 -/

/-- C33. For every claim, every list of round polynomials and every `bG`: the gadget runs, all its assertions hold and it
returns `v`, iff the native verifier returns true with `v`: the same challenges and the same final claim. (So both also
agree on malformed proofs: no assertion set is satisfied where the native verifier panics.) -/
theorem C33_agree (claim : Fr) (cs : List (List Fr)) (bG : Nat) (v : SumcheckVerdict Fr) :
    (sumcheckAssertValid arks cs claim bG).Sat (fun r => r = v) ↔ sumcheckVerify mimcHash claim cs bG = .ok (some v) := by
  rw [sumcheckAssert_sat arks mimcHash snarkHash_pure, C17_accepts_iff]
  obtain ⟨a, b, c, d⟩ := v
  simp only [SumcheckVerdict.mk.injEq]
  constructor
  · rintro ⟨h1, h2, h3, h4, h5, h6, h7⟩; exact ⟨h1, h2, h3, h5.symm, h6.symm, h4.symm, h7.symm⟩
  · rintro ⟨h1, h2, h3, h4, h5, h6, h7⟩; exact ⟨h1, h2, h3, h6.symm, h4.symm, h5.symm, h7.symm⟩

/-- C33. For every proof with non-empty polynomials and at least `2 bG` rounds: the assertions hold iff the native verifier
returns true; and it returns true or false, without panic. -/
theorem C33_iff (claim : Fr) (cs : List (List Fr)) (bG : Nat) (hne : ∀ c ∈ cs, c ≠ []) (hlen : 2 * bG ≤ cs.length) :
    ((sumcheckAssertValid arks cs claim bG).Satisfied ↔ ∃ v, sumcheckVerify mimcHash claim cs bG = .ok (some v)) ∧
    ((∃ v, sumcheckVerify mimcHash claim cs bG = .ok (some v)) ∨ sumcheckVerify mimcHash claim cs bG = .ok none) := by
  refine ⟨?_, ?_⟩
  · constructor
    · rintro ⟨v, eqs, h1, h2, _⟩
      exact ⟨v, (C33_agree claim cs bG v).1 ⟨v, eqs, h1, h2, rfl⟩⟩
    · rintro ⟨v, hv⟩
      obtain ⟨r, eqs, h1, h2, _⟩ := (C33_agree claim cs bG v).2 hv
      exact ⟨r, eqs, h1, h2, trivial⟩
  · rcases sumcheck_total mimcHash claim bG ⟨cs, 0, 0⟩ hne hlen with h | ⟨v, h, _⟩
    · exact .inr h
    · exact .inl ⟨v, h⟩

/-- `x ↦ 3 + 4x` for the claim `3 + 7`, then `x ↦ …`: an accepted and a rejected claim for one round, `bG = 0`. -/
example : (∃ v, sumcheckVerify mimcHash 10 [[3, 4]] 0 = .ok (some v)) ∧ sumcheckVerify mimcHash 11 [[3, 4]] 0 = .ok none := by
  refine ⟨⟨⟨[mimcHash [3, 4]], [], [], 3 + 4 * mimcHash [3, 4]⟩, ?_⟩, ?_⟩ <;> decide +kernel

/-! ### C35, C36 -/

theorem interleave_one {F : Type} [Field F] (n : Nat) (x : List F) (h : x.length = n) : interleave 1 n [x] = x := by
  apply List.ext_getElem
  · simp [interleave, h]
  intro i h1 h2
  simp [interleave, Nat.mod_one, h2]

theorem mimc_ne : mimcWiring frString (arks.take 91) ≠ [] := by
  have hlen : (arks.take 91).length = 91 := by
    have := arks_length
    rw [List.length_take]; omega
  cases h : arks.take 91 with
  | nil => rw [h] at hlen; cases hlen
  | cons c cs => cases cs <;> simp [mimcWiring]

theorem mimc_lastLayer : (newCircuit (mimcWiring frString (arks.take 91))).layers[
    (newCircuit (mimcWiring frString (arks.take 91))).layers.length - 1]? = some (newLayer (mimcLastWires frString (arks.getD 90 0))) := by
  have h1 := native_length frString arks arks_91
  have h2 := native_last frString arks arks_91
  unfold nativeCircuit at h1 h2
  rw [h1]
  exact h2

/-- The last layer of values of the MiMC circuit. -/
theorem mimc_values (N : Nat) (chunks : List (List Fr × List Fr)) (hN : ∀ p ∈ chunks, p.1.length = N ∧ p.2.length = N) :
    (wiredAssignment N (newCircuit (mimcWiring frString (arks.take 91))).layers (chunks.map mimcChunk)).getLast? =
      some (chunks.map mimcExpected) := by
  obtain ⟨c, values, h1, h2, h3⟩ := C27_circuit N chunks hN 1 (by omega)
  rw [mimc_circuit] at h1
  obtain rfl := Except.ok.inj h1
  have := C12_assign_partial _ 1 N (chunks.map mimcChunk) 1 (by omega) (mimcWiring_chained frString (arks.take 91))
    (fun ws h w hw => .inl (mimcWiring_R _ _ ws h w hw)) (by
      intro x hx
      obtain ⟨p, hp, rfl⟩ := List.mem_map.1 hx
      obtain ⟨h1, h2⟩ := hN p hp
      simp [mimcChunk, h1, h2]; omega)
  rw [this] at h2
  obtain rfl := Except.ok.inj h2
  exact h3

theorem mimc_degrees (toStr : Fr → String) (cs : List Fr) : ∀ ws ∈ mimcWiring toStr cs, ∀ w ∈ ws,
    w.gate.degHL ≤ 7 ∧ w.gate.degHR ≤ 7 ∧ w.gate.degHPrime ≤ 7 := by
  apply mimcWiring_forall
  · intro c w hw
    simp only [mimcMidWires, List.mem_cons, List.not_mem_nil, or_false] at hw
    rcases hw with rfl | rfl <;> simp [cipherGate, copyGate]
  · intro c w hw
    simp only [mimcLastWires, List.mem_cons, List.not_mem_nil, or_false] at hw
    subst hw; simp [cipherGate]

theorem snark_circuit : createSnarkMimcCircuit arks = .ok (snarkCircuit arks) := createSnark_eq arks arks_91

/-- What the assertions of the GKR gadget for MiMC say, for every witness: all the checks of a GKR verifier hold. -/
theorem C36_gadget_iff (bN : Nat) (proof : GkrProof Fr) (q' vInput vOutput : List Fr) (hq : q'.length = bN)
    (hin : vInput.length = 2 ^ (1 + bN)) (hout : vOutput.length = 2 ^ bN) :
    ∃ (sc : SnarkCircuit Fr) (c : Circuit Fr), createSnarkMimcCircuit arks = .ok sc ∧ createMimcCircuit frString arks = .ok c ∧
      ((snarkAssertValid arks sc proof [] q' vInput vOutput).Satisfied ↔
        HasShape c proof ∧ GkrConsistent mimcHash bN c.layers proof vInput ⟨mle vOutput q', q', chi []⟩) :=
  ⟨_, _, snark_circuit, mimc_circuit,
    snarkAssertValid_iff frString arks mimcHash arks_91 snarkHash_pure proof bN q' vInput vOutput hq hin hout⟩

/-- C35. For every witness, malicious or not: `2^bN` instances given by states and blocks, any output table and any initial
point `q'`. If all assertions of the gadget hold and the outputs differ from the MiMC outputs at `q'`, then some challenge
is unlucky: a root of a non-zero difference of two polynomials (the honest one of degree at most 8), or of a non-zero
polynomial of degree 1. -/
theorem C35_sound (bN : Nat) (states blocks : List Fr) (hs : states.length = 2 ^ bN) (hb : blocks.length = 2 ^ bN)
    (q' vOutput : List Fr) (hq : q'.length = bN) (hout : vOutput.length = 2 ^ bN) (proof : GkrProof Fr)
    (sc : SnarkCircuit Fr) (hsc : createSnarkMimcCircuit arks = .ok sc)
    (c : Circuit Fr) (hc : createMimcCircuit frString arks = .ok c)
    (hsat : (snarkAssertValid arks sc proof [] q' (mimcChunk (states, blocks)) vOutput).Satisfied)
    (hwrong : mle vOutput q' ≠ mle (mimcExpected (states, blocks)) q') :
    ∃ (i : Nat) (l : Layer Fr) (v : List Fr), c.layers[i]? = some l ∧
      (wiredAssignment (2 ^ bN) c.layers [mimcChunk (states, blocks)])[i]? = some [v] ∧
      (BadRound mimcHash l v (goalOf mimcHash c.layers proof ⟨mle vOutput q', q', chi []⟩ i) (msgOf proof i) 8 ∨
        BadCombination mimcHash l.bGInputs v (msgOf proof i)) := by
  rw [snark_circuit] at hsc
  obtain rfl := Except.ok.inj hsc
  rw [mimc_circuit] at hc
  obtain rfl := Except.ok.inj hc
  have hlen : (mimcChunk (states, blocks)).length = 2 ^ (1 + bN) := by
    simp [mimcChunk, hs, hb, pow_add]; omega
  obtain ⟨_, hG⟩ := (snarkAssertValid_iff frString arks mimcHash arks_91 snarkHash_pure proof bN q' _ vOutput hq hlen hout).1 hsat
  unfold nativeCircuit at hG
  have hwc : WellChunked 0 (1 + bN) [mimcChunk (states, blocks)] := ⟨rfl, by simpa using hlen⟩
  have htrue := mimc_values (2 ^ bN) [(states, blocks)] (by simp [hs, hb])
  have hel : (mimcExpected (states, blocks)).length = 2 ^ bN := by simp [mimcExpected, hs, hb]
  obtain ⟨i, l, v, h1, h2, h3⟩ := sound_at mimcHash (mimcWiring frString (arks.take 91)) mimc_ne (mimcWiring_good _ _) 1 0 bN
    (mimcWiring_chained _ _) _ mimc_lastLayer 7 (mimc_degrees _ _) [mimcChunk (states, blocks)] _ hwc htrue proof
    (mle vOutput q') [] q' (by rw [last_bGOutputs]; rfl) hq
    (by rw [show (2 : Nat) ^ 0 = 1 from rfl, interleave_one _ _ hlen]; exact hG)
    (by
      rw [last_bGOutputs, Nat.zero_add, List.map_singleton, show (2 : Nat) ^ 0 = 1 from rfl, interleave_one _ _ hel]
      exact hwrong)
  have hA := honest_of_wired (mimcWiring frString (arks.take 91)) mimc_ne (mimcWiring_good _ _) 1 0 bN
    (mimcWiring_chained _ _) _ hwc
  obtain ⟨w1, w2⟩ := hA.chunked i l v h1 h2
  obtain ⟨x, rfl⟩ := List.length_eq_one_iff.1 w1
  have ht : tableOf 0 bN l [x] = x := by
    unfold tableOf
    rw [show (2 : Nat) ^ 0 = 1 from rfl, interleave_one _ _ (w2 x (by simp))]
  rw [ht] at h3
  exact ⟨i, l, x, h1, h2, h3⟩

/-- The initial point of `gkr.Verifier`. -/
def qPrime0 (bN : Nat) : List Fr := (getInitialQPrimeAndQ bN 0).1

theorem qPrime0_length (bN : Nat) : (qPrime0 bN).length = bN := by simp [qPrime0, getInitialQPrimeAndQ]

theorem outputGoal_mimc (k m : Nat) (d : Fr) (outputs : List (List Fr)) :
    outputGoal k m (newLayer (mimcLastWires frString d)) outputs =
      ⟨mle (interleave (2 ^ k) (2 ^ m) outputs) (qPrime0 (m + k)), qPrime0 (m + k), chi []⟩ := by
  unfold outputGoal
  rw [last_bGOutputs, Nat.zero_add]
  rfl

theorem interleave_length {F : Type} [Field F] (k M : Nat) (x : List (List F)) :
    (interleave (2 ^ k) (2 ^ M) x).length = 2 ^ (M + k) := by
  simp [interleave, pow_add]

/-- C36 (full claim: native `Verify` returns true iff the assertions of the gadget hold; false, `C36_negation`). Proved for
every proof, inputs and outputs in `2^k` chunks, `k ≥ 1`: native `Verify` returns true iff the assertions of the gadget
hold **or** line 99 of gkr/verifier.go is reached: some layer below the last has consistent rounds but a wrong value, all
the layers above it being right. In particular the gadget implies native acceptance. -/
theorem C36_agree_partial (k m : Nat) (hk : 1 ≤ k) (inputs outputs : List (List Fr)) (hin : WellChunked k (1 + m) inputs)
    (hout : WellChunked k m outputs) (proof : GkrProof Fr)
    (sc : SnarkCircuit Fr) (hsc : createSnarkMimcCircuit arks = .ok sc)
    (c : Circuit Fr) (hc : createMimcCircuit frString arks = .ok c) :
    let top : Goal Fr := ⟨mle (interleave (2 ^ k) (2 ^ m) outputs) (qPrime0 (m + k)), qPrime0 (m + k), chi []⟩
    gkrVerify mimcHash (m + k) c proof inputs outputs = .ok true ↔
      (snarkAssertValid arks sc proof [] (qPrime0 (m + k)) (interleave (2 ^ k) (2 ^ (1 + m)) inputs)
        (interleave (2 ^ k) (2 ^ m) outputs)).Satisfied ∨
      HasShape c proof ∧ ∃ i < 90, (∀ j, i < j → j < 91 → LayerRounds mimcHash c proof top j ∧ LayerValue mimcHash c proof top j) ∧
        LayerRounds mimcHash c proof top i ∧ ¬ LayerValue mimcHash c proof top i := by
  intro top
  rw [snark_circuit] at hsc
  obtain rfl := Except.ok.inj hsc
  rw [mimc_circuit] at hc
  obtain rfl := Except.ok.inj hc
  have hlen := native_length frString arks arks_91
  unfold nativeCircuit at hlen
  rw [snarkAssertValid_iff frString arks mimcHash arks_91 snarkHash_pure proof (m + k) _ _ _ (qPrime0_length _)
    (by rw [interleave_length]; congr 1; omega) (interleave_length _ _ _)]
  rw [C23_accepts_iff mimcHash _ mimc_ne (mimcWiring_good _ _) 1 k m hk (mimcWiring_chained _ _) _ mimc_lastLayer inputs outputs
    hin (by rw [last_bGOutputs, Nat.zero_add]; exact hout), outputGoal_mimc, hlen]
  unfold nativeCircuit
  change HasShape _ proof ∧ LayerRounds mimcHash _ proof top 90 ∧ LayerValue mimcHash _ proof top 90 ∧
    AcceptsBelow mimcHash _ proof top (m + k) _ 90 ↔ _
  constructor
  · rintro ⟨hs, hr, hv, ⟨h1, h2⟩ | ⟨i, hi, h1, h2, h3⟩⟩
    · refine .inl ⟨hs, ?_, h2⟩
      intro i l hl
      have hlt : i < 91 := hlen ▸ (List.getElem?_eq_some_iff.1 hl).1
      rcases Nat.lt_or_ge i 90 with h | h
      · exact ⟨(h1 i h).1 l hl, (h1 i h).2 l hl⟩
      · obtain rfl : i = 90 := by omega
        exact ⟨hr l hl, hv l hl⟩
    · refine .inr ⟨hs, i, hi, ?_, h2, h3⟩
      intro j hj1 hj2
      rcases Nat.lt_or_ge j 90 with h | h
      · exact h1 j hj1 h
      · obtain rfl : j = 90 := by omega
        exact ⟨hr, hv⟩
  · rintro (⟨hs, hG⟩ | ⟨hs, i, hi, h1, h2, h3⟩)
    · exact ⟨hs, fun l hl => (hG.each 90 l hl).1, fun l hl => (hG.each 90 l hl).2,
        .inl ⟨fun i _ => ⟨fun l hl => (hG.each i l hl).1, fun l hl => (hG.each i l hl).2⟩, hG.first⟩⟩
    · exact ⟨hs, (h1 90 hi (by omega)).1, (h1 90 hi (by omega)).2,
        .inr ⟨i, hi, fun j a b => h1 j a (by omega), h2, h3⟩⟩

/-- C36: the negation of the full claim. For every number of instances (`k ≥ 1`) there is one well-shaped proof which native
`Verify` accepts for the outputs `0, …, 0` and all inputs, while the assertions of the gadget do not hold. -/
theorem C36_negation (k m : Nat) (hk : 1 ≤ k) : ∃ (sc : SnarkCircuit Fr) (c : Circuit Fr) (proof : GkrProof Fr),
    createSnarkMimcCircuit arks = .ok sc ∧ createMimcCircuit frString arks = .ok c ∧ WellShaped c (m + k) proof ∧
    ∀ inputs, WellChunked k (1 + m) inputs →
      gkrVerify mimcHash (m + k) c proof inputs (List.replicate (2 ^ k) (List.replicate (2 ^ m) 0)) = .ok true ∧
      ¬ (snarkAssertValid arks sc proof [] (qPrime0 (m + k)) (interleave (2 ^ k) (2 ^ (1 + m)) inputs)
        (interleave (2 ^ k) (2 ^ m) (List.replicate (2 ^ k) (List.replicate (2 ^ m) 0)))).Satisfied := by
  obtain ⟨cs, c, d, h, hcs, hd⟩ := arks_split
  have hw : mimcWiring frString (cs ++ [c, d]) = cs.map (mimcMidWires frString) ++ [mimcMidWires frString c, mimcLastWires frString d] := by
    rw [show cs ++ [c, d] = (cs ++ [c]) ++ [d] by simp, mimcWiring_append]; simp
  have hlayers : (newCircuit (mimcWiring frString (cs ++ [c, d]))).layers = cs.map (fun c => newLayer (mimcMidWires frString c)) ++
      [newLayer (mimcMidWires frString c), newLayer (mimcLastWires frString d)] := by
    rw [hw]; simp [newCircuit]
  have hlen : (newCircuit (mimcWiring frString (cs ++ [c, d]))).layers.length = cs.length + 2 := by rw [hlayers]; simp
  have hln : (newCircuit (mimcWiring frString (cs ++ [c, d]))).layers[cs.length + 1]? = some (newLayer (mimcLastWires frString d)) := by
    rw [hlayers, List.getElem?_append_right (by simp)]; simp
  have hlm : (newCircuit (mimcWiring frString (cs ++ [c, d]))).layers[cs.length]? = some (newLayer (mimcMidWires frString c)) := by
    rw [hlayers, List.getElem?_append_right (by simp)]; simp
  have hm1 : msgOf (forgedProof cs.length (m + k) c d) (cs.length + 1) = ⟨halving (2 + (m + k)) 0, -d ^ 7, 0⟩ := by
    unfold msgOf forgedProof
    simp [List.getElem?_append_right]
  have hm0 : msgOf (forgedProof cs.length (m + k) c d) cs.length = ⟨halving (2 + (m + k)) (-d ^ 7), 0, -c⟩ := by
    unfold msgOf forgedProof
    simp [List.getElem?_append_right]
  have hmj : ∀ j < cs.length, (msgOf (forgedProof cs.length (m + k) c d) j).rounds = halving (2 + (m + k)) 0 := by
    intro j hj
    unfold msgOf forgedProof
    simp [List.getElem?_append_left, hj]
  refine ⟨_, _, forgedProof cs.length (m + k) c d, snark_circuit, mimc_circuit, ?_, fun inputs hin => ⟨?_, ?_⟩⟩
  · rw [h]
    refine ⟨by unfold HasShape; rw [hlen]; simp [forgedProof], ?_⟩
    intro i l hl
    have hlt : i < cs.length + 2 := hlen ▸ (List.getElem?_eq_some_iff.1 hl).1
    have hg : l.bGInputs = 1 := by
      rw [hlayers] at hl
      have := List.mem_of_getElem? hl
      rcases List.mem_append.1 this with h | h
      · obtain ⟨_, _, rfl⟩ := List.mem_map.1 h; exact mid_bGInputs _ _
      · simp only [List.mem_cons, List.not_mem_nil, or_false] at h
        rcases h with rfl | rfl
        · exact mid_bGInputs _ _
        · exact last_bGInputs _ _
    rw [hg]
    have hr : ∃ x, (msgOf (forgedProof cs.length (m + k) c d) i).rounds = halving (2 + (m + k)) x := by
      rcases Nat.lt_or_ge i cs.length with h | h
      · exact ⟨0, hmj i h⟩
      · rcases (by omega : i = cs.length ∨ i = cs.length + 1) with rfl | rfl
        · exact ⟨_, by rw [hm0]⟩
        · exact ⟨_, by rw [hm1]⟩
    obtain ⟨x, hx⟩ := hr
    rw [hx]
    exact ⟨halving_ne _ _, by rw [halving_length]⟩
  · rw [h]
    refine C23_forgery (by decide) mimcHash frString cs c d hd k m hk inputs _ hin ⟨by simp, by simp⟩ ?_
    unfold initialGoal
    rw [interleave_zero]
    exact mle_zero _ _
  · rw [snarkAssertValid_iff frString arks mimcHash arks_91 snarkHash_pure _ (m + k) _ _ _ (qPrime0_length _)
      (by rw [interleave_length]; congr 1; omega) (interleave_length _ _ _)]
    rintro ⟨_, hG⟩
    unfold nativeCircuit at hG
    rw [h] at hG
    have hv := (hG.each cs.length _ hlm).2
    unfold goalOf at hv
    rw [hln, hm1, hm0] at hv
    dsimp only at hv
    rw [last_bGInputs] at hv
    exact forged_value (by decide) mimcHash frString (m + k) c d hd hv

/-! ### C34, C37 -/

theorem mid_deg (toStr : Fr → String) (c : Fr) : degL (newLayer (mimcMidWires toStr c)).gates = 2 ∧
    degR (newLayer (mimcMidWires toStr c)).gates = 8 ∧ degP (newLayer (mimcMidWires toStr c)).gates = 8 := by
  rw [show (newLayer (mimcMidWires toStr c)).gates = _ from gatesOf_eq _]
  exact ⟨rfl, rfl, rfl⟩

theorem last_deg (toStr : Fr → String) (c : Fr) : degL (newLayer (mimcLastWires toStr c)).gates = 2 ∧
    degR (newLayer (mimcLastWires toStr c)).gates = 8 ∧ degP (newLayer (mimcLastWires toStr c)).gates = 8 := by
  rw [show (newLayer (mimcLastWires toStr c)).gates = _ from gatesOf_eq _]
  exact ⟨rfl, rfl, rfl⟩

theorem empty_rounds (l : Layer Fr) (n : Nat) (polys : List (List Fr)) (hg : l.bGInputs = 1)
    (hd : degL l.gates = 2 ∧ degR l.gates = 8 ∧ degP l.gates = 8) (h : RoundShape l n polys) :
    polys.map emptySlots = sumcheckAllocateProof n 1 2 8 8 := by
  unfold RoundShape at h
  rw [hg, hd.1, hd.2.1, hd.2.2] at h
  have : polys.map emptySlots = (polys.map List.length).map (fun n => List.replicate n none) := by
    rw [List.map_map]; rfl
  rw [this, h]
  simp [sumcheckAllocateProof, allocateUnivariate]

/-- A proof of the honest shape fits the allocated slots. -/
theorem empty_eq_allocate (n : Nat) (proof : GkrProof Fr) (h : ProofShape (nativeCircuit frString arks) n proof) :
    proof.empty = snarkAllocateProof n (snarkCircuit arks) := by
  have hlen := native_length frString arks arks_91
  have hsl : (snarkCircuit arks).layers.length = 91 := by simp [snarkCircuit]
  have h1 := h.rounds
  have h2 := h.left
  have h3 := h.right
  rw [hlen] at h1 h2 h3
  unfold GkrProof.empty snarkAllocateProof emptySlots
  rw [h2, h3, hsl]
  congr 1
  apply List.ext_getElem?
  intro i
  rw [List.getElem?_map, List.getElem?_map]
  rcases Nat.lt_or_ge i 91 with hi | hi
  · have hp : proof.sumcheckProofs[i]? = some proof.sumcheckProofs[i] := List.getElem?_eq_getElem (by omega)
    rw [hp]
    rcases Nat.lt_or_ge i 90 with hi' | hi'
    · have hs := snark_mid arks hi'
      have hn := native_mid frString arks arks_91 hi'
      rw [hs]
      exact congrArg some (empty_rounds _ n _ (mid_bGInputs _ _) (mid_deg _ _) (h.each i _ _ hn hp))
    · obtain rfl : i = 90 := by omega
      have hs := snark_last arks
      have hn := native_last frString arks arks_91
      rw [hs]
      exact congrArg some (empty_rounds _ n _ (last_bGInputs _ _) (last_deg _ _) (h.each 90 _ _ hn hp))
  · rw [List.getElem?_eq_none (by omega), List.getElem?_eq_none (by omega)]; rfl

/-- C34 and C37 together: see the theorems below. -/
theorem honest_gadget (k m : Nat) (inputs : List (List Fr)) (hin : WellChunked k (1 + m) inputs)
    (nCore nCore' : Int) (hc : 1 ≤ nCore) (hc' : 1 ≤ nCore') :
    ∃ c values outputs p proof, createMimcCircuit frString arks = .ok c ∧ c.assign inputs nCore = .ok values ∧
      values.getLast? = some outputs ∧ newGkrProver c values = .ok p ∧ p.prove mimcHash nCore' = .ok proof ∧
      WellChunked k m outputs ∧
      (snarkAssertValid arks (snarkCircuit arks) proof [] (qPrime0 (m + k)) (interleave (2 ^ k) (2 ^ (1 + m)) inputs)
        (interleave (2 ^ k) (2 ^ m) outputs)).Satisfied ∧ ProofShape c (m + k) proof := by
  have hA := honest_of_wired (mimcWiring frString (arks.take 91)) mimc_ne (mimcWiring_good _ _) 1 k m
    (mimcWiring_chained _ _) inputs hin
  have hG := mimcWiring_chained frString (arks.take 91)
  obtain ⟨a, b, _, _⟩ := wiredAssignment_facts k m _ 1 inputs hG hin
  have hasg := C12_assign_partial (mimcWiring frString (arks.take 91)) 1 (2 ^ m) inputs nCore hc hG
    (fun ws h w hw => .inl (mimcWiring_R _ _ ws h w hw)) (by intro c hc; rw [← pow_add]; exact hin.2 c hc)
  have hlen := native_length frString arks arks_91
  unfold nativeCircuit at hlen
  set c := newCircuit (mimcWiring frString (arks.take 91)) with hcdef
  set values := wiredAssignment (2 ^ m) c.layers inputs with hvals
  obtain ⟨l0, hl0⟩ : ∃ l0, c.layers[0]? = some l0 := ⟨_, List.getElem?_eq_getElem (by omega)⟩
  obtain ⟨outputs, hout⟩ : ∃ o, values[c.layers.length]? = some o := ⟨_, List.getElem?_eq_getElem (by omega)⟩
  obtain ⟨v, hv⟩ : ∃ v, values[c.layers.length - 1]? = some v := ⟨_, List.getElem?_eq_getElem (by omega)⟩
  obtain ⟨p, proof, h1, h2, h3, h4⟩ := gkr_honest mimcHash c k m values hA inputs outputs b hout nCore' hc' l0 _ hl0
    mimc_lastLayer
  refine ⟨c, values, outputs, p, proof, mimc_circuit, hasg, ?_, h1, h2, ?_, ?_, h3⟩
  · rw [List.getLast?_eq_getElem?, a, Nat.add_sub_cancel]; exact hout
  · have hw := hA.wired _ _ v mimc_lastLayer hv
    have hch := hA.chunked _ _ v mimc_lastLayer hv
    rw [show c.layers.length - 1 + 1 = c.layers.length by omega, hout] at hw
    rw [Option.some.inj hw]
    refine ⟨by rw [List.length_map]; exact hch.1, ?_⟩
    intro x hx
    obtain ⟨y, _, rfl⟩ := List.mem_map.1 hx
    simp [wiredOutputs]
  · rw [snarkAssertValid_iff frString arks mimcHash arks_91 snarkHash_pure _ (m + k) _ _ _ (qPrime0_length _)
      (by rw [interleave_length]; congr 1; omega) (interleave_length _ _ _)]
    rw [outputGoal_mimc] at h4
    refine ⟨⟨?_, ?_, ?_⟩, ?_⟩
    · exact h3.rounds.ge
    · exact h3.left.ge
    · exact h3.right.ge
    · have e0 := chained_first hG hl0
      unfold tableOf at h4
      rw [e0] at h4
      exact h4

/-- C34. For every batch of `2^(m+k)` MiMC instances in `2^k` chunks, `k = 0` included, and all core counts: the circuit is
evaluated, the native prover makes a proof, and this proof with the interleaved inputs and outputs satisfies all the
assertions of the GKR gadget (run with the initial point of the native verifier). -/
theorem C34_complete (k m : Nat) (inputs : List (List Fr)) (hin : WellChunked k (1 + m) inputs)
    (nCore nCore' : Int) (hc : 1 ≤ nCore) (hc' : 1 ≤ nCore') :
    ∃ c values outputs p proof sc, createMimcCircuit frString arks = .ok c ∧ c.assign inputs nCore = .ok values ∧
      values.getLast? = some outputs ∧ newGkrProver c values = .ok p ∧ p.prove mimcHash nCore' = .ok proof ∧
      createSnarkMimcCircuit arks = .ok sc ∧
      (snarkAssertValid arks sc proof [] (qPrime0 (m + k)) (interleave (2 ^ k) (2 ^ (1 + m)) inputs)
        (interleave (2 ^ k) (2 ^ m) outputs)).Satisfied := by
  obtain ⟨c, values, outputs, p, proof, h1, h2, h3, h4, h5, _, h7, _⟩ := honest_gadget k m inputs hin nCore nCore' hc hc'
  exact ⟨c, values, outputs, p, proof, _, h1, h2, h3, h4, h5, snark_circuit, h7⟩

/-- C37. The same pipeline: the proof has the shape that `AllocateProof` allocates, `Assign` does not panic and fills every
slot with the corresponding native value; so do the assignments of the input and output tables. -/
theorem C37_assign (k m : Nat) (inputs : List (List Fr)) (hin : WellChunked k (1 + m) inputs)
    (nCore nCore' : Int) (hc : 1 ≤ nCore) (hc' : 1 ≤ nCore') :
    ∃ c values outputs p proof sc, createMimcCircuit frString arks = .ok c ∧ c.assign inputs nCore = .ok values ∧
      values.getLast? = some outputs ∧ newGkrProver c values = .ok p ∧ p.prove mimcHash nCore' = .ok proof ∧
      createSnarkMimcCircuit arks = .ok sc ∧
      snarkAllocateProof (m + k) sc = ⟨proof.sumcheckProofs.map (List.map fun c => List.replicate c.length none),
        List.replicate proof.claimsLeft.length none, List.replicate proof.claimsRight.length none⟩ ∧
      snarkAssign (snarkAllocateProof (m + k) sc) proof = .ok ⟨proof.sumcheckProofs.map (List.map (List.map some)),
        proof.claimsLeft.map some, proof.claimsRight.map some⟩ ∧
      assignFromChunkedBKT (allocateMultilinear (1 + (m + k))) inputs =
        .ok ((interleave (2 ^ k) (2 ^ (1 + m)) inputs).map some) ∧
      assignFromChunkedBKT (allocateMultilinear (m + k)) outputs =
        .ok ((interleave (2 ^ k) (2 ^ m) outputs).map some) := by
  obtain ⟨c, values, outputs, p, proof, h1, h2, h3, h4, h5, h6, h7, h8⟩ := honest_gadget k m inputs hin nCore nCore' hc hc'
  rw [mimc_circuit] at h1
  obtain rfl := Except.ok.inj h1
  have e := empty_eq_allocate (m + k) proof h8
  have hl : proof.claimsLeft.length = proof.sumcheckProofs.length := h8.left.trans h8.rounds.symm
  have hr : proof.claimsRight.length = proof.sumcheckProofs.length := h8.right.trans h8.rounds.symm
  refine ⟨_, values, outputs, p, proof, _, mimc_circuit, h2, h3, h4, h5, snark_circuit, ?_, ?_, ?_, ?_⟩
  · rw [← e]; rfl
  · rw [← e, snarkAssign_ok proof hl hr]; rfl
  · obtain ⟨t, t1, rfl, _⟩ := C40_assign_split (2 ^ k) (2 ^ (1 + m)) Nat.one_le_two_pow inputs hin.1 hin.2
    rw [← t1, allocateMultilinear, ← pow_add, Nat.add_assoc]
  · obtain ⟨t, t1, rfl, _⟩ := C40_assign_split (2 ^ k) (2 ^ m) Nat.one_le_two_pow outputs h6.1 h6.2
    rw [← t1, allocateMultilinear, ← pow_add]

/-- The hypotheses of C34 and C37 are met, e.g. two chunks of two instances, and one chunk of one instance. -/
example : WellChunked 1 (1 + 1) [[1, 2, 5, 6], [3, 4, 7, (8 : Fr)]] ∧ WellChunked 0 (1 + 0) [[1, (2 : Fr)]] :=
  ⟨⟨rfl, by simp⟩, rfl, by simp⟩

/-- Wrong proofs do not fit: a round polynomial with one coefficient too many makes `Assign` panic. -/
example : uniAssign (allocateUnivariate 2) [1, 2, 3, (4 : Fr)] = .error (.explicit "Inconsistent assignment for univariate poly") := by
  decide +kernel

section Sizes

variable {F : Type} [Field F]

theorem sumcheckAssign_bad (proof : List (List F)) : ∀ (n k : Nat) (p : List (List (Option F))), p.length = k + n → proof.length = k + n →
    (∀ j, k ≤ j → ∀ u, p[j]? = some u → ∃ d, u = List.replicate d none) →
    (∃ j poly u, k ≤ j ∧ proof[j]? = some poly ∧ p[j]? = some u ∧ poly.length ≠ u.length) →
    ∃ msg, forFrom (fun i p => do
      let poly ← idx proof i
      let u ← idx p i
      let u' ← uniAssign u poly
      setIdx p i u') k n p = .error (.explicit msg)
  | 0, k, p, h1, _, _, ⟨j, poly, u, hj, _, e, _⟩ => by
    have := (List.getElem?_eq_some_iff.1 e).1
    omega
  | n + 1, k, p, h1, h2, hn, ⟨j, poly, u, hj, e1, e2, ne⟩ => by
    have hk : k < p.length := by omega
    have hk' : k < proof.length := by omega
    obtain ⟨d, hd⟩ := hn k le_rfl p[k] (List.getElem?_eq_getElem hk)
    unfold forFrom
    rw [idx_ok hk', ok_bind, idx_ok hk, ok_bind]
    by_cases hc : proof[k].length = p[k].length
    · have he : p[k] = emptySlots proof[k] := by
        unfold emptySlots
        rw [hc, hd, List.length_replicate]
      have hjk : j ≠ k := by
        rintro rfl
        rw [List.getElem?_eq_getElem hk] at e2
        rw [List.getElem?_eq_getElem hk'] at e1
        cases e1
        cases e2
        exact ne hc
      rw [he, uniAssign_ok, ok_bind, setIdx, if_pos hk]
      dsimp only
      apply sumcheckAssign_bad proof n (k + 1) _ (by rw [List.length_set]; omega) (by omega)
      · intro i hi v hv
        rw [List.getElem?_set_ne (by omega)] at hv
        exact hn i (by omega) v hv
      · exact ⟨j, poly, u, by omega, e1, by rw [List.getElem?_set_ne (by omega)]; exact e2, ne⟩
    · refine ⟨"Inconsistent assignment for univariate poly", ?_⟩
      rw [uniAssign, if_pos hc]
      rfl

/-- The number of coefficients that `AllocateProof` makes room for, round by round. -/
def allocatedSizes (bN bG degHL degHR degHPrime : Nat) : List Nat :=
  List.replicate bG (degHL + 1) ++ List.replicate bG (degHR + 1) ++ List.replicate bN (degHPrime + 1)

theorem allocate_sizes (bN bG degHL degHR degHPrime : Nat) : sumcheckAllocateProof (F := F) bN bG degHL degHR degHPrime =
    (allocatedSizes bN bG degHL degHR degHPrime).map fun d => List.replicate d none := by
  simp [sumcheckAllocateProof, allocatedSizes, allocateUnivariate]

/-- C37, for all sizes and degrees: `Assign` of snark/sumcheck fills all the slots with the native coefficients if the proof has
`degHL + 1` coefficients in the first `bG` rounds, `degHR + 1` in the next `bG` and `degHPrime + 1` in the last `bN`; it panics on
every other proof. -/
theorem C37_sumcheck_assign (bN bG degHL degHR degHPrime : Nat) (proof : List (List F)) :
    (proof.map List.length = List.replicate bG (degHL + 1) ++ List.replicate bG (degHR + 1) ++ List.replicate bN (degHPrime + 1) ∧
      sumcheckAssign (sumcheckAllocateProof bN bG degHL degHR degHPrime) proof = .ok (proof.map (List.map some))) ∨
    (proof.map List.length ≠ List.replicate bG (degHL + 1) ++ List.replicate bG (degHR + 1) ++ List.replicate bN (degHPrime + 1) ∧
      ∃ msg, sumcheckAssign (sumcheckAllocateProof bN bG degHL degHR degHPrime) proof = .error (.explicit msg)) := by
  rw [allocate_sizes, ← allocatedSizes]
  generalize allocatedSizes bN bG degHL degHR degHPrime = ds
  by_cases h : proof.map List.length = ds
  · refine .inl ⟨h, ?_⟩
    rw [← h, List.map_map, ← sumcheckAssign_ok]
    rfl
  · refine .inr ⟨h, ?_⟩
    unfold sumcheckAssign
    by_cases hl : proof.length = ds.length
    · rw [if_neg (by simpa using hl)]
      refine sumcheckAssign_bad proof proof.length 0 _ (by simp [hl]) (by simp) ?_ ?_
      · intro j _ u hu
        rw [List.getElem?_map, Option.map_eq_some_iff] at hu
        obtain ⟨d, _, rfl⟩ := hu
        exact ⟨d, rfl⟩
      · by_contra hc
        apply h
        apply List.ext_getElem (by simpa using hl)
        intro i h1 h2
        rw [List.getElem_map]
        by_contra hne
        rw [List.length_map] at h1
        refine hc ⟨i, proof[i], List.replicate ds[i] none, by omega, List.getElem?_eq_getElem h1, ?_, by simpa using hne⟩
        rw [List.getElem?_map, List.getElem?_eq_getElem h2]
        rfl
    · rw [if_pos (by simpa using hl)]
      exact ⟨_, rfl⟩

/-- C37, for all circuits of the gadget: a native proof with the numbers of coefficients of the degrees in the circuit is assigned
completely. -/
theorem C37_assign_any (bN : Nat) (sc : SnarkCircuit F) (proof : GkrProof F)
    (h : proof.sumcheckProofs.map (List.map List.length) = sc.layers.map fun l =>
      List.replicate l.bG (l.degHL + 1) ++ List.replicate l.bG (l.degHR + 1) ++ List.replicate bN (l.degHPrime + 1))
    (hl : proof.claimsLeft.length = sc.layers.length) (hr : proof.claimsRight.length = sc.layers.length) :
    snarkAssign (snarkAllocateProof bN sc) proof = .ok ⟨proof.sumcheckProofs.map (List.map (List.map some)),
      proof.claimsLeft.map some, proof.claimsRight.map some⟩ := by
  have e : proof.sumcheckProofs.length = sc.layers.length := by simpa using congrArg List.length h
  have key : proof.empty = snarkAllocateProof bN sc := by
    unfold GkrProof.empty snarkAllocateProof emptySlots
    rw [hl, hr]
    congr 1
    have e1 : proof.sumcheckProofs.map (List.map emptySlots) =
        (proof.sumcheckProofs.map (List.map List.length)).map (List.map fun d => List.replicate d (none : Option F)) := by
      rw [List.map_map]
      apply List.map_congr_left
      intro x _
      rw [Function.comp, List.map_map]
      rfl
    rw [show (proof.sumcheckProofs.map (List.map fun c => List.replicate c.length (none : Option F))) = _ from e1, h, List.map_map]
    apply List.map_congr_left
    intro l _
    rw [allocate_sizes]
    rfl
  rw [← key, snarkAssign_ok proof (by omega) (by omega)]
  rfl

/-- Sizes `[3, 5, 4, 4]` for `bN = 2`, `bG = 1` and degrees 2, 4, 3. -/
example : sumcheckAssign (sumcheckAllocateProof 2 1 2 4 3) [[1, 2, 3], [1, 2, 3, 4, 5], [1, 2, 3, 4], [5, 6, 7, (8 : Fr)]] =
    .ok ([[1, 2, 3], [1, 2, 3, 4, 5], [1, 2, 3, 4], [5, 6, 7, 8]].map (List.map some)) := by
  rcases C37_sumcheck_assign 2 1 2 4 3 [[1, 2, 3], [1, 2, 3, 4, 5], [1, 2, 3, 4], [5, 6, 7, (8 : Fr)]] with ⟨_, h⟩ | ⟨h, _⟩
  · exact h
  · exact absurd rfl h

end Sizes

end GkrMimc
