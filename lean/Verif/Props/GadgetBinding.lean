import Verif.Props.InputBinding
import Verif.Props.Snark

/-! Property C53: what the assertions of the GKR gadget say about its input and output tables. The full claim (a proof that
satisfies the gadget does not satisfy it with other inputs or outputs) is false: the gadget reads the tables at three points
only, none of which depends on the tables. -/

namespace GkrMimc

open Spec

/-- C53 (full claim: a witness that satisfies the gadget does not satisfy it with other tables). Proved, for every proof, point
`q'` and tables: with other tables of the same sizes the assertions hold **iff** the new outputs have the same extension at `q'`
and the new inputs the same extensions at the two points given by the challenges of layer 0. Missing: changes invisible at these
three points, where the claim is false. -/
theorem C53_binds_partial (bN : Nat) (proof : GkrProof Fr) (q' vInput vOutput : List Fr) (hq : q'.length = bN)
    (hin : vInput.length = 2 ^ (1 + bN)) (hout : vOutput.length = 2 ^ bN) (sc : SnarkCircuit Fr)
    (hsc : createSnarkMimcCircuit arks = .ok sc)
    (hsat : (snarkAssertValid arks sc proof [] q' vInput vOutput).Satisfied)
    (vInput' vOutput' : List Fr) (hin' : vInput'.length = 2 ^ (1 + bN)) (hout' : vOutput'.length = 2 ^ bN) :
    (snarkAssertValid arks sc proof [] q' vInput' vOutput').Satisfied ↔
      mle vOutput' q' = mle vOutput q' ∧
      mle vInput' ((msgOf proof 0).qL mimcHash 1 ++ (msgOf proof 0).qN mimcHash 1) =
        mle vInput ((msgOf proof 0).qL mimcHash 1 ++ (msgOf proof 0).qN mimcHash 1) ∧
      mle vInput' ((msgOf proof 0).qR mimcHash 1 ++ (msgOf proof 0).qN mimcHash 1) =
        mle vInput ((msgOf proof 0).qR mimcHash 1 ++ (msgOf proof 0).qN mimcHash 1) := by
  rw [snark_circuit] at hsc
  obtain rfl := Except.ok.inj hsc
  have key := snarkAssertValid_iff frString arks mimcHash arks_91 snarkHash_pure proof bN q'
  obtain ⟨hs, hG⟩ := (key vInput vOutput hq hin hout).1 hsat
  have hlen := native_length frString arks arks_91
  have h0 := native_mid frString arks arks_91 (i := 0) (by omega)
  have h90 := native_last frString arks arks_91
  have f := hG.first _ h0
  rw [mid_bGInputs] at f
  rw [key vInput' vOutput' hq hin' hout']
  constructor
  · rintro ⟨-, hG'⟩
    have f' := hG'.first _ h0
    rw [mid_bGInputs] at f'
    refine ⟨?_, f'.2.1.trans f.2.1.symm, f'.2.2.trans f.2.2.symm⟩
    have r := (hG.each 90 _ h90).1
    have r' := (hG'.each 90 _ h90).1
    have e91 : (nativeCircuit frString arks).layers[90 + 1]? = none := List.getElem?_eq_none (by omega)
    unfold goalOf at r r'
    rw [e91] at r r'
    obtain ⟨-, n, s⟩ := r
    obtain ⟨-, -, s'⟩ := r'
    rw [last_bGInputs] at n
    dsimp only at s s' n
    cases hr : (msgOf proof 90).rounds with
    | nil => rw [hr] at n; simp at n
    | cons p ps =>
      rw [hr] at s s'
      exact s'.1.symm.trans s.1
  · rintro ⟨e, eL, eR⟩
    refine ⟨hs, ?_, ?_⟩
    · rw [e]; exact hG.each
    · intro l hl
      obtain rfl := Option.some.inj (h0.symm.trans hl)
      rw [mid_bGInputs]
      exact ⟨f.1, eL.trans f.2.1, eR.trans f.2.2⟩

theorem mimcChunk_getD (N : Nat) (states blocks : List Fr) (hs : states.length = N) (hb : blocks.length = N) (i : Nat) :
    (mimcChunk (states, blocks)).getD i 0 = if i < N then states.getD i 0 + blocks.getD i 0 else blocks.getD (i - N) 0 := by
  unfold mimcChunk
  split_ifs with h
  · have a : i < states.length := by omega
    have b : i < blocks.length := by omega
    simp [List.getD_eq_getElem?_getD, List.getElem?_append_left, a, b]
  · rw [List.getD_eq_getElem?_getD, List.getElem?_append_right (by simp [hs, hb]; omega)]
    simp [hs, hb]

/-- The true outputs of `2^bN` instances. -/
theorem honest_single (bN : Nat) (states blocks : List Fr) (hs : states.length = 2 ^ bN) (hb : blocks.length = 2 ^ bN) :
    ∃ c values p proof sc, createMimcCircuit frString arks = .ok c ∧ c.assign [mimcChunk (states, blocks)] 1 = .ok values ∧
      values.getLast? = some [mimcExpected (states, blocks)] ∧
      newGkrProver c values = .ok p ∧ p.prove mimcHash 1 = .ok proof ∧ createSnarkMimcCircuit arks = .ok sc ∧
      (snarkAssertValid arks sc proof [] (qPrime0 bN) (mimcChunk (states, blocks)) (mimcExpected (states, blocks))).Satisfied := by
  have hlen : (mimcChunk (states, blocks)).length = 2 ^ (1 + bN) := by simp [mimcChunk, hs, hb, pow_add]; omega
  have hel : (mimcExpected (states, blocks)).length = 2 ^ bN := by simp [mimcExpected, hs, hb]
  obtain ⟨c, values, outputs, p, proof, sc, h1, h2, h3, h4, h5, h6, h7⟩ :=
    C34_complete 0 bN [mimcChunk (states, blocks)] ⟨rfl, by simpa using hlen⟩ 1 1 le_rfl le_rfl
  obtain ⟨c', values', h1', h2', h3'⟩ := C27_circuit (2 ^ bN) [(states, blocks)] (by simp [hs, hb]) 1 le_rfl
  obtain rfl : c = c' := by rw [h1] at h1'; exact Except.ok.inj h1'
  obtain rfl : values = values' := by rw [List.map_singleton, h2] at h2'; exact Except.ok.inj h2'
  rw [h3] at h3'
  obtain rfl : outputs = [mimcExpected (states, blocks)] := Option.some.inj h3'
  refine ⟨c, values, p, proof, sc, h1, h2, h3, h4, h5, h6, ?_⟩
  rw [show (2 : Nat) ^ 0 = 1 from rfl, interleave_one _ _ hlen, interleave_one _ _ hel, Nat.add_zero] at h7
  exact h7

/-- C53 is false for the outputs: with the point `q'` of the native verifier (and of the tests of the gadget) the proof of an honest prover
satisfies the gadget with the first output changed into anything. -/
theorem C53_negation_outputs (bN : Nat) (h1 : 1 ≤ bN) (states blocks : List Fr) (hs : states.length = 2 ^ bN)
    (hb : blocks.length = 2 ^ bN) :
    ∃ c values p proof sc, createMimcCircuit frString arks = .ok c ∧ c.assign [mimcChunk (states, blocks)] 1 = .ok values ∧
      newGkrProver c values = .ok p ∧ p.prove mimcHash 1 = .ok proof ∧ createSnarkMimcCircuit arks = .ok sc ∧
      ∀ y, (snarkAssertValid arks sc proof [] (qPrime0 bN) (mimcChunk (states, blocks))
        ((mimcExpected (states, blocks)).set 0 y)).Satisfied := by
  have hlen : (mimcChunk (states, blocks)).length = 2 ^ (1 + bN) := by simp [mimcChunk, hs, hb, pow_add]; omega
  have hel : (mimcExpected (states, blocks)).length = 2 ^ bN := by simp [mimcExpected, hs, hb]
  obtain ⟨c, values, p, proof, sc, e1, e2, -, e4, e5, e6, e7⟩ := honest_single bN states blocks hs hb
  refine ⟨c, values, p, proof, sc, e1, e2, e4, e5, e6, fun y => ?_⟩
  rw [C53_binds_partial bN proof (qPrime0 bN) _ _ (qPrime0_length bN) hlen hel sc e6 e7 _ _ hlen (by simpa using hel)]
  refine ⟨?_, rfl, rfl⟩
  rw [← sub_eq_zero, mle_update _ (mimcExpected (states, blocks)) (qPrime0 bN) 0 (Nat.two_pow_pos _), mul_eq_zero]
  · right
    by_contra h
    have h0 := ((chi_ne_zero_iff _ _).1 h) ⟨0, by rw [qPrime0_length]; omega⟩
    have e : (qPrime0 bN)[0]'(by rw [qPrime0_length]; omega) = 1 := by simp [qPrime0, getInitialQPrimeAndQ]
    have := h0
    simp [e] at this
  · intro i hi
    simp [List.getElem?_set_ne (Ne.symm hi), List.getD_eq_getElem?_getD]

/-- C53 is false for the inputs: for four instances or more, the proof of an honest prover satisfies the gadget, with the same
outputs and the same blocks, for other states, which differ in the first three instances only and whose MiMC outputs are different. -/
theorem C53_negation_inputs (bN : Nat) (h2 : 2 ≤ bN) (states blocks : List Fr) (hs : states.length = 2 ^ bN)
    (hb : blocks.length = 2 ^ bN) :
    ∃ c values p proof sc, createMimcCircuit frString arks = .ok c ∧ c.assign [mimcChunk (states, blocks)] 1 = .ok values ∧
      newGkrProver c values = .ok p ∧ p.prove mimcHash 1 = .ok proof ∧ createSnarkMimcCircuit arks = .ok sc ∧
      ∃ states', states'.length = 2 ^ bN ∧ (∀ i, 3 ≤ i → states'.getD i 0 = states.getD i 0) ∧
        mimcExpected (states', blocks) ≠ mimcExpected (states, blocks) ∧
        (snarkAssertValid arks sc proof [] (qPrime0 bN) (mimcChunk (states', blocks)) (mimcExpected (states, blocks))).Satisfied := by
  have hlen : ∀ s : List Fr, s.length = 2 ^ bN → (mimcChunk (s, blocks)).length = 2 ^ (1 + bN) := by
    intro s hs
    simp [mimcChunk, hs, hb, pow_add]; omega
  have hel : (mimcExpected (states, blocks)).length = 2 ^ bN := by simp [mimcExpected, hs, hb]
  obtain ⟨c, values, p, proof, sc, e1, e2, -, e4, e5, e6, e7⟩ := honest_single bN states blocks hs hb
  refine ⟨c, values, p, proof, sc, e1, e2, e4, e5, e6, ?_⟩
  obtain ⟨v, ⟨j, hj, hvj⟩, v3, va, vb⟩ := two_conditions (chi ((msgOf proof 0).qL mimcHash 1 ++ (msgOf proof 0).qN mimcHash 1))
    (chi ((msgOf proof 0).qR mimcHash 1 ++ (msgOf proof 0).qN mimcHash 1))
  have h4 : 4 ≤ 2 ^ bN := le_trans (by norm_num) (Nat.pow_le_pow_right (by norm_num : 0 < 2) h2)
  have hs' : (tab (2 ^ bN) fun i => states.getD i 0 + v i).length = 2 ^ bN := tab_length _ _
  refine ⟨tab (2 ^ bN) fun i => states.getD i 0 + v i, hs', ?_, ?_, ?_⟩
  · intro i hi
    rcases Nat.lt_or_ge i (2 ^ bN) with h | h
    · rw [tab_getD h, v3 i hi, add_zero]
    · rw [List.getD_eq_default _ _ (by omega), List.getD_eq_default _ _ (by omega)]
  · intro h
    have hget : ∀ s : List Fr, s.length = 2 ^ bN → (mimcExpected (s, blocks)).getD j 0 =
        mimcCipher (arks.take 91) (blocks.getD j 0) (s.getD j 0) + blocks.getD j 0 := by
      intro s hs
      have a : j < s.length := by omega
      have b : j < blocks.length := by omega
      simp [mimcExpected, List.getD_eq_getElem?_getD, List.getElem?_zipWith, List.getElem?_eq_getElem a, List.getElem?_eq_getElem b]
    have e := congrArg (fun t => t.getD j 0) h
    beta_reduce at e
    rw [hget _ hs', hget _ hs] at e
    have e' := (mimcCipher_bijective (arks.take 91) _).1 (add_right_cancel e)
    rw [tab_getD (by omega)] at e'
    exact hvj (by simpa using e')
  · rw [C53_binds_partial bN proof (qPrime0 bN) _ _ (qPrime0_length bN) (hlen _ hs) hel sc e6 e7 _ _ (hlen _ hs') hel]
    have hsat := (snarkAssertValid_iff frString arks mimcHash arks_91 snarkHash_pure proof bN (qPrime0 bN) _ _ (qPrime0_length bN)
      (hlen _ hs) hel).1 (by rw [snark_circuit] at e6; obtain rfl := Except.ok.inj e6; exact e7)
    have f := hsat.2.first _ (native_mid frString arks arks_91 (i := 0) (by omega))
    rw [mid_bGInputs] at f
    have hN := f.1
    have hlr : 2 * 1 ≤ (msgOf proof 0).rounds.length := by rw [Msg.qN_length] at hN; omega
    have hlL : ((msgOf proof 0).qL mimcHash 1).length = 1 := by simp [Msg.qL]; omega
    have hlR : ((msgOf proof 0).qR mimcHash 1).length = 1 := by simp [Msg.qR]; omega
    have shift : ∀ x : List Fr, x.length = 1 + bN →
        mle (mimcChunk (tab (2 ^ bN) fun i => states.getD i 0 + v i, blocks)) x =
          mle (mimcChunk (states, blocks)) x + (v 0 * chi x 0 + v 1 * chi x 1 + v 2 * chi x 2) := by
      intro x hx
      have e0 := mle_shiftInputs 0 (1 + bN) [mimcChunk (states, blocks)] v v3 x (by omega) (by omega)
      rw [show (2 : Nat) ^ 0 = 1 from rfl, interleave_one _ _ (hlen _ hs)] at e0
      rw [← e0]
      unfold shiftInputs
      rw [show (2 : Nat) ^ 0 = 1 from rfl, interleave_chunksOf, interleave_one _ _ (hlen _ hs), Nat.mul_one]
      congr 1
      have hl := hlen _ hs'
      rw [eq_tab (mimcChunk (tab (2 ^ bN) fun i => states.getD i 0 + v i, blocks)) 0, hl]
      apply tab_congr
      intro i _
      rw [mimcChunk_getD _ _ _ hs' hb, mimcChunk_getD _ _ _ hs hb]
      split_ifs with h
      · rw [tab_getD h]; ring
      · rw [v3 i (by omega), add_zero]
    refine ⟨rfl, ?_, ?_⟩
    · rw [shift _ (by simp [hlL, hN]), va, add_zero]
    · rw [shift _ (by simp [hlR, hN]), vb, add_zero]

/-- Four concrete instances meet the hypotheses: a proof that satisfies the gadget for two different tables of states, one of them
giving other outputs. -/
example : ∃ (proof : GkrProof Fr) (sc : SnarkCircuit Fr) (states' : List Fr), createSnarkMimcCircuit arks = .ok sc ∧
    mimcExpected (states', [5, 6, 7, 8]) ≠ mimcExpected ([1, 2, 3, 4], [5, 6, 7, 8]) ∧
    (snarkAssertValid arks sc proof [] (qPrime0 2) (mimcChunk (states', [5, 6, 7, 8]))
      (mimcExpected ([1, 2, 3, 4], [5, 6, 7, 8]))).Satisfied := by
  obtain ⟨_, _, _, proof, sc, _, _, _, _, h, states', _, _, h1, h2⟩ := C53_negation_inputs 2 le_rfl [1, 2, 3, 4] [5, 6, 7, 8] rfl rfl
  exact ⟨proof, sc, states', h, h1, h2⟩

end GkrMimc
