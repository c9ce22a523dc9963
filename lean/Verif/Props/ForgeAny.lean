import Verif.Props.GkrSound

/-! Property C23, how far the forgery goes: there are accepted proofs for all outputs. -/

set_option linter.unusedSectionVars false

namespace GkrMimc

open Spec Finset Polynomial

section

variable {F : Type} [Field F] [DecidableEq F]

/-- Rounds for a given claim that do not end in 0, whatever the challenges, if there is a polynomial without roots whose values at 0
and 1 cancel. -/
theorem rounds_not_zero (h2 : (2 : F) ≠ 0) (z : List F) (hz : (polyOf z).eval 0 + (polyOf z).eval 1 = 0)
    (hr : ∀ x, (polyOf z).eval x ≠ 0) (H : List F → F) (n : Nat) (x : F) :
    ∃ rounds : List (List F), rounds.length = n + 1 ∧ (∀ c ∈ rounds, c ≠ []) ∧ Consistent H rounds x ∧ lastValue H rounds x ≠ 0 := by
  by_cases hx : x = 0
  · subst hx
    have hz0 : z ≠ [] := by
      rintro rfl
      exact hr 0 (by simp [polyOf])
    refine ⟨z :: halving n ((polyOf z).eval (H z)), by simp [halving_length], ?_, ⟨hz, halving_consistent h2 H n _⟩, ?_⟩
    · intro c hc
      rcases List.mem_cons.1 hc with rfl | hc
      · exact hz0
      · exact halving_ne _ _ c hc
    · rw [lastValue, halving_last]
      exact div_ne_zero (hr _) (pow_ne_zero _ h2)
  · exact ⟨halving (n + 1) x, halving_length _ _, halving_ne _ _, halving_consistent h2 H _ _, by
      rw [halving_last]; exact div_ne_zero hx (pow_ne_zero _ h2)⟩

theorem last_value (toStr : F → String) (d : F) (weight : Nat → F) (nL nR : List F) (vl vr : F) :
    wiringValue (newLayer (mimcLastWires toStr d)).wires weight nL nR vl vr =
      wiringValue (newLayer (mimcLastWires toStr d)).wires weight nL nR 1 (-d) * (vl + (vr + d) ^ 7) := by
  simp [wiringValue, newLayer, mimcLastWires, cipher_eval]

/-- The forgery, as long as the factor before the value of the gate of the last layer does not vanish at the challenges. -/
theorem forgery_any (h2 : (2 : F) ≠ 0) (z : List F) (hz : (polyOf z).eval 0 + (polyOf z).eval 1 = 0)
    (hr : ∀ x, (polyOf z).eval x ≠ 0) (H : List F → F) (toStr : F → String) (cs : List F) (c d : F)
    (k m : Nat) (hk : 1 ≤ k) (outputs : List (List F)) (hout : WellChunked k m outputs)
    (hfac : let top := outputGoal k m (newLayer (mimcLastWires toStr d)) outputs
      let a : Msg F := ⟨halving (2 + (m + k)) top.claim, 0, 0⟩
      eqPoly top.point (a.qN H 1) * wiringValue (newLayer (mimcLastWires toStr d)).wires top.weight (a.qL H 1) (a.qR H 1) 1 (-d) ≠ 0) :
    ∃ proof, ∀ inputs, WellChunked k (1 + m) inputs →
      gkrVerify H (m + k) (newCircuit (mimcWiring toStr (cs ++ [c, d]))) proof inputs outputs = .ok true := by
  dsimp only at hfac
  set top := outputGoal k m (newLayer (mimcLastWires toStr d)) outputs with htop
  set e := eqPoly top.point (Msg.qN H 1 ⟨halving (2 + (m + k)) top.claim, 0, 0⟩) *
    wiringValue (newLayer (mimcLastWires toStr d)).wires top.weight (Msg.qL H 1 ⟨halving (2 + (m + k)) top.claim, 0, 0⟩)
      (Msg.qR H 1 ⟨halving (2 + (m + k)) top.claim, 0, 0⟩) 1 (-d) with he
  -- the claim of the last layer that passes its check
  set y := top.claim / 2 ^ (2 + (m + k)) / e with hy
  obtain ⟨rounds, r1, r2, r3, r4⟩ := rounds_not_zero h2 z hz hr H (1 + (m + k))
    (goalBelow H 1 ⟨halving (2 + (m + k)) top.claim, y, -d⟩).claim
  have htp : top.point.length = m + k := by simp [htop, outputGoal, initialGoal]
  let proof : GkrProof F := ⟨List.replicate cs.length (halving (2 + (m + k)) 0) ++ [rounds, halving (2 + (m + k)) top.claim],
    List.replicate cs.length 0 ++ [0, y], List.replicate cs.length 0 ++ [-c, -d]⟩
  refine ⟨proof, fun inputs hin => ?_⟩
  have hw : mimcWiring toStr (cs ++ [c, d]) = cs.map (mimcMidWires toStr) ++ [mimcMidWires toStr c, mimcLastWires toStr d] := by
    rw [show cs ++ [c, d] = (cs ++ [c]) ++ [d] by simp, mimcWiring_append]; simp
  have hlayers : (newCircuit (mimcWiring toStr (cs ++ [c, d]))).layers = cs.map (fun c => newLayer (mimcMidWires toStr c)) ++
      [newLayer (mimcMidWires toStr c), newLayer (mimcLastWires toStr d)] := by
    rw [hw]; simp [newCircuit]
  have hlen : (newCircuit (mimcWiring toStr (cs ++ [c, d]))).layers.length = cs.length + 2 := by rw [hlayers]; simp
  have hln : (newCircuit (mimcWiring toStr (cs ++ [c, d]))).layers[cs.length + 1]? = some (newLayer (mimcLastWires toStr d)) := by
    rw [hlayers, List.getElem?_append_right (by simp)]; simp
  have hlm : (newCircuit (mimcWiring toStr (cs ++ [c, d]))).layers[cs.length]? = some (newLayer (mimcMidWires toStr c)) := by
    rw [hlayers, List.getElem?_append_right (by simp)]; simp
  have hm1 : msgOf proof (cs.length + 1) = ⟨halving (2 + (m + k)) top.claim, y, -d⟩ := by
    simp only [msgOf, proof]
    simp [List.getElem?_append_right]
  have hm0 : msgOf proof cs.length = ⟨rounds, 0, -c⟩ := by
    simp only [msgOf, proof]
    simp [List.getElem?_append_right]
  rw [C23_accepts_iff H _ (by rw [hw]; simp) (mimcWiring_good toStr _) 1 k m hk (mimcWiring_chained toStr _)
    (newLayer (mimcLastWires toStr d)) (by rw [hlen]; exact hln) inputs outputs hin
    (by rw [last_bGOutputs, Nat.zero_add]; exact hout), ← htop]
  have hg1 : goalOf H (newCircuit (mimcWiring toStr (cs ++ [c, d]))).layers proof top (cs.length + 1) = top := by
    unfold goalOf
    rw [List.getElem?_eq_none (by omega)]
  have hg0 : goalOf H (newCircuit (mimcWiring toStr (cs ++ [c, d]))).layers proof top cs.length =
      goalBelow H 1 ⟨halving (2 + (m + k)) top.claim, y, -d⟩ := by
    unfold goalOf
    rw [hln, hm1]
    dsimp only
    rw [last_bGInputs]
  rw [hlen, show cs.length + 2 - 1 = cs.length + 1 from rfl]
  refine ⟨?_, ?_, ?_, .inr ⟨cs.length, by omega, fun j h1 h2 => by omega, ?_, ?_⟩⟩
  · unfold HasShape; rw [hlen]; simp [proof]
  · intro l hl
    rw [hln] at hl
    obtain rfl := Option.some.inj hl
    rw [hg1, hm1]
    refine ⟨halving_ne _ _, ?_, ?_⟩
    · rw [last_bGInputs, halving_length, htp]
    · exact halving_consistent h2 H _ _
  · intro l hl
    rw [hln] at hl
    obtain rfl := Option.some.inj hl
    rw [hg1, hm1]
    unfold ValueCheck
    dsimp only
    rw [halving_last, last_bGInputs, last_value, ← mul_assoc]
    change _ = e * _
    rw [neg_add_cancel, zero_pow (by norm_num), add_zero, hy, mul_div_cancel₀ _ hfac]
  · intro l hl
    rw [hlm] at hl
    obtain rfl := Option.some.inj hl
    rw [hg0, hm0]
    refine ⟨r2, ?_, r3⟩
    rw [mid_bGInputs, r1]
    have : (goalBelow H 1 ⟨halving (2 + (m + k)) top.claim, y, -d⟩).point.length = m + k := by
      change (Msg.qN H 1 _).length = _
      rw [Msg.qN_length, halving_length]; omega
    rw [this]; omega
  · intro hall
    have := hall _ hlm
    rw [hg0, hm0] at this
    unfold ValueCheck at this
    dsimp only at this
    rw [sum_mid, mul_zero] at this
    exact r4 this

/-- C23: the forgery in general. For the MiMC-shaped circuit with any constants, any challenge function, any number of instances and
**any** outputs there is a proof that the verifier of the code accepts for all inputs, unless one of the challenges for the polynomials
`C/2, C/4, …`, `C` the value of the outputs at the initial point, is the one value at which the factor belonging to it vanishes. -/
theorem C23_forgery_any (h2 : (2 : F) ≠ 0) (z : List F) (hz : (polyOf z).eval 0 + (polyOf z).eval 1 = 0)
    (hr : ∀ x, (polyOf z).eval x ≠ 0) (H : List F → F) (toStr : F → String) (cs : List F) (c d : F)
    (k m : Nat) (hk : 1 ≤ k) (outputs : List (List F)) (hout : WellChunked k m outputs)
    (q' : List F) (hq' : q' = (List.range (m + k)).map fun i => ((i + 1 : Nat) : F)) (C : F)
    (hC : C = mle (interleave (2 ^ k) (2 ^ m) outputs) q') (a b : F) (x : List F)
    (hx : (halving (2 + (m + k)) C).map H = a :: b :: x) (ha : a ≠ 0) (hb : b ≠ 1) (he : eqPoly q' x ≠ 0) :
    ∃ proof, ∀ inputs, WellChunked k (1 + m) inputs →
      gkrVerify H (m + k) (newCircuit (mimcWiring toStr (cs ++ [c, d]))) proof inputs outputs = .ok true := by
  refine forgery_any h2 z hz hr H toStr cs c d k m hk outputs hout ?_
  have e1 : (outputGoal k m (newLayer (mimcLastWires toStr d)) outputs) = ⟨C, q', chi []⟩ := by
    unfold outputGoal initialGoal
    rw [last_bGOutputs, Nat.zero_add]
    simp [hC, hq']
  rw [e1]
  dsimp only [Msg.qN, Msg.qL, Msg.qR]
  rw [hx]
  refine mul_ne_zero he ?_
  have hb' : (1 : F) - b ≠ 0 := sub_ne_zero.2 (Ne.symm hb)
  simp [wiringValue, newLayer, mimcLastWires, cipher_eval, chi, ha, hb']

end

theorem powMod_cast (p fuel a e : Nat) (h : e < 2 ^ fuel) : ((powMod p fuel a e 1 : Nat) : ZMod p) = (a : ZMod p) ^ e := by
  rw [powMod_eq _ _ _ _ _ h, one_mul, ZMod.natCast_mod, Nat.cast_pow]

/-- 5 is not a square modulo `r`. -/
theorem five_nonsquare (x : Fr) : x ^ 2 ≠ 5 := by
  intro h
  have hx : x ≠ 0 := by
    rintro rfl
    revert h
    decide +kernel
  obtain ⟨e, he⟩ : ∃ e, e = (frModulus - 1) / 2 := ⟨_, rfl⟩
  have h3 : ((powMod frModulus 256 5 e 1 : Nat) : Fr) ≠ 1 := by rw [he]; decide +kernel
  have hlt : e < 2 ^ 256 := by rw [he]; decide +kernel
  have hee : 2 * e = frModulus - 1 := by rw [he]; decide +kernel
  apply h3
  refine (powMod_cast frModulus 256 5 e hlt).trans ?_
  have h5 : ((5 : Nat) : Fr) = x ^ 2 := by rw [h]; rfl
  have h6 : (x ^ 2) ^ e = 1 := by
    rw [← pow_mul, hee]
    exact ZMod.pow_card_sub_one_eq_one hx
  rw [← h6, ← h5]

/-- `1 - 3X + X²` has no roots modulo `r`. -/
theorem rootless (x : Fr) : (polyOf [1, -3, (1 : Fr)]).eval x ≠ 0 := by
  intro h
  simp [polyOf, Finset.sum_range_succ] at h
  exact five_nonsquare (2 * x - 3) (by linear_combination 4 * h)

/-- C23: the negation for all outputs, with the real circuit, constants and challenge function. For every number `2^(m+k)` of instances
(`k ≥ 1`) and every outputs there is a proof that `Verify` accepts for **all** inputs, unless a hash of `C/2, C/4, …` has a certain
value. -/
theorem C23_any_outputs (k m : Nat) (hk : 1 ≤ k) (outputs : List (List Fr)) (hout : WellChunked k m outputs)
    (q' : List Fr) (hq' : q' = (List.range (m + k)).map fun i => ((i + 1 : Nat) : Fr)) (C : Fr)
    (hC : C = mle (interleave (2 ^ k) (2 ^ m) outputs) q') (a b : Fr) (x : List Fr)
    (hx : (halving (2 + (m + k)) C).map mimcHash = a :: b :: x) (ha : a ≠ 0) (hb : b ≠ 1) (he : eqPoly q' x ≠ 0) :
    ∃ (c : Circuit Fr) (proof : GkrProof Fr), createMimcCircuit frString arks = .ok c ∧ ∀ inputs, WellChunked k (1 + m) inputs →
      gkrVerify mimcHash (m + k) c proof inputs outputs = .ok true := by
  obtain ⟨cs, c, d, h, _, _⟩ := arks_split
  obtain ⟨proof, hp⟩ := C23_forgery_any (by decide) [1, -3, 1] (by simp [polyOf, Finset.sum_range_succ]; ring) rootless mimcHash frString cs c d k m hk outputs
    hout q' hq' C hC a b x hx ha hb he
  refine ⟨_, proof, mimc_circuit, ?_⟩
  rw [h]
  exact hp

/-- The hypotheses are met: the challenges for the outputs `[[5], [7]]` are not the exceptional ones. -/
example : ∃ (c : Circuit Fr) (proof : GkrProof Fr), createMimcCircuit frString arks = .ok c ∧ ∀ inputs, WellChunked 1 1 inputs →
    gkrVerify mimcHash 1 c proof inputs [[5], [7]] = .ok true := by
  have hC : mle (interleave (2 ^ 1) (2 ^ 0) [[5], [7]]) [1] = (7 : Fr) := by
    simp [mle, mleF, interleave, chi, Finset.sum_range_succ, List.range_succ, Nat.testBit]
  refine C23_any_outputs 1 0 le_rfl [[5], [7]] ⟨rfl, by simp⟩ [1] (by simp) 7 hC.symm _ _ _ rfl ?_ ?_ ?_
  · decide +kernel
  · decide +kernel
  · decide +kernel

end GkrMimc
