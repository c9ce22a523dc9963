import Verif.Props.GkrUntrusted
import Verif.Proofs.GkrHonest

/-! Property C43: what an accepted proof says about the inputs. The full claim (an accepted proof is rejected for any other
inputs) is false: the challenges do not depend on the inputs, so these can be chosen after the proof. -/

set_option linter.unusedSectionVars false

namespace GkrMimc

open Spec

variable {F : Type} [Field F] [DecidableEq F]

/-- C43: `Verify` uses the inputs only through their extension at two points, which depend on the proof alone: inputs with the
same two values are accepted with the same proofs. -/
theorem C43_only_two_values (H : List F → F) (wiring : List (List (Wire F))) (hne : wiring ≠ [])
    (hw : ∀ ws ∈ wiring, GoodWires ws) (G k m : Nat) (hk : 1 ≤ k) (hG : Chained G (newCircuit wiring).layers)
    (ln : Layer F) (hln : (newCircuit wiring).layers[(newCircuit wiring).layers.length - 1]? = some ln)
    (inputs inputs' outputs : List (List F)) (hin : WellChunked k (G + m) inputs) (hin' : WellChunked k (G + m) inputs')
    (hout : WellChunked k (ln.bGOutputs + m) outputs) (proof : GkrProof F)
    (hL : mle (interleave (2 ^ k) (2 ^ (G + m)) inputs) ((msgOf proof 0).qL H G ++ (msgOf proof 0).qN H G) =
      mle (interleave (2 ^ k) (2 ^ (G + m)) inputs') ((msgOf proof 0).qL H G ++ (msgOf proof 0).qN H G))
    (hR : mle (interleave (2 ^ k) (2 ^ (G + m)) inputs) ((msgOf proof 0).qR H G ++ (msgOf proof 0).qN H G) =
      mle (interleave (2 ^ k) (2 ^ (G + m)) inputs') ((msgOf proof 0).qR H G ++ (msgOf proof 0).qN H G))
    (hacc : gkrVerify H (m + k) (newCircuit wiring) proof inputs outputs = .ok true) :
    gkrVerify H (m + k) (newCircuit wiring) proof inputs' outputs = .ok true := by
  rw [C23_accepts_iff H wiring hne hw G k m hk hG ln hln inputs outputs hin hout] at hacc
  rw [C23_accepts_iff H wiring hne hw G k m hk hG ln hln inputs' outputs hin' hout]
  obtain ⟨h1, h2, h3, h4⟩ := hacc
  refine ⟨h1, h2, h3, ?_⟩
  rcases h4 with ⟨h4, h5⟩ | h4
  · refine .inl ⟨h4, fun l hl => ?_⟩
    have h6 := h5 l hl
    rw [chained_first hG hl] at h6 ⊢
    exact ⟨h6.1, hL ▸ h6.2.1, hR ▸ h6.2.2⟩
  · exact .inr h4

/-- C43 (full claim: an accepted proof is rejected for any other inputs). Proved: if a proof passes all the checks of the
specification with `inputs`, then `Verify` does not accept it with `inputs'` whose value differs at one of the two points. Missing:
changes invisible at both points, where the claim is false. -/
theorem C43_binds_partial (H : List F → F) (wiring : List (List (Wire F))) (hne : wiring ≠ [])
    (hw : ∀ ws ∈ wiring, GoodWires ws) (G k m : Nat) (hk : 1 ≤ k) (hG : Chained G (newCircuit wiring).layers)
    (ln : Layer F) (hln : (newCircuit wiring).layers[(newCircuit wiring).layers.length - 1]? = some ln)
    (inputs inputs' outputs : List (List F)) (hin' : WellChunked k (G + m) inputs')
    (hout : WellChunked k (ln.bGOutputs + m) outputs) (proof : GkrProof F)
    (hall : GkrConsistent H (m + k) (newCircuit wiring).layers proof (interleave (2 ^ k) (2 ^ (G + m)) inputs)
      (outputGoal k m ln outputs))
    (hdiff : mle (interleave (2 ^ k) (2 ^ (G + m)) inputs) ((msgOf proof 0).qL H G ++ (msgOf proof 0).qN H G) ≠
        mle (interleave (2 ^ k) (2 ^ (G + m)) inputs') ((msgOf proof 0).qL H G ++ (msgOf proof 0).qN H G) ∨
      mle (interleave (2 ^ k) (2 ^ (G + m)) inputs) ((msgOf proof 0).qR H G ++ (msgOf proof 0).qN H G) ≠
        mle (interleave (2 ^ k) (2 ^ (G + m)) inputs') ((msgOf proof 0).qR H G ++ (msgOf proof 0).qN H G)) :
    gkrVerify H (m + k) (newCircuit wiring) proof inputs' outputs ≠ .ok true := by
  intro hacc
  have hne' : (newCircuit wiring).layers ≠ [] := by simpa [newCircuit] using hne
  obtain ⟨l0, hl0⟩ : ∃ l0, (newCircuit wiring).layers[0]? = some l0 :=
    ⟨_, List.getElem?_eq_getElem (List.length_pos_of_ne_nil hne')⟩
  have hf := hall.first l0 hl0
  rw [C23_accepts_iff H wiring hne hw G k m hk hG ln hln inputs' outputs hin' hout] at hacc
  rcases hacc.2.2.2 with ⟨_, h5⟩ | ⟨i, _, _, _, h6⟩
  · have hf' := h5 l0 hl0
    rw [chained_first hG hl0] at hf hf'
    rcases hdiff with h | h
    · exact h (hf.2.1.trans hf'.2.1.symm)
    · exact h (hf.2.2.trans hf'.2.2.symm)
  · exact h6 fun l hl => (hall.each i l hl).2

/-- C43, single inputs: a proof that passes all checks is not accepted after a change of exactly the input at global index `j`, if
one of the two points gives `j` a non-zero weight. -/
theorem C43_single_input_partial (H : List F → F) (wiring : List (List (Wire F))) (hne : wiring ≠ [])
    (hw : ∀ ws ∈ wiring, GoodWires ws) (G k m : Nat) (hk : 1 ≤ k) (hG : Chained G (newCircuit wiring).layers)
    (ln : Layer F) (hln : (newCircuit wiring).layers[(newCircuit wiring).layers.length - 1]? = some ln)
    (inputs inputs' outputs : List (List F)) (hin' : WellChunked k (G + m) inputs')
    (hout : WellChunked k (ln.bGOutputs + m) outputs) (proof : GkrProof F)
    (hall : GkrConsistent H (m + k) (newCircuit wiring).layers proof (interleave (2 ^ k) (2 ^ (G + m)) inputs)
      (outputGoal k m ln outputs)) (j : Nat)
    (hsame : ∀ i, i ≠ j → (interleave (2 ^ k) (2 ^ (G + m)) inputs).getD i 0 =
      (interleave (2 ^ k) (2 ^ (G + m)) inputs').getD i 0)
    (hdiff : (interleave (2 ^ k) (2 ^ (G + m)) inputs).getD j 0 ≠ (interleave (2 ^ k) (2 ^ (G + m)) inputs').getD j 0)
    (hwt : j < 2 ^ ((msgOf proof 0).qL H G ++ (msgOf proof 0).qN H G).length ∧
        chi ((msgOf proof 0).qL H G ++ (msgOf proof 0).qN H G) j ≠ 0 ∨
      j < 2 ^ ((msgOf proof 0).qR H G ++ (msgOf proof 0).qN H G).length ∧
        chi ((msgOf proof 0).qR H G ++ (msgOf proof 0).qN H G) j ≠ 0) :
    gkrVerify H (m + k) (newCircuit wiring) proof inputs' outputs ≠ .ok true := by
  apply C43_binds_partial H wiring hne hw G k m hk hG ln hln inputs inputs' outputs hin' hout proof hall
  have key : ∀ x : List F, j < 2 ^ x.length → chi x j ≠ 0 →
      mle (interleave (2 ^ k) (2 ^ (G + m)) inputs) x ≠ mle (interleave (2 ^ k) (2 ^ (G + m)) inputs') x := by
    intro x hx hc h
    have e := mle_update _ _ x j hx hsame
    rw [h, sub_self] at e
    rcases mul_eq_zero.1 e.symm with h1 | h1
    · exact hdiff (sub_eq_zero.1 h1)
    · exact hc h1
  exact hwt.imp (fun h => key _ h.1 h.2) fun h => key _ h.1 h.2

/-- C43: for the proof of an honest prover, the exact set of inputs with which `Verify` accepts it: those whose extension agrees
with the extension of the true inputs at the two points. -/
theorem C43_honest_iff_partial [SmallCasts F] (H : List F → F) (wiring : List (List (Wire F))) (hne : wiring ≠ [])
    (hw : ∀ ws ∈ wiring, GoodWires ws) (G k m : Nat) (hk : 1 ≤ k) (hG : Chained G (newCircuit wiring).layers)
    (inputs outputs : List (List F)) (hin : WellChunked k (G + m) inputs)
    (hout : (wiredAssignment (2 ^ m) (newCircuit wiring).layers inputs).getLast? = some outputs) (nCore : Int) (hc : 1 ≤ nCore) :
    ∃ p proof, newGkrProver (newCircuit wiring) (wiredAssignment (2 ^ m) (newCircuit wiring).layers inputs) = .ok p ∧
      p.prove H nCore = .ok proof ∧ ∀ inputs', WellChunked k (G + m) inputs' →
        (gkrVerify H (m + k) (newCircuit wiring) proof inputs' outputs = .ok true ↔
          mle (interleave (2 ^ k) (2 ^ (G + m)) inputs') ((msgOf proof 0).qL H G ++ (msgOf proof 0).qN H G) =
            mle (interleave (2 ^ k) (2 ^ (G + m)) inputs) ((msgOf proof 0).qL H G ++ (msgOf proof 0).qN H G) ∧
          mle (interleave (2 ^ k) (2 ^ (G + m)) inputs') ((msgOf proof 0).qR H G ++ (msgOf proof 0).qN H G) =
            mle (interleave (2 ^ k) (2 ^ (G + m)) inputs) ((msgOf proof 0).qR H G ++ (msgOf proof 0).qN H G)) := by
  have hne' : (newCircuit wiring).layers ≠ [] := by simpa [newCircuit] using hne
  have hpos := List.length_pos_of_ne_nil hne'
  obtain ⟨l0, hl0⟩ : ∃ l0, (newCircuit wiring).layers[0]? = some l0 := ⟨_, List.getElem?_eq_getElem hpos⟩
  obtain ⟨ln, hln⟩ : ∃ ln, (newCircuit wiring).layers[(newCircuit wiring).layers.length - 1]? = some ln :=
    ⟨_, List.getElem?_eq_getElem (by omega)⟩
  have hA := honest_of_wired wiring hne hw G k m hG inputs hin
  obtain ⟨a, b, _, d⟩ := wiredAssignment_facts k m _ G inputs hG hin
  have hlast : (wiredAssignment (2 ^ m) (newCircuit wiring).layers inputs)[(newCircuit wiring).layers.length]? = some outputs := by
    rw [List.getLast?_eq_getElem?, a] at hout
    exact hout
  obtain ⟨p, proof, h1, h2, _, hall⟩ := gkr_honest H (newCircuit wiring) k m _ hA inputs outputs b hlast nCore hc l0 ln hl0 hln
  obtain ⟨p', proof', h1', h2', hacc⟩ := C22_complete_partial H wiring hne hw G k m hk hG inputs _ hin hout nCore hc
  obtain rfl : p = p' := by rw [h1] at h1'; exact Except.ok.inj h1'
  obtain rfl : proof = proof' := by rw [h2] at h2'; exact Except.ok.inj h2'
  have hwo : WellChunked k (ln.bGOutputs + m) outputs := by
    obtain ⟨v, hv⟩ : ∃ v, (wiredAssignment (2 ^ m) (newCircuit wiring).layers inputs)[(newCircuit wiring).layers.length - 1]? =
        some v := ⟨_, List.getElem?_eq_getElem (by omega)⟩
    obtain ⟨d1, d2⟩ := d _ ln v hln hv
    rw [Nat.sub_add_cancel hpos, hlast] at d2
    rw [Option.some.inj d2]
    refine ⟨by simp [d1.1], ?_⟩
    intro o ho
    obtain ⟨x, _, rfl⟩ := List.mem_map.1 ho
    simp [wiredOutputs, pow_add]
  unfold tableOf at hall
  rw [chained_first hG hl0] at hall
  refine ⟨p, proof, h1, h2, fun inputs' hin' => ⟨fun h => ?_, fun h => ?_⟩⟩
  · by_contra hd
    rw [not_and_or] at hd
    exact C43_binds_partial H wiring hne hw G k m hk hG ln hln inputs inputs' outputs hin' hwo proof hall
      (hd.imp (fun h e => h e.symm) fun h e => h e.symm) h
  · exact C43_only_two_values H wiring hne hw G k m hk hG ln hln inputs inputs' outputs hin hin' hwo proof h.1.symm h.2.symm hacc

/-- The hypotheses are met by the two-layer circuit on two chunks of two instances; there an honest proof exists, so the
hypotheses of `C43_binds_partial` are met too. -/
example (H : List Fr → Fr) : ∃ p proof outputs,
    newGkrProver (newCircuit miniWiring) (wiredAssignment 2 (newCircuit miniWiring).layers [[1, 2, 5, 6], [3, 4, 7, 8]]) = .ok p ∧
      p.prove H 1 = .ok proof ∧
      gkrVerify H 2 (newCircuit miniWiring) proof [[1, 2, 5, 6], [3, 4, 7, 8]] outputs = .ok true := by
  obtain ⟨p, proof, h1, h2, h3⟩ := C43_honest_iff_partial H miniWiring (by simp [miniWiring]) miniWiring_good 1 1 1 le_rfl
    ⟨by decide +kernel, by decide +kernel, trivial⟩ [[1, 2, 5, 6], [3, 4, 7, 8]] _ ⟨rfl, by simp⟩ rfl 1 le_rfl
  exact ⟨p, proof, _, h1, h2, (h3 _ ⟨rfl, by simp⟩).2 ⟨rfl, rfl⟩⟩

/-- Two linear conditions on three unknowns have a non-zero solution. -/
theorem two_conditions (a b : Nat → F) : ∃ v : Nat → F, (∃ i < 3, v i ≠ 0) ∧ (∀ i, 3 ≤ i → v i = 0) ∧
    v 0 * a 0 + v 1 * a 1 + v 2 * a 2 = 0 ∧ v 0 * b 0 + v 1 * b 1 + v 2 * b 2 = 0 := by
  have mk : ∀ x y z : F, (x ≠ 0 ∨ y ≠ 0 ∨ z ≠ 0) → x * a 0 + y * a 1 + z * a 2 = 0 → x * b 0 + y * b 1 + z * b 2 = 0 →
      ∃ v : Nat → F, (∃ i < 3, v i ≠ 0) ∧ (∀ i, 3 ≤ i → v i = 0) ∧
        v 0 * a 0 + v 1 * a 1 + v 2 * a 2 = 0 ∧ v 0 * b 0 + v 1 * b 1 + v 2 * b 2 = 0 := by
    intro x y z h h1 h2
    refine ⟨fun i => [x, y, z].getD i 0, ?_, ?_, by simpa using h1, by simpa using h2⟩
    · rcases h with h | h | h
      · exact ⟨0, by omega, by simpa using h⟩
      · exact ⟨1, by omega, by simpa using h⟩
      · exact ⟨2, by omega, by simpa using h⟩
    · intro i hi
      exact List.getD_eq_default _ _ (by simpa using hi)
  by_cases h0 : a 0 = 0 ∧ b 0 = 0
  · exact mk 1 0 0 (.inl one_ne_zero) (by rw [h0.1]; ring) (by rw [h0.2]; ring)
  by_cases h1 : a 0 * b 1 - a 1 * b 0 = 0
  · by_cases ha : a 0 = 0
    · exact mk (b 1) (-b 0) 0 (.inr (.inl (neg_ne_zero.2 fun h => h0 ⟨ha, h⟩))) (by linear_combination h1) (by ring)
    · exact mk (a 1) (-a 0) 0 (.inr (.inl (neg_ne_zero.2 ha))) (by ring) (by linear_combination -h1)
  · exact mk (a 1 * b 2 - a 2 * b 1) (a 2 * b 0 - a 0 * b 2) (a 0 * b 1 - a 1 * b 0) (.inr (.inr h1)) (by ring) (by ring)

/-- The inputs with `v` added, by global index. -/
def shiftInputs (k n : Nat) (inputs : List (List F)) (v : Nat → F) : List (List F) :=
  chunksOf (2 ^ k) (2 ^ n) fun i => (interleave (2 ^ k) (2 ^ n) inputs).getD i 0 + v i

theorem shiftInputs_wellChunked (k n : Nat) (inputs : List (List F)) (v : Nat → F) : WellChunked k n (shiftInputs k n inputs v) :=
  chunksOf_wellChunked k n _

theorem mle_shiftInputs (k n : Nat) (inputs : List (List F)) (v : Nat → F) (hv : ∀ i, 3 ≤ i → v i = 0) (x : List F)
    (hx : x.length = n + k) (h2 : 2 ≤ n + k) : mle (interleave (2 ^ k) (2 ^ n) (shiftInputs k n inputs v)) x =
      mle (interleave (2 ^ k) (2 ^ n) inputs) x + (v 0 * chi x 0 + v 1 * chi x 1 + v 2 * chi x 2) := by
  unfold shiftInputs
  rw [interleave_chunksOf, ← pow_add]
  unfold mle mleF
  rw [hx]
  have h4 : 3 ≤ 2 ^ (n + k) := le_trans (by norm_num) (Nat.pow_le_pow_right (by norm_num : 0 < 2) h2)
  have e : (Finset.range 3).sum (fun i => v i * chi x i) = (Finset.range (2 ^ (n + k))).sum (fun i => v i * chi x i) := by
    apply Finset.sum_subset
    · intro i hi
      exact Finset.mem_range.2 (by have := Finset.mem_range.1 hi; omega)
    · intro i _ hi
      rw [hv i (by simpa using hi), zero_mul]
  have e3 : (Finset.range 3).sum (fun i => v i * chi x i) = v 0 * chi x 0 + v 1 * chi x 1 + v 2 * chi x 2 := by
    simp [Finset.sum_range_succ]
  rw [← e3, e, ← Finset.sum_add_distrib]
  apply Finset.sum_congr rfl
  intro i hi
  beta_reduce
  rw [tab_getD (Finset.mem_range.1 hi)]
  ring

/-- C43: for every proof and any inputs there are three numbers, not all 0, which can be added to the first three inputs without
changing the answer of `Verify` from true to anything else. -/
theorem C43_shift (H : List F → F) (wiring : List (List (Wire F))) (hne : wiring ≠ [])
    (hw : ∀ ws ∈ wiring, GoodWires ws) (G k m : Nat) (hk : 1 ≤ k) (h2 : 2 ≤ G + m + k) (hG : Chained G (newCircuit wiring).layers)
    (ln : Layer F) (hln : (newCircuit wiring).layers[(newCircuit wiring).layers.length - 1]? = some ln)
    (inputs outputs : List (List F)) (hin : WellChunked k (G + m) inputs)
    (hout : WellChunked k (ln.bGOutputs + m) outputs) (proof : GkrProof F)
    (hacc : gkrVerify H (m + k) (newCircuit wiring) proof inputs outputs = .ok true) :
    ∃ v : Nat → F, (∃ i < 3, v i ≠ 0) ∧ (∀ i, 3 ≤ i → v i = 0) ∧
      gkrVerify H (m + k) (newCircuit wiring) proof (shiftInputs k (G + m) inputs v) outputs = .ok true := by
  obtain ⟨v, v1, v2, v3, v4⟩ := two_conditions (chi ((msgOf proof 0).qL H G ++ (msgOf proof 0).qN H G))
    (chi ((msgOf proof 0).qR H G ++ (msgOf proof 0).qN H G))
  refine ⟨v, v1, v2, ?_⟩
  have hne' : (newCircuit wiring).layers ≠ [] := by simpa [newCircuit] using hne
  obtain ⟨l0, hl0⟩ : ∃ l0, (newCircuit wiring).layers[0]? = some l0 :=
    ⟨_, List.getElem?_eq_getElem (List.length_pos_of_ne_nil hne')⟩
  have acc := (C23_accepts_iff H wiring hne hw G k m hk hG ln hln inputs outputs hin hout proof).1 hacc
  obtain ⟨a1, a2, a3, a4⟩ := acc
  rcases a4 with ⟨_, a5⟩ | a4
  · have hN := (a5 l0 hl0).1
    rw [chained_first hG hl0] at hN
    have hlr : 2 * G ≤ (msgOf proof 0).rounds.length := by
      rcases Nat.eq_zero_or_pos (m + k) with h | h
      · omega
      · rw [Msg.qN_length] at hN
        omega
    have hlL : ((msgOf proof 0).qL H G).length = G := by simp [Msg.qL]; omega
    have hlR : ((msgOf proof 0).qR H G).length = G := by simp [Msg.qR]; omega
    apply C43_only_two_values H wiring hne hw G k m hk hG ln hln inputs _ outputs hin (shiftInputs_wellChunked _ _ _ _) hout proof
      _ _ hacc
    · rw [mle_shiftInputs k (G + m) inputs v v2 _ (by simp [hlL, hN]; omega) h2, v3, add_zero]
    · rw [mle_shiftInputs k (G + m) inputs v v2 _ (by simp [hlR, hN]; omega) h2, v4, add_zero]
  · rw [C23_accepts_iff H wiring hne hw G k m hk hG ln hln _ outputs (shiftInputs_wellChunked _ _ _ _) hout]
    exact ⟨a1, a2, a3, .inr a4⟩

/-- The outputs of the MiMC circuit as a function of its inputs. -/
theorem mimc_outputs (k m : Nat) (inputs : List (List Fr)) (hin : WellChunked k (1 + m) inputs) (nCore : Int) (hn : 1 ≤ nCore) :
    ∃ c values, createMimcCircuit frString arks = .ok c ∧ c.assign inputs nCore = .ok values ∧
      values.getLast? = some (inputs.map fun x => mimcExpected (unMimcChunk x)) := by
  obtain ⟨c, values, hc, hassign, hlast⟩ := C27_circuit (2 ^ m) (inputs.map unMimcChunk) (by
    intro p hp
    obtain ⟨x, hx, rfl⟩ := List.mem_map.1 hp
    have := hin.2 x hx
    simp only [unMimcChunk, List.length_zipWith, List.length_take, List.length_drop, this, pow_add]
    omega) nCore hn
  have hid : (inputs.map unMimcChunk).map mimcChunk = inputs := by
    rw [List.map_map]
    conv_rhs => rw [← List.map_id inputs]
    apply List.map_congr_left
    intro x hx
    exact mimcChunk_unMimcChunk x (2 ^ m) (by rw [hin.2 x hx, pow_add]; rfl)
  rw [hid] at hassign
  rw [List.map_map] at hlast
  exact ⟨c, values, hc, hassign, hlast⟩

theorem mimcExpected_getD (x : List Fr) (N : Nat) (hx : x.length = 2 * N) (u : Nat) (hu : u < N) :
    (mimcExpected (unMimcChunk x)).getD u 0 =
      mimcCipher (arks.take 91) (x.getD (N + u) 0) (x.getD u 0 - x.getD (N + u) 0) + x.getD (N + u) 0 := by
  have e : x.length / 2 = N := by omega
  unfold mimcExpected unMimcChunk
  rw [e]
  have h1 : u < x.length := by omega
  have h2 : N + u < x.length := by omega
  simp [List.getD_eq_getElem?_getD, List.getElem?_zipWith, List.getElem?_drop, hu,
    List.getElem?_eq_getElem h1, List.getElem?_eq_getElem h2]

/-- C43 is false, with the real circuit and challenge function, for any inputs of four instances or more: the proof made by the
prover for `inputs` and their outputs is accepted for the same outputs and other inputs, which differ in the first three states
only, and whose true outputs are different. -/
theorem C43_negation (k m : Nat) (hk : 1 ≤ k) (h2 : 2 ≤ m + k) (inputs : List (List Fr)) (hin : WellChunked k (1 + m) inputs) :
    ∃ c values outputs p proof, createMimcCircuit frString arks = .ok c ∧ c.assign inputs 1 = .ok values ∧
      values.getLast? = some outputs ∧ newGkrProver c values = .ok p ∧ p.prove mimcHash 1 = .ok proof ∧
      gkrVerify mimcHash (m + k) c proof inputs outputs = .ok true ∧
      ∃ inputs' values' outputs', WellChunked k (1 + m) inputs' ∧ inputs' ≠ inputs ∧
        (∀ i, 3 ≤ i → (interleave (2 ^ k) (2 ^ (1 + m)) inputs').getD i 0 =
          (interleave (2 ^ k) (2 ^ (1 + m)) inputs).getD i 0) ∧
        c.assign inputs' 1 = .ok values' ∧ values'.getLast? = some outputs' ∧ outputs' ≠ outputs ∧
        gkrVerify mimcHash (m + k) c proof inputs' outputs = .ok true := by
  obtain ⟨c, values, outputs, p, proof, hc, hassign, hlast, hp, hproof, hacc⟩ :=
    C22_mimc_partial k m hk inputs hin 1 1 le_rfl le_rfl
  refine ⟨c, values, outputs, p, proof, hc, hassign, hlast, hp, hproof, hacc, ?_⟩
  have hcc : c = newCircuit (mimcWiring frString (arks.take 91)) := by
    rw [mimc_circuit] at hc
    exact (Except.ok.inj hc).symm
  have hout : outputs = inputs.map fun x => mimcExpected (unMimcChunk x) := by
    obtain ⟨c', values', hc', hassign', hlast'⟩ := mimc_outputs k m inputs hin 1 le_rfl
    obtain rfl : c = c' := by rw [hc] at hc'; exact Except.ok.inj hc'
    obtain rfl : values = values' := by rw [hassign] at hassign'; exact Except.ok.inj hassign'
    rw [hlast'] at hlast
    exact (Option.some.inj hlast).symm
  have hwell : WellChunked k m outputs := by
    rw [hout]
    refine ⟨by simp [hin.1], ?_⟩
    intro o ho
    obtain ⟨x, hx, rfl⟩ := List.mem_map.1 ho
    have := hin.2 x hx
    simp only [mimcExpected, unMimcChunk, List.length_zipWith, List.length_take, List.length_drop, this, pow_add]
    omega
  have hb : (newLayer (mimcLastWires frString ((arks.take 91).getLastD 0))).bGOutputs = 0 := by simp
  have hne : mimcWiring frString (arks.take 91) ≠ [] := by
    intro h
    have := mimc_ln
    rw [h] at this
    simp [newCircuit] at this
  rw [hcc] at hacc
  obtain ⟨v, ⟨j, hj3, hvj⟩, hv3, hacc'⟩ := C43_shift mimcHash (mimcWiring frString (arks.take 91)) hne (mimcWiring_good _ _) 1 k m hk
    (by omega) (mimcWiring_chained _ _) _ mimc_ln inputs outputs hin (by rw [hb, Nat.zero_add]; exact hwell) proof hacc
  have hin' := shiftInputs_wellChunked k (1 + m) inputs v
  have hget : ∀ i < 2 ^ (1 + m) * 2 ^ k, (interleave (2 ^ k) (2 ^ (1 + m)) (shiftInputs k (1 + m) inputs v)).getD i 0 =
      (interleave (2 ^ k) (2 ^ (1 + m)) inputs).getD i 0 + v i := by
    intro i hi
    unfold shiftInputs
    rw [interleave_chunksOf, tab_getD hi]
  obtain ⟨c', values', hc', hassign', hlast'⟩ := mimc_outputs k m _ hin' 1 le_rfl
  obtain rfl : c = c' := by rw [hc] at hc'; exact Except.ok.inj hc'
  have hdiff : ((shiftInputs k (1 + m) inputs v).map fun x => mimcExpected (unMimcChunk x)) ≠ outputs := by
    rw [hout]
    intro h
    have hK : 0 < 2 ^ k := Nat.two_pow_pos _
    have h4 : 4 ≤ 2 ^ m * 2 ^ k := by
      rw [← pow_add]
      exact le_trans (by norm_num) (Nat.pow_le_pow_right (by norm_num : 0 < 2) h2)
    have hs : j % 2 ^ k < 2 ^ k := Nat.mod_lt _ hK
    have hu : j / 2 ^ k < 2 ^ m := by rw [Nat.div_lt_iff_lt_mul hK]; omega
    have hs1 : j % 2 ^ k < inputs.length := by rw [hin.1]; exact hs
    have hs2 : j % 2 ^ k < (shiftInputs k (1 + m) inputs v).length := by rw [hin'.1]; exact hs
    have e0 : ∀ u, u < 2 ^ (1 + m) → ((shiftInputs k (1 + m) inputs v)[j % 2 ^ k]).getD u 0 =
        (inputs[j % 2 ^ k]).getD u 0 + v (u * 2 ^ k + j % 2 ^ k) := by
      intro u hu
      have e : (shiftInputs k (1 + m) inputs v)[j % 2 ^ k] = tab (2 ^ (1 + m)) fun u =>
          (interleave (2 ^ k) (2 ^ (1 + m)) inputs).getD (u * 2 ^ k + j % 2 ^ k) 0 + v (u * 2 ^ k + j % 2 ^ k) := by
        simp [shiftInputs, chunksOf]
      rw [e, tab_getD hu]
      congr 1
      have hi : u * 2 ^ k + j % 2 ^ k < 2 ^ (1 + m) * 2 ^ k := by
        calc u * 2 ^ k + j % 2 ^ k < (u + 1) * 2 ^ k := by rw [add_mul]; omega
          _ ≤ _ := Nat.mul_le_mul_right _ hu
      unfold interleave
      have q1 : (u * 2 ^ k + j % 2 ^ k) % 2 ^ k = j % 2 ^ k := by
        rw [Nat.mul_comm, Nat.mul_add_mod, Nat.mod_mod]
      have q2 : (u * 2 ^ k + j % 2 ^ k) / 2 ^ k = u := by
        rw [Nat.mul_comm, Nat.mul_add_div hK, Nat.div_eq_of_lt hs, Nat.add_zero]
      simp [List.getD_eq_getElem?_getD, List.getElem?_range hi, q1, q2, List.getElem?_eq_getElem hs1]
    have e : mimcExpected (unMimcChunk ((shiftInputs k (1 + m) inputs v)[j % 2 ^ k])) =
        mimcExpected (unMimcChunk (inputs[j % 2 ^ k])) := by
      have := congrArg (fun l => l[j % 2 ^ k]?) h
      simpa [List.getElem?_eq_getElem hs1, List.getElem?_eq_getElem hs2] using this
    have e' := congrArg (fun l => l.getD (j / 2 ^ k) 0) e
    beta_reduce at e'
    have hpm : 2 ^ (1 + m) = 2 * 2 ^ m := by rw [pow_add, pow_one]
    rw [mimcExpected_getD _ (2 ^ m) ((hin'.2 _ (List.getElem_mem _)).trans hpm) _ hu,
      mimcExpected_getD _ (2 ^ m) ((hin.2 _ (List.getElem_mem _)).trans hpm) _ hu,
      e0 _ (by omega), e0 _ (by omega), hv3 ((2 ^ m + j / 2 ^ k) * 2 ^ k + j % 2 ^ k) (by rw [add_mul]; omega), add_zero,
      Nat.div_add_mod'] at e'
    have := (mimcCipher_bijective (arks.take 91) _).1 (add_right_cancel e')
    apply hvj
    linear_combination this
  refine ⟨_, values', _, hin', ?_, ?_, hassign', hlast', hdiff, ?_⟩
  · intro h
    rw [h] at hdiff
    exact hdiff hout.symm
  · intro i hi
    by_cases hlt : i < 2 ^ (1 + m) * 2 ^ k
    · rw [hget i hlt, hv3 i hi, add_zero]
    · unfold interleave
      rw [List.getD_eq_default _ _ (by simpa using hlt), List.getD_eq_default _ _ (by simpa using hlt)]
  · rw [hcc]
    exact hacc'

/-- Four instances in two chunks satisfy the hypotheses of `C43_negation`. -/
example : WellChunked 1 (1 + 1) ([[1, 2, 3, 4], [5, 6, 7, 8]] : List (List Fr)) := ⟨rfl, by simp⟩

end GkrMimc
