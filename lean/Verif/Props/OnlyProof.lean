import Verif.Proofs.TrueProof
import Verif.Props.DrawnPoint

/-! Property C72: all the messages of the prover say the truth, and up to unlucky challenges nobody can find another proof that
passes the checks. -/

set_option linter.unusedSectionVars false

namespace GkrMimc

open Spec Finset

section

variable {F : Type} [Field F] [DecidableEq F]

/-- C72. The single-threaded sumcheck prover sends the partial sums of the summand. -/
theorem C72_sumcheck_true [SmallCasts F] (H : List F → F) (gates : List (Gate F)) (hne : gates ≠ [])
    (hg : ∀ g ∈ gates, LawfulGate g) (hd : DegreesOk gates) (bN bG : Nat) (vL vR eq : List F) (statics : List (List F))
    (h : Sized gates bN bG vL vR eq statics) :
    ∃ out, (newSProver vL vR eq gates statics).prove H = .ok out ∧
      TrueSums H out.polyCoeffs (summand gates bG vL vR eq statics) := by
  obtain ⟨out, h1, _⟩ := prove_spec H hg hd hne h
  exact ⟨out, h1, prove_sums H hg hd hne h h1⟩

/-- C72. If `Verify` accepts round polynomials with the numbers of coefficients of the prover's, and the value it is left with is
that of the summand at the challenges, then they are the polynomials of the prover, or some challenge is unlucky: a polynomial
that is not the partial sum agrees with it at the challenge. The claim need not be assumed to be right. -/
theorem C72_sumcheck [SmallCasts F] (H : List F → F) (gates : List (Gate F)) (hne : gates ≠ [])
    (hg : ∀ g ∈ gates, LawfulGate g) (hd : DegreesOk gates) (bN bG : Nat) (vL vR eq : List F) (statics : List (List F))
    (h : Sized gates bN bG vL vR eq statics) (D : Nat) (hD : DegreesLe D gates) (claim : F) (cs : List (List F))
    (v : SumcheckVerdict F) (hacc : sumcheckVerify H claim cs bG = .ok (some v))
    (hlen : cs.map List.length = List.replicate bG (degL gates + 1) ++ List.replicate bG (degR gates + 1) ++
      List.replicate bN (degP gates + 1))
    (hfinal : v.finalClaim = combinator gates (mle vL (v.qL ++ v.qPrime)) (mle vR (v.qR ++ v.qPrime)) (mle eq v.qPrime)
      (statics.map fun t => mle t (v.qL ++ v.qR))) :
    (∃ out, (newSProver vL vR eq gates statics).prove H = .ok out ∧ out.polyCoeffs = cs) ∨
      UnluckyRound H cs (summand gates bG vL vR eq statics) (D + 1) := by
  by_cases hb : UnluckyRound H cs (summand gates bG vL vR eq statics) (D + 1)
  · exact .inr hb
  left
  obtain ⟨out, h1, _, _, _, h5, _⟩ := prove_spec H hg hd hne h
  have hn : cs.length = 2 * bG + bN := by
    have := congrArg List.length hlen
    simp at this
    omega
  obtain ⟨_, c2, c3, c4, c5, c6, c7⟩ := (C17_accepts_iff H _ _ _ _).1 hacc
  have ht : TrueSums H cs (summand gates bG vL vR eq statics) := by
    refine true_core H (D + 1) cs _ claim ?_ c2 ?_ hb
    · intro pre _
      exact (PolyLe.cubeSum _ _ (fun b _ => summand_poly gates hg bG vL vR eq statics pre b)).mono (summandDeg_le hD _ _)
    · rw [← c7, hfinal, c4, c5, c6]
      unfold summand
      have : (cs.map H).take bG ++ ((cs.map H).drop bG).take bG = (cs.map H).take (2 * bG) := by
        rw [two_mul, List.take_add]
      rw [this]
  refine ⟨out, h1, trueSums_unique (prove_sums H hg hd hne h h1) ht (h5.trans hlen.symm) ?_⟩
  intro p hp
  have hmem : p.length ∈ out.polyCoeffs.map List.length := List.mem_map_of_mem hp
  rw [h5] at hmem
  have := hd.bounds
  simp only [List.mem_append, List.mem_replicate] at hmem
  omega

/-- C72. `Prove` as it is: at every layer of every circuit that evaluates as wired, the round polynomials are the partial sums and
the claims are the extensions of the values of the layer. -/
theorem C72_prove_true [SmallCasts F] (H : List F → F) (wiring : List (List (Wire F))) (hne : wiring ≠ [])
    (hw : ∀ ws ∈ wiring, GoodWires ws) (G k m : Nat) (hG : Chained G (newCircuit wiring).layers)
    (ln : Layer F) (hln : (newCircuit wiring).layers[(newCircuit wiring).layers.length - 1]? = some ln)
    (inputs outputs : List (List F)) (hin : WellChunked k (G + m) inputs)
    (hout : (wiredAssignment (2 ^ m) (newCircuit wiring).layers inputs).getLast? = some outputs)
    (nCore : Int) (hc : 1 ≤ nCore) :
    ∃ p proof, newGkrProver (newCircuit wiring) (wiredAssignment (2 ^ m) (newCircuit wiring).layers inputs) = .ok p ∧
      p.prove H nCore = .ok proof ∧
      ∀ (i : Nat) (l : Layer F) (v : List (List F)), (newCircuit wiring).layers[i]? = some l →
        (wiredAssignment (2 ^ m) (newCircuit wiring).layers inputs)[i]? = some v →
        TrueMsg H l (tableOf k m l v) (goalOf H (newCircuit wiring).layers proof (outputGoal k m ln outputs) i) (msgOf proof i) := by
  have hA := honest_of_wired wiring hne hw G k m hG inputs hin
  obtain ⟨a, b, _, _⟩ := wiredAssignment_facts k m _ G inputs hG hin
  obtain ⟨l0, hl0⟩ : ∃ l0, (newCircuit wiring).layers[0]? = some l0 :=
    ⟨_, List.getElem?_eq_getElem (List.length_pos_of_ne_nil hA.nonempty)⟩
  rw [List.getLast?_eq_getElem?, a, Nat.add_sub_cancel] at hout
  obtain ⟨p, proof, h1, h2, h3, h4, _, _, h7⟩ := gkr_true_at H _ k m _ hA inputs outputs b hout nCore hc l0 ln hl0 hln
    (getInitialQPrimeAndQ (m + k) ln.bGOutputs).2 (getInitialQPrimeAndQ (m + k) ln.bGOutputs).1
    (by simp [getInitialQPrimeAndQ]) (by simp [getInitialQPrimeAndQ])
  refine ⟨p, proof, h1, ?_, h7⟩
  rw [prove_eq_proveAt H p ln (by rw [h2]; exact hln), h3]
  exact h4

/-- The core: two proofs of the right shape, one consistent and without unlucky challenges, one made by the prover. -/
theorem only_core [SmallCasts F] (H : List F → F) (c : Circuit F) (k m : Nat) (values : List (List (List F)))
    (hA : HonestAssignment c k m values) (inputs : List (List F)) (hin : values[0]? = some inputs) (nCore : Int) (hc : 1 ≤ nCore)
    (l0 ln : Layer F) (hl0 : c.layers[0]? = some l0) (hln : c.layers[c.layers.length - 1]? = some ln)
    (D : Nat) (hD : ∀ l ∈ c.layers, DegreesLe D l.gates) (q q' : List F) (hq : q.length = ln.bGOutputs) (hq' : q'.length = m + k)
    (claim : F) (proof : GkrProof F) (hs : ProofShape c (m + k) proof)
    (hcons : GkrConsistent H (m + k) c.layers proof (tableOf k m l0 inputs) ⟨claim, q', chi q⟩)
    (hgood : ¬ ∃ (i : Nat) (l : Layer F) (v : List (List F)), c.layers[i]? = some l ∧ values[i]? = some v ∧
      (BadRound H l (tableOf k m l v) (goalOf H c.layers proof ⟨claim, q', chi q⟩ i) (msgOf proof i) (D + 1) ∨
        BadCombination H l.bGInputs (tableOf k m l v) (msgOf proof i))) :
    ∃ p, newGkrProver c values = .ok p ∧ p.circuit = c ∧ p.bN = m + k ∧ p.proveAt H q' q nCore = .ok proof := by
  obtain ⟨o, ho⟩ : ∃ o, values[c.layers.length]? = some o := ⟨_, List.getElem?_eq_getElem (by rw [hA.lengths]; omega)⟩
  obtain ⟨p, proof', h1, h2, h3, h4, h5, _, h7⟩ := gkr_true_at H _ k m _ hA inputs o hin ho nCore hc l0 ln hl0 hln q q' hq hq'
  have := true_unique H _ (m + k) _ k m hA.lengths (fun l hl => (hA.good l hl).degrees) proof proof' ⟨claim, q', chi q⟩
    ⟨mle (interleave (2 ^ k) (2 ^ (ln.bGOutputs + m)) o) (q ++ q'), q', chi q⟩ rfl rfl hs h5
    (true_down H _ proof ⟨claim, q', chi q⟩ k m _ hA inputs hin l0 hl0 D hD hq' hcons hgood) h7
  exact ⟨p, h1, h2, h3, by rw [this]; exact h4⟩

/-- C72. The proof that the prover makes is the only one: if the verifier with the repairs of C65 accepts a proof, for whatever
outputs and at whatever point, then it is what the prover returns on the values of the circuit, or some challenge is unlucky. -/
theorem C72_only [SmallCasts F] (H : List F → F) (wiring : List (List (Wire F))) (hne : wiring ≠ [])
    (hw : ∀ ws ∈ wiring, IdWires ws) (G k m : Nat) (hG : Chained G (newCircuitR wiring).layers)
    (ln : Layer F) (hln : (newCircuitR wiring).layers[(newCircuitR wiring).layers.length - 1]? = some ln)
    (D : Nat) (hD : ∀ ws ∈ wiring, ∀ w ∈ ws, w.gate.degHL ≤ D ∧ w.gate.degHR ≤ D ∧ w.gate.degHPrime ≤ D)
    (inputs outputs : List (List F)) (hin : WellChunked k (G + m) inputs) (hout : WellChunked k (ln.bGOutputs + m) outputs)
    (q q' : List F) (hq : q.length = ln.bGOutputs) (hq' : q'.length = m + k) (nCore : Int) (hc : 1 ≤ nCore) (proof : GkrProof F)
    (hacc : gkrVerifyAtR H (m + k) (newCircuitR wiring) q' q proof inputs outputs = .ok true) :
    (∃ p, newGkrProver (newCircuitR wiring) (wiredAssignment (2 ^ m) (newCircuitR wiring).layers inputs) = .ok p ∧
      p.proveAt H q' q nCore = .ok proof) ∨
    ∃ (i : Nat) (l : Layer F) (v : List (List F)), (newCircuitR wiring).layers[i]? = some l ∧
      (wiredAssignment (2 ^ m) (newCircuitR wiring).layers inputs)[i]? = some v ∧
      (BadRound H l (tableOf k m l v) (goalOf H (newCircuitR wiring).layers proof
          ⟨mle (interleave (2 ^ k) (2 ^ (ln.bGOutputs + m)) outputs) (q ++ q'), q', chi q⟩ i) (msgOf proof i) (D + 1) ∨
        BadCombination H l.bGInputs (tableOf k m l v) (msgOf proof i)) := by
  by_contra hcon
  rw [not_or] at hcon
  obtain ⟨hn, hgood⟩ := hcon
  apply hn
  have hA := honestR wiring hne hw G k m hG inputs hin
  obtain ⟨a, b, _, _⟩ := wiredAssignment_facts k m _ G inputs hG hin
  obtain ⟨l0, hl0⟩ : ∃ l0, (newCircuitR wiring).layers[0]? = some l0 :=
    ⟨_, List.getElem?_eq_getElem (List.length_pos_of_ne_nil hA.nonempty)⟩
  obtain ⟨x, hx, hx2⟩ := C66_verify H wiring hne hw G k m hG ln hln inputs outputs hin hout q q' hq hq' proof
  rw [hacc] at hx
  obtain rfl := Except.ok.inj hx
  obtain ⟨hs, hcons⟩ := hx2.1 rfl
  obtain ⟨p, h1, _, _, h4⟩ := only_core H _ k m _ hA inputs b nCore hc l0 ln hl0 hln D (newCircuitR_degrees hD) q q' hq hq' _ proof hs
    (by unfold tableOf; rw [chained_first hG hl0]; exact hcons) hgood
  exact ⟨p, h1, h4⟩

/-- C72. The same for the verifier with the repairs of C65 and the prover of the code, both at the point of the code: an accepted proof
is, message for message, what `Prove` returns, or some challenge is unlucky. -/
theorem C72_repaired [SmallCasts F] (H : List F → F) (wiring : List (List (Wire F))) (hne : wiring ≠ [])
    (hw : ∀ ws ∈ wiring, IdWires ws) (G k m : Nat) (hG : Chained G (newCircuitR wiring).layers)
    (ln : Layer F) (hln : (newCircuitR wiring).layers[(newCircuitR wiring).layers.length - 1]? = some ln)
    (D : Nat) (hD : ∀ ws ∈ wiring, ∀ w ∈ ws, w.gate.degHL ≤ D ∧ w.gate.degHR ≤ D ∧ w.gate.degHPrime ≤ D)
    (inputs outputs : List (List F)) (hin : WellChunked k (G + m) inputs) (hout : WellChunked k (ln.bGOutputs + m) outputs)
    (nCore : Int) (hc : 1 ≤ nCore) (proof : GkrProof F)
    (hacc : gkrVerifyR H (m + k) (newCircuitR wiring) proof inputs outputs = .ok true) :
    (∃ p, newGkrProver (newCircuitR wiring) (wiredAssignment (2 ^ m) (newCircuitR wiring).layers inputs) = .ok p ∧
      p.prove H nCore = .ok proof) ∨
    ∃ (i : Nat) (l : Layer F) (v : List (List F)), (newCircuitR wiring).layers[i]? = some l ∧
      (wiredAssignment (2 ^ m) (newCircuitR wiring).layers inputs)[i]? = some v ∧
      (BadRound H l (tableOf k m l v) (goalOf H (newCircuitR wiring).layers proof (outputGoal k m ln outputs) i) (msgOf proof i) (D + 1) ∨
        BadCombination H l.bGInputs (tableOf k m l v) (msgOf proof i)) := by
  by_contra hcon
  rw [not_or] at hcon
  obtain ⟨hn, hgood⟩ := hcon
  apply hn
  have hA := honestR wiring hne hw G k m hG inputs hin
  obtain ⟨a, b, _, _⟩ := wiredAssignment_facts k m _ G inputs hG hin
  obtain ⟨l0, hl0⟩ : ∃ l0, (newCircuitR wiring).layers[0]? = some l0 :=
    ⟨_, List.getElem?_eq_getElem (List.length_pos_of_ne_nil hA.nonempty)⟩
  obtain ⟨x, hx, hx2⟩ := C65_verify H wiring hne hw G k m hG ln hln inputs outputs hin hout proof
  rw [hacc] at hx
  obtain rfl := Except.ok.inj hx
  obtain ⟨hs, hcons⟩ := hx2.1 rfl
  obtain ⟨p, h1, h2, h3, h4⟩ := only_core H _ k m _ hA inputs b nCore hc l0 ln hl0 hln D (newCircuitR_degrees hD)
    (getInitialQPrimeAndQ (m + k) ln.bGOutputs).2 (getInitialQPrimeAndQ (m + k) ln.bGOutputs).1
    (by simp [getInitialQPrimeAndQ]) (by simp [getInitialQPrimeAndQ]) _ proof hs
    (by unfold tableOf; rw [chained_first hG hl0]; exact hcons) hgood
  refine ⟨p, h1, ?_⟩
  rw [prove_eq_proveAt H p ln (by rw [h2]; exact hln), h3]
  exact h4

/-! The verifier of the code does not look at the shape of a proof. -/

theorem idx_append {α : Type} {xs : List α} {i : Nat} {a : α} (h : idx xs i = .ok a) (ys : List α) : idx (xs ++ ys) i = .ok a := by
  obtain ⟨hi, rfl⟩ : ∃ hi : i < xs.length, xs[i] = a := by
    unfold idx at h
    split at h
    · next x hx =>
      obtain ⟨hi, e⟩ := List.getElem?_eq_some_iff.1 hx
      exact ⟨hi, e.trans (Except.ok.inj h)⟩
    · cases h
  rw [idx_ok (by simp; omega)]
  simp [hi]

theorem verifyLayers_append (H : List F → F) (c : Circuit F) (inputs : List (List F)) (s : List (List (List F))) (a b : List F)
    (xs : List (List (List F))) (ys zs : List F) (n : Nat) : ∀ (v : SumcheckVerdict F) (r : Bool),
    verifyLayers H c ⟨s, a, b⟩ inputs n v = .ok r → verifyLayers H c ⟨s ++ xs, a ++ ys, b ++ zs⟩ inputs n v = .ok r := by
  induction n with
  | zero =>
    intro v r h
    unfold verifyLayers verifyInputs at h ⊢
    rw [bind_eq_ok] at h
    obtain ⟨⟨e1, e2⟩, h1, h⟩ := h
    rw [h1, ok_bind]
    dsimp only at h ⊢
    rw [bind_eq_ok] at h
    obtain ⟨cl, h2, h⟩ := h
    rw [idx_append h2, ok_bind]
    rw [bind_eq_ok] at h
    obtain ⟨cr, h3, h⟩ := h
    rw [idx_append h3, ok_bind]
    exact h
  | succ n ih =>
    intro v r h
    rw [verifyLayers, bind_eq_ok] at h
    obtain ⟨cl, h2, h⟩ := h
    rw [bind_eq_ok] at h
    obtain ⟨cr, h3, h⟩ := h
    dsimp only at h
    rw [bind_eq_ok] at h
    obtain ⟨sp, h4, h⟩ := h
    rw [bind_eq_ok] at h
    obtain ⟨l, h5, h⟩ := h
    rw [bind_eq_ok] at h
    obtain ⟨res, h6, h⟩ := h
    rw [verifyLayers, idx_append h2, ok_bind, idx_append h3, ok_bind]
    dsimp only
    rw [idx_append h4, ok_bind, h5, ok_bind, h6, ok_bind]
    rcases res with _ | v'
    · exact h
    dsimp only at h ⊢
    rw [bind_eq_ok] at h
    obtain ⟨e, h7, h⟩ := h
    rw [bind_eq_ok] at h
    obtain ⟨vl, h8, h⟩ := h
    rw [bind_eq_ok] at h
    obtain ⟨vr, h9, h⟩ := h
    rw [bind_eq_ok] at h
    obtain ⟨st, h10, h⟩ := h
    rw [bind_eq_ok] at h
    obtain ⟨co, h11, h⟩ := h
    rw [h7, ok_bind, idx_append h8, ok_bind, idx_append h9, ok_bind, h10, ok_bind, h11, ok_bind]
    split at h
    · next hne => rw [if_pos hne]; exact h
    · next hne => rw [if_neg hne]; exact ih v' r h

/-- C72. The verifier of the code gives the same answer when arbitrary messages are put after those of a proof. So it accepts as
many proofs as one likes for what it accepts one proof for. -/
theorem C72_appended (H : List F → F) (bN : Nat) (c : Circuit F) (proof : GkrProof F) (inputs outputs : List (List F)) (r : Bool)
    (h : gkrVerify H bN c proof inputs outputs = .ok r) (xs : List (List (List F))) (ys zs : List F) :
    gkrVerify H bN c ⟨proof.sumcheckProofs ++ xs, proof.claimsLeft ++ ys, proof.claimsRight ++ zs⟩ inputs outputs = .ok r := by
  obtain ⟨s, a, b⟩ := proof
  unfold gkrVerify at h ⊢
  dsimp only at h ⊢
  rw [bind_eq_ok] at h
  obtain ⟨l, h1, h⟩ := h
  rw [h1, ok_bind]
  rw [bind_eq_ok] at h
  obtain ⟨claim, h2, h⟩ := h
  rw [h2, ok_bind]
  rw [bind_eq_ok] at h
  obtain ⟨sp, h3, h⟩ := h
  rw [idx_append h3, ok_bind]
  rw [bind_eq_ok] at h
  obtain ⟨res, h4, h⟩ := h
  rw [h4, ok_bind]
  rcases res with _ | v
  · exact h
  dsimp only at h ⊢
  rw [bind_eq_ok] at h
  obtain ⟨e, h7, h⟩ := h
  rw [bind_eq_ok] at h
  obtain ⟨vl, h8, h⟩ := h
  rw [bind_eq_ok] at h
  obtain ⟨vr, h9, h⟩ := h
  rw [bind_eq_ok] at h
  obtain ⟨st, h10, h⟩ := h
  rw [bind_eq_ok] at h
  obtain ⟨co, h11, h⟩ := h
  rw [h7, ok_bind, idx_append h8, ok_bind, idx_append h9, ok_bind, h10, ok_bind, h11, ok_bind]
  split at h
  · next hne => rw [if_pos hne]; exact h
  · next hne => rw [if_neg hne]; exact verifyLayers_append H c inputs s a b xs ys zs _ v r h

/-- C72. In particular the proof of `Prove` is accepted whatever is appended to it, so for the verifier of the code the prover's is
not the only proof, not even when no challenge is unlucky: the challenges are those of the prover's proof. -/
theorem C72_malleable [SmallCasts F] (H : List F → F) (wiring : List (List (Wire F))) (hne : wiring ≠ [])
    (hw : ∀ ws ∈ wiring, GoodWires ws) (G k m : Nat) (hk : 1 ≤ k) (hG : Chained G (newCircuit wiring).layers)
    (inputs outputs : List (List F)) (hin : WellChunked k (G + m) inputs)
    (hout : (wiredAssignment (2 ^ m) (newCircuit wiring).layers inputs).getLast? = some outputs)
    (nCore : Int) (hc : 1 ≤ nCore) :
    ∃ p proof, newGkrProver (newCircuit wiring) (wiredAssignment (2 ^ m) (newCircuit wiring).layers inputs) = .ok p ∧
      p.prove H nCore = .ok proof ∧
      ∀ (xs : List (List (List F))) (ys zs : List F), gkrVerify H (m + k) (newCircuit wiring)
        ⟨proof.sumcheckProofs ++ xs, proof.claimsLeft ++ ys, proof.claimsRight ++ zs⟩ inputs outputs = .ok true := by
  obtain ⟨p, proof, h1, h2, h3⟩ := C22_complete_partial H wiring hne hw G k m hk hG inputs outputs hin hout nCore hc
  exact ⟨p, proof, h1, h2, C72_appended H _ _ proof inputs outputs true h3⟩

end

section

variable {F : Type} [Field F] [DecidableEq F] [Fintype F]

/-- C72. For every point, all claimed outputs, right or wrong, and every prover, which adapts to the challenges: at most
`N * (D + 1) * |F|^(N-1)` of the `|F|^N` choices of the challenges give a proof that is accepted and is not the one of `Prove`. -/
theorem C72_count [SmallCasts F] (P : Cheater F) (wiring : List (List (Wire F))) (hne : wiring ≠ [])
    (hw : ∀ ws ∈ wiring, IdWires ws) (G k m : Nat) (hG : Chained G (newCircuitR wiring).layers)
    (ln : Layer F) (hln : (newCircuitR wiring).layers[(newCircuitR wiring).layers.length - 1]? = some ln)
    (D : Nat) (hD : ∀ ws ∈ wiring, ∀ w ∈ ws, w.gate.degHL ≤ D ∧ w.gate.degHR ≤ D ∧ w.gate.degHPrime ≤ D)
    (inputs outputs : List (List F)) (hin : WellChunked k (G + m) inputs) (hout : WellChunked k (ln.bGOutputs + m) outputs)
    (q q' : List F) (hq : q.length = ln.bGOutputs) (hq' : q'.length = m + k) (nCore : Int) (hc : 1 ≤ nCore) :
    count (fun ρ : Fin (coins (m + k) (newCircuitR wiring).layers) → F =>
      ∃ H : List F → F, P.Drawn (m + k) (newCircuitR wiring).layers H (List.ofFn ρ) ∧
        gkrVerifyAtR H (m + k) (newCircuitR wiring) q' q (P.play (m + k) (newCircuitR wiring).layers (List.ofFn ρ)) inputs outputs =
          .ok true ∧
        ¬ ∃ p, newGkrProver (newCircuitR wiring) (wiredAssignment (2 ^ m) (newCircuitR wiring).layers inputs) = .ok p ∧
          p.proveAt H q' q nCore = .ok (P.play (m + k) (newCircuitR wiring).layers (List.ofFn ρ))) ≤
      coins (m + k) (newCircuitR wiring).layers * (D + 1) *
        Fintype.card F ^ (coins (m + k) (newCircuitR wiring).layers - 1) := by
  have hA := honestR wiring hne hw G k m hG inputs hin
  obtain ⟨a, b, _, _⟩ := wiredAssignment_facts k m _ G inputs hG hin
  obtain ⟨l0, hl0⟩ : ∃ l0, (newCircuitR wiring).layers[0]? = some l0 :=
    ⟨_, List.getElem?_eq_getElem (List.length_pos_of_ne_nil hA.nonempty)⟩
  refine le_trans (count_mono ?_) (gkr_bad_count (shortCheater P (D + 2)) (newCircuitR wiring) k m _ inputs b l0 hl0 D
    (fun pre => by simp [shortCheater])
    ⟨mle (interleave (2 ^ k) (2 ^ (ln.bGOutputs + m)) outputs) (q ++ q'), q', chi q⟩)
  rintro ρ ⟨H, hdr, hacc, hnot⟩
  obtain ⟨x, hx, hx2⟩ := C66_verify H wiring hne hw G k m hG ln hln inputs outputs hin hout q q' hq hq'
    (P.play (m + k) (newCircuitR wiring).layers (List.ofFn ρ))
  have hx' := hx
  rw [hacc] at hx'
  obtain rfl := Except.ok.inj hx'
  obtain ⟨hs, hcons⟩ := hx2.1 rfl
  obtain ⟨e1, e2⟩ := shortCheater_play P (D + 2) (m + k) (newCircuitR wiring).layers (List.ofFn ρ) (by
    intro i hi j hj
    obtain ⟨l, hl⟩ : ∃ l, (newCircuitR wiring).layers[i]? = some l := ⟨_, List.getElem?_eq_getElem hi⟩
    have hp : (P.play (m + k) (newCircuitR wiring).layers (List.ofFn ρ)).sumcheckProofs[i]? =
        some ((List.range (roundsOf (m + k) (newCircuitR wiring).layers i)).map fun j =>
          P.poly ((List.ofFn ρ).take (offset (m + k) (newCircuitR wiring).layers i + j))) := by
      simp [Cheater.play, hi]
    have hsh := hs.each i l _ hl hp
    unfold RoundShape at hsh
    have hmem : (P.poly ((List.ofFn ρ).take (offset (m + k) (newCircuitR wiring).layers i + j))).length ∈
        ((List.range (roundsOf (m + k) (newCircuitR wiring).layers i)).map fun j =>
          P.poly ((List.ofFn ρ).take (offset (m + k) (newCircuitR wiring).layers i + j))).map List.length :=
      List.mem_map.2 ⟨_, List.mem_map.2 ⟨j, by simpa using hj, rfl⟩, rfl⟩
    rw [hsh] at hmem
    have hd := newCircuitR_degrees hD l (List.mem_of_getElem? hl)
    have d1 : degL l.gates ≤ D + 1 := Nat.succ_le_succ (foldl_max_le _ D _ 0 (by omega) fun g hg => (hd g hg).1)
    have d2 : degR l.gates ≤ D + 1 := Nat.succ_le_succ (foldl_max_le _ D _ 0 (by omega) fun g hg => (hd g hg).2.1)
    have d3 : degP l.gates ≤ D + 1 := Nat.succ_le_succ (foldl_max_le _ D _ 0 (by omega) fun g hg => (hd g hg).2.2)
    simp only [List.mem_append, List.mem_replicate] at hmem
    omega)
  refine ⟨H, e2 H hdr, ?_⟩
  rw [e1]
  refine ⟨?_, (C72_only H wiring hne hw G k m hG ln hln D hD inputs outputs hin hout q q' hq hq' nCore hc _ hacc).resolve_left hnot⟩
  unfold tableOf
  rw [chained_first hG hl0]
  exact hcons

end

/-- C72 for the MiMC circuit with the real constants and all batches: of the `r^N` choices of the challenges, `N = 91 (2 + bN) + 90`,
at most `8 N r^(N-1)` let any prover pass with anything but the proof of `Prove`. -/
theorem C72_mimc_count (P : Cheater Fr) (k m : Nat) (pairs : List (List Fr × List Fr)) (hk : pairs.length = 2 ^ k)
    (hp : ∀ x ∈ pairs, x.1.length = 2 ^ m ∧ x.2.length = 2 ^ m) (outputs : List (List Fr)) (hout : WellChunked k m outputs)
    (q' : List Fr) (hq' : q'.length = m + k) (nCore : Int) (hc : 1 ≤ nCore) :
    ∃ c, createMimcCircuit frString arks = .ok c ∧ coins (m + k) c.layers = 91 * (2 + (m + k)) + 90 ∧
      count (fun ρ : Fin (coins (m + k) c.layers) → Fr => ∃ H : List Fr → Fr,
        P.Drawn (m + k) c.layers H (List.ofFn ρ) ∧
        gkrVerifyAtR H (m + k) c q' [] (P.play (m + k) c.layers (List.ofFn ρ)) (pairs.map mimcChunk) outputs = .ok true ∧
        ¬ ∃ p, newGkrProver c (wiredAssignment (2 ^ m) c.layers (pairs.map mimcChunk)) = .ok p ∧
          p.proveAt H q' [] nCore = .ok (P.play (m + k) c.layers (List.ofFn ρ))) ≤
      (91 * (2 + (m + k)) + 90) * 8 * frModulus ^ (91 * (2 + (m + k)) + 90 - 1) := by
  refine ⟨_, mimc_circuit, C45_mimc_coins _, ?_⟩
  have e := C65_same_circuit (mimcWiring frString (arks.take 91)) fun ws h => (mimcWiring_good _ _ ws h).nodup
  have := C72_count P (mimcWiring frString (arks.take 91)) mimc_ne (fun ws h => (mimcWiring_good _ _ ws h).idWires) 1 k m
    (by rw [e]; exact mimcWiring_chained _ _) _ (by rw [e]; exact mimc_lastLayer) 7 (mimc_degrees _ _)
    (pairs.map mimcChunk) outputs
    ⟨by simpa using hk, by
      intro c hc
      obtain ⟨x, hx, rfl⟩ := List.mem_map.1 hc
      simp [mimcChunk, hp x hx, pow_add]; omega⟩
    (by rw [last_bGOutputs, Nat.zero_add]; exact hout) [] q' (by rw [last_bGOutputs]; rfl) hq' nCore hc
  rw [e] at this
  refine this.trans (le_of_eq ?_)
  rw [C45_mimc_coins, show Fintype.card Fr = frModulus from ZMod.card _]

/-- C72. The witness of the gadget: for all inputs, claimed outputs and points, a proof that fits the slots of `AllocateProof` and
satisfies the assertions is the one that the native prover returns for the point, or some challenge is unlucky. -/
theorem C72_gadget (bN : Nat) (states blocks : List Fr) (hs : states.length = 2 ^ bN) (hb : blocks.length = 2 ^ bN)
    (q' vOutput : List Fr) (hq : q'.length = bN) (hout : vOutput.length = 2 ^ bN) (proof : GkrProof Fr)
    (sc : SnarkCircuit Fr) (hsc : createSnarkMimcCircuit arks = .ok sc)
    (c : Circuit Fr) (hc : createMimcCircuit frString arks = .ok c) (hshape : ProofShape c bN proof)
    (hsat : (snarkAssertValid arks sc proof [] q' (mimcChunk (states, blocks)) vOutput).Satisfied) (nCore : Int) (hn : 1 ≤ nCore) :
    (∃ p, newGkrProver c (wiredAssignment (2 ^ bN) c.layers [mimcChunk (states, blocks)]) = .ok p ∧
      p.proveAt mimcHash q' [] nCore = .ok proof) ∨
    ∃ (i : Nat) (l : Layer Fr) (v : List Fr), c.layers[i]? = some l ∧
      (wiredAssignment (2 ^ bN) c.layers [mimcChunk (states, blocks)])[i]? = some [v] ∧
      (BadRound mimcHash l v (goalOf mimcHash c.layers proof ⟨mle vOutput q', q', chi []⟩ i) (msgOf proof i) 8 ∨
        BadCombination mimcHash l.bGInputs v (msgOf proof i)) := by
  rw [snark_circuit] at hsc
  obtain rfl := Except.ok.inj hsc
  rw [mimc_circuit] at hc
  obtain rfl := Except.ok.inj hc
  have hlen : (mimcChunk (states, blocks)).length = 2 ^ (1 + bN) := by
    simp [mimcChunk, hs, hb, pow_add]; omega
  obtain ⟨_, hG⟩ := (snarkAssertValid_iff frString arks mimcHash arks_91 snarkHash_pure proof bN q' _ vOutput hq hlen hout).1 hsat
  unfold nativeCircuit at hG
  have hwc : WellChunked 0 (1 + bN) [mimcChunk (states, blocks)] := ⟨rfl, by simpa using hlen⟩
  have hA := honest_of_wired (mimcWiring frString (arks.take 91)) mimc_ne (mimcWiring_good _ _) 1 0 bN
    (mimcWiring_chained _ _) _ hwc
  obtain ⟨a, b, _, _⟩ := wiredAssignment_facts 0 bN _ 1 _ (mimcWiring_chained frString (arks.take 91)) hwc
  obtain ⟨l0, hl0⟩ : ∃ l0, (newCircuit (mimcWiring frString (arks.take 91))).layers[0]? = some l0 :=
    ⟨_, List.getElem?_eq_getElem (List.length_pos_of_ne_nil hA.nonempty)⟩
  have ht : ∀ (i : Nat) (l : Layer Fr) (v : List (List Fr)),
      (newCircuit (mimcWiring frString (arks.take 91))).layers[i]? = some l →
      (wiredAssignment (2 ^ bN) (newCircuit (mimcWiring frString (arks.take 91))).layers [mimcChunk (states, blocks)])[i]? = some v →
      ∃ x, v = [x] ∧ tableOf 0 bN l v = x := by
    intro i l v h1 h2
    obtain ⟨w1, w2⟩ := hA.chunked i l v h1 h2
    obtain ⟨x, rfl⟩ := List.length_eq_one_iff.1 w1
    refine ⟨x, rfl, ?_⟩
    unfold tableOf
    rw [show (2 : Nat) ^ 0 = 1 from rfl, interleave_one _ _ (w2 x (by simp))]
  by_contra hcon
  rw [not_or] at hcon
  obtain ⟨hn1, hgood⟩ := hcon
  apply hn1
  obtain ⟨x, hx, hx2⟩ := ht 0 l0 _ hl0 b
  obtain rfl : mimcChunk (states, blocks) = x := by simpa using hx
  obtain ⟨p, h1, _, _, h4⟩ := only_core mimcHash _ 0 bN _ hA _ b nCore hn l0 _ hl0 mimc_lastLayer 7
    (newCircuit_degrees (mimc_degrees _ _)) [] q' (by rw [last_bGOutputs]; rfl) hq (mle vOutput q') proof hshape
    (by rw [hx2]; exact hG) (by
      rintro ⟨i, l, v, g1, g2, g3⟩
      obtain ⟨x, rfl, hx⟩ := ht i l v g1 g2
      rw [hx] at g3
      exact hgood ⟨i, l, x, g1, g2, g3⟩)
  exact ⟨p, h1, h4⟩

/-- The hypotheses of `C72_only` are met by a proof that is accepted; a wrong claim in it is found, and so is a message too many. -/
example : (do
    let c : Circuit Fr := newCircuitR [[⟨0, 1, 0, addGate⟩, ⟨1, 0, 1, addGate⟩]]
    let values ← c.assignR [[1, 2, 5, 6]] 1
    let p ← newGkrProver c values
    let proof ← p.proveAt (fun l => l.sum + 3) [5] [2] 1
    let good ← gkrVerifyAtR (fun l => l.sum + 3) 1 c [5] [2] proof [[1, 2, 5, 6]] [[6, 8, 6, 8]]
    let bad ← gkrVerifyAtR (fun l => l.sum + 3) 1 c [5] [2] ⟨proof.sumcheckProofs, [1], proof.claimsRight⟩ [[1, 2, 5, 6]] [[6, 8, 6, 8]]
    let long ← gkrVerifyAtR (fun l => l.sum + 3) 1 c [5] [2] ⟨proof.sumcheckProofs ++ [[]], proof.claimsLeft, proof.claimsRight⟩
      [[1, 2, 5, 6]] [[6, 8, 6, 8]]
    return (good, bad, long)) = .ok (true, false, false) := by decide +kernel

/-- The same at the point of the code, for `C72_repaired`. -/
example : (do
    let c : Circuit Fr := newCircuitR [[⟨0, 1, 0, addGate⟩, ⟨1, 0, 1, addGate⟩]]
    let values ← c.assignR [[1, 2, 5, 6]] 1
    let p ← newGkrProver c values
    let proof ← p.prove (fun l => l.sum + 3) 1
    let good ← gkrVerifyR (fun l => l.sum + 3) 1 c proof [[1, 2, 5, 6]] [[6, 8, 6, 8]]
    let long ← gkrVerifyR (fun l => l.sum + 3) 1 c ⟨proof.sumcheckProofs ++ [[]], proof.claimsLeft, proof.claimsRight⟩
      [[1, 2, 5, 6]] [[6, 8, 6, 8]]
    return (good, long)) = .ok (true, false) := by decide +kernel

/-- The hypotheses of `C72_prove_true` and `C72_malleable` are met: two chunks of two instances each. -/
example : miniWiring ≠ [] ∧ (∀ ws ∈ miniWiring, GoodWires ws) ∧ Chained 1 (newCircuit miniWiring).layers ∧
    WellChunked 1 (1 + 1) [[1, 2, 5, 6], [3, 4, 7, (8 : Fr)]] :=
  ⟨by simp [miniWiring], miniWiring_good, ⟨by decide +kernel, by decide +kernel, trivial⟩, rfl, by simp⟩

/-- The hypotheses of the theorems on MiMC are met, and those of the theorems on sumcheck. -/
example : WellChunked 1 1 [[7, (8 : Fr)], [9, 10]] ∧ ([5, 6] : List Fr).length = 1 + 1 ∧
    (∀ x ∈ [([1, 2], [3, 4]), ([5, 6], [7, (8 : Fr)])], x.1.length = 2 ^ 1 ∧ x.2.length = 2 ^ 1) ∧
    Sized [addGate, (copyGate : Gate Fr)] 1 1 [1, 2, 3, 4] [1, 2, 3, 4] [5, 6] [[1, 0, 0, 0], [0, 1, 0, 0]] := by
  refine ⟨⟨rfl, by simp⟩, rfl, by simp, ?_⟩
  constructor <;> simp

end GkrMimc
