import Verif.Proofs.TrueTranscript
import Verif.Props.TranscriptProver

/-! Property C72 for transcript challenges: in the random oracle model nobody finds another accepted proof. -/

set_option linter.unusedSectionVars false

namespace GkrMimc

open Spec Finset Polynomial

section

variable {F : Type} [Field F] [DecidableEq F]

/-- Once the point is drawn the stage is no longer a point. -/
theorem draw_notPoint {bN bG : Nat} {layers : List (Layer F)} {U : List F} (h : List (List F × F) → List F → F)
    (n : Nat) : ∀ (past : List (List F × F)) (pre : List F), stageAfter bN bG layers U past = opening bN bG layers U pre →
      pre.length + n = bG + bN → NotPoint (stageAfter bN bG layers U (say h past (List.replicate n []))) := by
  induction n with
  | zero =>
    intro past pre hs hn
    change NotPoint (stageAfter bN bG layers U past)
    rw [hs, opening, if_neg (by omega)]
    trivial
  | succ n ih =>
    intro past pre hs hn
    have ho : opening bN bG layers U pre = .point pre := by rw [opening, if_pos (by omega)]
    rw [List.replicate_succ, say_cons]
    refine ih _ (pre ++ [h past []]) ?_ (by simp; omega)
    rw [stageAfter_snoc, hs, ho]
    rfl

/-- C72 for transcript challenges. If the verifier accepts, then the outputs are those of the circuit and the proof is the one that
the prover returns, or some challenge is unlucky: before the message the run was doomed, or the message does not say the truth, and
the challenge leads to a stage that is not doomed. -/
theorem C72_transcript [Fintype F] [SmallCasts F] (H : Query F → F) (wiring : List (List (Wire F))) (hne : wiring ≠ [])
    (hw : ∀ ws ∈ wiring, IdWires ws) (G k m : Nat) (hG : Chained G (newCircuitR wiring).layers)
    (ln : Layer F) (hln : (newCircuitR wiring).layers[(newCircuitR wiring).layers.length - 1]? = some ln)
    (inputs outputs : List (List F)) (hin : WellChunked k (G + m) inputs) (hout : WellChunked k (ln.bGOutputs + m) outputs)
    (proof : GkrProof F) (hacc : gkrVerifyT H (m + k) (newCircuitR wiring) proof inputs outputs = .ok true) :
    let h := fun past msg => H ⟨inputs, outputs, past, msg⟩
    let msgs := messages (ln.bGOutputs + (m + k)) (newCircuitR wiring).layers.length proof
    let U := interleave (2 ^ k) (2 ^ (ln.bGOutputs + m)) outputs
    ((wiredAssignment (2 ^ m) (newCircuitR wiring).layers inputs).getLast? = some outputs ∧
      gkrProveT H (m + k) (newCircuitR wiring) (wiredAssignment (2 ^ m) (newCircuitR wiring).layers inputs) = .ok proof) ∨
    ∃ (j : Nat) (hj : j < msgs.length), Unlucky (m + k) ln.bGOutputs (newCircuitR wiring).layers U
      (trueOutputTable k m ln.bGOutputs (newCircuitR wiring).layers inputs) (trueTable k m (newCircuitR wiring).layers inputs)
      (stageAfter (m + k) ln.bGOutputs (newCircuitR wiring).layers U (say h [] (msgs.take j))) msgs[j]
      (h (say h [] (msgs.take j)) msgs[j]) := by
  dsimp only
  by_contra hcon
  rw [not_or] at hcon
  obtain ⟨hn, hlucky⟩ := hcon
  apply hn
  obtain ⟨b, hb, hb2⟩ := C67_verify H wiring hne hw G k m hG ln hln inputs outputs hin hout proof
  rw [hacc] at hb
  obtain rfl := Except.ok.inj hb
  obtain ⟨hs, hA⟩ := hb2.1 rfl
  have hpos : 0 < (newCircuitR wiring).layers.length := List.length_pos_of_ne_nil (by simpa [newCircuitR] using hne)
  obtain ⟨l0, hl0⟩ : ∃ l0, (newCircuitR wiring).layers[0]? = some l0 := ⟨_, List.getElem?_eq_getElem hpos⟩
  obtain ⟨_, hv0, _, _⟩ := wiredAssignment_facts k m _ G inputs hG hin
  have e0 : trueTable k m (newCircuitR wiring).layers inputs 0 = interleave (2 ^ k) (2 ^ (G + m)) inputs := by
    unfold trueTable
    rw [hl0, hv0]
    dsimp only
    rw [chained_first hG hl0]
  have hA' := hA
  rw [← e0] at hA'
  obtain ⟨hnd, htrue⟩ := lucky_run _ _ [] (accepting_not_doomed hA') fun j hj hu => hlucky ⟨j, hj, hu⟩
  have hright : (wiredAssignment (2 ^ m) (newCircuitR wiring).layers inputs).getLast? = some outputs := by
    by_contra hwrong
    exact hnd (opening_wrong wiring hne hw G k m hG ln hln inputs outputs hin hout hwrong)
  refine ⟨hright, ?_⟩
  obtain ⟨outputs', proof', hout', hp, hs', hA2, htrue'⟩ := proverT_true H wiring hne hw G k m hG ln hln inputs hin
  rw [hright] at hout'
  obtain rfl := Option.some.inj hout'
  have hmsg : messagesFrom proof ((newCircuitR wiring).layers.length - 1) = messagesFrom proof' ((newCircuitR wiring).layers.length - 1) := by
    unfold messages at htrue htrue'
    refine allTrue_unique _ _ _ _ (draw_notPoint _ (ln.bGOutputs + (m + k)) [] [] rfl (by simp))
      (messagesFrom_lengths hs hs' _ (by omega)) ?_ ((allTrue_append _ _ _ _).1 htrue).2 ((allTrue_append _ _ _ _).1 htrue').2
    intro c hc
    refine (messages_short (newCircuitR wiring) (m + k) (ln.bGOutputs + (m + k)) 10
      (newCircuitR_degrees fun ws h => (hw ws h).degrees) proof hs c ?_).trans (by omega)
    unfold messages
    exact List.mem_append_right _ hc
  obtain ⟨r1, r2⟩ := messagesFrom_inj hs hs' _ (by omega) hmsg
  have hfull : messages (ln.bGOutputs + (m + k)) (newCircuitR wiring).layers.length proof =
      messages (ln.bGOutputs + (m + k)) (newCircuitR wiring).layers.length proof' := by
    unfold messages
    rw [hmsg]
  rw [← hfull] at hA2
  obtain ⟨x, t, ρ, e, x1, x2, _, _, x5, x6⟩ := hA
  obtain ⟨y, t', ρ', e', y1, y2, _, _, y5, y6⟩ := hA2
  rw [x1] at y1
  obtain rfl := Option.some.inj y1
  rw [x2] at y2
  obtain ⟨-, rfl, rfl, rfl⟩ := Stage.layer.inj y2
  have : proof = proof' := by
    refine proof_ext (newCircuitR wiring) (m + k) proof proof' hs hs' fun i hi => ?_
    have h1 := r1 i (by omega)
    have h2 : (msgOf proof i).left = (msgOf proof' i).left ∧ (msgOf proof i).right = (msgOf proof' i).right := by
      cases i with
      | zero => exact ⟨x5.symm.trans y5, x6.symm.trans y6⟩
      | succ i => exact r2 i (by omega)
    cases hx : msgOf proof i
    cases hy : msgOf proof' i
    rw [hx, hy] at h1 h2
    simp only at h1 h2
    rw [h1, h2.1, h2.2]
  rw [this]
  exact hp

end

section

variable {F : Type} [Field F] [DecidableEq F] [Fintype F]

/-- C72 in the random oracle model. An adversary asks a random oracle `Q` questions, adaptively, and then puts out inputs, outputs and
a proof of its choice, which the verifier checks with the same oracle. For at most `(Q + N) (D + 1) |F|^(Q + N - 1)` of the
`|F|^(Q + N)` answers, `N` the number of the verifier's own questions, the proof is accepted although the outputs are not those of the
circuit or the proof is not the one that the prover returns. -/
theorem C72_oracle [SmallCasts F] (A : Adversary F) (Q : Nat) (wiring : List (List (Wire F))) (hne : wiring ≠ [])
    (hw : ∀ ws ∈ wiring, IdWires ws) (G k m : Nat) (hG : Chained G (newCircuitR wiring).layers)
    (ln : Layer F) (hln : (newCircuitR wiring).layers[(newCircuitR wiring).layers.length - 1]? = some ln)
    (D : Nat) (hD : ∀ ws ∈ wiring, ∀ w ∈ ws, w.gate.degHL ≤ D ∧ w.gate.degHR ≤ D ∧ w.gate.degHPrime ≤ D)
    (n : Nat) (hn : n = ln.bGOutputs + (m + k)) (N : Nat) (hN : N = n + coins (m + k) (newCircuitR wiring).layers) :
    count (fun x : Fin (Q + N) → F => ∃ (log : List (Query F × F)) (inputs outputs : List (List F)) (proof : GkrProof F)
        (H : Query F → F),
      log = oracleLog (A.thenVerifier Q n (newCircuitR wiring).layers.length) (List.ofFn x) ∧
      A.out ((log.map Prod.snd).take Q) = (inputs, outputs, proof) ∧ (∀ e ∈ log, H e.1 = e.2) ∧
      WellChunked k (G + m) inputs ∧ WellChunked k (ln.bGOutputs + m) outputs ∧
      gkrVerifyT H (m + k) (newCircuitR wiring) proof inputs outputs = .ok true ∧
      ¬ ((wiredAssignment (2 ^ m) (newCircuitR wiring).layers inputs).getLast? = some outputs ∧
        gkrProveT H (m + k) (newCircuitR wiring) (wiredAssignment (2 ^ m) (newCircuitR wiring).layers inputs) = .ok proof)) ≤
    (Q + N) * (D + 1) * Fintype.card F ^ (Q + N - 1) := by
  subst hn
  have hne' : (newCircuitR wiring).layers ≠ [] := by simpa [newCircuitR] using hne
  have hgc := goodCircuitR hw hG
  set layers := (newCircuitR wiring).layers with hlayers
  refine le_trans (count_mono ?_) (oracle_count (A.thenVerifier Q (ln.bGOutputs + (m + k)) layers.length)
    (fun q a => WellChunked k (G + m) q.inputs ∧ q.msg.length ≤ D + 2 ∧
      Unlucky (m + k) ln.bGOutputs layers (interleave (2 ^ k) (2 ^ (ln.bGOutputs + m)) q.outputs)
        (trueOutputTable k m ln.bGOutputs layers q.inputs) (trueTable k m layers q.inputs)
        (stageAfter (m + k) ln.bGOutputs layers (interleave (2 ^ k) (2 ^ (ln.bGOutputs + m)) q.outputs) q.past) q.msg a)
    (D + 1) ?_ (Q + N))
  · rintro x ⟨log, inputs, outputs, proof, H, hlog, hout, hH, hin, hou, hacc, hwrong⟩
    obtain ⟨b, hb, hb2⟩ := C67_verify H wiring hne hw G k m hG ln hln inputs outputs hin hou proof
    rw [hacc] at hb
    obtain rfl := Except.ok.inj hb
    obtain ⟨hs, _⟩ := hb2.1 rfl
    have hml := messages_length (newCircuitR wiring) hne' (m + k) (ln.bGOutputs + (m + k)) proof hs
    have hms := messages_short (newCircuitR wiring) (m + k) (ln.bGOutputs + (m + k)) D (newCircuitR_degrees hD) proof hs
    obtain ⟨j, hj, hu⟩ :=
      (C72_transcript H wiring hne hw G k m hG ln hln inputs outputs hin hou proof hacc).resolve_left hwrong
    rw [hlog] at hH
    have hask := verifier_asks A Q (ln.bGOutputs + (m + k)) layers.length (List.ofFn x) H hH (inputs, outputs, proof)
      (by rw [← hlog, hout]) (by rw [List.length_ofFn, hN]; simp only; rw [hlayers, hml])
    obtain ⟨_, hask⟩ := hask j (le_of_lt hj)
    exact ⟨_, hask hj, hin, hms _ (List.getElem_mem hj), hu⟩
  · intro q
    by_cases hq : WellChunked k (G + m) q.inputs ∧ q.msg.length ≤ D + 2
    · exact le_trans (count_mono fun a ha => ha.2.2)
        (unlucky_count hne' hgc.good hgc.chained (trueValues wiring hne hw G k m hG ln hln q.inputs hq.1)
          (fun l h => by rw [hln] at h; rw [Option.some.inj h]) (newCircuitR_degrees hD) _ (stageAfter_ok _ _ _ _ _) q.msg hq.2)
    · rw [count_false]
      · exact Nat.zero_le _
      · exact fun a ha => hq ⟨ha.1, ha.2.1⟩

end

/-- C72 in the random oracle model for the MiMC circuit with the real constants: an adversary who asks `Q` questions gets something
accepted that is not the MiMC outputs of its states and blocks together with the proof of the prover for at most
`(Q + N) 8 r^(Q + N - 1)` of the `r^(Q + N)` answers of the oracle, `N = bN + 91 (2 + bN) + 90`. -/
theorem C72_mimc_oracle (k m N : Nat) (hN : N = m + k + (91 * (2 + (m + k)) + 90)) :
    ∃ c, createMimcCircuit frString arks = .ok c ∧ ∀ (A : Adversary Fr) (Q : Nat),
      count (fun x : Fin (Q + N) → Fr => ∃ (log : List (Query Fr × Fr)) (pairs : List (List Fr × List Fr)) (outputs : List (List Fr))
          (proof : GkrProof Fr) (H : Query Fr → Fr),
        log = oracleLog (A.thenVerifier Q (m + k) c.layers.length) (List.ofFn x) ∧
        A.out ((log.map Prod.snd).take Q) = (pairs.map mimcChunk, outputs, proof) ∧ (∀ e ∈ log, H e.1 = e.2) ∧
        pairs.length = 2 ^ k ∧ (∀ x ∈ pairs, x.1.length = 2 ^ m ∧ x.2.length = 2 ^ m) ∧ WellChunked k m outputs ∧
        gkrVerifyT H (m + k) c proof (pairs.map mimcChunk) outputs = .ok true ∧
        ¬ (outputs = pairs.map mimcExpected ∧
          gkrProveT H (m + k) c (wiredAssignment (2 ^ m) c.layers (pairs.map mimcChunk)) = .ok proof)) ≤
      (Q + N) * 8 * frModulus ^ (Q + N - 1) := by
  refine ⟨_, mimc_circuit, fun A Q => ?_⟩
  have e := C65_same_circuit (mimcWiring frString (arks.take 91)) fun ws h => (mimcWiring_good _ _ ws h).nodup
  have := C72_oracle A Q (mimcWiring frString (arks.take 91)) mimc_ne (fun ws h => (mimcWiring_good _ _ ws h).idWires) 1 k m
    (by rw [e]; exact mimcWiring_chained _ _) _ (by rw [e]; exact mimc_lastLayer) 7 (mimc_degrees _ _) (m + k)
    (by rw [last_bGOutputs, Nat.zero_add]) N (by rw [e, C45_mimc_coins, hN])
  rw [e, last_bGOutputs, show Fintype.card Fr = frModulus from ZMod.card _] at this
  refine le_trans (count_mono ?_) this
  rintro x ⟨log, pairs, outputs, proof, H, h1, h2, h3, hk, hp, hout, hacc, hwrong⟩
  refine ⟨log, pairs.map mimcChunk, outputs, proof, H, h1, h2, h3, ⟨by simpa using hk, ?_⟩, by rwa [Nat.zero_add], hacc, ?_⟩
  · intro c hc
    obtain ⟨x, hx, rfl⟩ := List.mem_map.1 hc
    simp [mimcChunk, hp x hx, pow_add]; omega
  · rw [mimc_values (2 ^ m) pairs hp]
    rintro ⟨h, h'⟩
    exact hwrong ⟨(Option.some.inj h).symm, h'⟩

/-! ### The theorems are not vacuous -/

/-- The proof of the prover is accepted. So is, when the challenge is known beforehand, another one: to the first round is added a
polynomial that vanishes at the challenge and whose values at 0 and 1 cancel. -/
example : (do
    let c : Circuit Fr := newCircuitR [[⟨0, 1, 0, addGate⟩, ⟨1, 0, 1, addGate⟩], [⟨0, 1, 0, mulGate⟩]]
    let values ← c.assignR [[1, 2, 5, 6]] 1
    let proof ← gkrProveT (fun _ => 3) 1 c values
    let rounds := proof.sumcheckProofs.modify 0 (List.modify · 0 (List.zipWith (· + ·) [6, -17, 5]))
    let other : GkrProof Fr := { proof with sumcheckProofs := rounds }
    let good ← gkrVerifyT (fun _ => 3) 1 c proof [[1, 2, 5, 6]] [[36, 64]]
    let good' ← gkrVerifyT (fun _ => 3) 1 c other [[1, 2, 5, 6]] [[36, 64]]
    return (good, good', decide (other.sumcheckProofs = proof.sumcheckProofs))) = .ok (true, true, false) := by
  decide +kernel

end GkrMimc
