import Verif.Proofs.TranscriptProve
import Verif.Props.HashedTranscript

/-! Property C67, completeness with an actual prover. -/

set_option linter.unusedSectionVars false

namespace GkrMimc

open Spec Finset Polynomial

variable {F : Type} [Field F] [DecidableEq F]

theorem mergeChunks_eq {k m : Nat} {chunks : List (List F)} (h : WellChunked k m chunks) :
    mergeChunks chunks = interleave (2 ^ k) (2 ^ m) chunks := by
  unfold mergeChunks interleave
  have : (chunks.headD []).length = 2 ^ m := by
    cases chunks with
    | nil =>
      have h1 := h.1
      have h2 := Nat.two_pow_pos k
      rw [List.length_nil] at h1
      omega
    | cons c cs => exact h.2 c (by simp)
  rw [this, h.1]

/-- While the point is drawn nothing is said. -/
theorem draw_allTrue {bN bG : Nat} {layers : List (Layer F)} {U : List F} {V : Nat → List F} (h : List (List F × F) → List F → F)
    (n : Nat) : ∀ (past : List (List F × F)) (pre : List F), stageAfter bN bG layers U past = opening bN bG layers U pre →
      pre.length + n = bG + bN → AllTrue bN bG layers U V h past (List.replicate n []) := by
  induction n with
  | zero => intros; trivial
  | succ n ih =>
    intro past pre hs hn
    have ho : opening bN bG layers U pre = .point pre := by rw [opening, if_pos (by omega)]
    refine ⟨by rw [hs, ho]; trivial, ih _ (pre ++ [h past []]) ?_ (by simp; omega)⟩
    rw [stageAfter_snoc, hs, ho]
    rfl

/-- The prover runs on true values, says the truth, and its proof leads to an accepting stage. -/
theorem gkrProveT_run [SmallCasts F] (H : Query F → F) (bN : Nat) (c : Circuit F) (hne : c.layers ≠ [])
    (hc : ∀ l ∈ c.layers, GoodLayer l)
    (hch : ∀ (i : Nat) (l l' : Layer F), c.layers[i]? = some l → c.layers[i + 1]? = some l' → l.bGOutputs = l'.bGInputs)
    (values : List (List (List F))) (inputs outputs : List (List F)) (hin : values[0]? = some inputs)
    (hout : values.getLast? = some outputs) {V : Nat → List F} {T : List F} (hV : TrueValues bN c.layers V T)
    (htab : ∀ (i : Nat) (l : Layer F), c.layers[i]? = some l → (values.map mergeChunks)[i]? = some (V i) ∧
      (V i).length = 2 ^ (l.bGInputs + bN))
    (ln : Layer F) (hln : c.layers[c.layers.length - 1]? = some ln) :
    ∃ proof, gkrProveT H bN c values = .ok proof ∧ ProofShape c bN proof ∧
      Accepting bN c.layers (V 0) (msgOf proof 0).left (msgOf proof 0).right (stageAfter bN ln.bGOutputs c.layers T
        (say (fun past msg => H ⟨inputs, outputs, past, msg⟩) [] (messages (ln.bGOutputs + bN) c.layers.length proof))) ∧
      AllTrue bN ln.bGOutputs c.layers T V (fun past msg => H ⟨inputs, outputs, past, msg⟩) []
        (messages (ln.bGOutputs + bN) c.layers.length proof) := by
  have hpos := List.length_pos_of_ne_nil hne
  set h := fun past msg => H ⟨inputs, outputs, past, msg⟩ with hh
  obtain ⟨hp1, hp2, hp3⟩ := drawPoint_spec (bN := bN) (bG := ln.bGOutputs) (layers := c.layers) (U := T) h (ln.bGOutputs + bN) [] [] rfl
    (by simp)
  set pre := (drawPoint h (ln.bGOutputs + bN) []).1 with hpre
  rw [List.nil_append] at hp3
  conv at hp3 => rhs; rw [opening, if_neg (by omega)]
  have hgl := hc ln (List.mem_of_getElem? hln)
  set t : Goal F := ⟨mle T pre, pre.drop ln.bGOutputs, chi (pre.take ln.bGOutputs)⟩ with ht
  have hpt : t.point.length = bN := by simp [ht, hp2]
  have hq : (pre.take ln.bGOutputs).length = ln.bGOutputs := by simp [hp2]
  have hg := goal_top hgl (V (c.layers.length - 1)) bN (pre.take ln.bGOutputs) (pre.drop ln.bGOutputs) (mle T pre) hq hpt
  rw [List.take_append_drop, ← hV.top ln hln] at hg
  obtain ⟨htb, hVl⟩ := htab _ ln hln
  obtain ⟨out, tl, g1, g2, g3, g4, g5, g6, g7, g8⟩ := layerT_run (V := V) h hln hgl (V (c.layers.length - 1)) hVl t hpt _ _ hp3 hg.symm
  obtain ⟨outs, o1, o2, o3, o4, o5⟩ := proveLayersT_run h c (values.map mergeChunks) hc hch hV htab (c.layers.length - 1) ln t out tl _ hln
    g2 g3 g4 g6 g7
  have hall : ∀ (j : Nat) (o : SumcheckOut F), (outs ++ [out])[j]? = some o →
      (∀ l, c.layers[j]? = some l → RoundShape l bN o.polyCoeffs) ∧ ∃ x y r, o.finalClaims = x :: y :: r := by
    intro j o hj
    by_cases hji : j < outs.length
    · rw [List.getElem?_append_left hji] at hj
      exact o3 j o hj
    · have : j = outs.length := by
        have := (List.getElem?_eq_some_iff.1 hj).1
        simp at this
        omega
      subst this
      rw [List.getElem?_append_right le_rfl, Nat.sub_self] at hj
      obtain rfl : out = o := by simpa using hj
      refine ⟨?_, _, _, _, g6⟩
      intro l hl
      rw [o2, hln] at hl
      rw [← Option.some.inj hl]
      exact g5
  have hmap : ∀ n < 2, mapGo (fun o : SumcheckOut F => idx o.finalClaims n) (outs ++ [out]) =
      .ok ((outs ++ [out]).map fun o => o.finalClaims.getD n 0) := by
    intro n hn
    apply mapGo_ok
    intro o ho
    obtain ⟨j, hj⟩ := List.getElem?_of_mem ho
    obtain ⟨_, x, y, r, e⟩ := hall j o hj
    have : n < o.finalClaims.length := by rw [e]; simp; omega
    exact idx_getD this 0
  have hlen : (outs ++ [out]).length = c.layers.length := by simp [o2]; omega
  have hn : outMsg (outs ++ [out]) (c.layers.length - 1) = ⟨out.polyCoeffs, out.finalClaims.getD 0 0, out.finalClaims.getD 1 0⟩ := by
    unfold outMsg
    rw [List.getElem?_append_right (by omega), o2]
    simp
  set proof : GkrProof F := ⟨(outs ++ [out]).map (·.polyCoeffs), (outs ++ [out]).map fun o => o.finalClaims.getD 0 0,
    (outs ++ [out]).map fun o => o.finalClaims.getD 1 0⟩ with hproof
  have hmsg : msgOf proof = outMsg (outs ++ [out]) := by
    funext j
    unfold msgOf outMsg
    rw [hproof]
    simp only [List.getD_eq_getElem?_getD, List.getElem?_map]
    cases (outs ++ [out])[j]? <;> rfl
  refine ⟨proof, ?_, ⟨by simp only [hproof, List.length_map, hlen], by simp only [hproof, List.length_map, hlen],
    by simp only [hproof, List.length_map, hlen], ?_⟩, ?_, ?_⟩
  · unfold gkrProveT
    have hvne : values.length ≠ 0 := by
      have := (List.getElem?_eq_some_iff.1 hin).1
      omega
    rw [List.getLast?_eq_getElem?] at hout
    rw [idx_some hin, ok_bind, idxPred, if_neg hvne, idx_some hout, ok_bind]
    dsimp only
    rw [idxPred, if_neg (by omega), idx_some hln, ok_bind]
    rw [idx_some htb, ok_bind]
    change (initialRoundT ln (V (c.layers.length - 1)) (pre.drop ln.bGOutputs) (pre.take ln.bGOutputs) >>= _) = _
    have hsp : initialRoundT ln (V (c.layers.length - 1)) (pre.drop ln.bGOutputs) (pre.take ln.bGOutputs) =
        .ok (newSProver (V (c.layers.length - 1)) (V (c.layers.length - 1)) (tab (2 ^ bN) (chi t.point))
        ln.gates (ln.gates.map fun g => tab (2 ^ (2 * ln.bGInputs)) (staticW ln.wires g.id t.weight ln.bGInputs))) := by
      unfold initialRoundT
      rw [getStaticTable_eq ln hgl.inRange _ hq, ok_bind, getFoldedEqTable_eq, ok_bind]
      have hpt' : (pre.drop ln.bGOutputs).length = bN := hpt
      rw [hpt']
      rfl
    rw [hsp, ok_bind]
    change (SProver.proveT h _ (drawPoint h (ln.bGOutputs + bN) []).2 >>= _) = _
    rw [hp1, g1, ok_bind]
    change (proveLayersT h c (values.map mergeChunks) (c.layers.length - 1) out _ >>= _) = _
    rw [o1, ok_bind]
    rw [hmap 0 (by omega), ok_bind, hmap 1 (by omega), ok_bind]
    rfl
  · intro i l p hl hp
    rw [hproof] at hp
    dsimp only at hp
    rw [List.getElem?_map] at hp
    cases ho : (outs ++ [out])[i]? with
    | none => rw [ho] at hp; cases hp
    | some o =>
      rw [ho] at hp
      rw [← Option.some.inj hp]
      exact (hall i o ho).1 l hl
  · unfold messages
    rw [say_append, messagesFrom_msgs, hmsg, fromMsgs_tail, say_append, hn]
    exact o4
  · unfold messages
    rw [messagesFrom_msgs, hmsg, fromMsgs_tail, hn, allTrue_append, allTrue_append]
    refine ⟨draw_allTrue h (ln.bGOutputs + bN) [] [] rfl (by simp), ?_⟩
    exact ⟨g8 rfl, o5⟩

/-- The prover with transcript challenges on the values of the circuit. -/
theorem proverT_true [SmallCasts F] (H : Query F → F) (wiring : List (List (Wire F))) (hne : wiring ≠ [])
    (hw : ∀ ws ∈ wiring, IdWires ws) (G k m : Nat) (hG : Chained G (newCircuitR wiring).layers) (ln : Layer F)
    (hln : (newCircuitR wiring).layers[(newCircuitR wiring).layers.length - 1]? = some ln)
    (inputs : List (List F)) (hin : WellChunked k (G + m) inputs) :
    ∃ outputs proof, (wiredAssignment (2 ^ m) (newCircuitR wiring).layers inputs).getLast? = some outputs ∧
      gkrProveT H (m + k) (newCircuitR wiring) (wiredAssignment (2 ^ m) (newCircuitR wiring).layers inputs) = .ok proof ∧
      ProofShape (newCircuitR wiring) (m + k) proof ∧
      Accepting (m + k) (newCircuitR wiring).layers (interleave (2 ^ k) (2 ^ (G + m)) inputs) (msgOf proof 0).left
        (msgOf proof 0).right (stageAfter (m + k) ln.bGOutputs (newCircuitR wiring).layers
          (interleave (2 ^ k) (2 ^ (ln.bGOutputs + m)) outputs) (say (fun past msg => H ⟨inputs, outputs, past, msg⟩) []
            (messages (ln.bGOutputs + (m + k)) (newCircuitR wiring).layers.length proof))) ∧
      AllTrue (m + k) ln.bGOutputs (newCircuitR wiring).layers (interleave (2 ^ k) (2 ^ (ln.bGOutputs + m)) outputs)
        (trueTable k m (newCircuitR wiring).layers inputs) (fun past msg => H ⟨inputs, outputs, past, msg⟩) []
        (messages (ln.bGOutputs + (m + k)) (newCircuitR wiring).layers.length proof) := by
  have hgc := goodCircuitR hw hG
  have hA := honestR wiring hne hw G k m hG inputs hin
  have hne' : (newCircuitR wiring).layers ≠ [] := hA.nonempty
  have hpos := List.length_pos_of_ne_nil hne'
  obtain ⟨a, hv0, _, hf⟩ := wiredAssignment_facts k m _ G inputs hG hin
  set values := wiredAssignment (2 ^ m) (newCircuitR wiring).layers inputs with hvalues
  obtain ⟨outputs, hout⟩ : ∃ outputs, values.getLast? = some outputs := by
    rw [List.getLast?_eq_getElem?]
    exact ⟨_, List.getElem?_eq_getElem (by omega)⟩
  have hoc := wired_outputs_chunked hne hG hin hout hln
  have hTV := trueValues wiring hne hw G k m hG ln hln inputs hin
  obtain ⟨proof, h1, h2, h3, h4⟩ := gkrProveT_run H (m + k) (newCircuitR wiring) hne' hgc.good hgc.chained values inputs outputs hv0 hout
    hTV (by
      intro i l hl
      have hi : i < (newCircuitR wiring).layers.length := (List.getElem?_eq_some_iff.1 hl).1
      obtain ⟨v, hv⟩ : ∃ v, values[i]? = some v := ⟨_, List.getElem?_eq_getElem (by omega)⟩
      have hch := (hf i l v hl hv).1
      have e : trueTable k m (newCircuitR wiring).layers inputs i = interleave (2 ^ k) (2 ^ (l.bGInputs + m)) v := by
        unfold trueTable
        rw [hl, ← hvalues, hv]
      refine ⟨?_, ?_⟩
      · rw [List.getElem?_map, hv, e, ← mergeChunks_eq hch]; rfl
      · rw [e]; simp [interleave, pow_add, mul_assoc]) ln hln
  obtain ⟨l0, hl0⟩ : ∃ l0, (newCircuitR wiring).layers[0]? = some l0 := ⟨_, List.getElem?_eq_getElem hpos⟩
  have e0 : trueTable k m (newCircuitR wiring).layers inputs 0 = interleave (2 ^ k) (2 ^ (G + m)) inputs := by
    unfold trueTable
    rw [hl0, ← hvalues, hv0]
    dsimp only
    rw [chained_first hG hl0]
  have eT : trueOutputTable k m ln.bGOutputs (newCircuitR wiring).layers inputs =
      interleave (2 ^ k) (2 ^ (ln.bGOutputs + m)) outputs := by
    have h := hout
    rw [List.getLast?_eq_getElem?, a, Nat.add_sub_cancel] at h
    unfold trueOutputTable
    rw [← hvalues, h]
  rw [e0, eT] at h3
  rw [eT] at h4
  exact ⟨outputs, proof, hout, h1, h2, h3, h4⟩

/-- C67. Completeness with a prover: for every hash, every wiring (gates may repeat), all inputs and every number of chunks, the prover
with transcript challenges, run on the values that the repaired `Assign` gives, does not panic, and its proof is accepted. -/
theorem C67_prover [SmallCasts F] (H : Query F → F) (wiring : List (List (Wire F))) (hne : wiring ≠ [])
    (hw : ∀ ws ∈ wiring, IdWires ws) (G k m : Nat) (hG : Chained G (newCircuitR wiring).layers)
    (inputs : List (List F)) (hin : WellChunked k (G + m) inputs) (nCore : Int) (hn : 1 ≤ nCore) :
    ∃ values outputs proof, (newCircuitR wiring).assignR inputs nCore = .ok values ∧ values.getLast? = some outputs ∧
      gkrProveT H (m + k) (newCircuitR wiring) values = .ok proof ∧
      gkrVerifyT H (m + k) (newCircuitR wiring) proof inputs outputs = .ok true := by
  have hpos : 0 < (newCircuitR wiring).layers.length := List.length_pos_of_ne_nil (by simpa [newCircuitR] using hne)
  obtain ⟨ln, hln⟩ : ∃ ln, (newCircuitR wiring).layers[(newCircuitR wiring).layers.length - 1]? = some ln :=
    ⟨_, List.getElem?_eq_getElem (by omega)⟩
  have hass := C65_assign wiring G (2 ^ m) inputs nCore hn hG (fun c hc => by rw [hin.2 c hc, pow_add])
  obtain ⟨outputs, proof, hout, h1, h2, h3, _⟩ := proverT_true H wiring hne hw G k m hG ln hln inputs hin
  obtain ⟨b, hb, hb2⟩ := C67_verify H wiring hne hw G k m hG ln hln inputs outputs hin (wired_outputs_chunked hne hG hin hout hln) proof
  rw [hb2.2 ⟨h2, h3⟩] at hb
  exact ⟨_, outputs, proof, hass, hout, h1, hb⟩

/-- The hypotheses are met: two adders in a layer, one chunk of two instances. -/
example (H : Query Fr → Fr) : ∃ values outputs proof,
    (newCircuitR [[⟨0, 1, 0, addGate⟩, ⟨1, 0, 1, addGate⟩]] : Circuit Fr).assignR [[1, 2, 5, 6]] 1 = .ok values ∧
    values.getLast? = some outputs ∧
    gkrProveT H (1 + 0) (newCircuitR [[⟨0, 1, 0, addGate⟩, ⟨1, 0, 1, addGate⟩]]) values = .ok proof ∧
    gkrVerifyT H (1 + 0) (newCircuitR [[⟨0, 1, 0, addGate⟩, ⟨1, 0, 1, addGate⟩]]) proof [[1, 2, 5, 6]] outputs = .ok true :=
  C67_prover H _ (by simp) sample_idWires 1 0 1 ⟨by decide +kernel, trivial⟩ _ ⟨rfl, by simp⟩ 1 (by omega)

end GkrMimc
