import Verif.Props.GkrSound

/-! Properties C24 and C25: untrusted proofs, and which outputs are bound. -/

set_option linter.unusedSectionVars false

namespace GkrMimc

open Spec

variable {F : Type} [Field F] [DecidableEq F]

/-- C23: a proof that passes all checks for wrong outputs, for the unlucky challenge function `0` and the circuit that copies
its input; so the hypotheses of `C23_sound_partial` can be met. -/
example : gkrVerify (fun _ => (0 : Fr)) 1 (newCircuit [[⟨0, 0, 0, copyGate⟩]]) ⟨[[[0, 9]]], [5], [5]⟩ [[5], [7]] [[5], [9]] =
    .ok true := by decide +kernel
example : (newCircuit [[⟨0, 0, 0, copyGate⟩]] : Circuit Fr).assign [[5], [7]] 1 = .ok [[[5], [7]], [[5], [7]]] := by
  decide +kernel

/-! ### C24 -/

/-- A proof with messages for every layer: `2 bG + bN` non-empty round polynomials each. -/
def WellShaped (c : Circuit F) (bN : Nat) (proof : GkrProof F) : Prop :=
  HasShape c proof ∧ ∀ (i : Nat) (l : Layer F), c.layers[i]? = some l →
    (∀ p ∈ (msgOf proof i).rounds, p ≠ []) ∧ (msgOf proof i).rounds.length = 2 * l.bGInputs + bN

theorem sumcheck_total (H : List F → F) (claim : F) (g : Nat) (a : Msg F) (h1 : ∀ p ∈ a.rounds, p ≠ [])
    (h2 : 2 * g ≤ a.rounds.length) : sumcheckVerify H claim a.rounds g = .ok none ∨
      ∃ v, sumcheckVerify H claim a.rounds g = .ok (some v) ∧ IsVerdict H g a v := by
  by_cases hc : Consistent H a.rounds claim
  · exact .inr ⟨⟨a.qN H g, a.qL H g, a.qR H g, _⟩,
      (C17_accepts_iff H _ _ _ _).2 ⟨h1, hc, h2, rfl, rfl, rfl, rfl⟩, rfl, rfl, rfl⟩
  · exact .inl (C17_rejects H claim a.rounds g h1 hc)

theorem verifyLayers_total (H : List F → F) (c : Circuit F) (proof : GkrProof F) (hc : GoodCircuit c) (k m : Nat)
    (hk : 1 ≤ k) (inputs : List (List F)) (hs : WellShaped c (m + k) proof)
    (hin : ∀ l0 : Layer F, c.layers[0]? = some l0 → WellChunked k (l0.bGInputs + m) inputs) (layer : Nat) :
    ∀ (l : Layer F) (v : SumcheckVerdict F), c.layers[layer]? = some l →
    IsVerdict H l.bGInputs (msgOf proof layer) v → ∃ b, verifyLayers H c proof inputs layer v = .ok b := by
  obtain ⟨⟨s1, s2, s3⟩, hs⟩ := hs
  induction layer with
  | zero =>
    intro l v hl ⟨v1, v2, v3⟩
    have hpos : 0 < c.layers.length := (List.getElem?_eq_some_iff.1 hl).1
    obtain ⟨_, hlen⟩ := hs 0 l hl
    have lL := Msg.qL_length (H := H) (show 2 * l.bGInputs ≤ (msgOf proof 0).rounds.length by omega)
    have lR := Msg.qR_length (H := H) (show 2 * l.bGInputs ≤ (msgOf proof 0).rounds.length by omega)
    have lN := Msg.qN_length (H := H) (g := l.bGInputs) (a := msgOf proof 0)
    have hn : ((msgOf proof 0).qN H l.bGInputs).length = m + k := by omega
    rw [verifyLayers]
    unfold verifyInputs
    rw [v1, v2, v3, C07_evaluateMixedChunked_partial k m hk inputs _ _ _ (by omega) hn (by rw [lL]; exact hin l hl)]
    unfold evaluateLeftAndRight
    rw [lL, evaluate_eq, evaluate_eq]
    · simp only [ok_bind, go_pure]
      rw [idx_getD (by omega) 0, idx_getD (by omega) 0]
      simp only [ok_bind]
      split_ifs
      · exact ⟨_, rfl⟩
      · exact ⟨_, rfl⟩
    · simp [interleave, pow_add, lR, hn]; ring
    · simp [interleave, pow_add, lL, hn]; ring
  | succ layer ih =>
    intro l v hl ⟨v1, v2, v3⟩
    have hlt : layer + 1 < c.layers.length := (List.getElem?_eq_some_iff.1 hl).1
    obtain ⟨l', hl'⟩ : ∃ l', c.layers[layer]? = some l' := ⟨_, List.getElem?_eq_getElem (by omega)⟩
    have hgl := hc.good l' (List.mem_of_getElem? hl')
    have hbG := hc.chained layer l' l hl' hl
    obtain ⟨_, hlen⟩ := hs (layer + 1) l hl
    obtain ⟨hne', hlen'⟩ := hs layer l' hl'
    have lL := Msg.qL_length (H := H) (show 2 * l.bGInputs ≤ (msgOf proof (layer + 1)).rounds.length by omega)
    have lR := Msg.qR_length (H := H) (show 2 * l.bGInputs ≤ (msgOf proof (layer + 1)).rounds.length by omega)
    have lN := Msg.qN_length (H := H) (g := l.bGInputs) (a := msgOf proof (layer + 1))
    have kL := Msg.qL_length (H := H) (show 2 * l'.bGInputs ≤ (msgOf proof layer).rounds.length by omega)
    have kR := Msg.qR_length (H := H) (show 2 * l'.bGInputs ≤ (msgOf proof layer).rounds.length by omega)
    have kN := Msg.qN_length (H := H) (g := l'.bGInputs) (a := msgOf proof layer)
    rw [verifyLayers, idx_getD (by omega) 0, ok_bind, idx_getD (by omega) 0, ok_bind,
      idx_getD (by omega) [], ok_bind, idx_some hl', ok_bind]
    rcases sumcheck_total H (proof.claimsRight.getD (layer + 1) 0 * H [proof.claimsLeft.getD (layer + 1) 0,
        proof.claimsRight.getD (layer + 1) 0] + proof.claimsLeft.getD (layer + 1) 0) l'.bGInputs (msgOf proof layer) hne'
        (by omega) with h | ⟨w, h, w1, w2, w3⟩
    · change ∃ b, (sumcheckVerify H _ (msgOf proof layer).rounds _ >>= _) = _
      rw [h]; exact ⟨false, rfl⟩
    · change ∃ b, (sumcheckVerify H _ (msgOf proof layer).rounds _ >>= _) = _
      rw [h, ok_bind]
      dsimp only
      rw [evalEq_eq _ _ (by rw [v3, w3]; omega), ok_bind, idx_getD (by omega) 0, ok_bind, idx_getD (by omega) 0, ok_bind]
      rw [← bind_assoc, combinator_below hgl v.qL v.qR w.qL w.qR (by rw [v1]; omega) (by rw [v2]; omega)
        (by rw [w1]; omega) (by rw [w2]; omega), ok_bind]
      split_ifs
      · exact ⟨_, rfl⟩
      · exact ih l' w hl' ⟨w1, w2, w3⟩

/-- C24 (full claim: every proof value). Proved for well-shaped proofs, whatever their contents: `Verify` answers and does
not panic. Missing: other shapes, for which the claim is false (below). -/
theorem C24_total_partial (H : List F → F) (wiring : List (List (Wire F))) (hne : wiring ≠ [])
    (hw : ∀ ws ∈ wiring, GoodWires ws) (G k m : Nat) (hk : 1 ≤ k) (hG : Chained G (newCircuit wiring).layers)
    (ln : Layer F) (hln : (newCircuit wiring).layers[(newCircuit wiring).layers.length - 1]? = some ln)
    (inputs outputs : List (List F)) (hin : WellChunked k (G + m) inputs) (hout : WellChunked k (ln.bGOutputs + m) outputs)
    (proof : GkrProof F) (hs : WellShaped (newCircuit wiring) (m + k) proof) :
    ∃ b, gkrVerify H (m + k) (newCircuit wiring) proof inputs outputs = .ok b := by
  have hne' : (newCircuit wiring).layers ≠ [] := by simpa [newCircuit] using hne
  have hpos := List.length_pos_of_ne_nil hne'
  set c := newCircuit wiring with hcc
  have hc : GoodCircuit c := goodCircuit_of hw hG
  have hgl := hc.good ln (List.mem_of_getElem? hln)
  set q' : List F := (getInitialQPrimeAndQ (m + k) ln.bGOutputs).1 with hq'
  set q : List F := (getInitialQPrimeAndQ (m + k) ln.bGOutputs).2 with hq
  have lq' : q'.length = m + k := by simp [hq', getInitialQPrimeAndQ]
  have lq : q.length = ln.bGOutputs := by simp [hq, getInitialQPrimeAndQ]
  have hidxP : idxPred c.layers c.layers.length = .ok ln := by
    unfold idxPred; rw [if_neg (by omega)]; exact idx_some hln
  obtain ⟨y, hev⟩ : ∃ y, evaluateChunked outputs (q ++ q') = .ok y := by
    rw [C07_evaluateChunked_partial k (ln.bGOutputs + m) hk outputs hout (q ++ q') (by simp [lq, lq']; omega), evaluate_eq]
    · exact ⟨_, rfl⟩
    · rw [List.length_append, lq, lq']
      simp [interleave, ← pow_add]; omega
  obtain ⟨s1, s2, s3⟩ := hs.1
  obtain ⟨hne1, hlen⟩ := hs.2 _ ln hln
  have kL := Msg.qL_length (H := H) (show 2 * ln.bGInputs ≤ (msgOf proof (c.layers.length - 1)).rounds.length by omega)
  have kR := Msg.qR_length (H := H) (show 2 * ln.bGInputs ≤ (msgOf proof (c.layers.length - 1)).rounds.length by omega)
  have kN := Msg.qN_length (H := H) (g := ln.bGInputs) (a := msgOf proof (c.layers.length - 1))
  unfold gkrVerify
  dsimp only
  rw [hidxP, ok_bind]
  change ∃ b, (evaluateChunked outputs (q ++ q') >>= _) = _
  rw [hev, ok_bind, idx_getD (by omega) [], ok_bind]
  change ∃ b, (sumcheckVerify H _ (msgOf proof (c.layers.length - 1)).rounds _ >>= _) = _
  rcases sumcheck_total H y ln.bGInputs (msgOf proof (c.layers.length - 1)) hne1 (by omega) with h | ⟨w, h, w1, w2, w3⟩
  · rw [h]; exact ⟨false, rfl⟩
  · rw [h, ok_bind]
    dsimp only
    change ∃ b, (evalEq q' w.qPrime >>= _) = _
    rw [evalEq_eq _ _ (by rw [w3]; omega), ok_bind, idx_getD (by omega) 0, ok_bind, idx_getD (by omega) 0, ok_bind]
    change ∃ b, (evaluateStaticTables ln q w.qL w.qR >>= _) = _
    rw [← bind_assoc, combinator_top hgl q w.qL w.qR lq (by rw [w1]; omega) (by rw [w2]; omega), ok_bind]
    split_ifs
    · exact ⟨_, rfl⟩
    · exact verifyLayers_total H c proof hc k m hk inputs hs
        (fun l h => by rw [chained_first hG h]; exact hin) _ ln w hln ⟨w1, w2, w3⟩

/-- A well-shaped proof with wrong contents (rejected), and a proof of the wrong shape that panics. -/
example : WellShaped (newCircuit [[⟨0, 0, 0, copyGate⟩]] : Circuit Fr) 1 ⟨[[[0, 9]]], [5], [5]⟩ := by
  refine ⟨⟨by decide +kernel, by decide +kernel, by decide +kernel⟩, ?_⟩
  intro i l h
  match i with
  | 0 =>
    have h : some (newLayer [⟨0, 0, 0, copyGate⟩] : Layer Fr) = some l := h
    obtain rfl := Option.some.inj h
    exact ⟨by simp [msgOf], by decide +kernel⟩
  | i + 1 => simp [newCircuit] at h
example : gkrVerify mimcHash 1 (newCircuit [[⟨0, 0, 0, copyGate⟩]]) ⟨[[[1, 9]]], [5], [5]⟩ [[5], [7]] [[5], [9]] =
    .ok false := by decide +kernel
example : gkrVerify mimcHash 1 (newCircuit [[⟨0, 0, 0, copyGate⟩]]) ⟨[[[0, 9], []]], [5], [5]⟩ [[5], [7]] [[5], [9]] =
    .error .index := by decide +kernel

/-- C24 is false: the empty proof makes `Verify` panic, for every circuit and every well-chunked outputs. -/
theorem C24_negation_empty (H : List F → F) (wiring : List (List (Wire F))) (hne : wiring ≠ [])
    (k m : Nat) (hk : 1 ≤ k) (ln : Layer F)
    (hln : (newCircuit wiring).layers[(newCircuit wiring).layers.length - 1]? = some ln)
    (inputs outputs : List (List F)) (hout : WellChunked k (ln.bGOutputs + m) outputs) :
    gkrVerify H (m + k) (newCircuit wiring) ⟨[], [], []⟩ inputs outputs = .error .index := by
  have hne' : (newCircuit wiring).layers ≠ [] := by simpa [newCircuit] using hne
  have hpos := List.length_pos_of_ne_nil hne'
  have hidxP : idxPred (newCircuit wiring).layers (newCircuit wiring).layers.length = .ok ln := by
    unfold idxPred; rw [if_neg (by omega)]; exact idx_some hln
  unfold gkrVerify
  dsimp only
  rw [hidxP, ok_bind]
  have h : ∃ y, evaluateChunked outputs ((getInitialQPrimeAndQ (m + k) ln.bGOutputs).2 ++
      (getInitialQPrimeAndQ (F := F) (m + k) ln.bGOutputs).1) = .ok y := by
    rw [C07_evaluateChunked_partial k (ln.bGOutputs + m) hk outputs hout _ (by simp [getInitialQPrimeAndQ]; omega), evaluate_eq]
    · exact ⟨_, rfl⟩
    · simp [getInitialQPrimeAndQ, interleave, ← pow_add]; omega
  obtain ⟨y, h⟩ := h
  rw [h, ok_bind]
  rfl

/-- C24 is false: an empty round polynomial makes `Verify` panic (`EvaluatePolynomial` indexes `len-1`). -/
theorem C24_negation_empty_round (H : List F → F) (claim : F) (rest : List (List F)) (bG : Nat) :
    sumcheckVerify H claim ([] :: rest) bG = .error .index := rfl

/-- C24 is false: proofs of a wrong shape are accepted. Appending anything to the three lists of an accepted proof gives an
accepted proof. -/
theorem C24_negation_junk (H : List F → F) (wiring : List (List (Wire F))) (hne : wiring ≠ [])
    (hw : ∀ ws ∈ wiring, GoodWires ws) (G k m : Nat) (hk : 1 ≤ k) (hG : Chained G (newCircuit wiring).layers)
    (ln : Layer F) (hln : (newCircuit wiring).layers[(newCircuit wiring).layers.length - 1]? = some ln)
    (inputs outputs : List (List F)) (hin : WellChunked k (G + m) inputs) (hout : WellChunked k (ln.bGOutputs + m) outputs)
    (proof : GkrProof F) (hacc : gkrVerify H (m + k) (newCircuit wiring) proof inputs outputs = .ok true)
    (js : List (List (List F))) (jl jr : List F) :
    gkrVerify H (m + k) (newCircuit wiring) ⟨proof.sumcheckProofs ++ js, proof.claimsLeft ++ jl, proof.claimsRight ++ jr⟩
      inputs outputs = .ok true := by
  have hne' : (newCircuit wiring).layers ≠ [] := by simpa [newCircuit] using hne
  have hpos := List.length_pos_of_ne_nil hne'
  rw [C23_accepts_iff H wiring hne hw G k m hk hG ln hln inputs outputs hin hout] at hacc ⊢
  obtain ⟨⟨s1, s2, s3⟩, h2, h3, h4⟩ := hacc
  set c := newCircuit wiring with hc
  set proof' : GkrProof F := ⟨proof.sumcheckProofs ++ js, proof.claimsLeft ++ jl, proof.claimsRight ++ jr⟩ with hp'
  have hmsg : ∀ i < c.layers.length, msgOf proof' i = msgOf proof i := by
    intro i hi
    simp only [msgOf, hp', List.getD_eq_getElem?_getD]
    rw [List.getElem?_append_left (by omega), List.getElem?_append_left (by omega), List.getElem?_append_left (by omega)]
  have hgoal : ∀ i, goalOf H c.layers proof' (outputGoal k m ln outputs) i = goalOf H c.layers proof (outputGoal k m ln outputs) i := by
    intro i
    unfold goalOf
    cases h : c.layers[i + 1]? with
    | none => rfl
    | some l =>
      dsimp only
      rw [hmsg (i + 1) (List.getElem?_eq_some_iff.1 h).1]
  have hR : ∀ i, LayerRounds H c proof' (outputGoal k m ln outputs) i ↔ LayerRounds H c proof (outputGoal k m ln outputs) i := by
    intro i
    unfold LayerRounds
    refine forall_congr' fun l => forall_congr' fun hl => ?_
    rw [hgoal, hmsg i (List.getElem?_eq_some_iff.1 hl).1]
  have hV : ∀ i, LayerValue H c proof' (outputGoal k m ln outputs) i ↔ LayerValue H c proof (outputGoal k m ln outputs) i := by
    intro i
    unfold LayerValue
    refine forall_congr' fun l => forall_congr' fun hl => ?_
    rw [hgoal, hmsg i (List.getElem?_eq_some_iff.1 hl).1]
  refine ⟨⟨by simp [hp']; omega, by simp [hp']; omega, by simp [hp']; omega⟩, (hR _).2 h2, (hV _).2 h3, ?_⟩
  unfold AcceptsBelow at h4 ⊢
  simp only [hR, hV, hmsg 0 hpos]
  exact h4

/-! ### C25 -/

theorem chi_ne_zero_iff (x : List F) (i : Nat) : chi x i ≠ 0 ↔ ∀ j : Fin x.length,
    (x[j] = 1 → i.testBit (x.length - 1 - j) = true) ∧ (x[j] = 0 → i.testBit (x.length - 1 - j) = false) := by
  unfold chi
  rw [Finset.prod_ne_zero_iff]
  constructor
  · intro h j
    have := h j (Finset.mem_univ _)
    constructor
    · intro h1
      by_contra hb
      rw [if_neg hb, h1, sub_self] at this
      exact this rfl
    · intro h1
      by_contra hb
      rw [Bool.not_eq_false] at hb
      rw [if_pos hb, h1] at this
      exact this rfl
  · intro h j _
    obtain ⟨h1, h2⟩ := h j
    split_ifs with hb
    · intro h0
      rw [h2 h0] at hb
      cases hb
    · intro h0
      exact hb (h1 (sub_eq_zero.1 h0).symm)

/-- The initial point of a circuit with `2^bG` outputs. -/
def initialPoint (bG bN : Nat) : List F :=
  (List.range bG).map (fun i => ((i + 1 : Nat) : F)) ++ (List.range bN).map (fun i => ((i + 1 : Nat) : F))

theorem outputGoal_claim (k m : Nat) (ln : Layer F) (outputs : List (List F)) :
    (outputGoal k m ln outputs).claim = mle (interleave (2 ^ k) (2 ^ (ln.bGOutputs + m)) outputs)
      (initialPoint ln.bGOutputs (m + k)) := rfl

/-- C25: `Verify` uses the outputs only through their extension at the initial point: outputs with the same value there get
the same answer, for every proof. -/
theorem C25_only_initial_value (H : List F → F) (wiring : List (List (Wire F))) (hne : wiring ≠ []) (k m : Nat) (hk : 1 ≤ k)
    (ln : Layer F) (hln : (newCircuit wiring).layers[(newCircuit wiring).layers.length - 1]? = some ln)
    (inputs outputs outputs' : List (List F)) (hout : WellChunked k (ln.bGOutputs + m) outputs)
    (hout' : WellChunked k (ln.bGOutputs + m) outputs')
    (h : (outputGoal k m ln outputs).claim = (outputGoal k m ln outputs').claim) (proof : GkrProof F) :
    gkrVerify H (m + k) (newCircuit wiring) proof inputs outputs = gkrVerify H (m + k) (newCircuit wiring) proof inputs outputs' := by
  have hne' : (newCircuit wiring).layers ≠ [] := by simpa [newCircuit] using hne
  have hpos := List.length_pos_of_ne_nil hne'
  have hidxP : idxPred (newCircuit wiring).layers (newCircuit wiring).layers.length = .ok ln := by
    unfold idxPred; rw [if_neg (by omega)]; exact idx_some hln
  have key : ∀ o : List (List F), WellChunked k (ln.bGOutputs + m) o →
      evaluateChunked o ((getInitialQPrimeAndQ (m + k) ln.bGOutputs).2 ++ (getInitialQPrimeAndQ (F := F) (m + k) ln.bGOutputs).1) =
        .ok (outputGoal k m ln o).claim := by
    intro o ho
    rw [C07_evaluateChunked_partial k (ln.bGOutputs + m) hk o ho _ (by simp [getInitialQPrimeAndQ]; omega), evaluate_eq]
    · rfl
    · simp [getInitialQPrimeAndQ, interleave, ← pow_add]; omega
  unfold gkrVerify
  dsimp only
  rw [hidxP, ok_bind]
  simp only [ok_bind]
  rw [key _ hout, key _ hout', h]

/-- C25 (full claim: changing any output makes `Verify` reject). Proved: changing the outputs so that their value at the
initial point changes makes `Verify` answer false. Missing: changes invisible there, where the claim is false. -/
theorem C25_binds_partial (H : List F → F) (wiring : List (List (Wire F))) (hne : wiring ≠ [])
    (hw : ∀ ws ∈ wiring, GoodWires ws) (G k m : Nat) (hk : 1 ≤ k) (hG : Chained G (newCircuit wiring).layers)
    (ln : Layer F) (hln : (newCircuit wiring).layers[(newCircuit wiring).layers.length - 1]? = some ln)
    (inputs outputs outputs' : List (List F)) (hin : WellChunked k (G + m) inputs)
    (hout : WellChunked k (ln.bGOutputs + m) outputs) (hout' : WellChunked k (ln.bGOutputs + m) outputs')
    (h : (outputGoal k m ln outputs).claim ≠ (outputGoal k m ln outputs').claim) (proof : GkrProof F)
    (hacc : gkrVerify H (m + k) (newCircuit wiring) proof inputs outputs = .ok true) :
    gkrVerify H (m + k) (newCircuit wiring) proof inputs outputs' = .ok false := by
  have hne' : (newCircuit wiring).layers ≠ [] := by simpa [newCircuit] using hne
  have hpos := List.length_pos_of_ne_nil hne'
  obtain ⟨s, h2, _, _⟩ := (C23_accepts_iff H wiring hne hw G k m hk hG ln hln inputs outputs hin hout proof).1 hacc
  obtain ⟨r1, r2, r3⟩ := h2 ln hln
  have hgoal : goalOf H (newCircuit wiring).layers proof (outputGoal k m ln outputs) ((newCircuit wiring).layers.length - 1) =
      outputGoal k m ln outputs := by
    unfold goalOf
    rw [List.getElem?_eq_none (by omega)]
  rw [hgoal] at r2 r3
  have hrej : sumcheckVerify H (outputGoal k m ln outputs').claim
      (msgOf proof ((newCircuit wiring).layers.length - 1)).rounds ln.bGInputs = .ok none := by
    apply C17_rejects H _ _ _ r1
    intro hc
    have hl : (outputGoal k m ln outputs).point.length = m + k := by simp [outputGoal, initialGoal]
    cases hr : (msgOf proof ((newCircuit wiring).layers.length - 1)).rounds with
    | nil => rw [hr, hl] at r2; simp at r2; omega
    | cons c cs =>
      rw [hr] at hc r3
      exact h (r3.1.symm.trans hc.1)
  have hidxP : idxPred (newCircuit wiring).layers (newCircuit wiring).layers.length = .ok ln := by
    unfold idxPred; rw [if_neg (by omega)]; exact idx_some hln
  have key : evaluateChunked outputs' ((getInitialQPrimeAndQ (m + k) ln.bGOutputs).2 ++
      (getInitialQPrimeAndQ (F := F) (m + k) ln.bGOutputs).1) = .ok (outputGoal k m ln outputs').claim := by
    rw [C07_evaluateChunked_partial k (ln.bGOutputs + m) hk outputs' hout' _ (by simp [getInitialQPrimeAndQ]; omega), evaluate_eq]
    · rfl
    · simp [getInitialQPrimeAndQ, interleave, ← pow_add]; omega
  obtain ⟨s1, _, _⟩ := s
  unfold gkrVerify
  dsimp only
  rw [hidxP, ok_bind]
  rw [key, ok_bind, idx_getD (by omega) [], ok_bind]
  change (sumcheckVerify H _ (msgOf proof ((newCircuit wiring).layers.length - 1)).rounds _ >>= _) = _
  rw [hrej]
  rfl

theorem mle_update (T T' : List F) (x : List F) (j : Nat) (hj : j < 2 ^ x.length)
    (h : ∀ i, i ≠ j → T.getD i 0 = T'.getD i 0) : mle T x - mle T' x = (T.getD j 0 - T'.getD j 0) * chi x j := by
  unfold mle mleF
  rw [← Finset.sum_sub_distrib, Finset.sum_eq_single j]
  · ring
  · intro i _ hi
    beta_reduce
    rw [h i hi]; ring
  · intro hn
    exact absurd (Finset.mem_range.2 hj) hn

/-- C25, single outputs. Let `outputs'` differ from `outputs` exactly at global index `j`. If the initial point gives `j` a
non-zero weight then no proof is accepted for both; otherwise every proof gets the same answer for both. -/
theorem C25_single_output_partial (H : List F → F) (wiring : List (List (Wire F))) (hne : wiring ≠ [])
    (hw : ∀ ws ∈ wiring, GoodWires ws) (G k m : Nat) (hk : 1 ≤ k) (hG : Chained G (newCircuit wiring).layers)
    (ln : Layer F) (hln : (newCircuit wiring).layers[(newCircuit wiring).layers.length - 1]? = some ln)
    (inputs outputs outputs' : List (List F)) (hin : WellChunked k (G + m) inputs)
    (hout : WellChunked k (ln.bGOutputs + m) outputs) (hout' : WellChunked k (ln.bGOutputs + m) outputs')
    (j : Nat) (hj : j < 2 ^ (ln.bGOutputs + (m + k)))
    (hsame : ∀ i, i ≠ j → (interleave (2 ^ k) (2 ^ (ln.bGOutputs + m)) outputs).getD i 0 =
      (interleave (2 ^ k) (2 ^ (ln.bGOutputs + m)) outputs').getD i 0)
    (hdiff : (interleave (2 ^ k) (2 ^ (ln.bGOutputs + m)) outputs).getD j 0 ≠
      (interleave (2 ^ k) (2 ^ (ln.bGOutputs + m)) outputs').getD j 0) (proof : GkrProof F) :
    (chi (initialPoint (F := F) ln.bGOutputs (m + k)) j ≠ 0 →
      gkrVerify H (m + k) (newCircuit wiring) proof inputs outputs = .ok true →
      gkrVerify H (m + k) (newCircuit wiring) proof inputs outputs' = .ok false) ∧
    (chi (initialPoint (F := F) ln.bGOutputs (m + k)) j = 0 →
      gkrVerify H (m + k) (newCircuit wiring) proof inputs outputs =
        gkrVerify H (m + k) (newCircuit wiring) proof inputs outputs') := by
  have e := mle_update _ _ (initialPoint (F := F) ln.bGOutputs (m + k)) j (by simpa [initialPoint] using hj) hsame
  rw [← outputGoal_claim, ← outputGoal_claim] at e
  constructor
  · intro hc hacc
    apply C25_binds_partial H wiring hne hw G k m hk hG ln hln inputs outputs outputs' hin hout hout' _ proof hacc
    intro h
    rw [h, sub_self] at e
    rcases mul_eq_zero.1 e.symm with h1 | h1
    · exact hdiff (sub_eq_zero.1 h1)
    · exact hc h1
  · intro hc
    apply C25_only_initial_value H wiring hne k m hk ln hln inputs outputs outputs' hout hout'
    rw [hc, mul_zero] at e
    exact sub_eq_zero.1 e

/-- C25: for the MiMC circuit the weights of the lower half of the outputs are 0 and those of the upper half are not. -/
theorem C25_mimc_weights (bN : Nat) (hb : 1 ≤ bN) (hr : bN < frModulus) (j : Nat) (hj : j < 2 ^ bN) :
    chi (initialPoint (F := Fr) 0 bN) j ≠ 0 ↔ 2 ^ (bN - 1) ≤ j := by
  rw [chi_ne_zero_iff]
  have hl : (initialPoint (F := Fr) 0 bN).length = bN := by simp [initialPoint]
  have hget : ∀ i (hi : i < (initialPoint (F := Fr) 0 bN).length), (initialPoint (F := Fr) 0 bN)[i] = ((i + 1 : Nat) : Fr) := by
    intro i hi
    simp [initialPoint]
  have htop : j.testBit (bN - 1) = true ↔ 2 ^ (bN - 1) ≤ j := by
    constructor
    · exact fun h => Nat.ge_two_pow_of_testBit h
    · intro h
      rw [Nat.testBit_eq_decide_div_mod_eq]
      have h1 : j / 2 ^ (bN - 1) < 2 := by
        rw [Nat.div_lt_iff_lt_mul (Nat.two_pow_pos _), mul_comm, ← pow_succ, show bN - 1 + 1 = bN by omega]
        exact hj
      have h2 : 1 ≤ j / 2 ^ (bN - 1) := (Nat.le_div_iff_mul_le (Nat.two_pow_pos _)).2 (by simpa using h)
      simp; omega
  have ne0 : ∀ i : Nat, 0 < i → i < frModulus → ((i : Nat) : Fr) ≠ 0 := by
    intro i h1 h2 h3
    rw [ZMod.natCast_eq_zero_iff] at h3
    exact absurd (Nat.le_of_dvd h1 h3) (by omega)
  constructor
  · intro h
    have h0 := (h ⟨0, by omega⟩).1 (by
      change (initialPoint (F := Fr) 0 bN)[0] = 1
      rw [hget]; simp)
    have h0 : j.testBit ((initialPoint (F := Fr) 0 bN).length - 1 - 0) = true := h0
    rw [hl] at h0
    exact htop.1 (by simpa using h0)
  · intro h i
    have hi : (i : Nat) < bN := by have := i.2; omega
    have hgi : (initialPoint (F := Fr) 0 bN)[i] = (((i : Nat) + 1 : Nat) : Fr) := hget i i.2
    rw [hgi]
    obtain ⟨i, hil⟩ := i
    change ((((i : Nat) + 1 : Nat) : Fr) = 1 → j.testBit ((initialPoint (F := Fr) 0 bN).length - 1 - i) = true) ∧
      ((((i : Nat) + 1 : Nat) : Fr) = 0 → j.testBit ((initialPoint (F := Fr) 0 bN).length - 1 - i) = false)
    rw [hl]
    constructor
    · intro h1
      have : ((i : Nat) : Fr) = 0 := by
        push_cast at h1
        linear_combination h1
      have hi0 : (i : Nat) = 0 := by
        by_contra hc
        exact ne0 i (by omega) (by omega) this
      rw [hi0, Nat.sub_zero]
      exact htop.2 h
    · intro h1
      exact absurd h1 (ne0 _ (by omega) (by omega))

theorem mimc_ln : (newCircuit (mimcWiring frString (arks.take 91))).layers[(newCircuit (mimcWiring frString
    (arks.take 91))).layers.length - 1]? = some (newLayer (mimcLastWires frString ((arks.take 91).getLastD 0))) := by
  obtain ⟨cs, c, d, h, _, _⟩ := arks_split
  have hw : mimcWiring frString (cs ++ [c, d]) = (cs ++ [c]).map (mimcMidWires frString) ++ [mimcLastWires frString d] := by
    rw [show cs ++ [c, d] = (cs ++ [c]) ++ [d] by simp, mimcWiring_append]
  rw [h, hw]
  have : (cs ++ [c, d]).getLastD 0 = d := by
    rw [show cs ++ [c, d] = (cs ++ [c]) ++ [d] by simp]
    simp
  rw [this]
  simp [newCircuit]

/-- The pair (values added, keys) behind one input chunk of the MiMC circuit. -/
def unMimcChunk (x : List Fr) : List Fr × List Fr :=
  (List.zipWith (· - ·) (x.take (x.length / 2)) (x.drop (x.length / 2)), x.drop (x.length / 2))

theorem mimcChunk_unMimcChunk (x : List Fr) (n : Nat) (h : x.length = 2 * n) : mimcChunk (unMimcChunk x) = x := by
  have e : x.length / 2 = n := by omega
  unfold mimcChunk unMimcChunk
  rw [e]
  conv_rhs => rw [← List.take_append_drop n x]
  congr 1
  apply List.ext_getElem
  · simp; omega
  · intro i h1 h2
    simp

/-- C25: the negation, with the real circuit and challenge function, for every number of instances and all inputs: there is
a proof accepted for the true outputs **and** for the outputs in which the first value (chunk 0, instance 0) is changed
into anything. -/
theorem C25_negation (k m : Nat) (hk : 1 ≤ k) (inputs : List (List Fr)) (hin : WellChunked k (1 + m) inputs) (y : Fr) :
    ∃ c values outputs outputs' proof, createMimcCircuit frString arks = .ok c ∧ c.assign inputs 1 = .ok values ∧
      values.getLast? = some outputs ∧ outputs' = outputs.modify 0 (fun ch => ch.set 0 y) ∧
      gkrVerify mimcHash (m + k) c proof inputs outputs = .ok true ∧
      gkrVerify mimcHash (m + k) c proof inputs outputs' = .ok true := by
  obtain ⟨c, values, outputs, p, proof, hc, hassign, hlast, _, _, hacc⟩ :=
    C22_mimc_partial k m hk inputs hin 1 1 le_rfl le_rfl
  refine ⟨c, values, outputs, _, proof, hc, hassign, hlast, rfl, hacc, ?_⟩
  have hcc : c = newCircuit (mimcWiring frString (arks.take 91)) := by
    rw [mimc_circuit] at hc
    exact (Except.ok.inj hc).symm
  have hout : WellChunked k m outputs := by
    obtain ⟨c', values', hc', hassign', hlast'⟩ := C27_circuit (2 ^ m) (inputs.map unMimcChunk) (by
      intro p hp
      obtain ⟨x, hx, rfl⟩ := List.mem_map.1 hp
      have := hin.2 x hx
      simp only [unMimcChunk, List.length_zipWith, List.length_take, List.length_drop, this, pow_add]
      omega) 1 (by omega)
    have hid : (inputs.map unMimcChunk).map mimcChunk = inputs := by
      rw [List.map_map]
      conv_rhs => rw [← List.map_id inputs]
      apply List.map_congr_left
      intro x hx
      exact mimcChunk_unMimcChunk x (2 ^ m) (by rw [hin.2 x hx, pow_add]; rfl)
    rw [hid] at hassign'
    obtain rfl : c = c' := by rw [hc] at hc'; exact Except.ok.inj hc'
    obtain rfl : values = values' := by rw [hassign] at hassign'; exact Except.ok.inj hassign'
    have ho : (inputs.map unMimcChunk).map mimcExpected = outputs := by
      rw [hlast'] at hlast
      exact Option.some.inj hlast
    rw [← ho]
    refine ⟨by simp [hin.1], ?_⟩
    intro o ho
    obtain ⟨p, hp, rfl⟩ := List.mem_map.1 ho
    obtain ⟨x, hx, rfl⟩ := List.mem_map.1 hp
    have := hin.2 x hx
    simp only [mimcExpected, unMimcChunk, List.length_zipWith, List.length_take, List.length_drop, this, pow_add]
    omega
  have hb : (newLayer (mimcLastWires frString ((arks.take 91).getLastD 0))).bGOutputs = 0 := by simp
  have hout' : WellChunked k m (outputs.modify 0 (fun ch => ch.set 0 y)) := by
    refine ⟨by simp [hout.1], ?_⟩
    intro o ho
    obtain ⟨i, hi, rfl⟩ := List.getElem_of_mem ho
    rw [List.getElem_modify]
    split_ifs
    · rw [List.length_set]; exact hout.2 _ (List.getElem_mem _)
    · exact hout.2 _ (List.getElem_mem _)
  rw [← hacc, hcc]
  have hne : mimcWiring frString (arks.take 91) ≠ [] := by
    intro h
    have := mimc_ln
    rw [h] at this
    simp [newCircuit] at this
  refine (C25_only_initial_value mimcHash _ hne k m hk _ mimc_ln inputs _ _ ?_ ?_ ?_ proof).symm
  · rw [hb, Nat.zero_add]; exact hout
  · rw [hb, Nat.zero_add]; exact hout'
  · rw [outputGoal_claim, outputGoal_claim, ← sub_eq_zero,
      mle_update _ (interleave (2 ^ k) (2 ^ ((newLayer (mimcLastWires frString ((arks.take 91).getLastD 0))).bGOutputs + m))
        (outputs.modify 0 (fun ch => ch.set 0 y))) _ 0 (Nat.two_pow_pos _)]
    · rw [mul_eq_zero]
      right
      by_contra h
      have h0 := ((chi_ne_zero_iff _ _).1 h) ⟨0, by simp [initialPoint]; omega⟩
      have := h0.1 (by
        change (initialPoint _ _)[0]'_ = (1 : Fr)
        simp [initialPoint, hb])
      simp at this
    · intro i hi
      unfold interleave
      by_cases hlt : i < 2 ^ ((newLayer (mimcLastWires frString ((arks.take 91).getLastD 0))).bGOutputs + m) * 2 ^ k
      · simp only [List.getD_eq_getElem?_getD, List.getElem?_map, List.getElem?_range hlt, Option.map_some,
          Option.getD_some, List.getElem?_modify]
        by_cases h0 : i % 2 ^ k = 0
        · have h1 : i / 2 ^ k ≠ 0 := by
            intro h1
            have := Nat.div_add_mod i (2 ^ k)
            rw [h1, h0] at this
            omega
          rw [h0]
          cases outputs[0]? with
          | none => rfl
          | some o => simp [List.getElem?_set_ne (Ne.symm h1)]
        · simp [Ne.symm h0]
      · rw [List.getD_eq_default _ _ (by simpa using hlt), List.getD_eq_default _ _ (by simpa using hlt)]

/-- C25: a changed first output is really another output, so the property fails: one proof, two different output vectors. -/
example : ∃ c values outputs outputs' proof, createMimcCircuit frString arks = .ok c ∧
      c.assign [[5, 6], [7, 8]] 1 = .ok values ∧ values.getLast? = some outputs ∧
      outputs' = outputs.modify 0 (fun ch => ch.set 0 (99 : Fr)) ∧
      gkrVerify mimcHash (0 + 1) c proof [[5, 6], [7, 8]] outputs = .ok true ∧
      gkrVerify mimcHash (0 + 1) c proof [[5, 6], [7, 8]] outputs' = .ok true :=
  C25_negation 1 0 (by omega) [[5, 6], [7, 8]] ⟨rfl, by simp⟩ 99

end GkrMimc
