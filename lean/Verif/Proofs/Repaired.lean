import Verif.Model.Repaired
import Verif.Props.GkrPanics
import Verif.Props.RepeatedGates
import Verif.Proofs.GkrHonest

/-! The repaired functions of `Verif.Model.Repaired`. -/

set_option linter.unusedSectionVars false

namespace GkrMimc

open Spec Finset

variable {F : Type} [Field F]

/-! ### The gates of a layer -/

theorem gatesR_eq (wires : List (Wire F)) : gatesR wires = distinctGates [] wires := by
  unfold gatesR
  have : ∀ (seen : List String) (acc : List (Gate F)), (wires.foldl (fun (s : List String × List (Gate F)) w =>
      if w.gate.id ∈ s.1 then s else (w.gate.id :: s.1, s.2 ++ [w.gate])) (seen, acc)).2 = acc ++ distinctGates seen wires := by
    induction wires with
    | nil => intro seen acc; simp [distinctGates]
    | cons w ws ih =>
      intro seen acc
      rw [List.foldl_cons, distinctGates]
      by_cases h : w.gate.id ∈ seen
      · rw [if_pos h, if_pos h, ih]
      · rw [if_neg h, if_neg h, ih]; simp
  rw [this]; simp

theorem distinctGates_ids (wires : List (Wire F)) : ∀ seen : List String,
    ((distinctGates seen wires).map (·.id)).Nodup ∧ ∀ g ∈ distinctGates seen wires, g.id ∉ seen := by
  induction wires with
  | nil => intro seen; simp [distinctGates]
  | cons w ws ih =>
    intro seen
    rw [distinctGates]
    by_cases h : w.gate.id ∈ seen
    · rw [if_pos h]; exact ih seen
    · rw [if_neg h]
      obtain ⟨h1, h2⟩ := ih (w.gate.id :: seen)
      refine ⟨?_, ?_⟩
      · rw [List.map_cons, List.nodup_cons]
        refine ⟨fun hc => ?_, h1⟩
        obtain ⟨g, hg, e⟩ := List.mem_map.1 hc
        exact h2 g hg (by simp [e])
      · intro g hg
        rcases List.mem_cons.1 hg with rfl | hg
        · exact h
        · exact fun hc => h2 g hg (List.mem_cons_of_mem _ hc)

theorem distinctGates_mem (wires : List (Wire F)) : ∀ (seen : List String), ∀ g ∈ distinctGates seen wires,
    ∃ w ∈ wires, w.gate = g := by
  induction wires with
  | nil => intro seen g hg; simp [distinctGates] at hg
  | cons w ws ih =>
    intro seen g hg
    rw [distinctGates] at hg
    split at hg
    · obtain ⟨v, hv, e⟩ := ih _ g hg
      exact ⟨v, by simp [hv], e⟩
    · rcases List.mem_cons.1 hg with rfl | hg
      · exact ⟨w, by simp, rfl⟩
      · obtain ⟨v, hv, e⟩ := ih _ g hg
        exact ⟨v, by simp [hv], e⟩

theorem distinctGates_covers (wires : List (Wire F)) : ∀ (seen : List String), ∀ w ∈ wires,
    w.gate.id ∈ seen ∨ ∃ g ∈ distinctGates seen wires, g.id = w.gate.id := by
  induction wires with
  | nil => intro seen w hw; simp at hw
  | cons v ws ih =>
    intro seen w hw
    rw [distinctGates]
    by_cases h : v.gate.id ∈ seen
    · rw [if_pos h]
      rcases List.mem_cons.1 hw with rfl | hw
      · exact .inl h
      · exact ih _ w hw
    · rw [if_neg h]
      rcases List.mem_cons.1 hw with rfl | hw
      · exact .inr ⟨_, by simp, rfl⟩
      · rcases ih (v.gate.id :: seen) w hw with h1 | ⟨g, hg, e⟩
        · rcases List.mem_cons.1 h1 with h1 | h1
          · exact .inr ⟨v.gate, by simp, h1.symm⟩
          · exact .inl h1
        · exact .inr ⟨g, by simp [hg], e⟩

theorem newLayerR_inRange (wires : List (Wire F)) : (newLayerR wires).InRange := newLayer_inRange wires

/-- A layer without repeated IDs is the one of the code. -/
theorem newLayerR_nodup (wires : List (Wire F)) (h : (wires.map (·.gate.id)).Nodup) : newLayerR wires = newLayer wires := by
  unfold newLayerR newLayer
  rw [gatesR_eq, (C13_gates_iff wires).2 h]

/-! ### Evaluation -/

theorem evaluateChunkR_eq (l : Layer F) (hr : l.InRange) (inp : List F) (N : Nat) (hlen : inp.length = 2 ^ l.bGInputs * N) :
    evaluateChunkR l inp = .ok (wiredOutputs l.wires N (2 ^ l.bGOutputs) inp) := by
  unfold evaluateChunkR
  have hN : inp.length / 1 <<< l.bGInputs = N := by
    rw [hlen, Nat.shiftLeft_eq, one_mul, Nat.mul_div_cancel_left _ (Nat.two_pow_pos _)]
  simp only [hN]
  rw [Nat.shiftLeft_eq, one_mul, replicate_eq_tab]
  have key := forEach_acc (M := Nat → F) (mk := tab (N * 2 ^ l.bGOutputs))
    (body := fun (w : Wire F) subRes => forN N subRes fun h subRes => do
      let vL ← idx inp (w.L * N + h)
      let vR ← idx inp (w.R * N + h)
      modIdx subRes (w.O * N + h) (fun x => x + w.gate.eval vL vR))
    (fun w => ∑ h ∈ range N, Pi.single (w.O * N + h)
      (w.gate.eval (inp.getD (w.L * N + h) 0) (inp.getD (w.R * N + h) 0)))
    l.wires (fun _ => 0) (by
      intro w hw m
      obtain ⟨hL, hR, hO⟩ := hr w hw
      refine forN_acc (M := Nat → F) (mk := tab (N * 2 ^ l.bGOutputs)) _ N m ?_
      intro h hh m
      have h1 : w.L * N + h < inp.length := by
        rw [hlen]
        calc w.L * N + h < (w.L + 1) * N := by rw [Nat.add_mul]; omega
          _ ≤ _ := Nat.mul_le_mul_right _ hL
      have h2 : w.R * N + h < inp.length := by
        rw [hlen]
        calc w.R * N + h < (w.R + 1) * N := by rw [Nat.add_mul]; omega
          _ ≤ _ := Nat.mul_le_mul_right _ hR
      have h3 : w.O * N + h < N * 2 ^ l.bGOutputs := by
        calc w.O * N + h < (w.O + 1) * N := by rw [Nat.add_mul]; omega
          _ ≤ 2 ^ l.bGOutputs * N := Nat.mul_le_mul_right _ hO
          _ = _ := mul_comm _ _
      rw [idx_ok h1, ok_bind, idx_ok h2, ok_bind, modIdx_tab_add h3]
      simp [h1, h2])
  rw [key, wiredOutputs, mul_comm N]
  congr 1
  apply tab_congr
  intro j hj
  rw [Pi.add_apply, list_sum_apply, zero_add]
  unfold wiredOutput
  rw [← list_sum_ite]
  apply list_sum_congr
  intro w _
  rw [Finset.sum_apply]
  have hN0 : 0 < N := by
    by_contra hc
    have : N = 0 := by omega
    subst this; simp at hj
  simp only [Pi.single_apply]
  rw [Finset.sum_congr rfl (g := fun h => if h = j % N then (if w.O = j / N then
    w.gate.eval (inp.getD (w.L * N + j % N) 0) (inp.getD (w.R * N + j % N) 0) else 0) else 0)]
  · rw [Finset.sum_ite_eq' (range N) (j % N)]
    simp [Nat.mod_lt j hN0]
  · intro h hh
    have hh := mem_range.1 hh
    have := div_mod_lt (O := w.O) (N := N) (h := h) (j := j) hh
    by_cases h1 : h = j % N
    · subst h1
      by_cases h2 : w.O = j / N
      · rw [if_pos (this.2 ⟨h2.symm, rfl⟩), if_pos rfl, if_pos h2]
      · rw [if_neg (fun hc => h2 (this.1 hc).1.symm), if_pos rfl, if_neg h2]
    · rw [if_neg (fun hc => h1 (this.1 hc).2.symm), if_neg h1]

theorem Layer.evaluateR_eq (l : Layer F) (hr : l.InRange) (N : Nat) (inputs : List (List F)) (nCore : Int) (hn : 1 ≤ nCore)
    (hlen : ∀ c ∈ inputs, c.length = 2 ^ l.bGInputs * N) :
    l.evaluateR inputs nCore = .ok (inputs.map (wiredOutputs l.wires N (2 ^ l.bGOutputs))) := by
  unfold Layer.evaluateR
  rw [sem_ok hn, ok_bind]
  apply mapGo_ok
  intro c hc
  exact evaluateChunkR_eq l hr c N (hlen c hc)

theorem assignFromR_eq (N : Nat) (nCore : Int) (hn : 1 ≤ nCore) (layers : List (Layer F)) : ∀ (G : Nat)
    (inputs : List (List F)), Chained G layers → (∀ l ∈ layers, l.InRange) → (∀ c ∈ inputs, c.length = 2 ^ G * N) →
    assignFromR nCore layers inputs = .ok (wiredAssignment N layers inputs) := by
  induction layers with
  | nil => intros; rfl
  | cons l ls ih =>
    intro G inputs hG hr hlen
    obtain ⟨rfl, hG⟩ := hG
    rw [assignFromR, l.evaluateR_eq (hr l (by simp)) N inputs nCore hn hlen, ok_bind,
      ih l.bGOutputs _ hG (fun l' h' => hr l' (by simp [h'])) (by
        intro c hc
        obtain ⟨c0, _, rfl⟩ := List.mem_map.1 hc
        simp [wiredOutputs])]
    rfl

/-! ### Chunks -/

theorem chunkedEvalRecombineR_eq (M : Nat) (qs : List F) (T : Nat → Nat → F) :
    chunkedEvalRecombineR (tab (2 ^ qs.length) (fun s => tab M (T s))) qs = .ok (tab M (fun u => mleF (fun s => T s u) qs)) := by
  unfold chunkedEvalRecombineR
  simp only [tab_length, log2Ceil_pow, ne_eq, not_true_eq_false, if_false]
  rw [recombine_loop]
  simp [idx]

theorem evaluateChunkedR_eq (a b : List F) (f : Nat → F) :
    evaluateChunkedR (chunksOf (2 ^ b.length) (2 ^ a.length) f) (a ++ b) = .ok (mleF f (a ++ b)) := by
  unfold evaluateChunkedR
  simp only [chunksOf_length, log2Ceil_pow]
  rw [goSubBound_ok (by simp)]
  have hc : (a ++ b).length - b.length = a.length := by simp
  simp only [hc, ok_bind, List.take_left', List.drop_left']
  unfold chunksOf
  rw [chunkedEvalRecombineR_eq _ b (fun s u => f (u * 2 ^ b.length + s))]
  simp only [ok_bind]
  rw [evaluate_tab, mleF_append]

theorem evaluateMixedChunkedR_eq (a b hL hR : List F) (f : Nat → F) (hl : hL.length = hR.length) :
    evaluateMixedChunkedR (chunksOf (2 ^ b.length) (2 ^ (hL.length + a.length)) f) (a ++ b) hL hR =
      .ok (mleF f (hL ++ (a ++ b)), mleF f (hR ++ (a ++ b))) := by
  unfold evaluateMixedChunkedR
  simp only [chunksOf_length, log2Ceil_pow]
  have hc : (a ++ b).length - b.length = a.length := by simp
  rw [if_neg (by simp)]
  simp only [hc, List.take_left', List.drop_left']
  unfold chunksOf
  rw [chunkedEvalRecombineR_eq _ b (fun s u => f (u * 2 ^ b.length + s))]
  simp only [ok_bind, evaluateLeftAndRight]
  have e1 : hL.length + a.length = (hL ++ a).length := by simp
  have e2 : (hL ++ a).length = (hR ++ a).length := by simp [hl]
  rw [e1, evaluate_tab]
  simp only [ok_bind]
  rw [e2, evaluate_tab]
  simp only [ok_bind, go_pure]
  rw [← List.append_assoc, ← List.append_assoc, mleF_append f (hL ++ a), mleF_append f (hR ++ a)]

theorem evaluateChunkedR_mle (k m : Nat) (chunks : List (List F)) (h : WellChunked k m chunks) (q : List F)
    (hq : q.length = m + k) : evaluateChunkedR chunks q = .ok (mle (interleave (2 ^ k) (2 ^ m) chunks) q) := by
  obtain ⟨a, b, rfl, rfl, rfl⟩ : ∃ a b : List F, q = a ++ b ∧ m = a.length ∧ k = b.length :=
    ⟨q.take m, q.drop m, by simp, by simp; omega, by simp; omega⟩
  conv_lhs => rw [eq_chunksOf h]
  rw [evaluateChunkedR_eq a b]
  rfl

theorem evaluateMixedChunkedR_mle (k m : Nat) (chunks : List (List F)) (hPrime hL hR : List F) (hl : hL.length = hR.length)
    (hp : hPrime.length = m + k) (h : WellChunked k (hL.length + m) chunks) :
    evaluateMixedChunkedR chunks hPrime hL hR =
      .ok (mle (interleave (2 ^ k) (2 ^ (hL.length + m)) chunks) (hL ++ hPrime),
        mle (interleave (2 ^ k) (2 ^ (hL.length + m)) chunks) (hR ++ hPrime)) := by
  obtain ⟨a, b, rfl, rfl, rfl⟩ : ∃ a b : List F, hPrime = a ++ b ∧ m = a.length ∧ k = b.length :=
    ⟨hPrime.take m, hPrime.drop m, by simp, by simp; omega, by simp; omega⟩
  conv_lhs => rw [eq_chunksOf h]
  rw [evaluateMixedChunkedR_eq a b hL hR _ hl]
  rfl

/-! ### The verifier -/

variable [DecidableEq F]

theorem proofShaped_iff (bN : Nat) (c : Circuit F) (proof : GkrProof F) : proofShaped bN c proof = true ↔ ProofShape c bN proof := by
  unfold proofShaped
  simp only [decide_eq_true_eq, List.all_eq_true]
  constructor
  · rintro ⟨h1, h2, h3, h4⟩
    refine ⟨h1, h2, h3, fun i l p hl hp => ?_⟩
    exact h4 (l, p) (List.mem_of_getElem? (i := i) (by rw [List.getElem?_zip_eq_some]; exact ⟨hl, hp⟩))
  · rintro ⟨h1, h2, h3, h4⟩
    refine ⟨h1, h2, h3, ?_⟩
    rintro ⟨l, p⟩ hx
    obtain ⟨i, hi⟩ := List.getElem?_of_mem hx
    rw [List.getElem?_zip_eq_some] at hi
    exact h4 i l p hi.1 hi.2

theorem ProofShape.msg {c : Circuit F} {bN : Nat} {proof : GkrProof F} (h : ProofShape c bN proof) {i : Nat} {l : Layer F}
    (hl : c.layers[i]? = some l) : (msgOf proof i).rounds.length = 2 * l.bGInputs + bN ∧ ∀ p ∈ (msgOf proof i).rounds, p ≠ [] := by
  have hi : i < proof.sumcheckProofs.length := by rw [h.rounds]; exact (List.getElem?_eq_some_iff.1 hl).1
  have hs := h.each i l _ hl (List.getElem?_eq_getElem hi)
  have e : (msgOf proof i).rounds = proof.sumcheckProofs[i] := by simp [msgOf, hi]
  rw [e]
  unfold RoundShape at hs
  refine ⟨?_, ?_⟩
  · have := congrArg List.length hs
    simp at this
    omega
  · rintro p hp rfl
    have : (0 : Nat) ∈ proof.sumcheckProofs[i].map List.length := List.mem_map.2 ⟨[], hp, rfl⟩
    rw [hs] at this
    simp at this

variable (H : List F → F) (c : Circuit F) (proof : GkrProof F) (top : Goal F)

theorem verifyLayersR_spec (hc : GoodCircuit c) (k m : Nat) (inputs : List (List F)) (hs : ProofShape c (m + k) proof)
    (hin : ∀ l0 : Layer F, c.layers[0]? = some l0 → WellChunked k (l0.bGInputs + m) inputs) (layer : Nat) :
    ∀ (l l0 : Layer F) (v : SumcheckVerdict F), c.layers[layer]? = some l → c.layers[0]? = some l0 →
    IsVerdict H l.bGInputs (msgOf proof layer) v →
    ∃ b, verifyLayersR H c proof inputs layer v = .ok b ∧ (b = true ↔
      (∀ i < layer, LayerRounds H c proof top i ∧ LayerValue H c proof top i) ∧
      InputsOk H l0.bGInputs (m + k) (interleave (2 ^ k) (2 ^ (l0.bGInputs + m)) inputs) (msgOf proof 0)) := by
  have hs2 := hs.left
  have hs3 := hs.right
  have hs1 := hs.rounds
  induction layer with
  | zero =>
    intro l l0 v hl hl0 ⟨v1, v2, v3⟩
    rw [hl] at hl0
    obtain rfl := Option.some.inj hl0
    have hpos : 0 < c.layers.length := (List.getElem?_eq_some_iff.1 hl).1
    obtain ⟨hlen, _⟩ := hs.msg hl
    rw [verifyLayersR]
    unfold verifyInputsR InputsOk
    have lL := Msg.qL_length (H := H) (show 2 * l.bGInputs ≤ (msgOf proof 0).rounds.length by omega)
    have lR := Msg.qR_length (H := H) (show 2 * l.bGInputs ≤ (msgOf proof 0).rounds.length by omega)
    have lN := Msg.qN_length (H := H) (g := l.bGInputs) (a := msgOf proof 0)
    have hn : ((msgOf proof 0).qN H l.bGInputs).length = m + k := by omega
    rw [v1, v2, v3, evaluateMixedChunkedR_mle k m inputs _ _ _ (by omega) hn (by rw [lL]; exact hin l hl), lL]
    simp only [ok_bind]
    rw [idx_getD (by omega) 0, idx_getD (by omega) 0]
    simp only [ok_bind]
    change ∃ b, (if _ ≠ (msgOf proof 0).left ∨ _ ≠ (msgOf proof 0).right then pure false else pure true) = _ ∧ _
    split_ifs with h
    · refine ⟨false, rfl, ?_⟩
      simp only [Bool.false_eq_true, false_iff]
      rintro ⟨_, _, a, b⟩
      rcases h with h | h
      · exact h a
      · exact h b
    · push Not at h
      exact ⟨true, rfl, fun _ => ⟨fun i hi => absurd hi (by omega), hn, h⟩, fun _ => rfl⟩
  | succ layer ih =>
    intro l l0 v hl hl0 ⟨v1, v2, v3⟩
    have hlt : layer + 1 < c.layers.length := (List.getElem?_eq_some_iff.1 hl).1
    obtain ⟨l', hl'⟩ : ∃ l', c.layers[layer]? = some l' := ⟨_, List.getElem?_eq_getElem (by omega)⟩
    have hgl := hc.good l' (List.mem_of_getElem? hl')
    have hbG := hc.chained layer l' l hl' hl
    obtain ⟨hlen, _⟩ := hs.msg hl
    obtain ⟨hlen', hne'⟩ := hs.msg hl'
    have hgoal : goalOf H c.layers proof top layer = goalBelow H l.bGInputs (msgOf proof (layer + 1)) := by
      unfold goalOf; rw [hl]
    have lL := Msg.qL_length (H := H) (show 2 * l.bGInputs ≤ (msgOf proof (layer + 1)).rounds.length by omega)
    have lR := Msg.qR_length (H := H) (show 2 * l.bGInputs ≤ (msgOf proof (layer + 1)).rounds.length by omega)
    have lN := Msg.qN_length (H := H) (g := l.bGInputs) (a := msgOf proof (layer + 1))
    have hR : LayerRounds H c proof top layer ↔ RoundChecks H l' (goalOf H c.layers proof top layer) (msgOf proof layer) := by
      unfold LayerRounds
      refine ⟨fun h => h l' hl', fun h l'' h'' => ?_⟩
      rw [hl'] at h''
      obtain rfl := Option.some.inj h''
      exact h
    have hV : LayerValue H c proof top layer ↔ ValueCheck H l' (goalOf H c.layers proof top layer) (msgOf proof layer) := by
      unfold LayerValue
      refine ⟨fun h => h l' hl', fun h l'' h'' => ?_⟩
      rw [hl'] at h''
      obtain rfl := Option.some.inj h''
      exact h
    rw [verifyLayersR, idx_getD (by omega) 0, ok_bind, idx_getD (by omega) 0, ok_bind,
      idx_getD (by omega) [], ok_bind, idx_some hl', ok_bind]
    set a := msgOf proof (layer + 1) with ha
    set b := msgOf proof layer with hb
    set t := goalOf H c.layers proof top layer with ht
    have eL : proof.claimsLeft.getD (layer + 1) 0 = a.left := rfl
    have eR : proof.claimsRight.getD (layer + 1) 0 = a.right := rfl
    have eS : proof.sumcheckProofs.getD layer [] = b.rounds := rfl
    have eC : a.right * H [a.left, a.right] + a.left = t.claim := by
      rw [hgoal]; unfold goalBelow; ring
    have eP : t.point = a.qN H l.bGInputs := by rw [hgoal]; rfl
    have eW : t.weight = fun O => chi (a.qL H l.bGInputs) O + H [a.left, a.right] * chi (a.qR H l.bGInputs) O := by
      rw [hgoal]; rfl
    rw [eL, eR, eS]
    rw [eC]
    have hnb : ¬ RoundsBroken H l' t b := by
      rintro (⟨j, hj, _⟩ | ⟨_, _, hlt'⟩)
      · exact hne' _ (List.mem_of_getElem? hj) rfl
      · rw [eP] at hlt'; omega
    rcases sumcheck_cases3 H l' t b with ⟨hok, _, w, hw, ⟨w1, w2, w3⟩, hfc⟩ | ⟨_, hbr, _⟩ | ⟨hno, _, he⟩
    · have kL := Msg.qL_length (H := H) (show 2 * l'.bGInputs ≤ b.rounds.length by omega)
      have kR := Msg.qR_length (H := H) (show 2 * l'.bGInputs ≤ b.rounds.length by omega)
      have kN := Msg.qN_length (H := H) (g := l'.bGInputs) (a := b)
      rw [hw, ok_bind]
      dsimp only
      rw [evalEq_eq _ _ (by rw [v3, w3]; omega), ok_bind, idx_getD (by omega) 0, ok_bind, idx_getD (by omega) 0, ok_bind]
      change ∃ x, (evaluateStaticTablesLinCombs l' v.qL v.qR w.qL w.qR 1 (H [a.left, a.right]) >>= fun statics =>
        evaluateCombinator b.left b.right (eqPoly v.qPrime w.qPrime) l'.gates statics >>= fun comb =>
        if w.finalClaim ≠ comb then pure false else verifyLayersR H c proof inputs layer w) = _ ∧ _
      rw [← bind_assoc, combinator_below hgl v.qL v.qR w.qL w.qR (by rw [v1]; omega) (by rw [v2]; omega)
        (by rw [w1]; omega) (by rw [w2]; omega), ok_bind]
      have hval : w.finalClaim = eqPoly v.qPrime w.qPrime * wiringValue l'.wires
          (fun O => chi v.qL O + H [a.left, a.right] * chi v.qR O) w.qL w.qR b.left b.right ↔ ValueCheck H l' t b := by
        unfold ValueCheck
        rw [hfc, eP, eW, v1, v2, v3, w1, w2, w3]
      by_cases hv : ValueCheck H l' t b
      · rw [if_neg (not_not.2 (hval.2 hv))]
        obtain ⟨x, hx, hx2⟩ := ih l' l0 w hl' hl0 ⟨w1, w2, w3⟩
        refine ⟨x, hx, hx2.trans ⟨fun h => ⟨fun i hi => ?_, h.2⟩, fun h => ⟨fun i hi => h.1 i (by omega), h.2⟩⟩⟩
        rcases Nat.lt_succ_iff_lt_or_eq.1 hi with hi | rfl
        · exact h.1 i hi
        · exact ⟨hR.2 hok, hV.2 hv⟩
      · rw [if_pos (fun h => hv (hval.1 h))]
        refine ⟨false, rfl, ?_⟩
        simp only [Bool.false_eq_true, false_iff]
        exact fun h => hv (hV.1 (h.1 layer (by omega)).2)
    · exact absurd hbr hnb
    · rw [he]
      refine ⟨false, rfl, ?_⟩
      simp only [Bool.false_eq_true, false_iff]
      exact fun h => hno (hR.1 (h.1 layer (by omega)).1)

/-- The repaired verifier for a given initial point answers on every proof, and says exactly whether it has the right shape and
passes all checks. -/
theorem gkrVerifyAtR_spec (hne : c.layers ≠ []) (hc : GoodCircuit c) (k m : Nat) (inputs outputs : List (List F))
    (hin : ∀ l0 : Layer F, c.layers[0]? = some l0 → WellChunked k (l0.bGInputs + m) inputs)
    (l0 ln : Layer F) (hl0 : c.layers[0]? = some l0) (hln : c.layers[c.layers.length - 1]? = some ln)
    (hout : WellChunked k (ln.bGOutputs + m) outputs) (q q' : List F) (lq : q.length = ln.bGOutputs) (lq' : q'.length = m + k) :
    ∃ b, gkrVerifyAtR H (m + k) c q' q proof inputs outputs = .ok b ∧ (b = true ↔ ProofShape c (m + k) proof ∧
      GkrConsistent H (m + k) c.layers proof (tableOf k m l0 inputs)
        ⟨mle (interleave (2 ^ k) (2 ^ (ln.bGOutputs + m)) outputs) (q ++ q'), q', chi q⟩) := by
  have hpos : 0 < c.layers.length := List.length_pos_of_ne_nil hne
  unfold gkrVerifyAtR
  by_cases hsh : proofShaped (m + k) c proof = true
  swap
  · rw [if_pos hsh]
    refine ⟨false, rfl, ?_⟩
    simp only [Bool.false_eq_true, false_iff]
    exact fun h => hsh ((proofShaped_iff _ _ _).2 h.1)
  rw [if_neg (not_not.2 hsh)]
  have hs := (proofShaped_iff _ _ _).1 hsh
  have hs2 := hs.left
  have hs3 := hs.right
  have hs1 := hs.rounds
  set n := c.layers.length - 1 with hn
  have hgl := hc.good ln (List.mem_of_getElem? hln)
  obtain ⟨hlen, hne'⟩ := hs.msg hln
  set top : Goal F := ⟨mle (interleave (2 ^ k) (2 ^ (ln.bGOutputs + m)) outputs) (q ++ q'), q', chi q⟩ with htop
  have tP : top.point = q' := rfl
  have tW : top.weight = chi q := rfl
  have tC : top.claim = mle (interleave (2 ^ k) (2 ^ (ln.bGOutputs + m)) outputs) (q ++ q') := rfl
  have hgoal : goalOf H c.layers proof top n = top := by
    unfold goalOf
    rw [List.getElem?_eq_none (by omega)]
  have hidxP : idxPred c.layers c.layers.length = .ok ln := by
    unfold idxPred; rw [if_neg (by omega)]; exact idx_some hln
  have hev : evaluateChunkedR outputs (q ++ q') = .ok top.claim := by
    rw [tC, evaluateChunkedR_mle k (ln.bGOutputs + m) outputs hout (q ++ q') (by simp [lq, lq']; omega)]
  dsimp only
  rw [hidxP, ok_bind]
  change ∃ b, (evaluateChunkedR outputs (q ++ q') >>= _) = _ ∧ _
  rw [hev, ok_bind, idx_getD (by omega) [], ok_bind]
  change ∃ b, (sumcheckVerify H top.claim (msgOf proof n).rounds ln.bGInputs >>= _) = _ ∧ _
  have hnb : ¬ RoundsBroken H ln top (msgOf proof n) := by
    rintro (⟨j, hj, _⟩ | ⟨_, _, hlt'⟩)
    · exact hne' _ (List.mem_of_getElem? hj) rfl
    · rw [tP] at hlt'; omega
  rcases sumcheck_cases3 H ln top (msgOf proof n) with ⟨hok, _, w, hw, ⟨w1, w2, w3⟩, hfc⟩ | ⟨_, hbr, _⟩ | ⟨hno, _, he⟩
  · have kL := Msg.qL_length (H := H) (show 2 * ln.bGInputs ≤ (msgOf proof n).rounds.length by omega)
    have kR := Msg.qR_length (H := H) (show 2 * ln.bGInputs ≤ (msgOf proof n).rounds.length by omega)
    have kN := Msg.qN_length (H := H) (g := ln.bGInputs) (a := msgOf proof n)
    rw [hw, ok_bind]
    dsimp only
    change ∃ b, (evalEq q' w.qPrime >>= _) = _ ∧ _
    rw [evalEq_eq _ _ (by rw [w3]; omega), ok_bind]
    rw [idx_getD (by omega) 0, ok_bind, idx_getD (by omega) 0, ok_bind]
    change ∃ b, (evaluateStaticTables ln q w.qL w.qR >>= fun statics =>
      evaluateCombinator (msgOf proof n).left (msgOf proof n).right (eqPoly q' w.qPrime) ln.gates statics >>= fun comb =>
      if w.finalClaim ≠ comb then pure false else verifyLayersR H c proof inputs n w) = _ ∧ _
    rw [← bind_assoc, combinator_top hgl q w.qL w.qR lq (by rw [w1]; omega) (by rw [w2]; omega), ok_bind]
    have hval : w.finalClaim = eqPoly q' w.qPrime * wiringValue ln.wires (chi q) w.qL w.qR (msgOf proof n).left
        (msgOf proof n).right ↔ ValueCheck H ln top (msgOf proof n) := by
      unfold ValueCheck
      rw [hfc, tP, tW, w1, w2, w3]
    by_cases hv : ValueCheck H ln top (msgOf proof n)
    · rw [if_neg (not_not.2 (hval.2 hv))]
      obtain ⟨x, hx, hx2⟩ := verifyLayersR_spec H c proof top hc k m inputs hs hin n ln l0 w hln hl0 ⟨w1, w2, w3⟩
      refine ⟨x, hx, hx2.trans ⟨fun h => ⟨hs, ?_, ?_⟩, fun h => ⟨fun i hi => ⟨fun l hl => (h.2.each i l hl).1,
        fun l hl => (h.2.each i l hl).2⟩, h.2.first l0 hl0⟩⟩⟩
      · intro i l hl
        have hi : i < c.layers.length := (List.getElem?_eq_some_iff.1 hl).1
        by_cases h' : i = n
        · subst h'
          rw [hln] at hl
          obtain rfl := Option.some.inj hl
          rw [hgoal]
          exact ⟨hok, hv⟩
        · exact ⟨(h.1 i (by omega)).1 l hl, (h.1 i (by omega)).2 l hl⟩
      · intro l hl
        rw [hl0] at hl
        obtain rfl := Option.some.inj hl
        exact h.2
    · rw [if_pos (fun h => hv (hval.1 h))]
      refine ⟨false, rfl, ?_⟩
      simp only [Bool.false_eq_true, false_iff]
      intro h
      have := (h.2.each n ln hln).2
      rw [hgoal] at this
      exact hv this
  · exact absurd hbr hnb
  · rw [he]
    refine ⟨false, rfl, ?_⟩
    simp only [Bool.false_eq_true, false_iff]
    intro h
    have := (h.2.each n ln hln).1
    rw [hgoal] at this
    exact hno this

/-- At the constants of the code nothing else changes. -/
theorem gkrVerifyAtR_constants (bN : Nat) (inputs outputs : List (List F)) (ln : Layer F)
    (hln : c.layers[c.layers.length - 1]? = some ln) :
    gkrVerifyAtR H bN c (getInitialQPrimeAndQ bN ln.bGOutputs).1 (getInitialQPrimeAndQ bN ln.bGOutputs).2 proof inputs outputs =
      gkrVerifyR H bN c proof inputs outputs := by
  have hpos : 0 < c.layers.length := by
    by_contra h
    rw [List.getElem?_eq_none (by omega)] at hln
    cases hln
  have hidxP : idxPred c.layers c.layers.length = .ok ln := by
    unfold idxPred; rw [if_neg (by omega)]; exact idx_some hln
  unfold gkrVerifyAtR gkrVerifyR
  dsimp only
  rw [hidxP, ok_bind]
  rfl

/-- The repaired verifier answers on every proof, and says exactly whether it has the right shape and passes all checks. -/
theorem gkrVerifyR_spec (hne : c.layers ≠ []) (hc : GoodCircuit c) (k m : Nat) (inputs outputs : List (List F))
    (hin : ∀ l0 : Layer F, c.layers[0]? = some l0 → WellChunked k (l0.bGInputs + m) inputs)
    (l0 ln : Layer F) (hl0 : c.layers[0]? = some l0) (hln : c.layers[c.layers.length - 1]? = some ln)
    (hout : WellChunked k (ln.bGOutputs + m) outputs) :
    ∃ b, gkrVerifyR H (m + k) c proof inputs outputs = .ok b ∧ (b = true ↔ ProofShape c (m + k) proof ∧
      GkrConsistent H (m + k) c.layers proof (tableOf k m l0 inputs) (outputGoal k m ln outputs)) := by
  rw [← gkrVerifyAtR_constants H c proof (m + k) inputs outputs ln hln]
  exact gkrVerifyAtR_spec H c proof hne hc k m inputs outputs hin l0 ln hl0 hln hout _ _ (by simp [getInitialQPrimeAndQ])
    (by simp [getInitialQPrimeAndQ])

end GkrMimc
