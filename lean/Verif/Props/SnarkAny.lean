import Verif.Proofs.SnarkAny
import Verif.Props.Snark

/-! Property C57: the GKR gadget on circuits other than the one of MiMC. -/

set_option linter.unusedSectionVars false

namespace GkrMimc

open Spec

theorem chained_steps {F : Type} [Field F] [DecidableEq F] {G : Nat} {layers : List (Layer F)} (h : Chained G layers) :
    ∀ (i : Nat) (l l' : Layer F), layers[i]? = some l → layers[i + 1]? = some l' → l.bGOutputs = l'.bGInputs :=
  (wiredAssignment_facts 0 0 layers G [List.replicate (2 ^ (G + 0)) 0] h ⟨rfl, by simp⟩).2.2.1

theorem newCircuit_inRange {F : Type} [Field F] [DecidableEq F] (wiring : List (List (Wire F))) :
    ∀ l ∈ (newCircuit wiring).layers, l.InRange := by
  intro l hl
  obtain ⟨ws, _, rfl⟩ := List.mem_map.1 hl
  exact newLayer_inRange ws

/-- C57, what the assertions of the gadget say, for every native circuit of 91 layers, every gadget circuit whose first layers
stand for it, every witness and every initial point: all the checks of a GKR verifier for the native circuit. -/
theorem C57_gadget_iff (wiring : List (List (Wire Fr))) (hlen : wiring.length = 91) (G : Nat)
    (hG : Chained G (newCircuit wiring).layers) (sc : SnarkCircuit Fr) (hrep : RepresentsCircuit sc (newCircuit wiring))
    (ln : Layer Fr) (hln : (newCircuit wiring).layers[90]? = some ln) (proof : GkrProof Fr) (bN : Nat)
    (q q' vInput vOutput : List Fr) (hq : q.length = ln.bGOutputs) (hq' : q'.length = bN)
    (hin : vInput.length = 2 ^ (G + bN)) (hout : vOutput.length = 2 ^ (ln.bGOutputs + bN)) :
    (snarkAssertValid arks sc proof q q' vInput vOutput).Satisfied ↔
      HasShape (newCircuit wiring) proof ∧
      GkrConsistent mimcHash bN (newCircuit wiring).layers proof vInput ⟨mle vOutput (q ++ q'), q', chi q⟩ := by
  have hl : (newCircuit wiring).layers.length = 91 := by simpa [newCircuit] using hlen
  obtain ⟨l0, hl0⟩ : ∃ l0, (newCircuit wiring).layers[0]? = some l0 := ⟨_, List.getElem?_eq_getElem (by omega)⟩
  have e0 := chained_first hG hl0
  exact snarkAssertValidAny_iff arks mimcHash snarkHash_pure hl (newCircuit_inRange wiring) hrep (chained_steps hG) l0 ln hl0 hln
    proof bN q q' vInput vOutput hq hq' (by rw [e0]; exact hin) hout

/-- C57, soundness, for every witness. If the assertions hold and the output table differs at `(q, q')` from the outputs of the
native circuit on the input table, then some challenge is unlucky: a root of a non-zero difference of two polynomials, or of a
non-zero polynomial of degree 1. -/
theorem C57_sound (wiring : List (List (Wire Fr))) (hlen : wiring.length = 91) (hw : ∀ ws ∈ wiring, GoodWires ws) (G : Nat)
    (hG : Chained G (newCircuit wiring).layers) (sc : SnarkCircuit Fr) (hrep : RepresentsCircuit sc (newCircuit wiring))
    (ln : Layer Fr) (hln : (newCircuit wiring).layers[90]? = some ln) (D : Nat)
    (hD : ∀ ws ∈ wiring, ∀ w ∈ ws, w.gate.degHL ≤ D ∧ w.gate.degHR ≤ D ∧ w.gate.degHPrime ≤ D) (proof : GkrProof Fr) (bN : Nat)
    (q q' vInput vOutput trueOutput : List Fr) (hq : q.length = ln.bGOutputs) (hq' : q'.length = bN)
    (hin : vInput.length = 2 ^ (G + bN)) (hout : vOutput.length = 2 ^ (ln.bGOutputs + bN))
    (htrue : (wiredAssignment (2 ^ bN) (newCircuit wiring).layers [vInput]).getLast? = some [trueOutput])
    (hsat : (snarkAssertValid arks sc proof q q' vInput vOutput).Satisfied)
    (hwrong : mle vOutput (q ++ q') ≠ mle trueOutput (q ++ q')) :
    ∃ (i : Nat) (l : Layer Fr) (v : List Fr), (newCircuit wiring).layers[i]? = some l ∧
      (wiredAssignment (2 ^ bN) (newCircuit wiring).layers [vInput])[i]? = some [v] ∧
      (BadRound mimcHash l v (goalOf mimcHash (newCircuit wiring).layers proof ⟨mle vOutput (q ++ q'), q', chi q⟩ i)
          (msgOf proof i) (D + 1) ∨
        BadCombination mimcHash l.bGInputs v (msgOf proof i)) := by
  obtain ⟨_, hC⟩ := (C57_gadget_iff wiring hlen G hG sc hrep ln hln proof bN q q' vInput vOutput hq hq' hin hout).1 hsat
  have hne : wiring ≠ [] := by rintro rfl; simp at hlen
  have hl : (newCircuit wiring).layers.length = 91 := by simpa [newCircuit] using hlen
  have hwc : WellChunked 0 (G + bN) [vInput] := ⟨rfl, by simpa using hin⟩
  have hA := honest_of_wired wiring hne hw G 0 bN hG _ hwc
  obtain ⟨f1, _, _, f4⟩ := wiredAssignment_facts 0 bN _ G [vInput] hG hwc
  have htl : trueOutput.length = 2 ^ (ln.bGOutputs + bN) := by
    rw [List.getLast?_eq_getElem?, f1, hl] at htrue
    obtain ⟨v, hv⟩ : ∃ v, (wiredAssignment (2 ^ bN) (newCircuit wiring).layers [vInput])[90]? = some v :=
      ⟨_, List.getElem?_eq_getElem (by rw [f1, hl]; omega)⟩
    have h := (f4 90 ln v hln hv).2
    rw [show 90 + 1 = 91 + 1 - 1 from rfl, htrue] at h
    have h := Option.some.inj h
    have h1 : trueOutput ∈ v.map (wiredOutputs ln.wires (2 ^ bN) (2 ^ ln.bGOutputs)) := by rw [← h]; simp
    obtain ⟨y, _, rfl⟩ := List.mem_map.1 h1
    simp [wiredOutputs, pow_add]
  obtain ⟨i, l, v, h1, h2, h3⟩ := sound_at mimcHash wiring hne hw G 0 bN hG ln (by rw [hl]; exact hln) D hD [vInput]
    [trueOutput] hwc htrue proof (mle vOutput (q ++ q')) q q' hq hq'
    (by rw [show (2 : Nat) ^ 0 = 1 from rfl, interleave_one _ _ hin]; exact hC)
    (by rw [show (2 : Nat) ^ 0 = 1 from rfl, interleave_one _ _ htl]; exact hwrong)
  obtain ⟨w1, w2⟩ := hA.chunked i l v h1 h2
  obtain ⟨x, rfl⟩ := List.length_eq_one_iff.1 w1
  have ht : tableOf 0 bN l [x] = x := by
    unfold tableOf
    rw [show (2 : Nat) ^ 0 = 1 from rfl, interleave_one _ _ (w2 x (by simp))]
  rw [ht] at h3
  exact ⟨i, l, x, h1, h2, h3⟩

/-- The degrees that the gadget layers declare are those of the native layers, which the native prover uses for the number of
coefficients of its polynomials. -/
def DeclaresDegrees (sc : SnarkCircuit Fr) (c : Circuit Fr) : Prop :=
  ∀ (i : Nat) (sl : SnarkLayer Fr) (l : Layer Fr), sc.layers[i]? = some sl → c.layers[i]? = some l →
    sl.degHL = degL l.gates ∧ sl.degHR = degR l.gates ∧ sl.degHPrime = degP l.gates

theorem empty_eq_allocate_any (n : Nat) (c : Circuit Fr) (sc : SnarkCircuit Fr) (hlen : sc.layers.length = c.layers.length)
    (hrep : RepresentsCircuit sc c) (hd : DeclaresDegrees sc c) (proof : GkrProof Fr) (h : ProofShape c n proof) :
    proof.empty = snarkAllocateProof n sc := by
  have h1 := h.rounds
  unfold GkrProof.empty snarkAllocateProof emptySlots
  rw [h.left, h.right, hlen]
  congr 1
  apply List.ext_getElem?
  intro i
  rw [List.getElem?_map, List.getElem?_map]
  rcases Nat.lt_or_ge i c.layers.length with hi | hi
  · have hp : proof.sumcheckProofs[i]? = some proof.sumcheckProofs[i] := List.getElem?_eq_getElem (by omega)
    have hn : c.layers[i]? = some c.layers[i] := List.getElem?_eq_getElem hi
    obtain ⟨sl, hsl, hr⟩ := hrep i _ hn
    obtain ⟨d1, d2, d3⟩ := hd i sl _ hsl hn
    rw [hp, hsl]
    refine congrArg some ?_
    have hs := h.each i _ _ hn hp
    unfold RoundShape at hs
    have e : proof.sumcheckProofs[i].map (fun x => List.replicate x.length (none : Option Fr)) =
        (proof.sumcheckProofs[i].map List.length).map (fun n => List.replicate n none) := by
      rw [List.map_map]; rfl
    change proof.sumcheckProofs[i].map (fun x => List.replicate x.length (none : Option Fr)) = _
    rw [e, hs]
    simp [hr.bG, d1, d2, d3, sumcheckAllocateProof, allocateUnivariate]
  · rw [List.getElem?_eq_none (by omega), List.getElem?_eq_none (by omega)]; rfl

/-- C57, completeness. For every such circuit and every batch of `2^(m+k)` instances in `2^k` chunks, evaluated as wired, the
proof of the native prover satisfies the assertions of the gadget at the initial point of the native verifier. If the gadget
circuit has no further layers and declares the degrees of the native layers, the proof also fits the allocated variables. -/
theorem C57_complete (wiring : List (List (Wire Fr))) (hlen : wiring.length = 91) (hw : ∀ ws ∈ wiring, GoodWires ws) (G k m : Nat)
    (hG : Chained G (newCircuit wiring).layers) (sc : SnarkCircuit Fr) (hrep : RepresentsCircuit sc (newCircuit wiring))
    (ln : Layer Fr) (hln : (newCircuit wiring).layers[90]? = some ln) (inputs outputs : List (List Fr))
    (hin : WellChunked k (G + m) inputs)
    (hout : (wiredAssignment (2 ^ m) (newCircuit wiring).layers inputs).getLast? = some outputs) (nCore : Int) (hc : 1 ≤ nCore) :
    ∃ p proof, newGkrProver (newCircuit wiring) (wiredAssignment (2 ^ m) (newCircuit wiring).layers inputs) = .ok p ∧
      p.prove mimcHash nCore = .ok proof ∧
      (snarkAssertValid arks sc proof (getInitialQPrimeAndQ (m + k) ln.bGOutputs).2 (getInitialQPrimeAndQ (m + k) ln.bGOutputs).1
        (interleave (2 ^ k) (2 ^ (G + m)) inputs) (interleave (2 ^ k) (2 ^ (ln.bGOutputs + m)) outputs)).Satisfied ∧
      (sc.layers.length = 91 → DeclaresDegrees sc (newCircuit wiring) →
        snarkAssign (snarkAllocateProof (m + k) sc) proof = .ok ⟨proof.sumcheckProofs.map (List.map (List.map some)),
          proof.claimsLeft.map some, proof.claimsRight.map some⟩) := by
  have hne : wiring ≠ [] := by rintro rfl; simp at hlen
  have hl : (newCircuit wiring).layers.length = 91 := by simpa [newCircuit] using hlen
  obtain ⟨a, b, _, _⟩ := wiredAssignment_facts k m _ G inputs hG hin
  obtain ⟨l0, hl0⟩ : ∃ l0, (newCircuit wiring).layers[0]? = some l0 := ⟨_, List.getElem?_eq_getElem (by omega)⟩
  have e0 := chained_first hG hl0
  have hout' := hout
  rw [List.getLast?_eq_getElem?, a, Nat.add_sub_cancel] at hout'
  obtain ⟨p, proof, h1, h2, h3, h4⟩ := gkr_honest mimcHash _ k m _ (honest_of_wired wiring hne hw G k m hG inputs hin) inputs
    outputs b hout' nCore hc l0 ln hl0 (by rw [hl]; exact hln)
  refine ⟨p, proof, h1, h2, ?_, ?_⟩
  · rw [C57_gadget_iff wiring hlen G hG sc hrep ln hln proof (m + k) _ _ _ _ (by simp [getInitialQPrimeAndQ])
      (by simp [getInitialQPrimeAndQ]) (by rw [interleave_length]; congr 1; omega) (by rw [interleave_length]; congr 1; omega)]
    refine ⟨⟨h3.rounds.ge, h3.left.ge, h3.right.ge⟩, ?_⟩
    unfold tableOf at h4
    rw [e0] at h4
    exact h4
  · intro hs hd
    have e := empty_eq_allocate_any (m + k) _ sc (by rw [hs, hl]) hrep hd proof h3
    rw [← e, snarkAssign_ok proof (h3.left.trans h3.rounds.symm) (h3.right.trans h3.rounds.symm)]
    rfl

/-- C57: the gadget reads only the first 91 layers of the circuit and of the proof. -/
theorem C57_only_91 (sc sc' : SnarkCircuit Fr) (h : sc.layers.take 91 = sc'.layers.take 91) (proof proof' : GkrProof Fr)
    (h1 : proof.sumcheckProofs.take 91 = proof'.sumcheckProofs.take 91) (h2 : proof.claimsLeft.take 91 = proof'.claimsLeft.take 91)
    (h3 : proof.claimsRight.take 91 = proof'.claimsRight.take 91) (q q' vInput vOutput : List Fr) :
    snarkAssertValid arks sc proof q q' vInput vOutput = snarkAssertValid arks sc' proof' q q' vInput vOutput := by
  have get : ∀ {α : Type} {xs ys : List α}, xs.take 91 = ys.take 91 → ∀ i < 91, idx xs i = idx ys i := by
    intro α xs ys he i hi
    have : xs[i]? = ys[i]? := by
      rw [← List.getElem?_take_of_lt hi, he, List.getElem?_take_of_lt hi]
    unfold idx
    rw [this]
  have layers : ∀ n, n < 91 → ∀ v, snarkLayers arks sc proof n v = snarkLayers arks sc' proof' n v := by
    intro n
    induction n with
    | zero => intro _ v; rfl
    | succ n ih =>
      intro hn v
      unfold snarkLayers
      rw [get h2 (n + 1) hn, get h3 (n + 1) hn, get h1 n (by omega), get h n (by omega), get h2 n (by omega), get h3 n (by omega)]
      simp only [ih (by omega)]
  unfold snarkAssertValid
  have hm : mimcRounds - 1 < 91 := by decide
  dsimp only
  rw [get h1 _ hm, get h _ hm, get h2 _ hm, get h3 _ hm, get h2 0 (by omega), get h3 0 (by omega)]
  simp only [layers _ hm]

/-- C57: with less than 91 layers in the circuit or in the proof the gadget panics, so that there is no constraint system. -/
theorem C57_too_few (sc : SnarkCircuit Fr) (proof : GkrProof Fr) (q q' vInput vOutput : List Fr)
    (h : sc.layers.length < 91 ∨ proof.sumcheckProofs.length < 91) :
    ∃ e, snarkAssertValid arks sc proof q q' vInput vOutput = .error e := by
  have hbad : ∀ {α : Type} {xs : List α}, xs.length < 91 → idx xs (mimcRounds - 1) = .error .index := by
    intro α xs hx
    unfold idx
    rw [List.getElem?_eq_none (by unfold mimcRounds; omega)]
  unfold snarkAssertValid
  dsimp only
  rw [mlEval_eq]
  cases evaluate vOutput (q ++ q') with
  | error e => exact ⟨e, rfl⟩
  | ok claim =>
    rw [Cs.go_ok, pure_bind]
    rcases h with h | h
    · cases idx proof.sumcheckProofs (mimcRounds - 1) with
      | error e => exact ⟨e, rfl⟩
      | ok sp =>
        rw [Cs.go_ok, pure_bind, hbad h]
        exact ⟨_, rfl⟩
    · rw [hbad h]
      exact ⟨_, rfl⟩

/-! ### Gadget circuits that stand for a native circuit -/

/-- A gadget layer with one gate for each wire. -/
def gadgetLayer (l : Layer Fr) : SnarkLayer Fr where
  degHL := degL l.gates
  degHR := degR l.gates
  degHPrime := degP l.gates
  bG := l.bGInputs
  gates := l.wires.map fun w vL vR => pure (w.gate.eval vL vR)
  staticTable := l.wires.map fun w q => pure (groupTable l.bGInputs [w] q)

/-- The gadget circuit of these layers. -/
def gadgetCircuit (c : Circuit Fr) : SnarkCircuit Fr := ⟨c.layers.map gadgetLayer, 0⟩

theorem gadgetLayer_represents (l : Layer Fr) : Represents (gadgetLayer l) l where
  bG := rfl
  groups := by
    refine ⟨l.wires.map ([·]), ?_, by simp [gadgetLayer], by simp [gadgetLayer], ?_⟩
    · have : (l.wires.map ([·])).flatten = l.wires := by
        induction l.wires with
        | nil => rfl
        | cons w ws ih => rw [List.map_cons, List.flatten_cons, ih]; rfl
      rw [this]
    · intro i ws hi
      rw [List.getElem?_map] at hi
      obtain ⟨w, hw, rfl⟩ := Option.map_eq_some_iff.1 hi
      constructor
      · intro gate hg
        unfold gadgetLayer at hg
        rw [List.getElem?_map, hw] at hg
        obtain rfl := Option.some.inj hg
        exact ⟨w.gate.eval, fun _ _ => rfl, by simp⟩
      · intro table ht q _
        unfold gadgetLayer at ht
        rw [List.getElem?_map, hw] at ht
        obtain rfl := Option.some.inj ht
        rfl

/-- Every native circuit has a gadget circuit that stands for it and declares its degrees. -/
theorem C57_gadget_circuit (c : Circuit Fr) : RepresentsCircuit (gadgetCircuit c) c ∧ DeclaresDegrees (gadgetCircuit c) c := by
  constructor
  · intro i l hl
    exact ⟨gadgetLayer l, by simp [gadgetCircuit, hl], gadgetLayer_represents l⟩
  · intro i sl l hs hl
    simp only [gadgetCircuit, List.getElem?_map, hl, Option.map_some, Option.some.injEq] at hs
    subst hs
    exact ⟨rfl, rfl, rfl⟩

theorem snarkMid_represents (c : Fr) : Represents (snarkMid c) (newLayer (mimcMidWires frString c)) where
  bG := (mid_bGInputs _ _).symm
  groups := by
    refine ⟨[[⟨1, 0, 0, cipherGate frString c⟩], [⟨1, 0, 1, copyGate⟩]], List.Perm.refl _, rfl, le_refl _, ?_⟩
    rw [mid_bGInputs, mid_bGOutputs]
    intro i ws hi
    rcases i with _ | _ | i
    · obtain rfl := Option.some.inj hi
      constructor
      · intro gate hg
        obtain rfl := Option.some.inj hg
        refine ⟨fun vL vR => vL + (vR + c) ^ 7, fun vL vR => ?_, ?_⟩
        · rw [snarkCipher_eq]; rfl
        · simp [cipher_eval]
      · intro table ht q hq
        obtain rfl := Option.some.inj ht
        obtain ⟨x, rfl⟩ := singleton_of hq
        have e : groupTable 1 [⟨1, 0, 0, cipherGate frString c⟩] [x] = [0, 0, 1 - x, 0] := by
          simp [groupTable, List.range_succ, chi]
        rw [e]
        rfl
    · obtain rfl := Option.some.inj hi
      constructor
      · intro gate hg
        obtain rfl := Option.some.inj hg
        exact ⟨fun vL _ => vL, fun _ _ => rfl, by simp [copyGate]⟩
      · intro table ht q hq
        obtain rfl := Option.some.inj ht
        obtain ⟨x, rfl⟩ := singleton_of hq
        have e : groupTable 1 [⟨1, 0, 1, (copyGate : Gate Fr)⟩] [x] = [0, 0, x, 0] := by
          simp [groupTable, List.range_succ, chi]
        rw [e]
        rfl
    · simp at hi

theorem snarkLast_represents (c : Fr) : Represents (snarkLast c) (newLayer (mimcLastWires frString c)) where
  bG := (last_bGInputs _ _).symm
  groups := by
    refine ⟨[[⟨1, 0, 0, cipherGate frString c⟩]], List.Perm.refl _, rfl, le_refl _, ?_⟩
    rw [last_bGInputs, last_bGOutputs]
    intro i ws hi
    rcases i with _ | i
    · obtain rfl := Option.some.inj hi
      constructor
      · intro gate hg
        obtain rfl := Option.some.inj hg
        refine ⟨fun vL vR => vL + (vR + c) ^ 7, fun vL vR => ?_, ?_⟩
        · rw [snarkCipher_eq]; rfl
        · simp [cipher_eval]
      · intro table ht q hq
        obtain rfl := Option.some.inj ht
        obtain rfl := List.length_eq_zero_iff.1 hq
        have e : groupTable 1 [⟨1, 0, 0, cipherGate frString c⟩] [] = [0, 0, 1, 0] := by
          simp [groupTable, List.range_succ, chi]
        rw [e]
        rfl
    · simp at hi

/-- The gadget circuit of the repository stands for its native circuit. -/
theorem C57_mimc : ∃ (sc : SnarkCircuit Fr) (c : Circuit Fr), createSnarkMimcCircuit arks = .ok sc ∧
    createMimcCircuit frString arks = .ok c ∧ c.layers.length = 91 ∧ sc.layers.length = 91 ∧ RepresentsCircuit sc c ∧
    DeclaresDegrees sc c := by
  refine ⟨_, _, snark_circuit, mimc_circuit, native_length frString arks arks_91, by simp [snarkCircuit], ?_, ?_⟩
  · intro i l hl
    have hi : i < 91 := native_length frString arks arks_91 ▸ (List.getElem?_eq_some_iff.1 hl).1
    rcases Nat.lt_or_ge i 90 with h | h
    · rw [show (newCircuit (mimcWiring frString (arks.take 91))).layers[i]? = _ from native_mid frString arks arks_91 h] at hl
      obtain rfl := Option.some.inj hl
      exact ⟨_, snark_mid arks h, snarkMid_represents _⟩
    · obtain rfl : i = 90 := by omega
      rw [show (newCircuit (mimcWiring frString (arks.take 91))).layers[90]? = _ from native_last frString arks arks_91] at hl
      obtain rfl := Option.some.inj hl
      exact ⟨_, snark_last arks, snarkLast_represents _⟩
  · intro i sl l hs hl
    have hi : i < 91 := native_length frString arks arks_91 ▸ (List.getElem?_eq_some_iff.1 hl).1
    rcases Nat.lt_or_ge i 90 with h | h
    · rw [show (newCircuit (mimcWiring frString (arks.take 91))).layers[i]? = _ from native_mid frString arks arks_91 h] at hl
      obtain rfl := Option.some.inj hl
      rw [snark_mid arks h] at hs
      obtain rfl := Option.some.inj hs
      obtain ⟨a, b, c⟩ := mid_deg frString (arks.getD i 0)
      exact ⟨a.symm, b.symm, c.symm⟩
    · obtain rfl : i = 90 := by omega
      rw [show (newCircuit (mimcWiring frString (arks.take 91))).layers[90]? = _ from native_last frString arks arks_91] at hl
      obtain rfl := Option.some.inj hl
      rw [snark_last arks] at hs
      obtain rfl := Option.some.inj hs
      obtain ⟨a, b, c⟩ := last_deg frString (arks.getD 90 0)
      exact ⟨a.symm, b.symm, c.symm⟩

/-! ### More than 91 layers -/

/-- C57: for a circuit of more than 91 layers, represented in full, the gadget takes the honest proof of the first 91 layers for
a proof about the whole circuit. -/
theorem C57_further_layers (wiring more : List (List (Wire Fr))) (hlen : wiring.length = 91) (hw : ∀ ws ∈ wiring, GoodWires ws)
    (G k m : Nat) (hG : Chained G (newCircuit wiring).layers) (ln : Layer Fr) (hln : (newCircuit wiring).layers[90]? = some ln)
    (inputs outputs : List (List Fr)) (hin : WellChunked k (G + m) inputs)
    (hout : (wiredAssignment (2 ^ m) (newCircuit wiring).layers inputs).getLast? = some outputs) :
    RepresentsCircuit (gadgetCircuit (newCircuit (wiring ++ more))) (newCircuit (wiring ++ more)) ∧ ∃ proof,
      (snarkAssertValid arks (gadgetCircuit (newCircuit (wiring ++ more))) proof (getInitialQPrimeAndQ (m + k) ln.bGOutputs).2
        (getInitialQPrimeAndQ (m + k) ln.bGOutputs).1 (interleave (2 ^ k) (2 ^ (G + m)) inputs)
        (interleave (2 ^ k) (2 ^ (ln.bGOutputs + m)) outputs)).Satisfied := by
  refine ⟨(C57_gadget_circuit _).1, ?_⟩
  have hrep : RepresentsCircuit (gadgetCircuit (newCircuit (wiring ++ more))) (newCircuit wiring) := by
    intro i l hl
    refine (C57_gadget_circuit (newCircuit (wiring ++ more))).1 i l ?_
    unfold newCircuit at hl ⊢
    dsimp only at hl ⊢
    rw [List.map_append, List.getElem?_append_left (List.getElem?_eq_some_iff.1 hl).1]
    exact hl
  obtain ⟨_, proof, _, _, h, _⟩ := C57_complete wiring hlen hw G k m hG _ hrep ln hln inputs outputs hin hout 1 (le_refl _)
  exact ⟨proof, h⟩

/-- 91 layers that copy one value, and a last layer that computes `x + x^7`. -/
def copyWiring : List (List (Wire Fr)) := List.replicate 91 [⟨0, 0, 0, copyGate⟩]
def topWiring : List (List (Wire Fr)) := [[⟨0, 0, 0, cipherGate frString 0⟩]]

theorem copyWiring_good : ∀ ws ∈ copyWiring, GoodWires ws := by
  intro ws h
  rw [List.eq_of_mem_replicate h]
  refine ⟨by simp, by simp, ?_, ?_⟩
  · intro w hw
    rw [List.mem_singleton] at hw
    subst hw
    exact copyGate_lawful
  · intro w hw
    rw [List.mem_singleton] at hw
    subst hw
    simp [copyGate]

theorem copyWiring_chained : ∀ n, Chained 0 (newCircuit (List.replicate n [(⟨0, 0, 0, copyGate⟩ : Wire Fr)])).layers := by
  intro n
  induction n with
  | zero => trivial
  | succ n ih => exact ⟨log2Ceil_one, by rw [show (newLayer [(⟨0, 0, 0, copyGate⟩ : Wire Fr)]).bGOutputs = 0 from log2Ceil_one]; exact ih⟩

/-- C57, the hypothesis on the number of layers is needed: a circuit of 92 layers, a gadget circuit that stands for all of them and
a witness with a wrong output which satisfies all the assertions. -/
theorem C57_negation : ∃ (proof : GkrProof Fr),
    RepresentsCircuit (gadgetCircuit (newCircuit (copyWiring ++ topWiring))) (newCircuit (copyWiring ++ topWiring)) ∧
    (wiredAssignment 1 (newCircuit (copyWiring ++ topWiring)).layers [[1]]).getLast? = some [[2]] ∧
    (snarkAssertValid arks (gadgetCircuit (newCircuit (copyWiring ++ topWiring))) proof [] [] [1] [1]).Satisfied := by
  have hln : (newCircuit copyWiring).layers[90]? = some (newLayer [⟨0, 0, 0, copyGate⟩]) := rfl
  have hb : (newLayer [(⟨0, 0, 0, copyGate⟩ : Wire Fr)]).bGOutputs = 0 := log2Ceil_one
  have hl : (wiredAssignment (2 ^ 0) (newCircuit copyWiring).layers [[(1 : Fr)]]).getLast? = some [[1]] := by decide +kernel
  obtain ⟨h, proof, hp⟩ := C57_further_layers copyWiring topWiring (by simp [copyWiring]) copyWiring_good 0 0 0
    (copyWiring_chained 91) _ hln [[1]] [[1]] ⟨rfl, by simp⟩ hl
  refine ⟨proof, h, by decide +kernel, ?_⟩
  rw [hb] at hp
  exact hp

/-- The hypotheses of C57 on circuits are met by circuits other than the one of MiMC. -/
example : copyWiring.length = 91 ∧ (∀ ws ∈ copyWiring, GoodWires ws) ∧ Chained 0 (newCircuit copyWiring).layers ∧
    RepresentsCircuit (gadgetCircuit (newCircuit copyWiring)) (newCircuit copyWiring) ∧
    (∀ ws ∈ copyWiring, ∀ w ∈ ws, w.gate.degHL ≤ 1 ∧ w.gate.degHR ≤ 1 ∧ w.gate.degHPrime ≤ 1) ∧
    WellChunked 1 (0 + 1) [[1, 2], [3, (4 : Fr)]] := by
  refine ⟨by simp [copyWiring], copyWiring_good, copyWiring_chained 91, (C57_gadget_circuit _).1, ?_, rfl, by simp⟩
  intro ws h w hw
  rw [List.eq_of_mem_replicate h, List.mem_singleton] at hw
  subst hw
  simp [copyGate]

end GkrMimc
