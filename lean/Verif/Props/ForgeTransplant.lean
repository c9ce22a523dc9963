import Verif.Props.ForgeAny
import Verif.Props.Snark

/-! Property C23: the outputs of other inputs are accepted, for every circuit; and for MiMC these are all outputs. -/

set_option linter.unusedSectionVars false

namespace GkrMimc

open Spec

section

variable {F : Type} [Field F] [DecidableEq F]

theorem wiringValue_zero (wires : List (Wire F)) (weight : Nat → F) (nL nR : List F) (a b : F)
    (h : ∀ w ∈ wires, w.gate.eval a b = 0) : wiringValue wires weight nL nR a b = 0 := by
  unfold wiringValue
  apply List.sum_eq_zero
  intro x hx
  obtain ⟨w, hw, rfl⟩ := List.mem_map.1 hx
  rw [h w hw, mul_zero]

/-- C23: the negation for every circuit of at least two layers. Take the outputs of the circuit on **any** inputs `other`, the honest
message of the last layer for them, and for the layer before it rounds that are consistent with a value that is wrong: the verifier of
the code accepts this proof for **all** inputs. The only demand is that the gates of that layer have a common zero `(a, b)`, and that
there is a polynomial without roots whose values at 0 and 1 cancel. -/
theorem C23_transplant [SmallCasts F] (h2 : (2 : F) ≠ 0) (z : List F) (hz : (polyOf z).eval 0 + (polyOf z).eval 1 = 0)
    (hr : ∀ x, (polyOf z).eval x ≠ 0) (H : List F → F) (wiring : List (List (Wire F)))
    (hw : ∀ ws ∈ wiring, GoodWires ws) (G k m n : Nat) (hk : 1 ≤ k) (hG : Chained G (newCircuit wiring).layers)
    (hn : (newCircuit wiring).layers.length = n + 2) (lm : Layer F) (hlm : (newCircuit wiring).layers[n]? = some lm)
    (a b : F) (hab : ∀ w ∈ lm.wires, w.gate.eval a b = 0)
    (other outputs : List (List F)) (ho : WellChunked k (G + m) other)
    (hout : (wiredAssignment (2 ^ m) (newCircuit wiring).layers other).getLast? = some outputs) :
    ∃ proof, ∀ inputs, WellChunked k (G + m) inputs →
      gkrVerify H (m + k) (newCircuit wiring) proof inputs outputs = .ok true := by
  have hne : wiring ≠ [] := by
    rintro rfl
    simp [newCircuit] at hn
  obtain ⟨ln, hln⟩ : ∃ ln, (newCircuit wiring).layers[n + 1]? = some ln := ⟨_, List.getElem?_eq_getElem (by omega)⟩
  have hlast : (newCircuit wiring).layers.length - 1 = n + 1 := by omega
  -- the honest proof
  obtain ⟨p, pr, _, _, hacc⟩ := C22_complete_partial H wiring hne hw G k m hk hG other outputs ho hout 1 le_rfl
  have hch : WellChunked k (ln.bGOutputs + m) outputs := by
    obtain ⟨e, _, _, d⟩ := wiredAssignment_facts k m _ G other hG ho
    rw [List.getLast?_eq_getElem?, e, Nat.add_sub_cancel, hn] at hout
    obtain ⟨v, hv⟩ : ∃ v, (wiredAssignment (2 ^ m) (newCircuit wiring).layers other)[n + 1]? = some v :=
      ⟨_, List.getElem?_eq_getElem (by rw [e]; omega)⟩
    obtain ⟨h1, h3⟩ := d _ ln v hln hv
    rw [hout] at h3
    obtain rfl := Option.some.inj h3
    refine ⟨by rw [List.length_map]; exact h1.1, fun x hx => ?_⟩
    obtain ⟨y, _, rfl⟩ := List.mem_map.1 hx
    simp [wiredOutputs, pow_add]
  rw [C23_accepts_iff H wiring hne hw G k m hk hG ln (by rw [hlast]; exact hln) other outputs ho hch, hlast] at hacc
  obtain ⟨hS, hR, hV, _⟩ := hacc
  set top := outputGoal k m ln outputs with htop
  -- the message of the layer before the last
  have hpt : 1 ≤ (goalBelow H ln.bGInputs (msgOf pr (n + 1))).point.length := by
    have h3 := (hR ln hln).2.1
    have h4 : (goalOf H (newCircuit wiring).layers pr top (n + 1)).point.length = m + k := by
      unfold goalOf
      rw [List.getElem?_eq_none (by omega)]
      simp [htop, outputGoal, initialGoal]
    change 1 ≤ (Msg.qN H ln.bGInputs _).length
    rw [h4] at h3
    rw [Msg.qN_length]
    omega
  obtain ⟨r, hrd⟩ : ∃ r, 2 * lm.bGInputs + (goalBelow H ln.bGInputs (msgOf pr (n + 1))).point.length = r + 1 :=
    ⟨_, (Nat.sub_add_cancel (by omega)).symm⟩
  obtain ⟨rounds, r1, r2, r3, r4⟩ := rounds_not_zero h2 z hz hr H r (goalBelow H ln.bGInputs (msgOf pr (n + 1))).claim
  obtain ⟨s1, s2, s3⟩ := hS
  rw [hn] at s1 s2 s3
  let proof : GkrProof F := ⟨pr.sumcheckProofs.set n rounds, pr.claimsLeft.set n a, pr.claimsRight.set n b⟩
  have hm1 : msgOf proof (n + 1) = msgOf pr (n + 1) := by
    simp [msgOf, proof, List.getD_eq_getElem?_getD, List.getElem?_set]
  have hm0 : msgOf proof n = ⟨rounds, a, b⟩ := by
    simp [msgOf, proof, List.getD_eq_getElem?_getD, List.getElem?_set, show n < pr.sumcheckProofs.length by omega,
      show n < pr.claimsLeft.length by omega, show n < pr.claimsRight.length by omega]
  have hg : ∀ q : GkrProof F, goalOf H (newCircuit wiring).layers q top (n + 1) = top := by
    intro q
    unfold goalOf
    rw [List.getElem?_eq_none (by omega)]
  have hg0 : goalOf H (newCircuit wiring).layers proof top n = goalBelow H ln.bGInputs (msgOf pr (n + 1)) := by
    unfold goalOf
    rw [hln, hm1]
  refine ⟨proof, fun inputs hin => ?_⟩
  rw [C23_accepts_iff H wiring hne hw G k m hk hG ln (by rw [hlast]; exact hln) inputs outputs hin hch, ← htop, hlast]
  refine ⟨?_, ?_, ?_, .inr ⟨n, by omega, fun j h1 h2 => by omega, ?_, ?_⟩⟩
  · unfold HasShape; rw [hn]; simp [proof]; omega
  · intro l hl
    rw [hg, hm1]
    have := hR l hl
    rwa [hg] at this
  · intro l hl
    rw [hg, hm1]
    have := hV l hl
    rwa [hg] at this
  · intro l hl
    rw [hlm] at hl
    obtain rfl := Option.some.inj hl
    rw [hg0, hm0]
    refine ⟨r2, ?_, r3⟩
    rw [r1, hrd]
  · intro hall
    have := hall _ hlm
    rw [hg0, hm0] at this
    unfold ValueCheck at this
    dsimp only at this
    rw [wiringValue_zero _ _ _ _ _ _ hab, mul_zero] at this
    exact r4 this

end

/-- All outputs are outputs of the MiMC circuit: with the block 0, the outputs of the circuit are a permutation of the state. -/
theorem mimc_reaches (k m : Nat) (outputs : List (List Fr)) (hout : WellChunked k m outputs) :
    ∃ inputs, WellChunked k (1 + m) inputs ∧
      (wiredAssignment (2 ^ m) (newCircuit (mimcWiring frString (arks.take 91))).layers inputs).getLast? = some outputs := by
  obtain ⟨D, hD⟩ := (mimcCipher_bijective (arks.take 91) 0).2.hasRightInverse
  let pairs : List (List Fr × List Fr) := outputs.map fun o => (o.map D, o.map fun _ => 0)
  refine ⟨pairs.map mimcChunk, ⟨by simp [pairs, hout.1], ?_⟩, ?_⟩
  · intro x hx
    simp only [pairs, List.map_map, List.mem_map] at hx
    obtain ⟨o, ho, rfl⟩ := hx
    simp only [Function.comp, mimcChunk, List.length_append, List.length_zipWith, List.length_map, hout.2 o ho, pow_add]
    omega
  · rw [mimc_values (2 ^ m) pairs]
    · congr 1
      simp only [pairs, List.map_map]
      conv_rhs => rw [← List.map_id outputs]
      apply List.map_congr_left
      intro o _
      simp only [Function.comp, mimcExpected, id]
      rw [List.zipWith_map, List.zipWith_self]
      conv_rhs => rw [← List.map_id o]
      apply List.map_congr_left
      intro x _
      rw [add_zero]
      exact hD x
    · intro p hp
      obtain ⟨o, ho, rfl⟩ := List.mem_map.1 hp
      simp [hout.2 o ho]

/-- C23: the negation for all outputs, without exceptions: with the real circuit, constants and challenge function, for every number
`2^(m+k)` of instances (`k ≥ 1`) and **every** outputs there is a proof that `Verify` accepts for **all** inputs. -/
theorem C23_all_outputs (k m : Nat) (hk : 1 ≤ k) (outputs : List (List Fr)) (hout : WellChunked k m outputs) :
    ∃ (c : Circuit Fr) (proof : GkrProof Fr), createMimcCircuit frString arks = .ok c ∧ ∀ inputs, WellChunked k (1 + m) inputs →
      gkrVerify mimcHash (m + k) c proof inputs outputs = .ok true := by
  obtain ⟨cs, c, d, h, h89, _⟩ := arks_split
  obtain ⟨other, ho, hv⟩ := mimc_reaches k m outputs hout
  have hwi : mimcWiring frString (arks.take 91) = cs.map (mimcMidWires frString) ++ [mimcMidWires frString c, mimcLastWires frString d] := by
    rw [h, show cs ++ [c, d] = (cs ++ [c]) ++ [d] by simp, mimcWiring_append]; simp
  have hlayers : (newCircuit (mimcWiring frString (arks.take 91))).layers = cs.map (fun c => newLayer (mimcMidWires frString c)) ++
      [newLayer (mimcMidWires frString c), newLayer (mimcLastWires frString d)] := by
    rw [hwi]; simp [newCircuit]
  obtain ⟨proof, hp⟩ := C23_transplant (by decide) [1, -3, 1] (by simp [polyOf, Finset.sum_range_succ]; ring) rootless mimcHash
    (mimcWiring frString (arks.take 91)) (mimcWiring_good _ _) 1 k m cs.length hk (mimcWiring_chained _ _)
    (by rw [hlayers]; simp) (newLayer (mimcMidWires frString c)) (by rw [hlayers, List.getElem?_append_right (by simp)]; simp)
    0 (-c) (by
      intro w hw
      simp only [newLayer, mimcMidWires, List.mem_cons, List.not_mem_nil, or_false] at hw
      rcases hw with rfl | rfl
      · simp [cipher_eval]
      · simp [copyGate]) other outputs ho hv
  exact ⟨_, proof, mimc_circuit, hp⟩

/-- For example the outputs `[[0], [0]]`, for all inputs. -/
example : ∃ (c : Circuit Fr) (proof : GkrProof Fr), createMimcCircuit frString arks = .ok c ∧ ∀ inputs, WellChunked 1 1 inputs →
    gkrVerify mimcHash 1 c proof inputs [[0], [0]] = .ok true :=
  C23_all_outputs 1 0 le_rfl [[0], [0]] ⟨rfl, by simp⟩

end GkrMimc
