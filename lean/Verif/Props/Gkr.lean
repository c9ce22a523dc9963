import Verif.Proofs.GkrComplete

/-! Property C22: completeness of the GKR protocol. -/

set_option linter.unusedSectionVars false

namespace GkrMimc

open Spec

variable {F : Type} [Field F] [DecidableEq F]

/-- A list of wires on which a layer works: some wire, distinct gate IDs, gates meeting the interface contract with
degrees within the reach of `InterpolateOnRange`. -/
structure GoodWires (ws : List (Wire F)) : Prop where
  nonempty : ws ≠ []
  nodup : (ws.map (·.gate.id)).Nodup
  lawful : ∀ w ∈ ws, LawfulGate w.gate
  degrees : ∀ w ∈ ws, w.gate.degHL ≤ 10 ∧ w.gate.degHR ≤ 10 ∧ w.gate.degHPrime ≤ 10

theorem GoodWires.layer {ws : List (Wire F)} (h : GoodWires ws) : GoodLayer (newLayer ws) where
  inRange := newLayer_inRange ws
  listed := newLayer_lists h.nodup
  nonempty := by
    rw [show (newLayer ws).gates = _ from gatesOf_eq ws]
    exact fun e => h.nonempty (List.map_eq_nil_iff.1 e)
  lawful := by
    intro g hg
    rw [show (newLayer ws).gates = _ from gatesOf_eq ws] at hg
    obtain ⟨w, hw, rfl⟩ := List.mem_map.1 hg
    exact h.lawful w hw
  degrees := by
    intro g hg
    rw [show (newLayer ws).gates = _ from gatesOf_eq ws] at hg
    obtain ⟨w, hw, rfl⟩ := List.mem_map.1 hg
    exact h.degrees w hw

theorem wiredAssignment_facts (k m : Nat) (layers : List (Layer F)) : ∀ (G : Nat) (cur : List (List F)),
    Chained G layers → WellChunked k (G + m) cur →
    (wiredAssignment (2 ^ m) layers cur).length = layers.length + 1 ∧
    (wiredAssignment (2 ^ m) layers cur)[0]? = some cur ∧
    (∀ (i : Nat) (l l' : Layer F), layers[i]? = some l → layers[i + 1]? = some l' → l.bGOutputs = l'.bGInputs) ∧
    (∀ (i : Nat) (l : Layer F) (v : List (List F)), layers[i]? = some l →
      (wiredAssignment (2 ^ m) layers cur)[i]? = some v → WellChunked k (l.bGInputs + m) v ∧
      (wiredAssignment (2 ^ m) layers cur)[i + 1]? = some (v.map (wiredOutputs l.wires (2 ^ m) (2 ^ l.bGOutputs)))) := by
  induction layers with
  | nil => intro G cur _ _; exact ⟨rfl, rfl, by simp, by simp⟩
  | cons l ls ih =>
    intro G cur hG hw
    obtain ⟨rfl, hG⟩ := hG
    have hw2 : WellChunked k (l.bGOutputs + m) (cur.map (wiredOutputs l.wires (2 ^ m) (2 ^ l.bGOutputs))) := by
      refine ⟨by rw [List.length_map]; exact hw.1, ?_⟩
      intro x hx
      obtain ⟨y, _, rfl⟩ := List.mem_map.1 hx
      simp [wiredOutputs, pow_add]
    obtain ⟨i1, i2, i3, i4⟩ := ih l.bGOutputs _ hG hw2
    refine ⟨by simp [wiredAssignment, i1], rfl, ?_, ?_⟩
    · intro i a b ha hb
      cases i with
      | zero =>
        simp only [List.getElem?_cons_zero, Option.some.injEq] at ha
        subst ha
        cases ls with
        | nil => simp at hb
        | cons l2 ls =>
          simp only [List.getElem?_cons_succ, List.getElem?_cons_zero, Option.some.injEq] at hb
          subst hb
          exact hG.1.symm
      | succ i => exact i3 i a b ha hb
    · intro i a v ha hv
      cases i with
      | zero =>
        simp only [List.getElem?_cons_zero, Option.some.injEq] at ha
        subst ha
        rw [wiredAssignment, List.getElem?_cons_zero, Option.some.injEq] at hv
        subst hv
        exact ⟨hw, i2⟩
      | succ i =>
        rw [wiredAssignment, List.getElem?_cons_succ] at hv
        exact i4 i a v ha hv

theorem honest_of_wired (wiring : List (List (Wire F))) (hne : wiring ≠ []) (hw : ∀ ws ∈ wiring, GoodWires ws)
    (G k m : Nat) (hG : Chained G (newCircuit wiring).layers) (inputs : List (List F))
    (hin : WellChunked k (G + m) inputs) :
    HonestAssignment (newCircuit wiring) k m (wiredAssignment (2 ^ m) (newCircuit wiring).layers inputs) := by
  obtain ⟨a, b, c, d⟩ := wiredAssignment_facts k m _ G inputs hG hin
  refine ⟨by simpa [newCircuit] using hne, ?_, c, a, fun i l v h1 h2 => (d i l v h1 h2).1,
    fun i l v h1 h2 => (d i l v h1 h2).2⟩
  intro l hl
  obtain ⟨ws, hws, rfl⟩ := List.mem_map.1 hl
  exact (hw ws hws).layer

/-- C22 (full claim: `2^k` chunks for every `k`). Proved for `k ≥ 1`: on the values of a circuit evaluated as wired, for every
batch of `2^(m+k)` instances in `2^k` chunks, every challenge function and every core count, `NewProver` and `Prove` give
a proof that `Verify` accepts. Missing: `k = 0`, where `Verify` panics (`C22_single_chunk_panics`). -/
theorem C22_complete_partial [SmallCasts F] (H : List F → F) (wiring : List (List (Wire F))) (hne : wiring ≠ [])
    (hw : ∀ ws ∈ wiring, GoodWires ws) (G k m : Nat) (hk : 1 ≤ k) (hG : Chained G (newCircuit wiring).layers)
    (inputs outputs : List (List F)) (hin : WellChunked k (G + m) inputs)
    (hout : (wiredAssignment (2 ^ m) (newCircuit wiring).layers inputs).getLast? = some outputs)
    (nCore : Int) (hc : 1 ≤ nCore) :
    ∃ p proof, newGkrProver (newCircuit wiring) (wiredAssignment (2 ^ m) (newCircuit wiring).layers inputs) = .ok p ∧
      p.prove H nCore = .ok proof ∧
      gkrVerify H (m + k) (newCircuit wiring) proof inputs outputs = .ok true := by
  obtain ⟨a, b, _, _⟩ := wiredAssignment_facts k m _ G inputs hG hin
  apply gkr_complete H _ k m hk _ (honest_of_wired wiring hne hw G k m hG inputs hin) inputs outputs b _ nCore hc
  rw [List.getLast?_eq_getElem?, a, Nat.add_sub_cancel] at hout
  exact hout

/-- C22, the whole pipeline `Assign`, `NewProver`, `Prove`, `Verify` (same restriction, and that of C12 for `Assign`). -/
theorem C22_complete_assign_partial [SmallCasts F] (H : List F → F) (wiring : List (List (Wire F))) (hne : wiring ≠ [])
    (hw : ∀ ws ∈ wiring, GoodWires ws) (G k m : Nat) (hk : 1 ≤ k) (hG : Chained G (newCircuit wiring).layers)
    (hR : ∀ ws ∈ wiring, ∀ w ∈ ws, w.R = 0 ∨ 2 ^ m = 1)
    (inputs : List (List F)) (hin : WellChunked k (G + m) inputs) (nCore nCore' : Int) (hc : 1 ≤ nCore)
    (hc' : 1 ≤ nCore') :
    ∃ values outputs p proof, (newCircuit wiring).assign inputs nCore = .ok values ∧
      values.getLast? = some outputs ∧ newGkrProver (newCircuit wiring) values = .ok p ∧ p.prove H nCore' = .ok proof ∧
      gkrVerify H (m + k) (newCircuit wiring) proof inputs outputs = .ok true := by
  have ha := C12_assign_partial wiring G (2 ^ m) inputs nCore hc hG hR (by
    intro c hc; rw [← pow_add]; exact hin.2 c hc)
  obtain ⟨a, b, _, _⟩ := wiredAssignment_facts k m _ G inputs hG hin
  have hl : wiredAssignment (2 ^ m) (newCircuit wiring).layers inputs ≠ [] := by
    intro h; rw [h] at a; simp at a
  obtain ⟨p, proof, h1, h2, h3⟩ := C22_complete_partial H wiring hne hw G k m hk hG inputs _ hin
    (List.getLast?_eq_some_getLast hl) nCore' hc'
  exact ⟨_, _, p, proof, ha, List.getLast?_eq_some_getLast hl, h1, h2, h3⟩

/-- C22 is false for a single chunk: whatever the circuit, the proof and the inputs, `Verify` panics. -/
theorem C22_single_chunk_panics (H : List F → F) (bN : Nat) (c : Circuit F) (proof : GkrProof F)
    (inputs : List (List F)) (output : List F) : gkrVerify H bN c proof inputs [output] = .error .index := by
  unfold gkrVerify idxPred
  dsimp only
  by_cases h : c.layers.length = 0
  · rw [if_pos h]; rfl
  · rw [if_neg h, idx_ok (by omega), ok_bind]
    rw [C07_single_chunk_panics]
    rfl

/-- The two-layer circuit `x₀, x₁ ↦ (x₁ + (x₀+3)^7, x₁) ↦ x₁ + (x₁ + (x₀+3)^7 + 4)^7`: the shape of the MiMC circuit. -/
def miniWiring : List (List (Wire Fr)) :=
  [[⟨1, 0, 0, cipherGate frString 3⟩, ⟨1, 0, 1, copyGate⟩], [⟨1, 0, 0, cipherGate frString 4⟩]]

theorem miniWiring_good : ∀ ws ∈ miniWiring, GoodWires ws := by
  intro ws hws
  have hsh : ∀ w ∈ ws, ShippedGate frString w.gate := by
    intro w hw
    simp only [miniWiring, List.mem_cons, List.not_mem_nil, or_false] at hws
    rcases hws with rfl | rfl
    · simp only [List.mem_cons, List.not_mem_nil, or_false] at hw
      rcases hw with rfl | rfl
      · exact .cipher 3
      · exact .copy
    · simp only [List.mem_cons, List.not_mem_nil, or_false] at hw
      subst hw
      exact .cipher 4
  refine ⟨?_, ?_, ?_, ?_⟩
  · rintro rfl; simp [miniWiring] at hws
  · simp only [miniWiring, List.mem_cons, List.not_mem_nil, or_false] at hws
    rcases hws with rfl | rfl <;> decide +kernel
  · exact fun w hw => (hsh w hw).lawful
  · intro w hw
    obtain ⟨_, _, _, h1, h2, h3⟩ := C11_degrees frString _ (hsh w hw)
    omega

/-- The hypotheses of the theorems above are met: two chunks of two instances each. -/
example : miniWiring ≠ [] ∧ (∀ ws ∈ miniWiring, GoodWires ws) ∧ Chained 1 (newCircuit miniWiring).layers ∧
    (∀ ws ∈ miniWiring, ∀ w ∈ ws, w.R = 0 ∨ 2 ^ 1 = 1) ∧ WellChunked 1 (1 + 1) [[1, 2, 5, 6], [3, 4, 7, (8 : Fr)]] := by
  refine ⟨by simp [miniWiring], miniWiring_good, ⟨by decide +kernel, by decide +kernel, trivial⟩, ?_, rfl, by simp⟩
  intro ws hws w hw
  left
  simp only [miniWiring, List.mem_cons, List.not_mem_nil, or_false] at hws
  rcases hws with rfl | rfl
  · simp only [List.mem_cons, List.not_mem_nil, or_false] at hw
    rcases hw with rfl | rfl <;> rfl
  · simp only [List.mem_cons, List.not_mem_nil, or_false] at hw
    subst hw; rfl

/-- C22: the negation of the full claim, with a witness: one chunk with one instance of the two-layer circuit. -/
theorem C22_negation (H : List Fr → Fr) : ¬ ∀ (k m : Nat) (inputs outputs : List (List Fr)),
    WellChunked k (1 + m) inputs →
    (wiredAssignment (2 ^ m) (newCircuit miniWiring).layers inputs).getLast? = some outputs →
    ∃ p proof, newGkrProver (newCircuit miniWiring) (wiredAssignment (2 ^ m) (newCircuit miniWiring).layers inputs) = .ok p ∧
      p.prove H 1 = .ok proof ∧ gkrVerify H (m + k) (newCircuit miniWiring) proof inputs outputs = .ok true := by
  intro h
  obtain ⟨_, proof, _, _, h3⟩ := h 0 0 [[1, 2]] [_] ⟨rfl, by simp⟩ rfl
  rw [C22_single_chunk_panics] at h3
  cases h3

end GkrMimc
