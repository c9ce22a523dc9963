import Verif.Props.Repaired
import Verif.Props.Instances

/-! Properties C73 and C74 for the repaired functions of C65: all circuits, all chunkings, one chunk included. -/

set_option linter.unusedSectionVars false

namespace GkrMimc

open Spec

section

variable {F : Type} [Field F] [DecidableEq F]

/-- C73 in full, for the repaired `NewCircuit`, `Assign` and `Verify` (C65) and `NewProver` and `Prove` as they are: on all chunkings of
the same inputs the proof is the same, the outputs are chunkings of the same table, and `Verify` gives the same answer for every proof
and all claimed outputs. Gates may repeat, wires may have any `R`, and there may be a single chunk. -/
theorem C73_repaired [SmallCasts F] (H : List F → F) (wiring : List (List (Wire F))) (hne : wiring ≠ [])
    (hw : ∀ ws ∈ wiring, IdWires ws) (G k m k' m' : Nat) (hN : m + k = m' + k') (hG : Chained G (newCircuitR wiring).layers)
    (ln : Layer F) (hln : (newCircuitR wiring).layers[(newCircuitR wiring).layers.length - 1]? = some ln)
    (inputs inputs' : List (List F)) (hin : WellChunked k (G + m) inputs) (hin' : WellChunked k' (G + m') inputs')
    (heq : interleave (2 ^ k) (2 ^ (G + m)) inputs = interleave (2 ^ k') (2 ^ (G + m')) inputs')
    (n1 n2 n3 n4 : Int) (h1 : 1 ≤ n1) (h2 : 1 ≤ n2) (h3 : 1 ≤ n3) (h4 : 1 ≤ n4) :
    (∃ values values' outputs outputs' p p' proof, (newCircuitR wiring).assignR inputs n1 = .ok values ∧
      (newCircuitR wiring).assignR inputs' n2 = .ok values' ∧ values.getLast? = some outputs ∧ values'.getLast? = some outputs' ∧
      interleave (2 ^ k) (2 ^ (ln.bGOutputs + m)) outputs = interleave (2 ^ k') (2 ^ (ln.bGOutputs + m')) outputs' ∧
      newGkrProver (newCircuitR wiring) values = .ok p ∧ newGkrProver (newCircuitR wiring) values' = .ok p' ∧
      p.prove H n3 = .ok proof ∧ p'.prove H n4 = .ok proof) ∧
    ∀ (outputs outputs' : List (List F)) (proof : GkrProof F), WellChunked k (ln.bGOutputs + m) outputs →
      WellChunked k' (ln.bGOutputs + m') outputs' →
      interleave (2 ^ k) (2 ^ (ln.bGOutputs + m)) outputs = interleave (2 ^ k') (2 ^ (ln.bGOutputs + m')) outputs' →
      gkrVerifyR H (m + k) (newCircuitR wiring) proof inputs outputs =
        gkrVerifyR H (m' + k') (newCircuitR wiring) proof inputs' outputs' := by
  have hr : ∀ l ∈ (newCircuitR wiring).layers, l.InRange := by
    intro l hl
    obtain ⟨ws, _, rfl⟩ := List.mem_map.1 hl
    exact newLayerR_inRange ws
  constructor
  · have ha := C65_assign wiring G (2 ^ m) inputs n1 h1 hG (by intro c hc; rw [← pow_add]; exact hin.2 c hc)
    have hb := C65_assign wiring G (2 ^ m') inputs' n2 h2 hG (by intro c hc; rw [← pow_add]; exact hin'.2 c hc)
    obtain ⟨p, p', proof, g1, g2, g3, g4⟩ := chunk_proof H (newCircuitR wiring) hr G k m k' m' hN hG inputs inputs' hin hin'
      (honestR wiring hne hw G k m hG inputs hin) (honestR wiring hne hw G k' m' hG inputs' hin') heq n3 n4 h3 h4
    obtain ⟨a1, _, _, _⟩ := wiredAssignment_facts k m _ G inputs hG hin
    obtain ⟨b1, _, _, _⟩ := wiredAssignment_facts k' m' _ G inputs' hG hin'
    have hpos : 0 < (newCircuitR wiring).layers.length := by
      simpa [newCircuitR] using List.length_pos_of_ne_nil hne
    obtain ⟨o, ho⟩ : ∃ o, (wiredAssignment (2 ^ m) (newCircuitR wiring).layers inputs)[(newCircuitR wiring).layers.length]? = some o :=
      ⟨_, List.getElem?_eq_getElem (by omega)⟩
    obtain ⟨o', ho'⟩ : ∃ o, (wiredAssignment (2 ^ m') (newCircuitR wiring).layers inputs')[(newCircuitR wiring).layers.length]? = some o :=
      ⟨_, List.getElem?_eq_getElem (by omega)⟩
    obtain ⟨v, hv⟩ : ∃ v, (wiredAssignment (2 ^ m) (newCircuitR wiring).layers inputs)[(newCircuitR wiring).layers.length - 1]? = some v :=
      ⟨_, List.getElem?_eq_getElem (by omega)⟩
    obtain ⟨v', hv'⟩ : ∃ v, (wiredAssignment (2 ^ m') (newCircuitR wiring).layers inputs')[(newCircuitR wiring).layers.length - 1]? =
      some v := ⟨_, List.getElem?_eq_getElem (by omega)⟩
    refine ⟨_, _, o, o', p, p', proof, ha, hb, ?_, ?_, ?_, g1, g2, g3, g4⟩
    · rw [List.getLast?_eq_getElem?, a1]; exact ho
    · rw [List.getLast?_eq_getElem?, b1]; exact ho'
    · refine (chunk_values _ hr G k m k' m' hN hG inputs inputs' hin hin' heq _ ln v v' hln hv hv').2 o o' ?_ ?_
      · rw [Nat.sub_add_cancel hpos]; exact ho
      · rw [Nat.sub_add_cancel hpos]; exact ho'
  · intro outputs outputs' proof hout hout' heqo
    obtain ⟨b, e, i⟩ := C65_verify H wiring hne hw G k m hG ln hln inputs outputs hin hout proof
    obtain ⟨b', e', i'⟩ := C65_verify H wiring hne hw G k' m' hG ln hln inputs' outputs' hin' hout' proof
    have hg : outputGoal k m ln outputs = outputGoal k' m' ln outputs' := by
      unfold outputGoal
      rw [heqo, hN]
    rw [hN, heq, hg, ← i'] at i
    rw [e, e']
    cases b <;> cases b' <;> simp_all

end

section

variable {F : Type} [Field F]

/-- C74 in full, for the repaired `Assign` (C65): for every wiring, each instance of a batch gets the values it gets alone. -/
theorem C74_repaired (wiring : List (List (Wire F))) (G N : Nat) (hG : Chained G (newCircuitR wiring).layers)
    (inputs : List (List F)) (hl : ∀ y ∈ inputs, y.length = 2 ^ G * N) (n n' : Int) (hn : 1 ≤ n) (hn' : 1 ≤ n')
    (c h : Nat) (hh : h < N) (x : List F) (hx : inputs[c]? = some x) :
    ∃ values alone, (newCircuitR wiring).assignR inputs n = .ok values ∧
      (newCircuitR wiring).assignR [instanceOf N h x] n' = .ok alone ∧
      ∀ i : Nat, i ≤ wiring.length → ∃ v y, values[i]? = some v ∧ v[c]? = some y ∧ alone[i]? = some [instanceOf N h y] := by
  refine ⟨_, _, C65_assign wiring G N inputs n hn hG hl, C65_assign wiring G 1 [instanceOf N h x] n' hn' hG ?_, ?_⟩
  · intro y hy
    obtain rfl := List.mem_singleton.1 hy
    simp only [instanceOf, List.length_map, List.length_range]
    rw [hl x (List.mem_of_getElem? hx), Nat.mul_div_cancel _ (by omega), mul_one]
  · intro i hi
    exact alone_from N h hh c _ G inputs x hG hl hx i (by simpa [newCircuitR] using hi)

end

/-- The circuit of `C12_negation`, on which `Assign` as it is makes the outputs depend on the batch. -/
example : ∃ values alone, (newCircuitR [c12Wires]).assignR [[0, 0, 10, 20, 1000, 2000, 5, 6]] 1 = .ok values ∧
    (newCircuitR [c12Wires]).assignR [instanceOf 2 0 [0, 0, 10, 20, 1000, 2000, 5, 6]] 1 = .ok alone ∧
    ∀ i : Nat, i ≤ 1 → ∃ v y, values[i]? = some v ∧ v[0]? = some y ∧ alone[i]? = some [instanceOf 2 0 y] :=
  C74_repaired [c12Wires] 2 2 ⟨by decide +kernel, trivial⟩ _ (by simp) 1 1 (by decide) (by decide) 0 0 (by decide) _ rfl

/-- A layer with a repeated gate and R ≠ 0: two instances as one chunk and as two chunks. -/
example (H : List Fr → Fr) : ∃ values values' outputs outputs' p p' proof,
    (newCircuitR [[⟨0, 1, 0, addGate⟩, ⟨1, 0, 1, addGate⟩]]).assignR [[1, 2, 5, 6]] 1 = .ok values ∧
    (newCircuitR [[⟨0, 1, 0, addGate⟩, ⟨1, 0, 1, addGate⟩]]).assignR [[1, 5], [2, 6]] 2 = .ok values' ∧
    values.getLast? = some outputs ∧ values'.getLast? = some outputs' ∧
    interleave (2 ^ 0) (2 ^ ((newLayerR [⟨0, 1, 0, addGate⟩, ⟨1, 0, 1, addGate⟩] : Layer Fr).bGOutputs + 1)) outputs =
      interleave (2 ^ 1) (2 ^ ((newLayerR [⟨0, 1, 0, addGate⟩, ⟨1, 0, 1, addGate⟩] : Layer Fr).bGOutputs + 0)) outputs' ∧
    newGkrProver (newCircuitR [[⟨0, 1, 0, addGate⟩, ⟨1, 0, 1, addGate⟩]]) values = .ok p ∧
    newGkrProver (newCircuitR [[⟨0, 1, 0, addGate⟩, ⟨1, 0, 1, addGate⟩]]) values' = .ok p' ∧
    p.prove H 1 = .ok proof ∧ p'.prove H 3 = .ok proof := by
  have hw : ∀ ws ∈ [[⟨0, 1, 0, addGate⟩, ⟨1, 0, 1, addGate⟩]], IdWires (F := Fr) ws := by
    intro ws hws
    rw [List.mem_singleton] at hws
    subst hws
    have hg : ∀ w ∈ ([⟨0, 1, 0, addGate⟩, ⟨1, 0, 1, addGate⟩] : List (Wire Fr)), w.gate = addGate := by simp
    refine ⟨⟨by simp, ?_, ?_⟩, ?_⟩
    · intro w hw
      rw [hg w hw]; exact (ShippedGate.add (toStr := frString)).lawful
    · intro w hw
      rw [hg w hw]; simp [addGate]
    · intro w h1 w' h2 _
      rw [hg w h1, hg w' h2]
  exact (C73_repaired H _ (by simp) hw 1 0 1 1 0 rfl ⟨by decide +kernel, trivial⟩ _ rfl [[1, 2, 5, 6]] [[1, 5], [2, 6]]
    ⟨rfl, by simp⟩ ⟨rfl, by simp⟩ (by decide +kernel) 1 2 1 3 (by decide) (by decide) (by decide) (by decide)).1

end GkrMimc
