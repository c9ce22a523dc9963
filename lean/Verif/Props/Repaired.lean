import Verif.Proofs.Repaired
import Verif.Props.Counting
import Verif.Props.Heap

/-! Property C65: the claims that fail for the code of /repo hold of the repaired functions of `Verif.Model.Repaired`. -/

set_option linter.unusedSectionVars false

namespace GkrMimc

open Spec Finset

/-- Wires whose gates may repeat, where the same ID means the same function. -/
structure IdWires {F : Type} [Field F] (ws : List (Wire F)) : Prop extends RunWires ws where
  ids : ∀ w ∈ ws, ∀ w' ∈ ws, w.gate.id = w'.gate.id → w.gate.eval = w'.gate.eval

section

variable {F : Type} [Field F]

/-- C65 (C13 in full). The repaired `Gates` keeps the first gate of each ID, on every list of wires. -/
theorem C65_gates (wires : List (Wire F)) : gatesR wires = distinctGates [] wires ∧ ((gatesR wires).map (·.id)).Nodup ∧
    (∀ w ∈ wires, ∃ g ∈ gatesR wires, g.id = w.gate.id) ∧ ∀ g ∈ gatesR wires, ∃ w ∈ wires, w.gate = g := by
  refine ⟨gatesR_eq wires, ?_, ?_, ?_⟩
  · rw [gatesR_eq]; exact (distinctGates_ids wires []).1
  · intro w hw
    rw [gatesR_eq]
    exact (distinctGates_covers wires [] w hw).resolve_left (by simp)
  · rw [gatesR_eq]; exact distinctGates_mem wires []

/-- C65 (C12 in full). The repaired `Evaluate` gives the wired outputs, for every wiring and every number of instances. -/
theorem C65_layer_evaluate (wires : List (Wire F)) (N : Nat) (inputs : List (List F)) (nCore : Int) (hn : 1 ≤ nCore)
    (hlen : ∀ c ∈ inputs, c.length = 2 ^ (newLayerR wires).bGInputs * N) :
    (newLayerR wires).evaluateR inputs nCore = .ok (inputs.map (wiredOutputs wires N (2 ^ (newLayerR wires).bGOutputs))) :=
  (newLayerR wires).evaluateR_eq (newLayerR_inRange wires) N inputs nCore hn hlen

/-- C65 (C12 in full). The repaired `Assign` chains the layers. -/
theorem C65_assign (wiring : List (List (Wire F))) (G N : Nat) (inputs : List (List F)) (nCore : Int) (hn : 1 ≤ nCore)
    (hG : Chained G (newCircuitR wiring).layers) (hlen : ∀ c ∈ inputs, c.length = 2 ^ G * N) :
    (newCircuitR wiring).assignR inputs nCore = .ok (wiredAssignment N (newCircuitR wiring).layers inputs) := by
  refine assignFromR_eq N nCore hn _ G inputs hG (fun l hl => ?_) hlen
  obtain ⟨ws, _, rfl⟩ := List.mem_map.1 hl
  exact newLayerR_inRange ws

/-- C65 (C07 in full). The repaired `EvaluateChunked` is the extension of the interleaved table, for every `k ≥ 0`. -/
theorem C65_evaluateChunked (k m : Nat) (chunks : List (List F)) (h : WellChunked k m chunks) (q : List F)
    (hq : q.length = m + k) : evaluateChunkedR chunks q = .ok (mle (interleave (2 ^ k) (2 ^ m) chunks) q) :=
  evaluateChunkedR_mle k m chunks h q hq

/-- C65 (C07 in full). The same for `EvaluateMixedChunked`. -/
theorem C65_evaluateMixedChunked (k m : Nat) (chunks : List (List F)) (hPrime hL hR : List F) (hl : hL.length = hR.length)
    (hp : hPrime.length = m + k) (h : WellChunked k (hL.length + m) chunks) :
    evaluateMixedChunkedR chunks hPrime hL hR =
      .ok (mle (interleave (2 ^ k) (2 ^ (hL.length + m)) chunks) (hL ++ hPrime),
        mle (interleave (2 ^ k) (2 ^ (hL.length + m)) chunks) (hR ++ hPrime)) :=
  evaluateMixedChunkedR_mle k m chunks hPrime hL hR hl hp h

/-- C65 (C28 in full). The repaired Poseidon hash is the Miyaguchi–Preneel chaining of the permutation, for every message. -/
theorem C65_poseidon (p : PoseidonHasher F) (hp : p.Square) (consts msg : List F) (hF : 1 ≤ p.nRoundsF)
    (hc : p.nRoundsF + p.nRoundsP + p.nRoundsF ≤ consts.length) (ht : 1 ≤ p.t) :
    poseidonHashR p consts msg = .ok (Spec.poseidonHash p.cauchy (consts.take p.nRoundsF)
      ((consts.drop p.nRoundsF).take p.nRoundsP) ((consts.drop (p.nRoundsF + p.nRoundsP)).take p.nRoundsF) p.t msg) := by
  unfold poseidonHashR Spec.poseidonHash
  apply hashLoop_eq p.t ht
  intro s b hs hb
  have hmat : ∀ v : List F, (matVec p.cauchy v).length = p.t := by intro v; simp [matVec, hp.1]
  have hfold : ∀ (full : Bool) (cs v : List F), v.length = p.t →
      (cs.foldl (Spec.poseidonRound p.cauchy full b) v).length = p.t := by
    intro full cs
    induction cs with
    | nil => intro v hv; exact hv
    | cons c cs ih => intro v _; exact ih _ (hmat _)
  constructor
  · unfold poseidonUpdateR
    rw [poseidonUpdate_var p hp consts s b hF hc hb hs ht]; rfl
  · simp only [addWords, poseidonPerm, List.length_zipWith, hs, hb, hfold true _ _ (hfold false _ _ (hfold true _ _ hs)), min_self]

/-- C65 (C28 in full). The hashers of the package, repaired. -/
theorem C65_poseidon_package (t nF nP : Nat) (ht : 1 ≤ t) (ht' : t ≤ 100) (hF : 1 ≤ nF) (hc : nF + nP + nF ≤ 100)
    (p : PoseidonHasher Fr) (hp : newPoseidonHasher xArr yArr t nF nP = .ok p) (msg : List Fr) :
    poseidonHashR p arks msg = .ok (Spec.poseidonHash (tab t fun i => tab t fun j => (xArr.getD i 0 + yArr.getD j 0)⁻¹)
      (arks.take nF) ((arks.drop nF).take nP) ((arks.drop (nF + nP)).take nF) t msg) := by
  obtain ⟨p', h1, h2, h3, h4, h5⟩ := newPoseidonHasher_square t nF nP ht'
  rw [hp] at h1
  cases h1
  have hcau : p.cauchy = tab t fun i => tab t fun j => (xArr.getD i 0 + yArr.getD j 0)⁻¹ := by
    unfold newPoseidonHasher at hp
    rw [generateMDSMatrix_eq _ _ _ (by rw [xArr_length]; exact ht') (by rw [yArr_length]; exact ht'), ok_bind] at hp
    cases hp; rfl
  rw [C65_poseidon p h2 arks msg (by omega) (by rw [h4, h5, arks_length]; exact hc) (by omega), hcau, h3, h4, h5]

/-- C65 (C09 in full). The repaired linear combination is right for every two tables, overlapping or equal, the first at
least as long as the second, and changes no cell of the memory that was there. -/
theorem C65_linearCombination (h : Heap F) (t0 t1 : Slice) (a0 a1 : F) (v0 : Valid h t0) (v1 : Valid h t1)
    (hl : t1.len ≤ t0.len) :
    ∃ d h', linearCombinationR h t0 t1 a0 a1 = .ok (d, h') ∧
      h'.vals d = List.zipWith (fun x y => a0 * x + a1 * y) (h.vals t0) (h.vals t1) ∧
      ∀ a < h.next, ∀ j, h'.cells a j = h.cells a j := by
  have hf := make_frame (Frame.refl h) t1.len
  have no : ∀ {s : Slice}, Valid h s → ∀ i < s.len, ∀ (g : Nat → F) (k : Nat),
      (fillHeap (h.make t1.len).2 (h.make t1.len).1 g k).get s i = h.get s i := by
    intro s vs i hi g k
    have : s.arr < h.next := vs.2 (by have := vs.1; omega)
    rw [← hf.get vs hi]
    simp only [Heap.get, fillHeap]
    rw [if_neg]
    rintro ⟨e, _⟩
    simp only [Heap.make] at e
    omega
  refine ⟨(h.make t1.len).1, fillHeap (h.make t1.len).2 (h.make t1.len).1 (fun i => a0 * h.get t0 i + a1 * h.get t1 i) t1.len, ?_, ?_, ?_⟩
  · unfold linearCombinationR
    dsimp only
    rw [forN_fillH t1.len _ _ (fun i => a0 * h.get t0 i + a1 * h.get t1 i) (fun h i => do
      let x ← h.load t0 i
      let y ← h.load t1 i
      return a0 * x + a1 * y) (by simp [Heap.make])]
    · rfl
    · intro i hi
      rw [load_ok (by omega), ok_bind, load_ok hi, ok_bind, no v0 i (by omega), no v1 i hi]
      rfl
  · have := fillHeap_vals (h.make t1.len).2 (h.make t1.len).1 (fun i => a0 * h.get t0 i + a1 * h.get t1 i)
    rw [show (h.make t1.len).1.len = t1.len from rfl] at this
    rw [this]
    symm
    apply tab_eq_of
    · simp [hl]
    · intro i hi
      simp at hi
      simp [vals_eq]
  · intro a ha j
    simp only [fillHeap]
    rw [if_neg (by rintro ⟨e, _⟩; simp only [Heap.make] at e; omega)]
    simp only [Heap.make, Heap.alloc]
    rw [Function.update_of_ne (by omega)]

/-- The inputs on which the code of /repo fails (`C12_negation`, `C12_negation_panic`, `C07_single_chunk_panics`, `C13_negation`). -/
example : (newLayerR c12Wires).evaluateR [[0, 0, 10, 20, 1000, 2000, 5, 6]] 1 = .ok [[15, 26]] := by decide +kernel
example : (newLayerR [⟨0, 1, 0, addGate⟩] : Layer Fr).evaluateR [[1, 2, 3, 4]] 1 = .ok [[4, 6]] := by decide +kernel
example : evaluateChunkedR [[1, 2, 3, (4 : Fr)]] [5, 6] = .ok 17 := by decide +kernel
example : evaluateMixedChunkedR [[1, 2, 3, (4 : Fr)]] [6] [5] [0] = .ok (17, 7) := by decide +kernel
example : (linearCombinationR exampleHeap ⟨0, 0, 2, 2⟩ ⟨0, 0, 2, 2⟩ 3 5).map (fun s => s.2.vals s.1) = .ok [8, 16] := by
  decide +kernel
example : (do let p ← newPoseidonHasher xArr yArr 2 1 1; poseidonHashR p arks [1, 2]) ≠
    (do let p ← newPoseidonHasher xArr yArr 2 1 1; poseidonHashR p arks [1, 3]) := by decide +kernel
example : (gatesR ([⟨0, 0, 0, addGate⟩, ⟨1, 0, 1, addGate⟩] : List (Wire Fr))).map (·.id) = ["AddGate"] := by decide +kernel

end

variable {F : Type} [Field F] [DecidableEq F]

theorem IdWires.layerR {ws : List (Wire F)} (h : IdWires ws) : GoodLayer (newLayerR ws) where
  inRange := newLayerR_inRange ws
  listed := by
    obtain ⟨_, h2, h3, h4⟩ := C65_gates ws
    refine ⟨h2, fun w hw => ?_⟩
    obtain ⟨g, hg, e⟩ := h3 w hw
    obtain ⟨w', hw', rfl⟩ := h4 g hg
    exact ⟨_, hg, e, h.ids w' hw' w hw e⟩
  nonempty := by
    obtain ⟨w, hw⟩ := List.exists_mem_of_ne_nil _ h.nonempty
    obtain ⟨g, hg, _⟩ := (C65_gates ws).2.2.1 w hw
    exact List.ne_nil_of_mem hg
  lawful := by
    intro g hg
    obtain ⟨w, hw, rfl⟩ := (C65_gates ws).2.2.2 g hg
    exact h.lawful w hw
  degrees := by
    intro g hg
    obtain ⟨w, hw, rfl⟩ := (C65_gates ws).2.2.2 g hg
    exact h.degrees w hw

theorem goodCircuitR {wiring : List (List (Wire F))} (hw : ∀ ws ∈ wiring, IdWires ws) {G : Nat}
    (hG : Chained G (newCircuitR wiring).layers) : GoodCircuit (newCircuitR wiring) where
  good := by
    intro l hl
    obtain ⟨ws, hws, rfl⟩ := List.mem_map.1 hl
    exact (hw ws hws).layerR
  chained := chained_index _ G hG

theorem honestR (wiring : List (List (Wire F))) (hne : wiring ≠ []) (hw : ∀ ws ∈ wiring, IdWires ws)
    (G k m : Nat) (hG : Chained G (newCircuitR wiring).layers) (inputs : List (List F)) (hin : WellChunked k (G + m) inputs) :
    HonestAssignment (newCircuitR wiring) k m (wiredAssignment (2 ^ m) (newCircuitR wiring).layers inputs) := by
  obtain ⟨a, b, c, d⟩ := wiredAssignment_facts k m _ G inputs hG hin
  exact ⟨by simpa [newCircuitR] using hne, (goodCircuitR hw hG).good, c, a, fun i l v h1 h2 => (d i l v h1 h2).1,
    fun i l v h1 h2 => (d i l v h1 h2).2⟩

theorem newCircuitR_degrees {wiring : List (List (Wire F))} {D : Nat}
    (hD : ∀ ws ∈ wiring, ∀ w ∈ ws, w.gate.degHL ≤ D ∧ w.gate.degHR ≤ D ∧ w.gate.degHPrime ≤ D) :
    ∀ l ∈ (newCircuitR wiring).layers, ∀ g ∈ l.gates, g.degHL ≤ D ∧ g.degHR ≤ D ∧ g.degHPrime ≤ D := by
  intro l hl g hg
  obtain ⟨ws, hws, rfl⟩ := List.mem_map.1 hl
  obtain ⟨w, hw', rfl⟩ := (C65_gates ws).2.2.2 g hg
  exact hD ws hws w hw'

/-- C65 (C23 and C24 in full). The repaired verifier returns on every proof, of whatever shape, and returns true exactly
when the proof has the shape of an honest one and passes all the checks of the specification; for every `k ≥ 0`. -/
theorem C65_verify (H : List F → F) (wiring : List (List (Wire F))) (hne : wiring ≠ [])
    (hw : ∀ ws ∈ wiring, IdWires ws) (G k m : Nat) (hG : Chained G (newCircuitR wiring).layers)
    (ln : Layer F) (hln : (newCircuitR wiring).layers[(newCircuitR wiring).layers.length - 1]? = some ln)
    (inputs outputs : List (List F)) (hin : WellChunked k (G + m) inputs) (hout : WellChunked k (ln.bGOutputs + m) outputs)
    (proof : GkrProof F) :
    ∃ b, gkrVerifyR H (m + k) (newCircuitR wiring) proof inputs outputs = .ok b ∧
      (b = true ↔ ProofShape (newCircuitR wiring) (m + k) proof ∧ GkrConsistent H (m + k) (newCircuitR wiring).layers proof
        (interleave (2 ^ k) (2 ^ (G + m)) inputs) (outputGoal k m ln outputs)) := by
  have hne' : (newCircuitR wiring).layers ≠ [] := by simpa [newCircuitR] using hne
  obtain ⟨l0, hl0⟩ : ∃ l0, (newCircuitR wiring).layers[0]? = some l0 :=
    ⟨_, List.getElem?_eq_getElem (List.length_pos_of_ne_nil hne')⟩
  have e := chained_first hG hl0
  have := gkrVerifyR_spec H (newCircuitR wiring) proof hne' (goodCircuitR hw hG) k m inputs outputs
    (fun l h => by rw [chained_first hG h]; exact hin) l0 ln hl0 hln hout
  unfold tableOf at this
  rw [e] at this
  exact this

/-- C65 (C22 and C52 in full). On the values of a circuit evaluated as wired, gates repeated or not, for every `k ≥ 0`, the
proof of `Prove` is accepted. -/
theorem C65_complete [SmallCasts F] (H : List F → F) (wiring : List (List (Wire F))) (hne : wiring ≠ [])
    (hw : ∀ ws ∈ wiring, IdWires ws) (G k m : Nat) (hG : Chained G (newCircuitR wiring).layers)
    (inputs outputs : List (List F)) (hin : WellChunked k (G + m) inputs)
    (hout : (wiredAssignment (2 ^ m) (newCircuitR wiring).layers inputs).getLast? = some outputs)
    (nCore : Int) (hc : 1 ≤ nCore) :
    ∃ p proof, newGkrProver (newCircuitR wiring) (wiredAssignment (2 ^ m) (newCircuitR wiring).layers inputs) = .ok p ∧
      p.prove H nCore = .ok proof ∧ gkrVerifyR H (m + k) (newCircuitR wiring) proof inputs outputs = .ok true := by
  have hA := honestR wiring hne hw G k m hG inputs hin
  obtain ⟨a, b, _, d⟩ := wiredAssignment_facts k m _ G inputs hG hin
  have hpos := List.length_pos_of_ne_nil hA.nonempty
  obtain ⟨l0, hl0⟩ : ∃ l0, (newCircuitR wiring).layers[0]? = some l0 := ⟨_, List.getElem?_eq_getElem hpos⟩
  obtain ⟨ln, hln⟩ : ∃ ln, (newCircuitR wiring).layers[(newCircuitR wiring).layers.length - 1]? = some ln :=
    ⟨_, List.getElem?_eq_getElem (by omega)⟩
  rw [List.getLast?_eq_getElem?, a, Nat.add_sub_cancel] at hout
  have hch : WellChunked k (ln.bGOutputs + m) outputs := by
    obtain ⟨v, hv⟩ : ∃ v, (wiredAssignment (2 ^ m) (newCircuitR wiring).layers inputs)[(newCircuitR wiring).layers.length - 1]? =
      some v := ⟨_, List.getElem?_eq_getElem (by rw [a]; omega)⟩
    obtain ⟨h1, h2⟩ := d _ ln v hln hv
    rw [Nat.sub_add_cancel hpos, hout] at h2
    obtain rfl := Option.some.inj h2
    refine ⟨by rw [List.length_map]; exact h1.1, fun x hx => ?_⟩
    obtain ⟨y, _, rfl⟩ := List.mem_map.1 hx
    simp [wiredOutputs, pow_add]
  obtain ⟨p, proof, h1, h2, h3, h4⟩ := gkr_honest H _ k m _ hA inputs outputs b hout nCore hc l0 ln hl0 hln
  refine ⟨p, proof, h1, h2, ?_⟩
  unfold tableOf at h4
  rw [chained_first hG hl0] at h4
  obtain ⟨x, hx, hx2⟩ := C65_verify H wiring hne hw G k m hG ln hln inputs outputs hin hch proof
  rw [hx, hx2.2 ⟨h3, h4⟩]

/-- C65 (C22 in full). The whole pipeline: repaired `NewCircuit`, `Assign` and `Verify`, and `NewProver` and `Prove` as they are. -/
theorem C65_pipeline [SmallCasts F] (H : List F → F) (wiring : List (List (Wire F))) (hne : wiring ≠ [])
    (hw : ∀ ws ∈ wiring, IdWires ws) (G k m : Nat) (hG : Chained G (newCircuitR wiring).layers)
    (inputs : List (List F)) (hin : WellChunked k (G + m) inputs) (nCore nCore' : Int) (hc : 1 ≤ nCore) (hc' : 1 ≤ nCore') :
    ∃ values outputs p proof, (newCircuitR wiring).assignR inputs nCore = .ok values ∧
      values = wiredAssignment (2 ^ m) (newCircuitR wiring).layers inputs ∧ values.getLast? = some outputs ∧
      newGkrProver (newCircuitR wiring) values = .ok p ∧ p.prove H nCore' = .ok proof ∧
      gkrVerifyR H (m + k) (newCircuitR wiring) proof inputs outputs = .ok true := by
  have ha := C65_assign wiring G (2 ^ m) inputs nCore hc hG (by intro c hc; rw [← pow_add]; exact hin.2 c hc)
  obtain ⟨a, _⟩ := wiredAssignment_facts k m _ G inputs hG hin
  have hl : wiredAssignment (2 ^ m) (newCircuitR wiring).layers inputs ≠ [] := by
    intro h; rw [h] at a; simp at a
  obtain ⟨p, proof, h1, h2, h3⟩ := C65_complete H wiring hne hw G k m hG inputs _ hin
    (List.getLast?_eq_some_getLast hl) nCore' hc'
  exact ⟨_, _, p, proof, ha, rfl, List.getLast?_eq_some_getLast hl, h1, h2, h3⟩

/-- C65 (C23 in full). If the repaired verifier accepts and the outputs differ from the circuit's at the initial point, then
some challenge is unlucky. -/
theorem C65_sound (H : List F → F) (wiring : List (List (Wire F))) (hne : wiring ≠ [])
    (hw : ∀ ws ∈ wiring, IdWires ws) (G k m : Nat) (hG : Chained G (newCircuitR wiring).layers)
    (ln : Layer F) (hln : (newCircuitR wiring).layers[(newCircuitR wiring).layers.length - 1]? = some ln)
    (D : Nat) (hD : ∀ ws ∈ wiring, ∀ w ∈ ws, w.gate.degHL ≤ D ∧ w.gate.degHR ≤ D ∧ w.gate.degHPrime ≤ D)
    (inputs outputs trueOutputs : List (List F)) (hin : WellChunked k (G + m) inputs)
    (hout : WellChunked k (ln.bGOutputs + m) outputs)
    (htrue : (wiredAssignment (2 ^ m) (newCircuitR wiring).layers inputs).getLast? = some trueOutputs)
    (proof : GkrProof F) (hacc : gkrVerifyR H (m + k) (newCircuitR wiring) proof inputs outputs = .ok true)
    (hwrong : (outputGoal k m ln outputs).claim ≠ (outputGoal k m ln trueOutputs).claim) :
    ∃ (i : Nat) (l : Layer F) (v : List (List F)), (newCircuitR wiring).layers[i]? = some l ∧
      (wiredAssignment (2 ^ m) (newCircuitR wiring).layers inputs)[i]? = some v ∧
      (BadRound H l (tableOf k m l v) (goalOf H (newCircuitR wiring).layers proof (outputGoal k m ln outputs) i)
        (msgOf proof i) (D + 1) ∨ BadCombination H l.bGInputs (tableOf k m l v) (msgOf proof i)) := by
  have hA := honestR wiring hne hw G k m hG inputs hin
  obtain ⟨a, b, _, _⟩ := wiredAssignment_facts k m _ G inputs hG hin
  obtain ⟨l0, hl0⟩ : ∃ l0, (newCircuitR wiring).layers[0]? = some l0 :=
    ⟨_, List.getElem?_eq_getElem (List.length_pos_of_ne_nil hA.nonempty)⟩
  obtain ⟨x, hx, hx2⟩ := C65_verify H wiring hne hw G k m hG ln hln inputs outputs hin hout proof
  rw [hacc] at hx
  obtain rfl := Except.ok.inj hx
  rw [List.getLast?_eq_getElem?, a, Nat.add_sub_cancel] at htrue
  refine sound_circuit H _ k m _ hA inputs trueOutputs b htrue l0 ln hl0 hln D (newCircuitR_degrees hD) proof _ _ _
    (by simp) (by simp) ?_ hwrong
  unfold tableOf
  rw [chained_first hG hl0]
  exact (hx2.1 rfl).2

/-- A prover that sends at most `n` coefficients of each polynomial. -/
def shortCheater (P : Cheater F) (n : Nat) : Cheater F := ⟨fun pre => (P.poly pre).take n, P.claims⟩

/-- Where all polynomials have at most `n` coefficients, nothing changes. -/
theorem shortCheater_play (P : Cheater F) (n bN : Nat) (layers : List (Layer F)) (ρ : List F)
    (h : ∀ i < layers.length, ∀ j < roundsOf bN layers i, (P.poly (ρ.take (offset bN layers i + j))).length ≤ n) :
    (shortCheater P n).play bN layers ρ = P.play bN layers ρ ∧
      ∀ H, P.Drawn bN layers H ρ → (shortCheater P n).Drawn bN layers H ρ := by
  constructor
  · unfold Cheater.play
    dsimp only
    congr 1
    apply List.map_congr_left
    intro i hi
    apply List.map_congr_left
    intro j hj
    exact List.take_of_length_le (h i (by simpa using hi) j (by simpa using hj))
  · intro H hd i hi
    obtain ⟨h1, h2⟩ := hd i hi
    refine ⟨fun j hj => ?_, h2⟩
    rw [← h1 j hj]
    exact congrArg H (List.take_of_length_le (h i hi j hj))

theorem GoodWires.idWires {ws : List (Wire F)} (h : GoodWires ws) : IdWires ws where
  nonempty := h.nonempty
  lawful := h.lawful
  degrees := h.degrees
  ids := by
    intro w hw w' hw' e
    rw [List.inj_on_of_nodup_map h.nodup hw hw' e]

/-- C65. A circuit without repeated gate IDs, such as the MiMC circuit, is the one that the code of /repo makes. -/
theorem C65_same_circuit (wiring : List (List (Wire F))) (hw : ∀ ws ∈ wiring, (ws.map (·.gate.id)).Nodup) :
    newCircuitR wiring = newCircuit wiring := by
  unfold newCircuitR newCircuit
  congr 1
  exact List.map_congr_left fun ws h => newLayerR_nodup ws (hw ws h)

/-- C65. On such a circuit (`k ≥ 1`) the repairs only reject more: what the repaired verifier accepts, the code accepts. -/
theorem C65_stricter (H : List F → F) (wiring : List (List (Wire F))) (hne : wiring ≠ [])
    (hw : ∀ ws ∈ wiring, GoodWires ws) (G k m : Nat) (hk : 1 ≤ k) (hG : Chained G (newCircuit wiring).layers)
    (ln : Layer F) (hln : (newCircuit wiring).layers[(newCircuit wiring).layers.length - 1]? = some ln)
    (inputs outputs : List (List F)) (hin : WellChunked k (G + m) inputs) (hout : WellChunked k (ln.bGOutputs + m) outputs)
    (proof : GkrProof F) (hacc : gkrVerifyR H (m + k) (newCircuit wiring) proof inputs outputs = .ok true) :
    gkrVerify H (m + k) (newCircuit wiring) proof inputs outputs = .ok true := by
  have e := C65_same_circuit wiring fun ws h => (hw ws h).nodup
  obtain ⟨x, hx, hx2⟩ := C65_verify H wiring hne (fun ws h => (hw ws h).idWires) G k m (by rw [e]; exact hG) ln
    (by rw [e]; exact hln) inputs outputs hin hout proof
  rw [e] at hx hx2
  rw [hacc] at hx
  obtain rfl := Except.ok.inj hx
  obtain ⟨hs, hcons⟩ := hx2.1 rfl
  rw [C23_accepts_iff H wiring hne hw G k m hk hG ln hln inputs outputs hin hout]
  exact ⟨⟨hs.rounds.ge, hs.left.ge, hs.right.ge⟩, fun l hl => (hcons.each _ l hl).1, fun l hl => (hcons.each _ l hl).2,
    .inl ⟨fun i _ => ⟨fun l hl => (hcons.each i l hl).1, fun l hl => (hcons.each i l hl).2⟩, hcons.first⟩⟩

/-- C65 (C36 in full). For the MiMC circuit, every proof and every `k ≥ 0`: the repaired verifier accepts exactly when the proof
has the shape of an honest one and the assertions of the gadget hold. -/
theorem C65_gadget (k m : Nat) (inputs outputs : List (List Fr)) (hin : WellChunked k (1 + m) inputs)
    (hout : WellChunked k m outputs) (proof : GkrProof Fr)
    (sc : SnarkCircuit Fr) (hsc : createSnarkMimcCircuit arks = .ok sc)
    (c : Circuit Fr) (hc : createMimcCircuit frString arks = .ok c) :
    gkrVerifyR mimcHash (m + k) c proof inputs outputs = .ok true ↔ ProofShape c (m + k) proof ∧
      (snarkAssertValid arks sc proof [] (qPrime0 (m + k)) (interleave (2 ^ k) (2 ^ (1 + m)) inputs)
        (interleave (2 ^ k) (2 ^ m) outputs)).Satisfied := by
  rw [snark_circuit] at hsc
  obtain rfl := Except.ok.inj hsc
  rw [mimc_circuit] at hc
  obtain rfl := Except.ok.inj hc
  have e := C65_same_circuit (mimcWiring frString (arks.take 91)) fun ws h => (mimcWiring_good _ _ ws h).nodup
  obtain ⟨x, hx, hx2⟩ := C65_verify mimcHash _ mimc_ne (fun ws h => (mimcWiring_good _ _ ws h).idWires) 1 k m
    (by rw [e]; exact mimcWiring_chained _ _) _ (by rw [e]; exact mimc_lastLayer) inputs outputs hin
    (by rw [last_bGOutputs, Nat.zero_add]; exact hout) proof
  rw [e, outputGoal_mimc] at hx2
  rw [e] at hx
  rw [snarkAssertValid_iff frString arks mimcHash arks_91 snarkHash_pure proof (m + k) _ _ _ (qPrime0_length _)
    (by rw [interleave_length]; congr 1; omega) (interleave_length _ _ _), hx]
  unfold nativeCircuit
  constructor
  · intro h
    obtain ⟨hs, hcons⟩ := hx2.1 (Except.ok.inj h)
    exact ⟨hs, ⟨hs.rounds.ge, hs.left.ge, hs.right.ge⟩, hcons⟩
  · rintro ⟨hs, _, hcons⟩
    rw [hx2.2 ⟨hs, hcons⟩]

/-- C65. The MiMC circuit with the real constants and hash, a single chunk included: `CreateMimcCircuit`, `Assign`, `NewProver`
and `Prove` as they are, and the repaired verifier accepts. -/
theorem C65_mimc (k m : Nat) (inputs : List (List Fr)) (hin : WellChunked k (1 + m) inputs)
    (nCore nCore' : Int) (hc : 1 ≤ nCore) (hc' : 1 ≤ nCore') :
    ∃ c values outputs p proof, createMimcCircuit frString arks = .ok c ∧ c.assign inputs nCore = .ok values ∧
      values.getLast? = some outputs ∧ newGkrProver c values = .ok p ∧ p.prove mimcHash nCore' = .ok proof ∧
      gkrVerifyR mimcHash (m + k) c proof inputs outputs = .ok true := by
  obtain ⟨c, values, outputs, p, proof, h1, h2, h3, h4, h5, h6, h7, h8⟩ := honest_gadget k m inputs hin nCore nCore' hc hc'
  exact ⟨c, values, outputs, p, proof, h1, h2, h3, h4, h5,
    (C65_gadget k m inputs outputs hin h6 proof _ snark_circuit c h1).2 ⟨h8, h7⟩⟩

/-- C65. The proof forged in `C23_forgery` is rejected, whatever the inputs and outputs. -/
theorem C65_forgery_rejected (H : List F → F) (toStr : F → String) (cs : List F) (c d : F) (bN : Nat)
    (inputs outputs : List (List F)) :
    gkrVerifyR H bN (newCircuit (mimcWiring toStr (cs ++ [c, d]))) (forgedProof cs.length bN c d) inputs outputs = .ok false := by
  unfold gkrVerifyR
  rw [if_pos]
  · rfl
  rw [proofShaped_iff]
  intro hs
  have hw : mimcWiring toStr (cs ++ [c, d]) = cs.map (mimcMidWires toStr) ++ [mimcMidWires toStr c, mimcLastWires toStr d] := by
    rw [show cs ++ [c, d] = (cs ++ [c]) ++ [d] by simp, mimcWiring_append]; simp
  have hl : (newCircuit (mimcWiring toStr (cs ++ [c, d]))).layers[cs.length + 1]? = some (newLayer (mimcLastWires toStr d)) := by
    rw [hw, newCircuit]
    simp
  have hp : (forgedProof cs.length bN c d).sumcheckProofs[cs.length + 1]? = some (halving (2 + bN) 0) := by
    simp [forgedProof]
  have h := hs.each _ _ _ hl hp
  unfold RoundShape at h
  have h1 : (halving (2 + bN) (0 : F)).map List.length = 1 :: (halving (1 + bN) (0 : F)).map List.length := by
    rw [show 2 + bN = (1 + bN) + 1 by omega, halving]; simp
  rw [h1, last_bGInputs] at h
  have := (List.cons.inj h).1
  simp [degL] at this

/-- A circuit with a repeated gate, on whose honest proof the code of /repo answers `false` (`C52_uniform_rejected`), and one chunk. -/
example : (∀ ws ∈ [[⟨0, 1, 0, addGate⟩, ⟨1, 0, 1, addGate⟩]], IdWires (F := Fr) ws) ∧
    Chained 1 (newCircuitR [[⟨0, 1, 0, addGate⟩, ⟨1, 0, 1, addGate⟩]] : Circuit Fr).layers ∧
    WellChunked 0 (1 + 1) [[1, 2, 5, (6 : Fr)]] ∧
    (wiredAssignment (2 ^ 1) (newCircuitR [[⟨0, 1, 0, addGate⟩, ⟨1, 0, 1, addGate⟩]] : Circuit Fr).layers
      [[1, 2, 5, (6 : Fr)]]).getLast? = some [[6, 8, 6, 8]] := by
  refine ⟨?_, ⟨by decide +kernel, trivial⟩, ⟨rfl, by simp⟩, by decide +kernel⟩
  intro ws hws
  rw [List.mem_singleton] at hws
  subst hws
  have hg : ∀ w ∈ ([⟨0, 1, 0, addGate⟩, ⟨1, 0, 1, addGate⟩] : List (Wire Fr)), w.gate = addGate := by simp
  refine ⟨⟨by simp, ?_, ?_⟩, ?_⟩
  · intro w hw
    rw [hg w hw]; exact (ShippedGate.add (toStr := frString)).lawful
  · intro w hw
    rw [hg w hw]; simp [addGate]
  · intro w hw w' hw' _
    rw [hg w hw, hg w' hw']

/-- The same proof, made by the code of /repo for the repaired circuit and checked by both: all that is run is evaluated here. -/
example : (do
    let c : Circuit Fr := newCircuitR [[⟨0, 1, 0, addGate⟩, ⟨1, 0, 1, addGate⟩]]
    let values ← c.assignR [[1, 2, 5, 6]] 1
    let p ← newGkrProver c values
    let proof ← p.prove (fun l => l.sum + 3) 1
    let good ← gkrVerifyR (fun l => l.sum + 3) 1 c proof [[1, 2, 5, 6]] [[6, 8, 6, 8]]
    let bad ← gkrVerifyR (fun l => l.sum + 3) 1 c proof [[1, 2, 5, 6]] [[6, 8, 6, 9]]
    return (good, bad)) = .ok (true, false) := by decide +kernel

variable [Fintype F]

/-- C65 (C45 in full). For outputs wrong at the initial point and **every** adaptive prover, out of the `|F|^N` challenge
vectors at most `N * (D + 1) * |F|^(N-1)` make the repaired verifier accept. No condition on the prover's polynomials and
none on the checks of the layers. -/
theorem C65_count (P : Cheater F) (wiring : List (List (Wire F))) (hne : wiring ≠ [])
    (hw : ∀ ws ∈ wiring, IdWires ws) (G k m : Nat) (hG : Chained G (newCircuitR wiring).layers)
    (ln : Layer F) (hln : (newCircuitR wiring).layers[(newCircuitR wiring).layers.length - 1]? = some ln)
    (D : Nat) (hD : ∀ ws ∈ wiring, ∀ w ∈ ws, w.gate.degHL ≤ D ∧ w.gate.degHR ≤ D ∧ w.gate.degHPrime ≤ D)
    (inputs outputs trueOutputs : List (List F)) (hin : WellChunked k (G + m) inputs)
    (hout : WellChunked k (ln.bGOutputs + m) outputs)
    (htrue : (wiredAssignment (2 ^ m) (newCircuitR wiring).layers inputs).getLast? = some trueOutputs)
    (hwrong : (outputGoal k m ln outputs).claim ≠ (outputGoal k m ln trueOutputs).claim) :
    count (fun ρ : Fin (coins (m + k) (newCircuitR wiring).layers) → F =>
      ∃ H : List F → F, P.Drawn (m + k) (newCircuitR wiring).layers H (List.ofFn ρ) ∧
        gkrVerifyR H (m + k) (newCircuitR wiring) (P.play (m + k) (newCircuitR wiring).layers (List.ofFn ρ)) inputs outputs =
          .ok true) ≤
      coins (m + k) (newCircuitR wiring).layers * (D + 1) *
        Fintype.card F ^ (coins (m + k) (newCircuitR wiring).layers - 1) := by
  have hA := honestR wiring hne hw G k m hG inputs hin
  obtain ⟨a, b, _, _⟩ := wiredAssignment_facts k m _ G inputs hG hin
  obtain ⟨l0, hl0⟩ : ∃ l0, (newCircuitR wiring).layers[0]? = some l0 :=
    ⟨_, List.getElem?_eq_getElem (List.length_pos_of_ne_nil hA.nonempty)⟩
  rw [List.getLast?_eq_getElem?, a, Nat.add_sub_cancel] at htrue
  refine le_trans (count_mono ?_) (gkr_count_circuit (shortCheater P (D + 2)) _ k m _ hA inputs trueOutputs b htrue l0 ln hl0 hln D
    (newCircuitR_degrees hD) (fun pre => by simp [shortCheater]) (outputGoal k m ln outputs).claim
    (getInitialQPrimeAndQ (m + k) ln.bGOutputs).2 (getInitialQPrimeAndQ (m + k) ln.bGOutputs).1
    (by simp [getInitialQPrimeAndQ]) (by simp [getInitialQPrimeAndQ]) hwrong)
  rintro ρ ⟨H, hdr, hacc⟩
  obtain ⟨x, hx, hx2⟩ := C65_verify H wiring hne hw G k m hG ln hln inputs outputs hin hout
    (P.play (m + k) (newCircuitR wiring).layers (List.ofFn ρ))
  rw [hacc] at hx
  obtain rfl := Except.ok.inj hx
  obtain ⟨hs, hcons⟩ := hx2.1 rfl
  obtain ⟨e1, e2⟩ := shortCheater_play P (D + 2) (m + k) (newCircuitR wiring).layers (List.ofFn ρ) (by
    intro i hi j hj
    obtain ⟨l, hl⟩ : ∃ l, (newCircuitR wiring).layers[i]? = some l := ⟨_, List.getElem?_eq_getElem hi⟩
    have hp : (P.play (m + k) (newCircuitR wiring).layers (List.ofFn ρ)).sumcheckProofs[i]? =
        some ((List.range (roundsOf (m + k) (newCircuitR wiring).layers i)).map fun j =>
          P.poly ((List.ofFn ρ).take (offset (m + k) (newCircuitR wiring).layers i + j))) := by
      simp [Cheater.play, hi]
    have hsh := hs.each i l _ hl hp
    unfold RoundShape at hsh
    have hmem : (P.poly ((List.ofFn ρ).take (offset (m + k) (newCircuitR wiring).layers i + j))).length ∈
        ((List.range (roundsOf (m + k) (newCircuitR wiring).layers i)).map fun j =>
          P.poly ((List.ofFn ρ).take (offset (m + k) (newCircuitR wiring).layers i + j))).map List.length :=
      List.mem_map.2 ⟨_, List.mem_map.2 ⟨j, by simpa using hj, rfl⟩, rfl⟩
    rw [hsh] at hmem
    have hd := newCircuitR_degrees hD l (List.mem_of_getElem? hl)
    have d1 : degL l.gates ≤ D + 1 := Nat.succ_le_succ (foldl_max_le _ D _ 0 (by omega) fun g hg => (hd g hg).1)
    have d2 : degR l.gates ≤ D + 1 := Nat.succ_le_succ (foldl_max_le _ D _ 0 (by omega) fun g hg => (hd g hg).2.1)
    have d3 : degP l.gates ≤ D + 1 := Nat.succ_le_succ (foldl_max_le _ D _ 0 (by omega) fun g hg => (hd g hg).2.2)
    simp only [List.mem_append, List.mem_replicate] at hmem
    omega)
  refine ⟨H, e2 H hdr, ?_⟩
  rw [e1]
  unfold tableOf
  rw [chained_first hG hl0]
  exact hcons

/-- C65 (C45 in full) for the MiMC circuit with the real constants, a single chunk included: of the `r^N` challenge vectors,
`N = 91 (2 + bN) + 90`, at most `8 N r^(N-1)` let any prover pass the repaired verifier with wrong outputs. -/
theorem C65_mimc_count (P : Cheater Fr) (k m : Nat) (pairs : List (List Fr × List Fr)) (hk : pairs.length = 2 ^ k)
    (hp : ∀ x ∈ pairs, x.1.length = 2 ^ m ∧ x.2.length = 2 ^ m) (outputs : List (List Fr)) (hout : WellChunked k m outputs)
    (hwrong : mle (interleave (2 ^ k) (2 ^ m) outputs) (qPrime0 (m + k)) ≠
      mle (interleave (2 ^ k) (2 ^ m) (pairs.map mimcExpected)) (qPrime0 (m + k))) :
    ∃ c, createMimcCircuit frString arks = .ok c ∧ coins (m + k) c.layers = 91 * (2 + (m + k)) + 90 ∧
      count (fun ρ : Fin (coins (m + k) c.layers) → Fr => ∃ H : List Fr → Fr, P.Drawn (m + k) c.layers H (List.ofFn ρ) ∧
        gkrVerifyR H (m + k) c (P.play (m + k) c.layers (List.ofFn ρ)) (pairs.map mimcChunk) outputs = .ok true) ≤
      (91 * (2 + (m + k)) + 90) * 8 * frModulus ^ (91 * (2 + (m + k)) + 90 - 1) := by
  refine ⟨_, mimc_circuit, C45_mimc_coins _, ?_⟩
  have e := C65_same_circuit (mimcWiring frString (arks.take 91)) fun ws h => (mimcWiring_good _ _ ws h).nodup
  have := C65_count P (mimcWiring frString (arks.take 91)) mimc_ne (fun ws h => (mimcWiring_good _ _ ws h).idWires) 1 k m
    (by rw [e]; exact mimcWiring_chained _ _) _ (by rw [e]; exact mimc_lastLayer) 7 (mimc_degrees _ _)
    (pairs.map mimcChunk) outputs (pairs.map mimcExpected)
    ⟨by simpa using hk, by
      intro c hc
      obtain ⟨x, hx, rfl⟩ := List.mem_map.1 hc
      simp [mimcChunk, hp x hx, pow_add]; omega⟩
    (by rw [last_bGOutputs, Nat.zero_add]; exact hout)
    (by rw [e]; exact mimc_values (2 ^ m) pairs hp)
    (by rw [outputGoal_mimc, outputGoal_mimc]; exact hwrong)
  rw [e] at this
  refine this.trans (le_of_eq ?_)
  rw [C45_mimc_coins, show Fintype.card Fr = frModulus from ZMod.card _]

/-- The hypotheses of `C65_mimc_count` are met: one chunk with two instances, and one wrong output. -/
example : mle (interleave (2 ^ 0) (2 ^ 1) [[7, (8 : Fr)]]) (qPrime0 (1 + 0)) ≠
    mle (interleave (2 ^ 0) (2 ^ 1) ([([1, 2], [3, 4])].map mimcExpected)) (qPrime0 (1 + 0)) := by decide +kernel

/-- The hypotheses of `C65_count` are met: wrong outputs for the circuit with a repeated gate, one chunk. -/
example : (outputGoal 0 1 (newLayerR [⟨0, 1, 0, addGate⟩, ⟨1, 0, 1, addGate⟩] : Layer Fr) [[6, 8, 6, 9]]).claim ≠
    (outputGoal 0 1 (newLayerR [⟨0, 1, 0, addGate⟩, ⟨1, 0, 1, addGate⟩] : Layer Fr) [[6, 8, 6, 8]]).claim := by
  decide +kernel

end GkrMimc
