import Verif.Props.OnlyProof
import Verif.Props.GkrPanics
import Verif.Props.Mimc

/-! Property C73: the proof and the answer of the verifier depend on the tables only, not on how they are cut into chunks. -/

set_option linter.unusedSectionVars false

namespace GkrMimc

open Spec

section

variable {F : Type} [Field F] [DecidableEq F]

/-- The values of two chunkings of the same table, for any circuit whose wires are in range. -/
theorem chunk_values (c : Circuit F) (hr0 : ∀ l ∈ c.layers, l.InRange) (G k m k' m' : Nat) (hN : m + k = m' + k')
    (hG : Chained G c.layers) (inputs inputs' : List (List F))
    (hin : WellChunked k (G + m) inputs) (hin' : WellChunked k' (G + m') inputs')
    (heq : interleave (2 ^ k) (2 ^ (G + m)) inputs = interleave (2 ^ k') (2 ^ (G + m')) inputs') :
    ∀ (i : Nat) (l : Layer F) (v v' : List (List F)), c.layers[i]? = some l →
      (wiredAssignment (2 ^ m) c.layers inputs)[i]? = some v →
      (wiredAssignment (2 ^ m') c.layers inputs')[i]? = some v' →
      tableOf k m l v = tableOf k' m' l v' ∧
      ∀ o o', (wiredAssignment (2 ^ m) c.layers inputs)[i + 1]? = some o →
        (wiredAssignment (2 ^ m') c.layers inputs')[i + 1]? = some o' →
        interleave (2 ^ k) (2 ^ (l.bGOutputs + m)) o = interleave (2 ^ k') (2 ^ (l.bGOutputs + m')) o' := by
  obtain ⟨a1, a2, a3, a4⟩ := wiredAssignment_facts k m _ G inputs hG hin
  obtain ⟨b1, b2, _, b4⟩ := wiredAssignment_facts k' m' _ G inputs' hG hin'
  have step : ∀ (i : Nat) (l : Layer F) (v v' : List (List F)), c.layers[i]? = some l →
      (wiredAssignment (2 ^ m) c.layers inputs)[i]? = some v →
      (wiredAssignment (2 ^ m') c.layers inputs')[i]? = some v' →
      tableOf k m l v = tableOf k' m' l v' →
      ∀ o o', (wiredAssignment (2 ^ m) c.layers inputs)[i + 1]? = some o →
        (wiredAssignment (2 ^ m') c.layers inputs')[i + 1]? = some o' →
        interleave (2 ^ k) (2 ^ (l.bGOutputs + m)) o = interleave (2 ^ k') (2 ^ (l.bGOutputs + m')) o' := by
    intro i l v v' hl hv hv' ht o o' ho ho'
    obtain ⟨c1, c2⟩ := a4 i l v hl hv
    obtain ⟨d1, d2⟩ := b4 i l v' hl hv'
    rw [ho] at c2
    rw [ho'] at d2
    obtain rfl := Option.some.inj c2
    obtain rfl := Option.some.inj d2
    have hr : ∀ w ∈ l.wires, w.L < 2 ^ l.bGInputs ∧ w.R < 2 ^ l.bGInputs := by
      intro w hw
      have := hr0 l (List.mem_of_getElem? hl) w hw
      exact ⟨this.1, this.2.1⟩
    rw [interleave_wired _ _ _ _ _ _ c1 hr, interleave_wired _ _ _ _ _ _ d1 hr, hN]
    exact congrArg _ ht
  intro i
  induction i with
  | zero =>
    intro l v v' hl hv hv'
    have ht : tableOf k m l v = tableOf k' m' l v' := by
      rw [a2] at hv
      rw [b2] at hv'
      obtain rfl := Option.some.inj hv
      obtain rfl := Option.some.inj hv'
      unfold tableOf
      rw [chained_first hG hl]
      exact heq
    exact ⟨ht, step 0 l v v' hl hv hv' ht⟩
  | succ i ih =>
    intro l v v' hl hv hv'
    have hi : i + 1 < c.layers.length := (List.getElem?_eq_some_iff.1 hl).1
    obtain ⟨w, hw⟩ : ∃ w, (wiredAssignment (2 ^ m) c.layers inputs)[i]? = some w :=
      ⟨_, List.getElem?_eq_getElem (by omega)⟩
    obtain ⟨w', hw'⟩ : ∃ w, (wiredAssignment (2 ^ m') c.layers inputs')[i]? = some w :=
      ⟨_, List.getElem?_eq_getElem (by omega)⟩
    obtain ⟨j, hj⟩ : ∃ j, c.layers[i]? = some j := ⟨_, List.getElem?_eq_getElem (by omega)⟩
    have ht : tableOf k m l v = tableOf k' m' l v' := by
      have := (ih j w w' hj hw hw').2 v v' hv hv'
      rw [a3 i j l hj hl] at this
      exact this
    exact ⟨ht, step _ l v v' hl hv hv' ht⟩

/-- C73. The values of a circuit that evaluates as wired do not depend on the chunks: if two chunkings of the inputs interleave to the
same table, then so do the values of every layer. -/
theorem C73_values (wiring : List (List (Wire F))) (G k m k' m' : Nat) (hN : m + k = m' + k')
    (hG : Chained G (newCircuit wiring).layers) (inputs inputs' : List (List F))
    (hin : WellChunked k (G + m) inputs) (hin' : WellChunked k' (G + m') inputs')
    (heq : interleave (2 ^ k) (2 ^ (G + m)) inputs = interleave (2 ^ k') (2 ^ (G + m')) inputs') :
    ∀ (i : Nat) (l : Layer F) (v v' : List (List F)), (newCircuit wiring).layers[i]? = some l →
      (wiredAssignment (2 ^ m) (newCircuit wiring).layers inputs)[i]? = some v →
      (wiredAssignment (2 ^ m') (newCircuit wiring).layers inputs')[i]? = some v' →
      tableOf k m l v = tableOf k' m' l v' ∧
      ∀ o o', (wiredAssignment (2 ^ m) (newCircuit wiring).layers inputs)[i + 1]? = some o →
        (wiredAssignment (2 ^ m') (newCircuit wiring).layers inputs')[i + 1]? = some o' →
        interleave (2 ^ k) (2 ^ (l.bGOutputs + m)) o = interleave (2 ^ k') (2 ^ (l.bGOutputs + m')) o' :=
  chunk_values (newCircuit wiring) (fun l hl => by
    obtain ⟨ws, _, rfl⟩ := List.mem_map.1 hl
    exact newLayer_inRange ws) G k m k' m' hN hG inputs inputs' hin hin' heq

/-- The proofs on two chunkings of the same table are equal, for any circuit whose layers are good. -/
theorem chunk_proof [SmallCasts F] (H : List F → F) (c : Circuit F) (hr0 : ∀ l ∈ c.layers, l.InRange) (G k m k' m' : Nat)
    (hN : m + k = m' + k') (hG : Chained G c.layers) (inputs inputs' : List (List F)) (hin : WellChunked k (G + m) inputs)
    (hin' : WellChunked k' (G + m') inputs')
    (hA : HonestAssignment c k m (wiredAssignment (2 ^ m) c.layers inputs))
    (hB : HonestAssignment c k' m' (wiredAssignment (2 ^ m') c.layers inputs'))
    (heq : interleave (2 ^ k) (2 ^ (G + m)) inputs = interleave (2 ^ k') (2 ^ (G + m')) inputs')
    (nCore nCore' : Int) (hc : 1 ≤ nCore) (hc' : 1 ≤ nCore') :
    ∃ p p' proof, newGkrProver c (wiredAssignment (2 ^ m) c.layers inputs) = .ok p ∧
      newGkrProver c (wiredAssignment (2 ^ m') c.layers inputs') = .ok p' ∧
      p.prove H nCore = .ok proof ∧ p'.prove H nCore' = .ok proof := by
  have hval := chunk_values c hr0 G k m k' m' hN hG inputs inputs' hin hin' heq
  obtain ⟨a1, a2, _, _⟩ := wiredAssignment_facts k m _ G inputs hG hin
  obtain ⟨b1, b2, _, _⟩ := wiredAssignment_facts k' m' _ G inputs' hG hin'
  have hpos := List.length_pos_of_ne_nil hA.nonempty
  obtain ⟨l0, hl0⟩ : ∃ l0, c.layers[0]? = some l0 := ⟨_, List.getElem?_eq_getElem hpos⟩
  obtain ⟨ln, hln⟩ : ∃ ln, c.layers[c.layers.length - 1]? = some ln :=
    ⟨_, List.getElem?_eq_getElem (by omega)⟩
  obtain ⟨o, ho⟩ : ∃ o, (wiredAssignment (2 ^ m) c.layers inputs)[c.layers.length]? = some o :=
    ⟨_, List.getElem?_eq_getElem (by omega)⟩
  obtain ⟨o', ho'⟩ : ∃ o, (wiredAssignment (2 ^ m') c.layers inputs')[c.layers.length]? = some o :=
    ⟨_, List.getElem?_eq_getElem (by omega)⟩
  obtain ⟨p, proof, h1, h2, h3, h4, h5, _, h7⟩ := gkr_true_at H _ k m _ hA inputs o a2 ho nCore hc l0 ln hl0 hln
    (getInitialQPrimeAndQ (m + k) ln.bGOutputs).2 (getInitialQPrimeAndQ (m + k) ln.bGOutputs).1
    (by simp [getInitialQPrimeAndQ]) (by simp [getInitialQPrimeAndQ])
  obtain ⟨p', proof', g1, g2, g3, g4, g5, _, g7⟩ := gkr_true_at H _ k' m' _ hB inputs' o' b2 ho' nCore' hc' l0 ln hl0 hln
    (getInitialQPrimeAndQ (m' + k') ln.bGOutputs).2 (getInitialQPrimeAndQ (m' + k') ln.bGOutputs).1
    (by simp [getInitialQPrimeAndQ]) (by simp [getInitialQPrimeAndQ])
  have e : proof = proof' := by
    refine true_unique_tables H _ (m + k) (fun i => match c.layers[i]?,
        (wiredAssignment (2 ^ m) c.layers inputs)[i]? with
      | some l, some v => tableOf k m l v
      | _, _ => []) (fun l hl => (hA.good l hl).degrees) proof proof'
      (outputGoal k m ln o) (outputGoal k' m' ln o') ?_ ?_ h5 (hN ▸ g5) ?_ ?_
    · simp only [outputGoal, initialGoal, hN]
    · simp only [outputGoal, initialGoal, hN]
    all_goals
      intro i l hl
      have hi : i < c.layers.length := (List.getElem?_eq_some_iff.1 hl).1
      obtain ⟨v, hv⟩ : ∃ v, (wiredAssignment (2 ^ m) c.layers inputs)[i]? = some v :=
        ⟨_, List.getElem?_eq_getElem (by omega)⟩
      obtain ⟨v', hv'⟩ : ∃ v, (wiredAssignment (2 ^ m') c.layers inputs')[i]? = some v :=
        ⟨_, List.getElem?_eq_getElem (by omega)⟩
      simp only [hl, hv]
    · exact h7 i l v hl hv
    · rw [(hval i l v v' hl hv hv').1]
      exact g7 i l v' hl hv'
  refine ⟨p, p', proof, h1, g1, ?_, ?_⟩
  · rw [prove_eq_proveAt H p ln (by rw [h2]; exact hln), h3]
    exact h4
  · rw [prove_eq_proveAt H p' ln (by rw [g2]; exact hln), g3, e]
    exact g4

/-- C73. The proof does not depend on the chunks or on the number of cores: on two chunkings of the same table `NewProver` and `Prove`
return the same proof. Also for a single chunk. -/
theorem C73_proof [SmallCasts F] (H : List F → F) (wiring : List (List (Wire F))) (hne : wiring ≠ [])
    (hw : ∀ ws ∈ wiring, GoodWires ws) (G k m k' m' : Nat) (hN : m + k = m' + k') (hG : Chained G (newCircuit wiring).layers)
    (inputs inputs' : List (List F)) (hin : WellChunked k (G + m) inputs) (hin' : WellChunked k' (G + m') inputs')
    (heq : interleave (2 ^ k) (2 ^ (G + m)) inputs = interleave (2 ^ k') (2 ^ (G + m')) inputs')
    (nCore nCore' : Int) (hc : 1 ≤ nCore) (hc' : 1 ≤ nCore') :
    ∃ p p' proof, newGkrProver (newCircuit wiring) (wiredAssignment (2 ^ m) (newCircuit wiring).layers inputs) = .ok p ∧
      newGkrProver (newCircuit wiring) (wiredAssignment (2 ^ m') (newCircuit wiring).layers inputs') = .ok p' ∧
      p.prove H nCore = .ok proof ∧ p'.prove H nCore' = .ok proof :=
  chunk_proof H (newCircuit wiring) (fun l hl => by
    obtain ⟨ws, _, rfl⟩ := List.mem_map.1 hl
    exact newLayer_inRange ws) G k m k' m' hN hG inputs inputs' hin hin'
    (honest_of_wired wiring hne hw G k m hG inputs hin) (honest_of_wired wiring hne hw G k' m' hG inputs' hin') heq nCore nCore' hc hc'

/-- C73. The answer of `Verify` does not depend on the chunks either, for every proof, honest or not, and all inputs and outputs, right
or wrong: it accepts, rejects or panics on both chunkings. (With one chunk only it always panics, C22.) -/
theorem C73_verify (H : List F → F) (wiring : List (List (Wire F))) (hne : wiring ≠ [])
    (hw : ∀ ws ∈ wiring, GoodWires ws) (G k m k' m' : Nat) (hk : 1 ≤ k) (hk' : 1 ≤ k') (hN : m + k = m' + k')
    (hG : Chained G (newCircuit wiring).layers)
    (ln : Layer F) (hln : (newCircuit wiring).layers[(newCircuit wiring).layers.length - 1]? = some ln)
    (inputs inputs' outputs outputs' : List (List F)) (hin : WellChunked k (G + m) inputs) (hin' : WellChunked k' (G + m') inputs')
    (hout : WellChunked k (ln.bGOutputs + m) outputs) (hout' : WellChunked k' (ln.bGOutputs + m') outputs')
    (heq : interleave (2 ^ k) (2 ^ (G + m)) inputs = interleave (2 ^ k') (2 ^ (G + m')) inputs')
    (heqo : interleave (2 ^ k) (2 ^ (ln.bGOutputs + m)) outputs = interleave (2 ^ k') (2 ^ (ln.bGOutputs + m')) outputs')
    (proof : GkrProof F) :
    (∀ b, gkrVerify H (m + k) (newCircuit wiring) proof inputs outputs = .ok b ↔
      gkrVerify H (m' + k') (newCircuit wiring) proof inputs' outputs' = .ok b) ∧
    ((∃ e, gkrVerify H (m + k) (newCircuit wiring) proof inputs outputs = .error e) ↔
      ∃ e, gkrVerify H (m' + k') (newCircuit wiring) proof inputs' outputs' = .error e) := by
  have hg : outputGoal k m ln outputs = outputGoal k' m' ln outputs' := by
    unfold outputGoal
    rw [heqo, hN]
  have ht := C23_accepts_iff H wiring hne hw G k m hk hG ln hln inputs outputs hin hout proof
  have ht' := C23_accepts_iff H wiring hne hw G k' m' hk' hG ln hln inputs' outputs' hin' hout' proof
  have he := C24_panics_iff H wiring hne hw G k m hk hG ln hln inputs outputs hin hout proof
  have he' := C24_panics_iff H wiring hne hw G k' m' hk' hG ln hln inputs' outputs' hin' hout' proof
  rw [hg, hN, heq, ← ht', ← hN] at ht
  rw [hg, hN, ← he', ← hN] at he
  rw [← hN]
  refine ⟨?_, he⟩
  cases h : gkrVerify H (m + k) (newCircuit wiring) proof inputs outputs with
  | error e =>
    obtain ⟨e', h'⟩ := he.1 ⟨e, h⟩
    intro b
    rw [h']
    simp
  | ok c =>
    cases h' : gkrVerify H (m + k) (newCircuit wiring) proof inputs' outputs' with
    | error e =>
      obtain ⟨e', g⟩ := he.2 ⟨e, h'⟩
      rw [h] at g
      cases g
    | ok d =>
      rw [h, h'] at ht
      intro b
      cases c <;> cases d <;> simp_all

/-- C73, the whole pipeline: where `Assign` is right (C12), `Assign`, `NewProver` and `Prove` give the same proof on all chunkings of
the same inputs, and the outputs are chunkings of the same table. -/
theorem C73_assign [SmallCasts F] (H : List F → F) (wiring : List (List (Wire F))) (hne : wiring ≠ [])
    (hw : ∀ ws ∈ wiring, GoodWires ws) (G k m k' m' : Nat) (hN : m + k = m' + k') (hG : Chained G (newCircuit wiring).layers)
    (hR : ∀ ws ∈ wiring, ∀ w ∈ ws, w.R = 0)
    (inputs inputs' : List (List F)) (hin : WellChunked k (G + m) inputs) (hin' : WellChunked k' (G + m') inputs')
    (heq : interleave (2 ^ k) (2 ^ (G + m)) inputs = interleave (2 ^ k') (2 ^ (G + m')) inputs')
    (n1 n2 n3 n4 : Int) (h1 : 1 ≤ n1) (h2 : 1 ≤ n2) (h3 : 1 ≤ n3) (h4 : 1 ≤ n4) :
    ∃ values values' p p' proof, (newCircuit wiring).assign inputs n1 = .ok values ∧
      (newCircuit wiring).assign inputs' n2 = .ok values' ∧ newGkrProver (newCircuit wiring) values = .ok p ∧
      newGkrProver (newCircuit wiring) values' = .ok p' ∧ p.prove H n3 = .ok proof ∧ p'.prove H n4 = .ok proof ∧
      ∀ (ln : Layer F) (o o' : List (List F)), (newCircuit wiring).layers.getLast? = some ln → values.getLast? = some o →
        values'.getLast? = some o' →
        interleave (2 ^ k) (2 ^ (ln.bGOutputs + m)) o = interleave (2 ^ k') (2 ^ (ln.bGOutputs + m')) o' := by
  have ha := C12_assign_partial wiring G (2 ^ m) inputs n1 h1 hG (fun ws h w hw => .inl (hR ws h w hw)) (by
    intro c hc; rw [← pow_add]; exact hin.2 c hc)
  have hb := C12_assign_partial wiring G (2 ^ m') inputs' n2 h2 hG (fun ws h w hw => .inl (hR ws h w hw)) (by
    intro c hc; rw [← pow_add]; exact hin'.2 c hc)
  obtain ⟨p, p', proof, g1, g2, g3, g4⟩ := C73_proof H wiring hne hw G k m k' m' hN hG inputs inputs' hin hin' heq n3 n4 h3 h4
  refine ⟨_, _, p, p', proof, ha, hb, g1, g2, g3, g4, ?_⟩
  intro ln o o' hl ho ho'
  obtain ⟨a1, _, _, _⟩ := wiredAssignment_facts k m _ G inputs hG hin
  obtain ⟨b1, _, _, _⟩ := wiredAssignment_facts k' m' _ G inputs' hG hin'
  have hpos : 0 < (newCircuit wiring).layers.length := by
    simpa [newCircuit] using List.length_pos_of_ne_nil hne
  rw [List.getLast?_eq_getElem?] at hl ho ho'
  rw [a1] at ho
  rw [b1] at ho'
  obtain ⟨v, hv⟩ : ∃ v, (wiredAssignment (2 ^ m) (newCircuit wiring).layers inputs)[(newCircuit wiring).layers.length - 1]? = some v :=
    ⟨_, List.getElem?_eq_getElem (by omega)⟩
  obtain ⟨v', hv'⟩ : ∃ v, (wiredAssignment (2 ^ m') (newCircuit wiring).layers inputs')[(newCircuit wiring).layers.length - 1]? = some v :=
    ⟨_, List.getElem?_eq_getElem (by omega)⟩
  refine (C73_values wiring G k m k' m' hN hG inputs inputs' hin hin' heq _ ln v v' hl hv hv').2 o o' ?_ ?_
  · rw [show (newCircuit wiring).layers.length - 1 + 1 = (newCircuit wiring).layers.length + 1 - 1 by omega]
    exact ho
  · rw [show (newCircuit wiring).layers.length - 1 + 1 = (newCircuit wiring).layers.length + 1 - 1 by omega]
    exact ho'

end

/-- C73 for the circuit of `CreateMimcCircuit` with the real constants and challenges: however the inputs are cut into chunks and however
many cores there are, the proof is the same. -/
theorem C73_mimc (k m k' m' : Nat) (hN : m + k = m' + k') (inputs inputs' : List (List Fr)) (hin : WellChunked k (1 + m) inputs)
    (hin' : WellChunked k' (1 + m') inputs')
    (heq : interleave (2 ^ k) (2 ^ (1 + m)) inputs = interleave (2 ^ k') (2 ^ (1 + m')) inputs')
    (n1 n2 n3 n4 : Int) (h1 : 1 ≤ n1) (h2 : 1 ≤ n2) (h3 : 1 ≤ n3) (h4 : 1 ≤ n4) :
    ∃ c values values' p p' proof, createMimcCircuit frString arks = .ok c ∧ c.assign inputs n1 = .ok values ∧
      c.assign inputs' n2 = .ok values' ∧ newGkrProver c values = .ok p ∧ newGkrProver c values' = .ok p' ∧
      p.prove mimcHash n3 = .ok proof ∧ p'.prove mimcHash n4 = .ok proof := by
  have hne : mimcWiring frString (arks.take 91) ≠ [] := by
    obtain ⟨cs, c, d, e, _, _⟩ := arks_split
    rw [e, show cs ++ [c, d] = (cs ++ [c]) ++ [d] by simp, mimcWiring_append]
    simp
  obtain ⟨v, v', p, p', proof, g1, g2, g3, g4, g5, g6, _⟩ := C73_assign mimcHash (mimcWiring frString (arks.take 91)) hne
    (mimcWiring_good _ _) 1 k m k' m' hN (mimcWiring_chained _ _) (mimcWiring_R _ _) inputs inputs' hin hin' heq n1 n2 n3 n4 h1 h2 h3 h4
  exact ⟨_, v, v', p, p', proof, mimc_circuit, g1, g2, g3, g4, g5, g6⟩

/-- C73 fails for `Assign` where a wire reads a second input other than the first (C12): two chunkings of the same two instances give
different outputs. -/
theorem C73_negation : ∃ v v' : List (List Fr),
    interleave (2 ^ 0) (2 ^ (2 + 1)) ([[0, 0, 10, 20, 1000, 2000, 5, 6]] : List (List Fr)) =
      interleave (2 ^ 1) (2 ^ (2 + 0)) [[0, 10, 1000, 5], [0, 20, 2000, 6]] ∧
    (newLayer c12Wires).evaluate [[0, 0, 10, 20, 1000, 2000, 5, 6]] 1 = .ok v ∧
    (newLayer c12Wires).evaluate [[0, 10, 1000, 5], [0, 20, 2000, 6]] 1 = .ok v' ∧
    interleave (2 ^ 0) (2 ^ (0 + 1)) v ≠ interleave (2 ^ 1) (2 ^ (0 + 0)) v' := by
  refine ⟨[[1005, 2006]], [[15], [26]], ?_⟩
  decide +kernel

/-- Four instances of MiMC: in two chunks of two instances on three cores, and in four chunks of one instance on one core. -/
example : ∃ c values values' p p' proof, createMimcCircuit frString arks = .ok c ∧
    c.assign [[1, 3, 5, 7], [2, 4, 6, 8]] 3 = .ok values ∧ c.assign [[1, 5], [2, 6], [3, 7], [4, 8]] 1 = .ok values' ∧
    newGkrProver c values = .ok p ∧ newGkrProver c values' = .ok p' ∧
    p.prove mimcHash 3 = .ok proof ∧ p'.prove mimcHash 1 = .ok proof :=
  C73_mimc 1 1 2 0 rfl _ _ ⟨rfl, by simp⟩ ⟨rfl, by simp⟩ (by decide +kernel) 3 1 3 1 (by decide) (by decide) (by decide) (by decide)

/-- The same for one chunk, and the answers of the verifier for whatever outputs. -/
example (H : List Fr → Fr) : ∃ p p' proof,
    newGkrProver (newCircuit miniWiring) (wiredAssignment (2 ^ 1) (newCircuit miniWiring).layers [[1, 2, 3, 4]]) = .ok p ∧
    newGkrProver (newCircuit miniWiring) (wiredAssignment (2 ^ 0) (newCircuit miniWiring).layers [[1, 3], [2, 4]]) = .ok p' ∧
    p.prove H 1 = .ok proof ∧ p'.prove H 2 = .ok proof :=
  C73_proof H miniWiring (by simp [miniWiring]) miniWiring_good 1 0 1 1 0 rfl ⟨by decide +kernel, by decide +kernel, trivial⟩ _ _
    ⟨rfl, by simp⟩ ⟨rfl, by simp⟩ (by decide +kernel) 1 2 (by decide) (by decide)

example (H : List Fr → Fr) (proof : GkrProof Fr) (a b c d : Fr) :
    (∀ r, gkrVerify H 2 (newCircuit miniWiring) proof [[1, 3, 5, 7], [2, 4, 6, 8]] [[a, c], [b, d]] = .ok r ↔
      gkrVerify H 2 (newCircuit miniWiring) proof [[1, 5], [2, 6], [3, 7], [4, 8]] [[a], [b], [c], [d]] = .ok r) := by
  have e : (newLayer [⟨1, 0, 0, cipherGate frString 4⟩] : Layer Fr).bGOutputs = 0 := by decide +kernel
  exact (C73_verify H miniWiring (by simp [miniWiring]) miniWiring_good 1 1 1 2 0 (by decide) (by decide) rfl
    ⟨by decide +kernel, by decide +kernel, trivial⟩ _ rfl _ _ _ _ ⟨rfl, by simp⟩ ⟨rfl, by simp⟩ ⟨rfl, by simp [e]⟩ ⟨rfl, by simp [e]⟩
    (by decide +kernel) (by rw [e]; rfl) proof).1

end GkrMimc
