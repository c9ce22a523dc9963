import Verif.Props.Mimc

/-! Property C55: the claims of the sumcheck provers that the GKR prover sets up are the values of the layers. -/

set_option linter.unusedSectionVars false

namespace GkrMimc

open Spec

variable {F : Type} [Field F] [DecidableEq F]

theorem linComb_static_any {l : Layer F} (hl : RunLayer l) (qL qR : List F) (hqL : qL.length = l.bGOutputs)
    (hqR : qR.length = l.bGOutputs) (lamL lamR : F) :
    (do
      let staticsL ← getStaticTable l qL
      let staticsR ← getStaticTable l qR
      gen staticsL.length fun i => do
        let a ← idx staticsL i
        let b ← idx staticsR i
        linearCombination a b lamL lamR : Go (List (Table F))) =
    .ok (l.gates.map fun g => tab (2 ^ (2 * l.bGInputs)) (fun u => staticF l.wires g.id qR l.bGInputs u * lamR +
        staticF l.wires g.id qL l.bGInputs u * lamL)) := by
  rw [getStaticTable_eq l hl.inRange qL hqL, ok_bind, getStaticTable_eq l hl.inRange qR hqR, ok_bind]
  rw [gen_ok (fun i => (l.gates.map fun g => tab (2 ^ (2 * l.bGInputs)) (fun u => staticF l.wires g.id qR l.bGInputs u * lamR +
        staticF l.wires g.id qL l.bGInputs u * lamL)).getD i [])]
  · rw [List.length_map]
    congr 1
    symm
    have := eq_tab (l.gates.map fun g => tab (2 ^ (2 * l.bGInputs)) (fun u => staticF l.wires g.id qR l.bGInputs u * lamR +
        staticF l.wires g.id qL l.bGInputs u * lamL)) []
    rwa [List.length_map] at this
  · intro i hi
    have hi' : i < l.gates.length := by simpa using hi
    rw [idx_ok hi, ok_bind, idx_ok (by simpa using hi'), List.getElem_map, List.getElem_map, ok_bind,
      linearCombination_eq _ _ _ _ (by simp)]
    simp only [List.getD_eq_getElem?_getD, List.getElem?_map, List.getElem?_eq_getElem hi', Option.map_some,
      Option.getD_some, tab_length]
    congr 1
    apply tab_congr
    intro u hu
    rw [← List.getD_eq_getElem?_getD, ← List.getD_eq_getElem?_getD, tab_getD hu, tab_getD hu]

theorem hypercubeSum_layer_any {l : Layer F} (hl : GoodLayer l) (bN : Nat) (inp : List F) (qL qR q' : List F)
    (hqL : qL.length = l.bGOutputs) (hqR : qR.length = l.bGOutputs) (hq' : q'.length = bN) (lamL lamR : F) :
    hypercubeSum l.gates bN l.bGInputs inp inp (tab (2 ^ q'.length) (chi q'))
      (l.gates.map fun g => tab (2 ^ (2 * l.bGInputs)) (fun u => staticF l.wires g.id qR l.bGInputs u * lamR +
        staticF l.wires g.id qL l.bGInputs u * lamL)) =
      mle (wiredOutputs l.wires (2 ^ bN) (2 ^ l.bGOutputs) inp) (qR ++ q') * lamR +
        mle (wiredOutputs l.wires (2 ^ bN) (2 ^ l.bGOutputs) inp) (qL ++ q') * lamL := by
  have e := hsum_linear l.gates (2 ^ l.bGInputs) (2 ^ l.bGInputs) (2 ^ bN) (fun i => inp.getD i 0)
    (fun i => inp.getD i 0) (chi q') (fun i => staticF l.wires ((l.gates.map (·.id)).getD i "") qR l.bGInputs)
    (fun i => staticF l.wires ((l.gates.map (·.id)).getD i "") qL l.bGInputs) lamR lamL
  rw [hsum_counted l hl.inRange bN inp qR q' hqR hq',
    hsum_counted l hl.inRange bN inp qL q' hqL hq', wiredOutputs_listed hl.listed] at e
  rw [← e, ← hsum_eq_hypercubeSum]
  apply hsum_congr
  · intros; rfl
  · intros; rfl
  · intro i hi; exact tab_getD (hq' ▸ hi)
  · intro i hi u hu
    have h2 : (l.gates.map (·.id)).getD i "" = l.gates[i].id := by simp [hi]
    rw [h2]
    simp only [List.getD_eq_getElem?_getD, List.getElem?_map, List.getElem?_eq_getElem hi, Option.map_some,
      Option.getD_some]
    rw [← List.getD_eq_getElem?_getD, tab_getD (by rwa [two_mul, pow_add])]

/-- The claim of a prover over the values of a layer. -/
theorem claim_of_tables {l : Layer F} (k m : Nat) (vals : List (List F)) (hv : WellChunked k (l.bGInputs + m) vals)
    (q' : List F) (hq' : q'.length = m + k) (st : Gate F → Nat → F) (nCore : Int) (hc : 1 ≤ nCore) :
    (newMProver vals vals (chunksOf (2 ^ k) (2 ^ m) (chi q')) l.gates
        (l.gates.map fun g => tab (2 ^ (2 * l.bGInputs)) (st g))).getClaim nCore =
      .ok (hypercubeSum l.gates (m + k) l.bGInputs (interleave (2 ^ k) (2 ^ (l.bGInputs + m)) vals)
        (interleave (2 ^ k) (2 ^ (l.bGInputs + m)) vals) (tab (2 ^ q'.length) (chi q'))
        (l.gates.map fun g => tab (2 ^ (2 * l.bGInputs)) (st g))) := by
  have hsz : SizedChunks l.gates k m l.bGInputs vals vals (chunksOf (2 ^ k) (2 ^ m) (chi q'))
      (l.gates.map fun g => tab (2 ^ (2 * l.bGInputs)) (st g)) :=
    ⟨hv, hv, chunksOf_wellChunked k m _, by simp, by
      intro t ht
      obtain ⟨g, _, rfl⟩ := List.mem_map.1 ht
      simp [two_mul]⟩
  have eeq : interleave (2 ^ k) (2 ^ m) (chunksOf (2 ^ k) (2 ^ m) (chi q')) = tab (2 ^ q'.length) (chi q') := by
    rw [interleave_chunksOf, hq', pow_add]
  have hs := hsz.sized
  rw [eeq] at hs
  rw [C18_getClaim l.gates k m l.bGInputs _ _ _ _ hsz nCore hc, eeq, getClaim_sized hs]

theorem newProver_wired {c : Circuit F} {k m : Nat} {values : List (List (List F))} (hA : HonestAssignment c k m values) :
    newGkrProver c values = .ok ⟨m + k, c, values⟩ := by
  have hpos : 0 < c.layers.length := List.length_pos_of_ne_nil hA.nonempty
  obtain ⟨l0, hl0⟩ : ∃ l0, c.layers[0]? = some l0 := ⟨_, List.getElem?_eq_getElem hpos⟩
  obtain ⟨inputs, hin⟩ : ∃ v, values[0]? = some v := ⟨_, List.getElem?_eq_getElem (by rw [hA.lengths]; omega)⟩
  have hch0 := hA.chunked 0 l0 inputs hl0 hin
  obtain ⟨v00, hv00⟩ : ∃ v, inputs[0]? = some v :=
    ⟨_, List.getElem?_eq_getElem (by rw [hch0.1]; exact Nat.two_pow_pos _)⟩
  have hlen00 : v00.length = 2 ^ (l0.bGInputs + m) := hch0.2 v00 (List.mem_of_getElem? hv00)
  unfold newGkrProver
  rw [idx_some hin, ok_bind, idx_some hv00, ok_bind, idx_some hl0, ok_bind]
  have hlg : log2Ceil ((inputs.length * v00.length : Nat) : Int) = k + (l0.bGInputs + m) := by
    rw [hch0.1, hlen00, ← pow_add, log2Ceil_pow]
  simp only [hlg]
  rw [if_neg (by omega), go_pure]
  congr 2
  omega

/-- C55. The prover that `IntermediateRoundsSumcheckProver` sets up for a layer claims the combination of the values of the
next layer, extended to the two points. For every circuit, assignment, layer, points, coefficients and number of cores. -/
theorem C55_intermediate (wiring : List (List (Wire F))) (hne : wiring ≠ []) (hw : ∀ ws ∈ wiring, GoodWires ws) (G k m : Nat)
    (hG : Chained G (newCircuit wiring).layers) (inputs : List (List F)) (hin : WellChunked k (G + m) inputs)
    (i : Nat) (l : Layer F) (hl : (newCircuit wiring).layers[i]? = some l) (next : List (List F))
    (hnext : (wiredAssignment (2 ^ m) (newCircuit wiring).layers inputs)[i + 1]? = some next)
    (q' qL qR : List F) (hq' : q'.length = m + k) (hqL : qL.length = l.bGOutputs) (hqR : qR.length = l.bGOutputs)
    (lamL lamR : F) (nCore nCore' : Int) (hc : 1 ≤ nCore) (hc' : 1 ≤ nCore') :
    ∃ p mp, newGkrProver (newCircuit wiring) (wiredAssignment (2 ^ m) (newCircuit wiring).layers inputs) = .ok p ∧
      p.intermediateRound i q' qL qR lamL lamR nCore = .ok mp ∧
      mp.getClaim nCore' = .ok (lamL * mle (interleave (2 ^ k) (2 ^ (l.bGOutputs + m)) next) (qL ++ q') +
        lamR * mle (interleave (2 ^ k) (2 ^ (l.bGOutputs + m)) next) (qR ++ q')) := by
  have hA := honest_of_wired wiring hne hw G k m hG inputs hin
  generalize newCircuit wiring = c at *
  generalize wiredAssignment (2 ^ m) c.layers inputs = values at *
  have hgl := hA.good l (List.mem_of_getElem? hl)
  have hi : i < c.layers.length := (List.getElem?_eq_some_iff.1 hl).1
  obtain ⟨v, hv⟩ : ∃ v, values[i]? = some v := ⟨_, List.getElem?_eq_getElem (by rw [hA.lengths]; omega)⟩
  have hch := hA.chunked i l v hl hv
  have hwd := hA.wired i l v hl hv
  rw [hnext] at hwd
  have hwd := Option.some.inj hwd
  refine ⟨_, newMProver v v (chunksOf (2 ^ k) (2 ^ m) (chi q')) l.gates
      (l.gates.map fun g => tab (2 ^ (2 * l.bGInputs)) (fun u => staticF l.wires g.id qR l.bGInputs u * lamR +
        staticF l.wires g.id qL l.bGInputs u * lamL)), newProver_wired hA, ?_, ?_⟩
  · unfold GkrProver.intermediateRound layerAsBKTWithCopy
    dsimp only
    rw [idx_some hv, ok_bind, sem_ok hc, ok_bind]
    simp only [go_pure, ok_bind]
    rw [hch.1, eqChunks k m q' hq' hc, ok_bind, idx_some hl, ok_bind]
    have h := linComb_static_any hgl.toRunLayer qL qR hqL hqR lamL lamR
    simp only [← bind_assoc] at h ⊢
    rw [h]
    rfl
  · rw [claim_of_tables k m v hch q' hq' _ nCore' hc', hypercubeSum_layer_any hgl (m + k) _ qL qR q' hqL hqR hq' lamL lamR]
    rw [hwd, interleave_wired l.wires k m l.bGInputs l.bGOutputs v hch
      (fun w hw => ⟨(hgl.inRange w hw).1, (hgl.inRange w hw).2.1⟩)]
    congr 1
    ring

/-- C55. The prover that `InitialRoundSumcheckProver` sets up claims the extension of the outputs. -/
theorem C55_initial (wiring : List (List (Wire F))) (hne : wiring ≠ []) (hw : ∀ ws ∈ wiring, GoodWires ws) (G k m : Nat)
    (hG : Chained G (newCircuit wiring).layers) (inputs : List (List F)) (hin : WellChunked k (G + m) inputs)
    (ln : Layer F) (hln : (newCircuit wiring).layers[(newCircuit wiring).layers.length - 1]? = some ln)
    (outputs : List (List F)) (hout : (wiredAssignment (2 ^ m) (newCircuit wiring).layers inputs).getLast? = some outputs)
    (q' q : List F) (hq' : q'.length = m + k) (hq : q.length = ln.bGOutputs)
    (nCore nCore' : Int) (hc : 1 ≤ nCore) (hc' : 1 ≤ nCore') :
    ∃ p mp, newGkrProver (newCircuit wiring) (wiredAssignment (2 ^ m) (newCircuit wiring).layers inputs) = .ok p ∧
      p.initialRound q' q nCore = .ok mp ∧
      mp.getClaim nCore' = .ok (mle (interleave (2 ^ k) (2 ^ (ln.bGOutputs + m)) outputs) (q ++ q')) := by
  have hA := honest_of_wired wiring hne hw G k m hG inputs hin
  generalize newCircuit wiring = c at *
  generalize wiredAssignment (2 ^ m) c.layers inputs = values at *
  have hpos : 0 < c.layers.length := List.length_pos_of_ne_nil hA.nonempty
  have hgl := hA.good ln (List.mem_of_getElem? hln)
  obtain ⟨n, hn⟩ : ∃ n, c.layers.length = n + 1 := ⟨c.layers.length - 1, by omega⟩
  rw [hn, Nat.add_sub_cancel] at hln
  rw [List.getLast?_eq_getElem?, hA.lengths, Nat.add_sub_cancel, hn] at hout
  obtain ⟨v, hv⟩ : ∃ v, values[n]? = some v := ⟨_, List.getElem?_eq_getElem (by rw [hA.lengths]; omega)⟩
  have hch := hA.chunked n ln v hln hv
  have hwd := hA.wired n ln v hln hv
  rw [hout] at hwd
  have hwd := Option.some.inj hwd
  have hidxP : idxPred c.layers (n + 1) = .ok ln := by
    unfold idxPred; rw [if_neg (by omega)]; exact idx_some hln
  refine ⟨_, newMProver v v (chunksOf (2 ^ k) (2 ^ m) (chi q')) ln.gates
        (ln.gates.map fun g => tab (2 ^ (2 * ln.bGInputs)) (staticF ln.wires g.id q ln.bGInputs)), newProver_wired hA, ?_, ?_⟩
  · unfold GkrProver.initialRound layerAsBKTWithCopy
    simp only [hn]
    rw [hidxP, ok_bind, getStaticTable_eq ln hgl.inRange q hq, ok_bind, Nat.add_sub_cancel, idx_some hv, ok_bind,
      sem_ok hc, ok_bind]
    simp only [go_pure, ok_bind]
    rw [hch.1, eqChunks k m q' hq' hc, ok_bind]
  · rw [claim_of_tables k m v hch q' hq' _ nCore' hc',
      hypercubeSum_layer ln hgl.inRange hgl.listed (m + k) _ q q' hq hq', hwd,
      interleave_wired ln.wires k m ln.bGInputs ln.bGOutputs v hch
        (fun w hw => ⟨(hgl.inRange w hw).1, (hgl.inRange w hw).2.1⟩)]

/-- The extension of an interleaved table at a Boolean point is an entry of a chunk. -/
theorem mle_entry (k m g : Nat) (next : List (List F)) (s u O : Nat) (hs : s < 2 ^ k) (hu : u < 2 ^ m) (hO : O < 2 ^ g)
    (chunk : List F) (hchunk : next[s]? = some chunk) (x : F) (hx : chunk[O * 2 ^ m + u]? = some x) :
    mle (interleave (2 ^ k) (2 ^ (g + m)) next) (bits g O ++ bits (m + k) (u * 2 ^ k + s)) = x := by
  have h1 : u * 2 ^ k + s < 2 ^ (m + k) := by rw [pow_add]; exact mul_add_lt hu hs
  rw [← bits_append g (m + k) O h1]
  have h2 : O * 2 ^ (m + k) + (u * 2 ^ k + s) < 2 ^ (g + (m + k)) := by rw [pow_add 2 g]; exact mul_add_lt hO h1
  unfold mle
  rw [mleF_bits _ _ h2]
  have e : O * 2 ^ (m + k) + (u * 2 ^ k + s) = (O * 2 ^ m + u) * 2 ^ k + s := by rw [pow_add]; ring
  have hd := (div_mod_lt (O := O * 2 ^ m + u) (N := 2 ^ k) (j := (O * 2 ^ m + u) * 2 ^ k + s) hs).1 rfl
  have hlt : (O * 2 ^ m + u) * 2 ^ k + s < 2 ^ (g + m) * 2 ^ k := by
    rw [← e, ← pow_add, show g + m + k = g + (m + k) by omega]; exact h2
  rw [e]
  unfold interleave
  rw [List.getD_eq_getElem?_getD, List.getElem?_map, List.getElem?_range hlt]
  simp only [Option.map_some, Option.getD_some, hd.1, hd.2, List.getD_eq_getElem?_getD, hchunk, hx]

/-- C55. At Boolean points, with coefficients 1 and 0, the claim is a single value: gate output `O` of the instance `u` of
chunk `s`. For the intermediate rounds and for the initial round. -/
theorem C55_boolean (wiring : List (List (Wire F))) (hne : wiring ≠ []) (hw : ∀ ws ∈ wiring, GoodWires ws) (G k m : Nat)
    (hG : Chained G (newCircuit wiring).layers) (inputs : List (List F)) (hin : WellChunked k (G + m) inputs)
    (i : Nat) (l : Layer F) (hl : (newCircuit wiring).layers[i]? = some l) (next : List (List F))
    (hnext : (wiredAssignment (2 ^ m) (newCircuit wiring).layers inputs)[i + 1]? = some next)
    (O u s : Nat) (hO : O < 2 ^ l.bGOutputs) (hu : u < 2 ^ m) (hs : s < 2 ^ k)
    (chunk : List F) (hchunk : next[s]? = some chunk) (x : F) (hx : chunk[O * 2 ^ m + u]? = some x)
    (qR : List F) (hqR : qR.length = l.bGOutputs) (nCore nCore' : Int) (hc : 1 ≤ nCore) (hc' : 1 ≤ nCore') :
    ∃ p, newGkrProver (newCircuit wiring) (wiredAssignment (2 ^ m) (newCircuit wiring).layers inputs) = .ok p ∧
      (∃ mp, p.intermediateRound i (bits (m + k) (u * 2 ^ k + s)) (bits l.bGOutputs O) qR 1 0 nCore = .ok mp ∧
        mp.getClaim nCore' = .ok x) ∧
      (i + 1 = wiring.length → ∃ mp, p.initialRound (bits (m + k) (u * 2 ^ k + s)) (bits l.bGOutputs O) nCore = .ok mp ∧
        mp.getClaim nCore' = .ok x) := by
  obtain ⟨p, mp, h1, h2, h3⟩ := C55_intermediate wiring hne hw G k m hG inputs hin i l hl next hnext
    (bits (m + k) (u * 2 ^ k + s)) (bits l.bGOutputs O) qR (by simp) (by simp) hqR 1 0 nCore nCore' hc hc'
  refine ⟨p, h1, ⟨mp, h2, ?_⟩, ?_⟩
  · rw [h3, mle_entry k m _ next s u O hs hu hO chunk hchunk x hx]
    congr 1
    ring
  · intro hi
    have hll : wiring.length = (newCircuit wiring).layers.length := by simp [newCircuit]
    have hA := honest_of_wired wiring hne hw G k m hG inputs hin
    have e1 : (newCircuit wiring).layers.length - 1 = i := by omega
    obtain ⟨p', mp', g1, g2, g3⟩ := C55_initial wiring hne hw G k m hG inputs hin l (by rw [e1]; exact hl) next
      (by rw [List.getLast?_eq_getElem?, hA.lengths, Nat.add_sub_cancel, ← hll, ← hi]; exact hnext)
      (bits (m + k) (u * 2 ^ k + s)) (bits l.bGOutputs O) (by simp) (by simp) nCore nCore' hc hc'
    obtain rfl : p = p' := by rw [h1] at g1; exact Except.ok.inj g1
    exact ⟨mp', g2, by rw [g3, mle_entry k m _ next s u O hs hu hO chunk hchunk x hx]⟩

/-- The two-layer circuit `miniWiring` (hypotheses: Props/Gkr.lean) with two chunks of one instance: the claim for the first
layer with coefficients 2 and 3 at the points 5, 6 and 7, and at the Boolean point of output 1 of the second chunk. -/
example : (newGkrProver (newCircuit miniWiring) (wiredAssignment (2 ^ 0) (newCircuit miniWiring).layers [[1, 2], [3, 4]]) >>=
    fun p => p.intermediateRound 0 [7] [5] [6] 2 3 1 >>= fun mp => mp.getClaim 2) =
    (evaluate [2 + 4 ^ 7, 4 + 6 ^ 7, 2, 4] [5, 7] >>= fun a => evaluate [2 + 4 ^ 7, 4 + 6 ^ 7, 2, 4] [6, 7] >>= fun b =>
      .ok (2 * a + 3 * b)) := by decide +kernel
example : (newGkrProver (newCircuit miniWiring) (wiredAssignment (2 ^ 0) (newCircuit miniWiring).layers [[1, 2], [3, 4]]) >>=
    fun p => p.intermediateRound 0 [1] [1] [6] 1 0 1 >>= fun mp => mp.getClaim 2) = .ok 4 := by decide +kernel

end GkrMimc
