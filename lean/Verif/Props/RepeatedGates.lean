import Verif.Proofs.GkrExact

/-! Properties C51 and C52: the answer of `Verify` on the proof of `Prove`, for any assignment of the right sizes and any
repetition of gates; completeness for layers that use a gate more than once. -/

set_option linter.unusedSectionVars false

namespace GkrMimc

open Spec

variable {F : Type} [Field F] [DecidableEq F]

/-- A list of wires on which a layer runs; gates may repeat. -/
structure RunWires (ws : List (Wire F)) : Prop where
  nonempty : ws ≠ []
  lawful : ∀ w ∈ ws, LawfulGate w.gate
  degrees : ∀ w ∈ ws, w.gate.degHL ≤ 10 ∧ w.gate.degHR ≤ 10 ∧ w.gate.degHPrime ≤ 10

theorem RunWires.layer {ws : List (Wire F)} (h : RunWires ws) : RunLayer (newLayer ws) where
  inRange := newLayer_inRange ws
  nonempty := by
    rw [show (newLayer ws).gates = _ from gatesOf_eq ws]
    exact fun e => h.nonempty (List.map_eq_nil_iff.1 e)
  lawful := by
    intro g hg
    rw [show (newLayer ws).gates = _ from gatesOf_eq ws] at hg
    obtain ⟨w, hw, rfl⟩ := List.mem_map.1 hg
    exact h.lawful w hw
  degrees := by
    intro g hg
    rw [show (newLayer ws).gates = _ from gatesOf_eq ws] at hg
    obtain ⟨w, hw, rfl⟩ := List.mem_map.1 hg
    exact h.degrees w hw

theorem circuit_counted {wiring : List (List (Wire F))} {i : Nat} {l : Layer F} (h : (newCircuit wiring).layers[i]? = some l) :
    countedBy l.gates l.wires = countedWires l.wires := by
  obtain ⟨ws, _, rfl⟩ := List.mem_map.1 (List.mem_of_getElem? h)
  exact newLayer_counted ws

/-- Tables of the sizes that an assignment of the circuit has, with any contents: `2^k` chunks of `2^m` instances. -/
structure SizedValues (c : Circuit F) (k m : Nat) (values : List (List (List F))) : Prop where
  lengths : values.length = c.layers.length + 1
  ins : ∀ (i : Nat) (l : Layer F) (v : List (List F)), c.layers[i]? = some l → values[i]? = some v →
    WellChunked k (l.bGInputs + m) v
  outs : ∀ (i : Nat) (l : Layer F) (v : List (List F)), c.layers[i]? = some l → values[i + 1]? = some v →
    WellChunked k (l.bGOutputs + m) v

theorem chained_index (layers : List (Layer F)) : ∀ (G : Nat), Chained G layers → ∀ (i : Nat) (l l' : Layer F),
    layers[i]? = some l → layers[i + 1]? = some l' → l.bGOutputs = l'.bGInputs := by
  induction layers with
  | nil => intro G _ i l l' h; simp at h
  | cons a as ih =>
    intro G hG i l l' h1 h2
    obtain ⟨_, hG⟩ := hG
    cases i with
    | zero =>
      simp only [List.getElem?_cons_zero, Option.some.injEq] at h1
      subst h1
      cases as with
      | nil => simp at h2
      | cons b bs =>
        simp only [List.getElem?_cons_succ, List.getElem?_cons_zero, Option.some.injEq] at h2
        subst h2
        exact hG.1.symm
    | succ i => exact ih _ hG i l l' h1 h2

theorem SizedValues.run {wiring : List (List (Wire F))} (hne : wiring ≠ []) (hw : ∀ ws ∈ wiring, RunWires ws)
    {G k m : Nat} (hG : Chained G (newCircuit wiring).layers) {values : List (List (List F))}
    (hv : SizedValues (newCircuit wiring) k m values) : RunAssignment (newCircuit wiring) k m values where
  nonempty := by simpa [newCircuit] using hne
  good := by
    intro l hl
    obtain ⟨ws, hws, rfl⟩ := List.mem_map.1 hl
    exact (hw ws hws).layer
  chained := chained_index _ G hG
  lengths := hv.lengths
  chunked := hv.ins
  chunkedOut := hv.outs

/-- C51. For a layer with any wires, `GetClaim` of the prover built from the static tables at `q`, the inputs and the eq
table of `q'` is the extension at `(q, q')` of the outputs of the counted wires. -/
theorem C51_layer_claim (wires : List (Wire F)) (bN : Nat) (inp : List F)
    (hlen : inp.length = 2 ^ ((newLayer wires).bGInputs + bN)) (q q' : List F)
    (hq : q.length = (newLayer wires).bGOutputs) (hq' : q'.length = bN) :
    ∃ statics eq, getStaticTable (newLayer wires) q = .ok statics ∧ getFoldedEqTable q' = .ok eq ∧
      (newSProver inp inp eq (newLayer wires).gates statics).getClaim =
        .ok (mle (wiredOutputs (countedWires wires) (2 ^ bN) (2 ^ (newLayer wires).bGOutputs) inp) (q ++ q')) := by
  have hr := newLayer_inRange wires
  refine ⟨_, _, getStaticTable_eq _ hr q hq, getFoldedEqTable_eq q', ?_⟩
  rw [getClaim_sized (layer_sized (newLayer wires) bN inp hlen q' hq' _)]
  congr 1
  rw [← newLayer_counted]
  exact hypercubeSum_counted _ hr bN inp q q' hq hq'

/-- C51. When gates with the same ID compute the same function, counting multiplies the value of a wire by the number of
wires of the layer with its gate ID. -/
theorem C51_counted_output (wires : List (Wire F))
    (hid : ∀ w ∈ wires, ∀ w' ∈ wires, w.gate.id = w'.gate.id → w.gate.eval = w'.gate.eval) (N : Nat) (inp : List F)
    (O h : Nat) :
    wiredOutput (countedWires wires) N inp O h = ((wires.filter fun w => w.O = O).map fun w =>
      ((wires.map (·.gate.id)).count w.gate.id : F) *
        w.gate.eval (inp.getD (w.L * N + h) 0) (inp.getD (w.R * N + h) 0)).sum := by
  unfold wiredOutput
  rw [← list_sum_ite, countedWires_sum, ← list_sum_ite]
  have swap : ∀ (f : Wire F → Wire F → F), (wires.map fun w => (wires.map fun w' => f w w').sum).sum =
      (wires.map fun w' => (wires.map fun w => f w w').sum).sum := by
    intro f
    simp only [list_map_sum_eq]
    exact Finset.sum_comm
  rw [swap]
  apply list_sum_congr
  intro w' hw'
  by_cases hO : w'.O = O
  · simp only [hO, if_true]
    have e : ∀ w ∈ wires, (if w'.gate.id = w.gate.id then
        w.gate.eval (inp.getD (w'.L * N + h) 0) (inp.getD (w'.R * N + h) 0) else 0) =
        (if w.gate.id = w'.gate.id then (1 : F) else 0) *
          w'.gate.eval (inp.getD (w'.L * N + h) 0) (inp.getD (w'.R * N + h) 0) := by
      intro w hw
      by_cases hc : w.gate.id = w'.gate.id
      · rw [if_pos hc.symm, if_pos hc, hid w hw w' hw' hc, one_mul]
      · rw [if_neg (fun h => hc h.symm), if_neg hc, zero_mul]
    rw [list_sum_congr _ _ _ e, list_sum_mul_right]
    congr 1
    clear e swap hid hw'
    induction wires with
    | nil => simp
    | cons a as ih =>
      rw [List.map_cons, List.sum_cons, ih, List.map_cons, List.count_cons]
      by_cases hc : a.gate.id = w'.gate.id
      · simp [hc]; ring
      · simp [hc]
  · simp [hO]

/-- C51. `NewProver` and `Prove` run on every assignment of the right sizes, whatever its contents and however gates repeat,
and `Verify` answers without panic; it answers `true` exactly when, in every layer, the claim about the outputs holds of
the outputs of the counted wires. -/
theorem C51_exact [SmallCasts F] (H : List F → F) (wiring : List (List (Wire F))) (hne : wiring ≠ [])
    (hw : ∀ ws ∈ wiring, RunWires ws) (G k m : Nat) (hk : 1 ≤ k) (hG : Chained G (newCircuit wiring).layers)
    (values : List (List (List F))) (hv : SizedValues (newCircuit wiring) k m values) (inputs outputs : List (List F))
    (hin : values[0]? = some inputs) (hout : values.getLast? = some outputs) (nCore : Int) (hc : 1 ≤ nCore) :
    ∃ p proof b, newGkrProver (newCircuit wiring) values = .ok p ∧ p.prove H nCore = .ok proof ∧
      gkrVerify H (m + k) (newCircuit wiring) proof inputs outputs = .ok b ∧
      (b = true ↔ ∀ i < wiring.length, ClaimAgrees H (newCircuit wiring) k m values proof i) := by
  have hlen : (newCircuit wiring).layers.length = wiring.length := by simp [newCircuit]
  rw [← hlen]
  refine gkr_exact H _ k m hk values (hv.run hne hw hG) inputs outputs hin ?_ nCore hc
  rw [List.getLast?_eq_getElem?, hv.lengths, Nat.add_sub_cancel] at hout
  exact hout

/-- The layers with every gate counted. -/
def countedLayers (layers : List (Layer F)) : List (Layer F) :=
  layers.map fun l => { l with wires := countedWires l.wires }

theorem countedLayers_chained (layers : List (Layer F)) : ∀ G, Chained G layers → Chained G (countedLayers layers) := by
  induction layers with
  | nil => intro G _; trivial
  | cons l ls ih => intro G h; exact ⟨h.1, ih _ h.2⟩

theorem wired_sized (wiring : List (List (Wire F))) (G k m : Nat) (layers : List (Layer F))
    (hL : layers.map (fun l => (l.bGInputs, l.bGOutputs)) =
      (newCircuit wiring).layers.map fun l => (l.bGInputs, l.bGOutputs))
    (hG : Chained G layers) (inputs : List (List F)) (hin : WellChunked k (G + m) inputs) :
    SizedValues (newCircuit wiring) k m (wiredAssignment (2 ^ m) layers inputs) := by
  obtain ⟨a, b, c, d⟩ := wiredAssignment_facts k m layers G inputs hG hin
  have hl : layers.length = (newCircuit wiring).layers.length := by simpa using congrArg List.length hL
  have key : ∀ (i : Nat) (l : Layer F), (newCircuit wiring).layers[i]? = some l → ∃ l2, layers[i]? = some l2 ∧
      l2.bGInputs = l.bGInputs ∧ l2.bGOutputs = l.bGOutputs := by
    intro i l h
    have hi : i < layers.length := by rw [hl]; exact (List.getElem?_eq_some_iff.1 h).1
    refine ⟨layers[i], List.getElem?_eq_getElem hi, ?_⟩
    have := congrArg (fun x => x[i]?) hL
    simp only [List.getElem?_map, h, List.getElem?_eq_getElem hi, Option.map_some, Option.some.injEq, Prod.mk.injEq] at this
    exact this
  refine ⟨by rw [a, hl], ?_, ?_⟩
  · intro i l v h1 h2
    obtain ⟨l2, h3, h4, _⟩ := key i l h1
    rw [← h4]
    exact (d i l2 v h3 h2).1
  · intro i l v h1 h2
    obtain ⟨l2, h3, _, h5⟩ := key i l h1
    have hi : i < (wiredAssignment (2 ^ m) layers inputs).length := by
      rw [a]; have := (List.getElem?_eq_some_iff.1 h3).1; omega
    obtain ⟨h6, h7⟩ := d i l2 _ h3 (List.getElem?_eq_getElem hi)
    rw [h2] at h7
    obtain rfl := Option.some.inj h7
    rw [← h5]
    refine ⟨by rw [List.length_map]; exact h6.1, ?_⟩
    intro x hx
    obtain ⟨y, _, rfl⟩ := List.mem_map.1 hx
    simp [wiredOutputs, pow_add]

/-- C51. What `Verify` accepts for a circuit with repeated gates: the values of the counted circuit. -/
theorem C51_counted_accepted [SmallCasts F] (H : List F → F) (wiring : List (List (Wire F))) (hne : wiring ≠ [])
    (hw : ∀ ws ∈ wiring, RunWires ws) (G k m : Nat) (hk : 1 ≤ k) (hG : Chained G (newCircuit wiring).layers)
    (inputs outputs : List (List F)) (hin : WellChunked k (G + m) inputs)
    (hout : (wiredAssignment (2 ^ m) (countedLayers (newCircuit wiring).layers) inputs).getLast? = some outputs)
    (nCore : Int) (hc : 1 ≤ nCore) :
    ∃ p proof, newGkrProver (newCircuit wiring)
        (wiredAssignment (2 ^ m) (countedLayers (newCircuit wiring).layers) inputs) = .ok p ∧
      p.prove H nCore = .ok proof ∧
      gkrVerify H (m + k) (newCircuit wiring) proof inputs outputs = .ok true := by
  have hGc := countedLayers_chained _ G hG
  have hs := wired_sized wiring G k m (countedLayers (newCircuit wiring).layers)
    (by simp [countedLayers, Function.comp_def]) hGc inputs hin
  obtain ⟨_, b, _, d⟩ := wiredAssignment_facts k m _ G inputs hGc hin
  obtain ⟨p, proof, b', h1, h2, h3, h4⟩ := C51_exact H wiring hne hw G k m hk hG _ hs inputs outputs b hout nCore hc
  refine ⟨p, proof, h1, h2, ?_⟩
  rw [h3, h4.2]
  intro i hi l v o hl hv ho
  have hl2 : (countedLayers (newCircuit wiring).layers)[i]? = some { l with wires := countedWires l.wires } := by
    simp [countedLayers, hl]
  obtain ⟨d1, d2⟩ := d i _ v hl2 hv
  rw [ho] at d2
  obtain rfl := Option.some.inj d2
  rw [circuit_counted hl]
  congr 1
  obtain ⟨ws, hws, rfl⟩ := List.mem_map.1 (List.mem_of_getElem? hl)
  refine interleave_wired _ k m _ _ v d1 ?_
  intro w hw2
  obtain ⟨w1, _, w2, h5, _, rfl⟩ := countedWires_mem hw2
  exact ⟨(newLayer_inRange ws w2 h5).1, (newLayer_inRange ws w2 h5).2.1⟩

/-- C52 (full claim: the honest proof is accepted for every wiring of lawful gates of small degree, also when a layer uses a
gate more than once). Proved: `Prove` and `Verify` do not panic, and `Verify` answers `true` exactly when in every layer
the claim about the outputs is the same for the wires and the counted wires. Missing: the answer `true` in all cases;
it is false (`C52_negation`). -/
theorem C52_honest_partial [SmallCasts F] (H : List F → F) (wiring : List (List (Wire F))) (hne : wiring ≠ [])
    (hw : ∀ ws ∈ wiring, RunWires ws) (G k m : Nat) (hk : 1 ≤ k) (hG : Chained G (newCircuit wiring).layers)
    (inputs outputs : List (List F)) (hin : WellChunked k (G + m) inputs)
    (hout : (wiredAssignment (2 ^ m) (newCircuit wiring).layers inputs).getLast? = some outputs)
    (nCore : Int) (hc : 1 ≤ nCore) :
    ∃ p proof b, newGkrProver (newCircuit wiring) (wiredAssignment (2 ^ m) (newCircuit wiring).layers inputs) = .ok p ∧
      p.prove H nCore = .ok proof ∧ gkrVerify H (m + k) (newCircuit wiring) proof inputs outputs = .ok b ∧
      (b = true ↔ ∀ (i : Nat) (l : Layer F) (v : List (List F)), (newCircuit wiring).layers[i]? = some l →
        (wiredAssignment (2 ^ m) (newCircuit wiring).layers inputs)[i]? = some v →
        let V := interleave (2 ^ k) (2 ^ (l.bGInputs + m)) v
        claimAbout H (newCircuit wiring).layers (m + k) l.bGOutputs proof i
          (wiredOutputs l.wires (2 ^ (m + k)) (2 ^ l.bGOutputs) V) =
        claimAbout H (newCircuit wiring).layers (m + k) l.bGOutputs proof i
          (wiredOutputs (countedWires l.wires) (2 ^ (m + k)) (2 ^ l.bGOutputs) V)) := by
  have hs := wired_sized wiring G k m _ rfl hG inputs hin
  obtain ⟨_, b, _, d⟩ := wiredAssignment_facts k m _ G inputs hG hin
  obtain ⟨p, proof, b', h1, h2, h3, h4⟩ := C51_exact H wiring hne hw G k m hk hG _ hs inputs outputs b hout nCore hc
  refine ⟨p, proof, b', h1, h2, h3, ?_⟩
  rw [h4]
  have hlen : (newCircuit wiring).layers.length = wiring.length := by simp [newCircuit]
  have il : ∀ (i : Nat) (l : Layer F) (v : List (List F)), (newCircuit wiring).layers[i]? = some l →
      (wiredAssignment (2 ^ m) (newCircuit wiring).layers inputs)[i]? = some v →
      (wiredAssignment (2 ^ m) (newCircuit wiring).layers inputs)[i + 1]? =
        some (v.map (wiredOutputs l.wires (2 ^ m) (2 ^ l.bGOutputs))) ∧
      interleave (2 ^ k) (2 ^ (l.bGOutputs + m)) (v.map (wiredOutputs l.wires (2 ^ m) (2 ^ l.bGOutputs))) =
        wiredOutputs l.wires (2 ^ (m + k)) (2 ^ l.bGOutputs) (interleave (2 ^ k) (2 ^ (l.bGInputs + m)) v) := by
    intro i l v hl hv
    obtain ⟨d1, d2⟩ := d i l v hl hv
    refine ⟨d2, ?_⟩
    obtain ⟨ws, hws, rfl⟩ := List.mem_map.1 (List.mem_of_getElem? hl)
    exact interleave_wired _ k m _ _ v d1 fun w hw2 =>
      ⟨(newLayer_inRange ws w hw2).1, (newLayer_inRange ws w hw2).2.1⟩
  constructor
  · intro h i l v hl hv
    obtain ⟨e1, e2⟩ := il i l v hl hv
    have := h i (by rw [← hlen]; exact (List.getElem?_eq_some_iff.1 hl).1) l v _ hl hv e1
    rw [e2, circuit_counted hl] at this
    exact this
  · intro h i _ l v o hl hv ho
    obtain ⟨e1, e2⟩ := il i l v hl hv
    rw [ho] at e1
    obtain rfl := Option.some.inj e1
    rw [e2, circuit_counted hl]
    exact h i l v hl hv

theorem mle_smul (a : F) (T T' : List F) (x : List F) (h : ∀ i < 2 ^ x.length, T'.getD i 0 = a * T.getD i 0) :
    mle T' x = a * mle T x := by
  unfold mle mleF
  rw [Finset.mul_sum]
  apply Finset.sum_congr rfl
  intro i hi
  beta_reduce
  rw [h i (Finset.mem_range.1 hi)]
  ring

/-- C52. If all the wires of the last layer, `n ≠ 1` of them in the field, use one gate, and the extension of the outputs at
the initial point is not 0, then `Verify` rejects the honest proof. -/
theorem C52_uniform_rejected [SmallCasts F] (H : List F → F) (wiring : List (List (Wire F)))
    (hw : ∀ ws ∈ wiring, RunWires ws) (G k m : Nat) (hk : 1 ≤ k) (hG : Chained G (newCircuit wiring).layers)
    (last : List (Wire F)) (hlast : wiring.getLast? = some last) (g : Gate F) (hg : ∀ w ∈ last, w.gate = g)
    (hn : (last.length : F) ≠ 1)
    (inputs outputs : List (List F)) (hin : WellChunked k (G + m) inputs)
    (hout : (wiredAssignment (2 ^ m) (newCircuit wiring).layers inputs).getLast? = some outputs)
    (hpt : (initialGoal (m + k) (newLayer last).bGOutputs
      (interleave (2 ^ k) (2 ^ ((newLayer last).bGOutputs + m)) outputs)).claim ≠ 0)
    (nCore : Int) (hc : 1 ≤ nCore) :
    ∃ p proof, newGkrProver (newCircuit wiring) (wiredAssignment (2 ^ m) (newCircuit wiring).layers inputs) = .ok p ∧
      p.prove H nCore = .ok proof ∧ gkrVerify H (m + k) (newCircuit wiring) proof inputs outputs = .ok false := by
  have hne : wiring ≠ [] := by rintro rfl; simp at hlast
  obtain ⟨p, proof, b, h1, h2, h3, h4⟩ := C52_honest_partial H wiring hne hw G k m hk hG inputs outputs hin hout nCore hc
  refine ⟨p, proof, h1, h2, ?_⟩
  rw [h3]
  cases b with
  | false => rfl
  | true =>
    exfalso
    obtain ⟨a, b, _, d⟩ := wiredAssignment_facts k m _ G inputs hG hin
    have hlen : (newCircuit wiring).layers.length = wiring.length := by simp [newCircuit]
    have hpos : 0 < wiring.length := List.length_pos_of_ne_nil hne
    set l := newLayer last with hl
    have hl1 : (newCircuit wiring).layers[wiring.length - 1]? = some l := by
      rw [List.getLast?_eq_getElem?] at hlast
      simp [newCircuit, hlast, hl]
    obtain ⟨v, hv⟩ : ∃ v, (wiredAssignment (2 ^ m) (newCircuit wiring).layers inputs)[wiring.length - 1]? = some v :=
      ⟨_, List.getElem?_eq_getElem (by rw [a, hlen]; omega)⟩
    have e := h4.1 rfl (wiring.length - 1) l v hl1 hv
    obtain ⟨d1, d2⟩ := d _ _ _ hl1 hv
    rw [List.getLast?_eq_getElem?, a, Nat.add_sub_cancel, hlen] at hout
    rw [Nat.sub_add_cancel hpos, hout] at d2
    obtain rfl := Option.some.inj d2
    have e2 := interleave_wired l.wires k m l.bGInputs l.bGOutputs v d1 fun w hw2 =>
      ⟨(newLayer_inRange last w hw2).1, (newLayer_inRange last w hw2).2.1⟩
    rw [e2] at hpt
    set V := interleave (2 ^ k) (2 ^ (l.bGInputs + m)) v with hV
    unfold claimAbout at e
    rw [List.getElem?_eq_none (by rw [hlen]; omega)] at e
    simp only [initialGoal] at e hpt
    have hlw : l.wires = last := rfl
    have hid : ∀ w ∈ last, w.gate.id = g.id := fun w hw => by rw [hg w hw]
    have hcount : ∀ w ∈ last, (last.map (·.gate.id)).count w.gate.id = last.length := by
      intro w hw
      rw [List.map_congr_left hid, hid w hw]
      simp
    rw [mle_smul (last.length : F) (wiredOutputs l.wires (2 ^ (m + k)) (2 ^ l.bGOutputs) V)
      (wiredOutputs (countedWires l.wires) (2 ^ (m + k)) (2 ^ l.bGOutputs) V)] at e
    · have : ((last.length : F) - 1) * mle (wiredOutputs l.wires (2 ^ (m + k)) (2 ^ l.bGOutputs) V)
        ((List.range l.bGOutputs).map (fun i => ((i + 1 : Nat) : F)) ++ (List.range (m + k)).map (fun i => ((i + 1 : Nat) : F))) = 0 := by
        rw [sub_mul, one_mul, ← e, sub_self]
      rcases mul_eq_zero.1 this with h | h
      · exact hn (sub_eq_zero.1 h)
      · exact hpt h
    · intro i hi
      have hi2 : i < 2 ^ l.bGOutputs * 2 ^ (m + k) := by
        simpa [pow_add] using hi
      unfold wiredOutputs
      simp only [List.getD_eq_getElem?_getD, List.getElem?_map, List.getElem?_range hi2, Option.map_some,
        Option.getD_some]
      rw [C51_counted_output _ (by
        intro w hw w' hw' _
        rw [hg w hw, hg w' hw'])]
      unfold wiredOutput
      rw [hlw, mul_comm, ← list_sum_mul_right]
      apply list_sum_congr
      intro w hw
      rw [hcount w (List.mem_of_mem_filter hw), mul_comm]

/-- One layer with two adders: `x₀, x₁ ↦ (x₀ + x₀, x₁ + x₀)`. -/
def twoAdders : List (List (Wire Fr)) := [[⟨0, 0, 0, addGate⟩, ⟨1, 0, 1, addGate⟩]]

theorem twoAdders_run : ∀ ws ∈ twoAdders, RunWires ws := by
  intro ws hws
  have hsh : ∀ w ∈ ws, ShippedGate frString w.gate := by
    intro w hw
    simp only [twoAdders, List.mem_cons, List.not_mem_nil, or_false] at hws
    subst hws
    simp only [List.mem_cons, List.not_mem_nil, or_false] at hw
    rcases hw with rfl | rfl <;> exact .add
  refine ⟨?_, fun w hw => (hsh w hw).lawful, ?_⟩
  · rintro rfl; simp [twoAdders] at hws
  · intro w hw
    obtain ⟨_, _, _, h1, h2, h3⟩ := C11_degrees frString _ (hsh w hw)
    omega

/-- C52 fails for two adders in a layer, whatever the challenge function and the core count: on the inputs `(1, 2)` and
`(3, 4)` the proof of the true outputs `(2, 3)`, `(6, 7)` is rejected, and the repository's prover run on the doubled
outputs `(4, 6)`, `(12, 14)` gives a proof that `Verify` accepts. -/
theorem C52_negation (H : List Fr → Fr) (nCore : Int) (hc : 1 ≤ nCore) :
    (newCircuit twoAdders).assign [[1, 2], [3, 4]] nCore = .ok [[[1, 2], [3, 4]], [[2, 3], [6, 7]]] ∧
    (∃ p proof, newGkrProver (newCircuit twoAdders) [[[1, 2], [3, 4]], [[2, 3], [6, 7]]] = .ok p ∧
      p.prove H nCore = .ok proof ∧
      gkrVerify H 1 (newCircuit twoAdders) proof [[1, 2], [3, 4]] [[2, 3], [6, 7]] = .ok false) ∧
    (∃ p proof, newGkrProver (newCircuit twoAdders) [[[1, 2], [3, 4]], [[4, 6], [12, 14]]] = .ok p ∧
      p.prove H nCore = .ok proof ∧
      gkrVerify H 1 (newCircuit twoAdders) proof [[1, 2], [3, 4]] [[4, 6], [12, 14]] = .ok true) := by
  have hG : Chained 1 (newCircuit twoAdders).layers := ⟨by decide +kernel, trivial⟩
  have hin : WellChunked 1 (1 + 0) [[1, 2], [3, (4 : Fr)]] := ⟨rfl, by simp⟩
  have e1 : wiredAssignment (2 ^ 0) (newCircuit twoAdders).layers [[1, 2], [3, 4]] =
      [[[1, 2], [3, 4]], [[2, 3], [6, (7 : Fr)]]] := by decide +kernel
  have e2 : wiredAssignment (2 ^ 0) (countedLayers (newCircuit twoAdders).layers) [[1, 2], [3, 4]] =
      [[[1, 2], [3, 4]], [[4, 6], [12, (14 : Fr)]]] := by decide +kernel
  refine ⟨?_, ?_, ?_⟩
  · have := C12_assign_partial twoAdders 1 (2 ^ 0) [[1, 2], [3, 4]] nCore hc hG (by simp) (by simp)
    rw [this, e1]
  · have := C52_uniform_rejected H twoAdders twoAdders_run 1 1 0 le_rfl hG _ rfl addGate (by simp)
      (by decide +kernel) [[1, 2], [3, 4]] [[2, 3], [6, 7]] hin (by rw [e1]; rfl) (by decide +kernel) nCore hc
    rw [e1] at this
    exact this
  · have := C51_counted_accepted H twoAdders (by simp [twoAdders]) twoAdders_run 1 1 0 le_rfl hG [[1, 2], [3, 4]]
      [[4, 6], [12, 14]] hin (by rw [e2]; rfl) nCore hc
    rw [e2] at this
    exact this

/-- The layers as `Evaluate` reads them with `N` instances per chunk: the right input of a wire is taken `N` times too far
(circuit/layers.go:91). -/
def misreadLayers (N : Nat) (layers : List (Layer F)) : List (Layer F) :=
  layers.map fun l => { l with wires := l.wires.map fun w => { w with R := w.R * N } }

theorem misreadLayers_chained (N : Nat) (layers : List (Layer F)) : ∀ G, Chained G layers → Chained G (misreadLayers N layers) := by
  induction layers with
  | nil => intro G _; trivial
  | cons l ls ih => intro G h; exact ⟨h.1, ih _ h.2⟩

/-- C51. `Assign` on every circuit: a panic if some right index, taken `N` times too far, is out of range, else the values
of the misread circuit. -/
theorem C51_assign_exact (wiring : List (List (Wire F))) (N : Nat) (hN : 1 ≤ N) (nCore : Int) (hc : 1 ≤ nCore) :
    ∀ (G : Nat) (inputs : List (List F)), Chained G (newCircuit wiring).layers → inputs ≠ [] →
    (∀ c ∈ inputs, c.length = 2 ^ G * N) →
    ((∀ ws ∈ wiring, ∀ w ∈ ws, w.R * N < 2 ^ (newLayer ws).bGInputs) ∧ (newCircuit wiring).assign inputs nCore =
      .ok (wiredAssignment N (misreadLayers N (newCircuit wiring).layers) inputs)) ∨
    ((∃ ws ∈ wiring, ∃ w ∈ ws, 2 ^ (newLayer ws).bGInputs ≤ w.R * N) ∧
      ∃ e, (newCircuit wiring).assign inputs nCore = .error e) := by
  induction wiring with
  | nil => intro G inputs _ _ _; exact .inl ⟨by simp, rfl⟩
  | cons ws wss ih =>
    intro G inputs hG hne hlen
    obtain ⟨h0, hG⟩ := hG
    change (newLayer ws).bGInputs = G at h0
    subst h0
    change Chained (newLayer ws).bGOutputs (newCircuit wss).layers at hG
    have hstep : (newCircuit (ws :: wss)).assign inputs nCore = ((newLayer ws).evaluate inputs nCore >>= fun nxt =>
        (newCircuit wss).assign nxt nCore >>= fun rest => .ok (inputs :: rest)) := rfl
    rcases C12_evaluate_exact ws N hN inputs hne nCore hc hlen with ⟨h1, h2⟩ | ⟨⟨w, hw, h1⟩, e, h2⟩
    · rw [hstep, h2, ok_bind]
      rcases ih _ (inputs.map (wiredOutputs (ws.map fun w => { w with R := w.R * N }) N (2 ^ (newLayer ws).bGOutputs)))
        hG (by simpa using hne) (by
          intro x hx
          obtain ⟨y, _, rfl⟩ := List.mem_map.1 hx
          simp [wiredOutputs]) with ⟨i1, i2⟩ | ⟨⟨ws', hws', w, hw, i1⟩, e, i2⟩
      · refine .inl ⟨?_, ?_⟩
        · intro ws' hws'
          rcases List.mem_cons.1 hws' with rfl | hws'
          · exact h1
          · exact i1 ws' hws'
        · rw [i2, ok_bind]; rfl
      · exact .inr ⟨⟨ws', List.mem_cons_of_mem _ hws', w, hw, i1⟩, e, by rw [i2]; rfl⟩
    · exact .inr ⟨⟨ws, List.mem_cons_self, w, hw, h1⟩, e, by rw [hstep, h2]; rfl⟩

/-- C51. The whole pipeline `Assign`, `NewProver`, `Prove`, `Verify` on every circuit: `Assign` panics when some misread index
is out of range; otherwise nothing panics, and `Verify` answers `true` exactly when in every layer the claim about the
outputs is the same for the misread wires and for the counted wires. -/
theorem C51_pipeline_exact [SmallCasts F] (H : List F → F) (wiring : List (List (Wire F))) (hne : wiring ≠ [])
    (hw : ∀ ws ∈ wiring, RunWires ws) (G k m : Nat) (hk : 1 ≤ k) (hG : Chained G (newCircuit wiring).layers)
    (inputs : List (List F)) (hin : WellChunked k (G + m) inputs) (nCore nCore' : Int) (hc : 1 ≤ nCore) (hc' : 1 ≤ nCore') :
    ((∃ ws ∈ wiring, ∃ w ∈ ws, 2 ^ (newLayer ws).bGInputs ≤ w.R * 2 ^ m) ∧
      ∃ e, (newCircuit wiring).assign inputs nCore = .error e) ∨
    ((∀ ws ∈ wiring, ∀ w ∈ ws, w.R * 2 ^ m < 2 ^ (newLayer ws).bGInputs) ∧
      ∃ values outputs p proof b, (newCircuit wiring).assign inputs nCore = .ok values ∧
        values.getLast? = some outputs ∧ newGkrProver (newCircuit wiring) values = .ok p ∧ p.prove H nCore' = .ok proof ∧
        gkrVerify H (m + k) (newCircuit wiring) proof inputs outputs = .ok b ∧
        (b = true ↔ ∀ (i : Nat) (l : Layer F) (v : List (List F)), (newCircuit wiring).layers[i]? = some l →
          values[i]? = some v →
          claimAbout H (newCircuit wiring).layers (m + k) l.bGOutputs proof i
            (interleave (2 ^ k) (2 ^ (l.bGOutputs + m))
              (v.map (wiredOutputs (l.wires.map fun w => { w with R := w.R * 2 ^ m }) (2 ^ m) (2 ^ l.bGOutputs)))) =
          claimAbout H (newCircuit wiring).layers (m + k) l.bGOutputs proof i
            (wiredOutputs (countedWires l.wires) (2 ^ (m + k)) (2 ^ l.bGOutputs)
              (interleave (2 ^ k) (2 ^ (l.bGInputs + m)) v)))) := by
  have hine : inputs ≠ [] := by
    rintro rfl
    have h0 := hin.1
    rw [List.length_nil] at h0
    exact absurd h0.symm (Nat.two_pow_pos k).ne'
  rcases C51_assign_exact wiring (2 ^ m) (Nat.two_pow_pos _) nCore hc G inputs hG hine
    (fun c hc => by rw [← pow_add]; exact hin.2 c hc) with ⟨h1, h2⟩ | h
  · right
    refine ⟨h1, ?_⟩
    have hGm := misreadLayers_chained (2 ^ m) _ G hG
    have hs := wired_sized wiring G k m (misreadLayers (2 ^ m) (newCircuit wiring).layers)
      (by simp [misreadLayers, Function.comp_def]) hGm inputs hin
    obtain ⟨a, b, _, d⟩ := wiredAssignment_facts k m _ G inputs hGm hin
    have hl : wiredAssignment (2 ^ m) (misreadLayers (2 ^ m) (newCircuit wiring).layers) inputs ≠ [] := by
      intro h; rw [h] at a; simp at a
    obtain ⟨p, proof, b', g1, g2, g3, g4⟩ := C51_exact H wiring hne hw G k m hk hG _ hs inputs _ b
      (List.getLast?_eq_some_getLast hl) nCore' hc'
    refine ⟨_, _, p, proof, b', h2, List.getLast?_eq_some_getLast hl, g1, g2, g3, ?_⟩
    rw [g4]
    have hlen : (newCircuit wiring).layers.length = wiring.length := by simp [newCircuit]
    have nxt : ∀ (i : Nat) (l : Layer F) (v : List (List F)), (newCircuit wiring).layers[i]? = some l →
        (wiredAssignment (2 ^ m) (misreadLayers (2 ^ m) (newCircuit wiring).layers) inputs)[i]? = some v →
        (wiredAssignment (2 ^ m) (misreadLayers (2 ^ m) (newCircuit wiring).layers) inputs)[i + 1]? =
          some (v.map (wiredOutputs (l.wires.map fun w => { w with R := w.R * 2 ^ m }) (2 ^ m) (2 ^ l.bGOutputs))) := by
      intro i l v hl hv
      exact (d i { l with wires := l.wires.map fun w => { w with R := w.R * 2 ^ m } } v
        (by simp [misreadLayers, hl]) hv).2
    constructor
    · intro h i l v hl hv
      rw [← circuit_counted hl]
      exact h i (by rw [← hlen]; exact (List.getElem?_eq_some_iff.1 hl).1) l v _ hl hv (nxt i l v hl hv)
    · intro h i _ l v o hl hv ho
      have := nxt i l v hl hv
      rw [ho] at this
      obtain rfl := Option.some.inj this
      rw [circuit_counted hl]
      exact h i l v hl hv
  · exact .inl h

/-- C51. The pipeline on one adder of inputs 3 and 1, two chunks of two instances: `Assign` reads input 2 instead of input 1
without a panic, and `Verify` rejects the proof of these values, whatever the challenge function and the core count; it
accepts the proof of the true ones. -/
theorem C51_misread_rejected (H : List Fr → Fr) (nCore : Int) (hc : 1 ≤ nCore) :
    (newCircuit [c12Wires]).assign [[0, 0, 10, 20, 1000, 2000, 5, 6], [0, 0, 30, 40, 3000, 4000, 7, 8]] nCore =
      .ok [[[0, 0, 10, 20, 1000, 2000, 5, 6], [0, 0, 30, 40, 3000, 4000, 7, 8]], [[1005, 2006], [3007, 4008]]] ∧
    (∃ p proof, newGkrProver (newCircuit [c12Wires])
        [[[0, 0, 10, 20, 1000, 2000, 5, 6], [0, 0, 30, 40, 3000, 4000, 7, 8]], [[1005, 2006], [3007, 4008]]] = .ok p ∧
      p.prove H nCore = .ok proof ∧ gkrVerify H 2 (newCircuit [c12Wires]) proof
        [[0, 0, 10, 20, 1000, 2000, 5, 6], [0, 0, 30, 40, 3000, 4000, 7, 8]] [[1005, 2006], [3007, 4008]] = .ok false) ∧
    (∃ p proof, newGkrProver (newCircuit [c12Wires])
        [[[0, 0, 10, 20, 1000, 2000, 5, 6], [0, 0, 30, 40, 3000, 4000, 7, 8]], [[15, 26], [37, 48]]] = .ok p ∧
      p.prove H nCore = .ok proof ∧ gkrVerify H 2 (newCircuit [c12Wires]) proof
        [[0, 0, 10, 20, 1000, 2000, 5, 6], [0, 0, 30, 40, 3000, 4000, 7, 8]] [[15, 26], [37, 48]] = .ok true) := by
  have hw : ∀ ws ∈ [c12Wires], RunWires ws := by
    intro ws hws
    have hsh : ∀ w ∈ ws, ShippedGate frString w.gate := by
      intro w hw
      simp only [c12Wires, List.mem_cons, List.not_mem_nil, or_false] at hws
      subst hws
      simp only [List.mem_cons, List.not_mem_nil, or_false] at hw
      subst hw
      exact .add
    refine ⟨?_, fun w hw => (hsh w hw).lawful, ?_⟩
    · rintro rfl; simp [c12Wires] at hws
    · intro w hw
      obtain ⟨_, _, _, h1, h2, h3⟩ := C11_degrees frString _ (hsh w hw)
      omega
  have hG : Chained 2 (newCircuit [c12Wires]).layers := ⟨by decide +kernel, trivial⟩
  have hin : WellChunked 1 (2 + 1) [[0, 0, 10, 20, 1000, 2000, 5, 6], [0, 0, 30, 40, 3000, 4000, 7, (8 : Fr)]] :=
    ⟨rfl, by simp⟩
  have e1 : wiredAssignment (2 ^ 1) (misreadLayers (2 ^ 1) (newCircuit [c12Wires]).layers)
      [[0, 0, 10, 20, 1000, 2000, 5, 6], [0, 0, 30, 40, 3000, 4000, 7, 8]] =
      [[[0, 0, 10, 20, 1000, 2000, 5, 6], [0, 0, 30, 40, 3000, 4000, 7, 8]], [[1005, 2006], [3007, (4008 : Fr)]]] := by
    decide +kernel
  have e2 : wiredAssignment (2 ^ 1) (countedLayers (newCircuit [c12Wires]).layers)
      [[0, 0, 10, 20, 1000, 2000, 5, 6], [0, 0, 30, 40, 3000, 4000, 7, 8]] =
      [[[0, 0, 10, 20, 1000, 2000, 5, 6], [0, 0, 30, 40, 3000, 4000, 7, 8]], [[15, 26], [37, (48 : Fr)]]] := by
    decide +kernel
  refine ⟨?_, ?_, ?_⟩
  · rcases C51_assign_exact [c12Wires] (2 ^ 1) (by simp) nCore hc 2 _ hG (by simp) (fun c hc => hin.2 c hc) with h | h
    · rw [h.2, e1]
    · obtain ⟨⟨ws, hws, w, hw, h⟩, _⟩ := h
      simp only [c12Wires, List.mem_cons, List.not_mem_nil, or_false] at hws
      subst hws
      simp only [List.mem_cons, List.not_mem_nil, or_false] at hw
      subst hw
      exact absurd h (by decide +kernel)
  · have hs := wired_sized [c12Wires] 2 1 1 (misreadLayers (2 ^ 1) (newCircuit [c12Wires]).layers)
      (by simp [misreadLayers, Function.comp_def]) (misreadLayers_chained _ _ 2 hG) _ hin
    rw [e1] at hs
    obtain ⟨p, proof, b, g1, g2, g3, g4⟩ := C51_exact H [c12Wires] (by simp) hw 2 1 1 le_rfl hG _ hs _ _ rfl rfl nCore hc
    refine ⟨p, proof, g1, g2, g3.trans ?_⟩
    cases b with
    | false => rfl
    | true =>
      exfalso
      have := g4.1 rfl 0 (by simp) _ _ _ rfl rfl rfl
      revert this
      change ¬ ((initialGoal 2 _ _).claim = (initialGoal 2 _ _).claim)
      decide +kernel
  · have := C51_counted_accepted H [c12Wires] (by simp) hw 2 1 1 le_rfl hG _ [[15, 26], [37, 48]] hin
      (by rw [e2]; rfl) nCore hc
    rw [e2] at this
    exact this

/-- The hypotheses of C51 and C52 are met by a circuit of two layers with repeated gates and two chunks of two instances;
counting changes the values. -/
example : let wiring : List (List (Wire Fr)) := [[⟨0, 0, 0, addGate⟩, ⟨1, 0, 1, addGate⟩], [⟨0, 0, 0, mulGate⟩, ⟨1, 0, 0, mulGate⟩]]
    Chained 1 (newCircuit wiring).layers ∧ WellChunked 1 (1 + 1) [[1, 2, 5, 6], [3, 4, 7, (8 : Fr)]] ∧
    (∀ ws ∈ wiring, ∀ w ∈ ws, w.R * 2 ^ 1 < 2 ^ (newLayer ws).bGInputs) ∧
    (wiredAssignment (2 ^ 1) (newCircuit wiring).layers [[1, 2, 5, 6], [3, 4, 7, 8]]).getLast? ≠
      (wiredAssignment (2 ^ 1) (countedLayers (newCircuit wiring).layers) [[1, 2, 5, 6], [3, 4, 7, 8]]).getLast? := by
  refine ⟨⟨by decide +kernel, by decide +kernel, trivial⟩, ⟨rfl, by simp⟩, ?_, by decide +kernel⟩
  intro ws hws w hw
  simp only [List.mem_cons, List.not_mem_nil, or_false] at hws
  rcases hws with rfl | rfl <;>
  · simp only [List.mem_cons, List.not_mem_nil, or_false] at hw
    rcases hw with rfl | rfl <;> simp

end GkrMimc
