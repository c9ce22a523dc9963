import Verif.Proofs.Circuit
import Verif.Props.Gates

/-! Properties C12, C13, C14: layers and circuits. -/

set_option linter.unusedSectionVars false

namespace GkrMimc

open Spec Finset

variable {F : Type} [Field F]

/-- C12 (full claim: every wiring and every `N`). Proved when each wire has right operand 0 or there is one instance per
chunk: `Evaluate` gives the wired outputs in every chunk. Missing: wires with `R ≠ 0` and `N ≥ 2`, where the claim is
false (`C12_negation`). -/
theorem C12_layer_evaluate_partial (wires : List (Wire F)) (N : Nat) (inputs : List (List F)) (nCore : Int)
    (hn : 1 ≤ nCore) (hlen : ∀ c ∈ inputs, c.length = 2 ^ (newLayer wires).bGInputs * N)
    (h : ∀ w ∈ wires, w.R = 0 ∨ N = 1) :
    (newLayer wires).evaluate inputs nCore =
      .ok (inputs.map (wiredOutputs wires N (2 ^ (newLayer wires).bGOutputs))) := by
  unfold Layer.evaluate
  have : semaphoreSection nCore inputs.length = .ok () := by
    unfold semaphoreSection
    rw [if_neg (by omega), if_neg (by omega)]
  rw [this, ok_bind]
  apply mapGo_ok
  intro c hc
  exact evaluateChunk_wired _ (newLayer_inRange wires) c N (hlen c hc) h

/-- Successive layers agree on their dimensions, the first one having `2^G` inputs. -/
def Chained : Nat → List (Layer F) → Prop
  | _, [] => True
  | G, l :: ls => l.bGInputs = G ∧ Chained l.bGOutputs ls

/-- The values of all layers, computed as wired. -/
def wiredAssignment (N : Nat) : List (Layer F) → List (List F) → List (List (List F))
  | [], cur => [cur]
  | l :: ls, cur => cur :: wiredAssignment N ls (cur.map (wiredOutputs l.wires N (2 ^ l.bGOutputs)))

theorem assignFrom_eq (N : Nat) (nCore : Int) (hn : 1 ≤ nCore) (layers : List (Layer F)) : ∀ (G : Nat)
    (inputs : List (List F)), Chained G layers → (∀ l ∈ layers, l.InRange) →
    (∀ l ∈ layers, ∀ w ∈ l.wires, w.R = 0 ∨ N = 1) → (∀ c ∈ inputs, c.length = 2 ^ G * N) →
    assignFrom nCore layers inputs = .ok (wiredAssignment N layers inputs) := by
  induction layers with
  | nil => intros; rfl
  | cons l ls ih =>
    intro G inputs hG hr hR hlen
    obtain ⟨rfl, hG⟩ := hG
    have hs : semaphoreSection nCore inputs.length = .ok () := by
      unfold semaphoreSection
      rw [if_neg (by omega), if_neg (by omega)]
    have hev : l.evaluate inputs nCore = .ok (inputs.map (wiredOutputs l.wires N (2 ^ l.bGOutputs))) := by
      unfold Layer.evaluate
      rw [hs, ok_bind]
      apply mapGo_ok
      intro c hc
      exact evaluateChunk_wired l (hr l (by simp)) c N (hlen c hc) (hR l (by simp))
    rw [assignFrom, hev, ok_bind, ih l.bGOutputs _ hG (fun l' h' => hr l' (by simp [h']))
      (fun l' h' => hR l' (by simp [h'])) (by
        intro c hc
        obtain ⟨c0, _, rfl⟩ := List.mem_map.1 hc
        simp [wiredOutputs])]
    rfl

/-- C12. `Assign` chains the layers (same restriction). -/
theorem C12_assign_partial (wiring : List (List (Wire F))) (G N : Nat) (inputs : List (List F)) (nCore : Int)
    (hn : 1 ≤ nCore) (hG : Chained G (newCircuit wiring).layers)
    (hR : ∀ ws ∈ wiring, ∀ w ∈ ws, w.R = 0 ∨ N = 1) (hlen : ∀ c ∈ inputs, c.length = 2 ^ G * N) :
    (newCircuit wiring).assign inputs nCore = .ok (wiredAssignment N (newCircuit wiring).layers inputs) := by
  apply assignFrom_eq N nCore hn _ G inputs hG
  · intro l hl
    obtain ⟨ws, _, rfl⟩ := List.mem_map.1 hl
    exact newLayer_inRange ws
  · intro l hl
    obtain ⟨ws, hws, rfl⟩ := List.mem_map.1 hl
    exact hR ws hws
  · exact hlen

/-- Two instances, four inputs: one adder of inputs 3 and 1. -/
def c12Wires : List (Wire Fr) := [⟨3, 1, 0, addGate⟩]

/-- C12 fails: with two instances per chunk the adder of inputs 3 and 1 reads input 2 instead of input 1
(circuit/layers.go:91). The output is wrong and no panic signals it. -/
theorem C12_negation :
    (newLayer c12Wires).evaluate [[0, 0, 10, 20, 1000, 2000, 5, 6]] 1 = .ok [[1005, 2006]] ∧
      wiredOutputs c12Wires 2 (2 ^ (newLayer c12Wires).bGOutputs) [0, 0, 10, 20, 1000, 2000, 5, 6] = [15, 26] := by
  decide +kernel

/-- C12 fails: on a two-input adder with two instances per chunk, `Evaluate` panics. -/
theorem C12_negation_panic : (newLayer [⟨0, 1, 0, addGate⟩] : Layer Fr).evaluate [[1, 2, 3, 4]] 1 = .error .index := by
  decide +kernel

/-- A loop over a list that returns has returned for every element. -/
theorem layer_forEach_mem {α σ : Type} {body : α → σ → Go σ} : ∀ {xs : List α} {s t : σ}, forEach xs s body = .ok t →
    ∀ x ∈ xs, ∃ a b, body x a = .ok b
  | [], _, _, _, _, hx => absurd hx (by simp)
  | y :: xs, s, t, h, x, hx => by
    rw [forEach] at h
    rcases hy : body y s with e | s'
    · rw [hy] at h; cases h
    · rw [hy] at h
      rcases List.mem_cons.1 hx with rfl | hx
      · exact ⟨s, s', hy⟩
      · exact layer_forEach_mem h x hx

theorem layer_mapGo_mem {α β : Type} {f : α → Go β} : ∀ {xs : List α} {ys : List β}, mapGo f xs = .ok ys → ∀ x ∈ xs, ∃ y, f x = .ok y
  | [], _, _, _, hx => absurd hx (by simp)
  | z :: xs, ys, h, x, hx => by
    rw [mapGo] at h
    rcases hz : f z with e | y
    · rw [hz] at h; cases h
    · rw [hz] at h
      rcases List.mem_cons.1 hx with rfl | hx
      · exact ⟨y, hz⟩
      · rcases hm : mapGo f xs with e | ys'
        · rw [hm] at h; cases h
        · exact layer_mapGo_mem hm x hx

/-- C12. What `Evaluate` does on every wiring, for `N ≥ 1` instances per chunk: it evaluates the layer in which every right operand
`R` is replaced by `R * N`, and panics if that is not a wire of the layer below. -/
theorem C12_evaluate_exact (wires : List (Wire F)) (N : Nat) (hN : 1 ≤ N) (inputs : List (List F)) (hne : inputs ≠ []) (nCore : Int)
    (hn : 1 ≤ nCore) (hlen : ∀ c ∈ inputs, c.length = 2 ^ (newLayer wires).bGInputs * N) :
    ((∀ w ∈ wires, w.R * N < 2 ^ (newLayer wires).bGInputs) ∧ (newLayer wires).evaluate inputs nCore =
      .ok (inputs.map (wiredOutputs (wires.map fun w => { w with R := w.R * N }) N (2 ^ (newLayer wires).bGOutputs)))) ∨
    ((∃ w ∈ wires, 2 ^ (newLayer wires).bGInputs ≤ w.R * N) ∧ ∃ e, (newLayer wires).evaluate inputs nCore = .error e) := by
  have hs : semaphoreSection nCore inputs.length = .ok () := by
    unfold semaphoreSection
    rw [if_neg (by omega), if_neg (by omega)]
  have hr := newLayer_inRange wires
  by_cases h : ∀ w ∈ wires, w.R * N < 2 ^ (newLayer wires).bGInputs
  · refine .inl ⟨h, ?_⟩
    unfold Layer.evaluate
    rw [hs, ok_bind]
    apply mapGo_ok
    intro c hc
    rw [evaluateChunk_eq _ c N (hlen c hc) (fun w hw => (hr w hw).2.2) (fun w hw => (hr w hw).1), mul_comm]
    · congr 1
      unfold wiredOutputs
      apply tab_congr
      intro j _
      unfold actualOutput wiredOutput
      rw [← list_sum_ite, List.map_map]
      rfl
    · intro w hw i hi
      rw [hlen c hc]
      calc w.R * N * N + i < (w.R * N + 1) * N := by rw [Nat.add_mul]; omega
        _ ≤ _ := Nat.mul_le_mul_right _ (h w hw)
  · simp only [not_forall, not_lt] at h
    obtain ⟨w, hw, hR⟩ := h
    refine .inr ⟨⟨w, hw, hR⟩, ?_⟩
    rcases he : (newLayer wires).evaluate inputs nCore with e | ys
    · exact ⟨e, rfl⟩
    · exfalso
      unfold Layer.evaluate at he
      rw [hs, ok_bind] at he
      obtain ⟨c, hc⟩ := List.exists_mem_of_ne_nil _ hne
      obtain ⟨y, hy⟩ := layer_mapGo_mem he c hc
      unfold evaluateChunk at hy
      have hN' : c.length / 1 <<< (newLayer wires).bGInputs = N := by
        rw [hlen c hc, Nat.shiftLeft_eq, one_mul, Nat.mul_div_cancel_left _ (Nat.two_pow_pos _)]
      simp only [hN'] at hy
      obtain ⟨a, b, hb⟩ := layer_forEach_mem hy w hw
      obtain ⟨_, h2⟩ := forN_ok_inv (fun _ => True) N a b trivial (fun _ _ _ _ _ _ => trivial) hb
      obtain ⟨a', b', _, h3, _⟩ := h2 0 hN
      rw [bind_eq_ok] at h3
      obtain ⟨vL, _, h3⟩ := h3
      rw [bind_eq_ok] at h3
      obtain ⟨vR, h4, _⟩ := h3
      have := idx_ok_lt h4
      rw [hlen c hc] at this
      have := Nat.mul_le_mul_right N hR
      omega

/-- Both cases of `C12_evaluate_exact` occur. -/
example : (∀ w ∈ c12Wires, w.R * 2 < 2 ^ (newLayer c12Wires).bGInputs) ∧
    ∃ w ∈ ([⟨0, 1, 0, addGate⟩] : List (Wire Fr)), 2 ^ (newLayer ([⟨0, 1, 0, addGate⟩] : List (Wire Fr))).bGInputs ≤ w.R * 2 :=
  ⟨by decide +kernel, _, List.mem_singleton.2 rfl, by decide +kernel⟩

/-- Hypotheses of `C12_layer_evaluate_partial` are met by a layer like the ones of the MiMC circuit, two instances. -/
example : (newLayer [⟨1, 0, 0, cipherGate frString 3⟩, ⟨1, 0, 1, copyGate⟩] : Layer Fr).evaluate [[1, 2, 5, 6]] 2 =
    .ok [[5 + 4 ^ 7, 6 + 5 ^ 7, 5, 6]] := by decide +kernel
example : Chained 1 (newCircuit [[⟨1, 0, 0, cipherGate frString 3⟩, ⟨1, 0, 1, copyGate⟩],
    [⟨1, 0, 0, cipherGate frString 4⟩]] : Circuit Fr).layers := by
  refine ⟨by decide +kernel, by decide +kernel, trivial⟩

theorem gatesOf_eq (wires : List (Wire F)) : gatesOf wires = wires.map (·.gate) := by
  unfold gatesOf
  have : ∀ acc : List (Gate F), wires.foldl (fun (s : List String × List (Gate F)) w =>
      if w.gate.id ∈ s.1 then s else (s.1, s.2 ++ [w.gate])) ([], acc) = ([], acc ++ wires.map (·.gate)) := by
    induction wires with
    | nil => intro acc; simp
    | cons w ws ih => intro acc; rw [List.foldl_cons, if_neg (by simp), ih]; simp
  rw [this]; simp

/-- Specification for C13: the gates of the wires, keeping the first one of each ID (`seen`: the IDs so far). -/
def distinctGates (seen : List String) : List (Wire F) → List (Gate F)
  | [] => []
  | w :: ws =>
    if w.gate.id ∈ seen then distinctGates seen ws else w.gate :: distinctGates (w.gate.id :: seen) ws

theorem distinctGates_nodup (wires : List (Wire F)) : ∀ seen : List String, (wires.map (·.gate.id)).Nodup →
    (∀ w ∈ wires, w.gate.id ∉ seen) → distinctGates seen wires = wires.map (·.gate) := by
  induction wires with
  | nil => intros; rfl
  | cons w ws ih =>
    intro seen h hs
    rw [List.map_cons, List.nodup_cons] at h
    rw [distinctGates, if_neg (hs w (by simp)), ih _ h.2]
    · rfl
    · intro v hv hc
      rcases List.mem_cons.1 hc with hc | hc
      · exact h.1 (List.mem_map.2 ⟨v, hv, hc⟩)
      · exact hs v (by simp [hv]) hc

/-- C13 (full claim: every list of wires). Proved when no two wires have gates with the same ID; then `Gates` lists
them in order, once each. Missing: repeated IDs, where the claim is false (`C13_negation`). -/
theorem C13_gates_distinct_partial (wires : List (Wire F)) (h : (wires.map (·.gate.id)).Nodup) :
    gatesOf wires = distinctGates [] wires ∧ ((gatesOf wires).map (·.id)).Nodup := by
  rw [gatesOf_eq, distinctGates_nodup wires [] h (by simp)]
  exact ⟨rfl, by simpa [Function.comp_def] using h⟩

theorem distinctGates_length (wires : List (Wire F)) : ∀ seen : List String, (distinctGates seen wires).length ≤ wires.length := by
  induction wires with
  | nil => intro _; simp [distinctGates]
  | cons w ws ih =>
    intro seen
    rw [distinctGates]
    split
    · exact (ih _).trans (by simp)
    · simpa using ih _

theorem distinctGates_full (wires : List (Wire F)) : ∀ seen : List String, distinctGates seen wires = wires.map (·.gate) →
    (wires.map (·.gate.id)).Nodup ∧ ∀ w ∈ wires, w.gate.id ∉ seen := by
  induction wires with
  | nil => intro _ _; simp
  | cons w ws ih =>
    intro seen h
    rw [distinctGates] at h
    split at h
    · have h1 := distinctGates_length ws seen
      have h2 := congrArg List.length h
      simp only [List.length_map, List.length_cons] at h2
      omega
    · rename_i hw
      obtain ⟨h1, h2⟩ := ih _ (List.cons.inj h).2
      refine ⟨?_, ?_⟩
      · rw [List.map_cons, List.nodup_cons]
        refine ⟨fun hc => ?_, h1⟩
        obtain ⟨v, hv, e⟩ := List.mem_map.1 hc
        exact h2 v hv (by simp [e])
      · intro v hv
        rcases List.mem_cons.1 hv with rfl | hv
        · exact hw
        · exact fun hc => h2 v hv (List.mem_cons_of_mem _ hc)

/-- C13. `Gates` is right exactly when no gate ID repeats. -/
theorem C13_gates_iff (wires : List (Wire F)) : gatesOf wires = distinctGates [] wires ↔ (wires.map (·.gate.id)).Nodup :=
  ⟨fun h => (distinctGates_full wires [] (h.symm.trans (gatesOf_eq wires))).1, fun h => (C13_gates_distinct_partial wires h).1⟩

/-- C13. What `Gates` does on every input: it lists the gate of every wire, with repetitions. -/
theorem C13_gates_always (wires : List (Wire F)) : gatesOf wires = wires.map (·.gate) := gatesOf_eq wires

/-- C13 fails on two adders: the gate is listed twice (circuit/layers.go:130-139 never fills the map). -/
theorem C13_negation : ∃ wires : List (Wire Fr), (gatesOf wires).map (·.id) = ["AddGate", "AddGate"] ∧
    (distinctGates [] wires).map (·.id) = ["AddGate"] :=
  ⟨[⟨0, 0, 0, addGate⟩, ⟨1, 0, 1, addGate⟩], by rw [gatesOf_eq]; rfl, by
    simp [distinctGates, addGate]⟩

example : (([⟨1, 0, 0, cipherGate frString 3⟩, ⟨1, 0, 1, copyGate⟩] : List (Wire Fr)).map (·.gate.id)).Nodup := by
  decide +kernel

/-- C14. The static tables at `q` encode the wiring; building them indexes inside the tables. -/
theorem C14_static_tables (wires : List (Wire F)) (q : List F) (hq : q.length = (newLayer wires).bGOutputs) :
    ∃ tables, getStaticTable (newLayer wires) q = .ok tables ∧ tables.length = (newLayer wires).gates.length ∧
      ∀ i (hi : i < tables.length) (hg : i < (newLayer wires).gates.length),
        tables[i].length = 4 ^ (newLayer wires).bGInputs ∧
        ∀ L R, L < 2 ^ (newLayer wires).bGInputs → R < 2 ^ (newLayer wires).bGInputs →
          tables[i][L * 2 ^ (newLayer wires).bGInputs + R]? =
            some (staticCoeff wires (newLayer wires).gates[i].id q L R) := by
  have hr := newLayer_inRange wires
  refine ⟨_, getStaticTable_eq _ hr q hq, by simp, ?_⟩
  intro i hi hg
  simp only [List.getElem_map, tab_length]
  refine ⟨by rw [pow_mul]; norm_num, ?_⟩
  intro L R hL hR
  rw [tab_getElem?, if_pos, staticF_eq_coeff _ hr q hq _ L R hR]
  · rfl
  · rw [two_mul, pow_add]
    calc _ < (L + 1) * 2 ^ (newLayer wires).bGInputs := by rw [Nat.add_mul]; omega
      _ ≤ _ := Nat.mul_le_mul_right _ hL

/-- C14. All wires of a layer built by `NewLayer` are inside its dimensions. -/
theorem C14_wires_in_range (wires : List (Wire F)) (w : Wire F) (hw : w ∈ wires) :
    w.L < 2 ^ (newLayer wires).bGInputs ∧ w.R < 2 ^ (newLayer wires).bGInputs ∧
      w.O < 2 ^ (newLayer wires).bGOutputs := newLayer_inRange wires w hw

example : getStaticTable (newLayer [⟨1, 0, 0, cipherGate frString 3⟩, ⟨1, 0, 1, copyGate⟩] : Layer Fr) [7] =
    .ok [[0, 0, 1 - 7, 0], [0, 0, 7, 0]] := by decide +kernel

end GkrMimc
