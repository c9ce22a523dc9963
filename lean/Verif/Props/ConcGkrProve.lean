import Verif.Proofs.GkrConc
import Verif.Props.Gkr
import Verif.Props.ConcGkr

/-! Property C50: the whole of `gkr.Prover.Prove` under all schedules. -/

set_option linter.unusedSectionVars false

namespace GkrMimc

open Spec

variable {F : Type} [Field F] [DecidableEq F]

/-- C50. Every access to a cell is a step of its own, and the goroutines of one round may still be running in the next ones. Under
all schedules of `gkr.Prover.Prove`: no data race, no panic, no deadlock, no send blocks, boundedly many steps, no existing cell
changes, and the proof is that of the goroutines run one after the other. -/
theorem C50_prove (H : List F → F) (p : GkrProverC F) (h : Heap (Cell F)) (vs : List (List (List F))) (K : Nat) (nCore : Int)
    (proof : GkrProof F) (hn : 1 ≤ nCore) (hin : HoldsLayers h p.values vs) (hev : EvenLayers K vs)
    (e : (⟨p.bN, p.circuit, vs⟩ : GkrProver F).prove H nCore = .ok proof) :
    ∃ bound, GoodCellRun ∅ h (fun s => s.gs 0 = .ret (.proof proof) ∧ HoldsLayers s.mem p.values vs) bound
      (startOf (p.proveC H nCore) h .tok) :=
  GE.gkr (CellFrame.refl ∅ h) hn hin hev e _ (startOf_solo _ _ _) le_rfl rfl rfl

/-- C50. `Assign`, `NewProver` and `Prove` one after the other: the same, from the inputs in memory. -/
theorem C50_assignProve (H : List F → F) (c : Circuit F) (h : Heap (Cell F)) (inputs : Slice) (ins : List (List F))
    (vs : List (List (List F))) (K : Nat) (nCore : Int) (p : GkrProver F) (proof : GkrProof F) (hn : 1 ≤ nCore)
    (hin : HoldsTables h inputs ins) (ea : c.assign ins nCore = .ok vs) (hev : EvenLayers K vs) (ep : newGkrProver c vs = .ok p)
    (e : p.prove H nCore = .ok proof) :
    ∃ bound, GoodCellRun ∅ h (fun s => s.gs 0 = .ret (.proof proof) ∧ HoldsTables s.mem inputs ins) bound
      (startOf (assignProveC H c inputs nCore) h .tok) :=
  GE.assignProve hn hin ea hev ep e _ (startOf_solo _ _ _) le_rfl rfl rfl

theorem even_of_honest {c : Circuit F} {k m : Nat} {vs : List (List (List F))} (hA : HonestAssignment c k m vs) : EvenLayers (2 ^ k) vs := by
  intro tabs ht
  obtain ⟨i, hi, rfl⟩ := List.getElem_of_mem ht
  have hl := hA.lengths
  by_cases hc : i < c.layers.length
  · have := hA.chunked i _ _ (List.getElem?_eq_getElem hc) (List.getElem?_eq_getElem hi)
    exact ⟨this.1, _, this.2⟩
  · have hpos : 0 < c.layers.length := List.length_pos_of_ne_nil hA.nonempty
    obtain ⟨j, rfl⟩ : ∃ j, i = j + 1 := ⟨i - 1, by omega⟩
    have hj : j < c.layers.length := by omega
    have hj' : j < vs.length := by omega
    have h1 := hA.chunked j _ _ (List.getElem?_eq_getElem hj) (List.getElem?_eq_getElem hj')
    have h2 := hA.wired j _ _ (List.getElem?_eq_getElem hj) (List.getElem?_eq_getElem hj')
    rw [List.getElem?_eq_getElem hi, Option.some.injEq] at h2
    rw [h2]
    refine ⟨by rw [List.length_map, h1.1], 2 ^ c.layers[j].bGOutputs * 2 ^ m, fun t ht => ?_⟩
    obtain ⟨u, _, rfl⟩ := List.mem_map.1 ht
    simp [wiredOutputs]

/-- C50. Completeness of the concurrent prover: for every good circuit, every batch in at least two chunks, every challenge function
and every core count, the proof that all the schedules give is accepted by `Verify`. -/
theorem C50_complete [SmallCasts F] (H : List F → F) (wiring : List (List (Wire F))) (hne : wiring ≠ [])
    (hw : ∀ ws ∈ wiring, GoodWires ws) (G k m : Nat) (hk : 1 ≤ k) (hG : Chained G (newCircuit wiring).layers)
    (inputs outputs : List (List F)) (hin : WellChunked k (G + m) inputs)
    (hout : (wiredAssignment (2 ^ m) (newCircuit wiring).layers inputs).getLast? = some outputs)
    (h : Heap (Cell F)) (values : Slice) (hv : HoldsLayers h values (wiredAssignment (2 ^ m) (newCircuit wiring).layers inputs))
    (nCore : Int) (hn : 1 ≤ nCore) :
    ∃ proof bound, gkrVerify H (m + k) (newCircuit wiring) proof inputs outputs = .ok true ∧
      GoodCellRun ∅ h (fun s => s.gs 0 = .ret (.proof proof) ∧
          HoldsLayers s.mem values (wiredAssignment (2 ^ m) (newCircuit wiring).layers inputs)) bound
        (startOf (newGkrProverC (newCircuit wiring) values fun p => p.proveC H nCore) h .tok) := by
  obtain ⟨p, proof, h1, h2, h3⟩ := C22_complete_partial H wiring hne hw G k m hk hG inputs outputs hin hout nCore hn
  obtain ⟨bound, g⟩ := GE.newProver hn hv (even_of_honest (honest_of_wired wiring hne hw G k m hG inputs hin)) h1 h2 _
    (startOf_solo _ _ _) le_rfl rfl rfl
  exact ⟨proof, bound, h3, g⟩

/-- C50. Completeness from the inputs: `Assign`, `NewProver`, `Prove` under all schedules, then `Verify` (where `Assign` is right, C12). -/
theorem C50_complete_assign [SmallCasts F] (H : List F → F) (wiring : List (List (Wire F))) (hne : wiring ≠ [])
    (hw : ∀ ws ∈ wiring, GoodWires ws) (G k m : Nat) (hk : 1 ≤ k) (hG : Chained G (newCircuit wiring).layers)
    (hR : ∀ ws ∈ wiring, ∀ w ∈ ws, w.R = 0 ∨ 2 ^ m = 1) (ins outputs : List (List F)) (hin : WellChunked k (G + m) ins)
    (hout : (wiredAssignment (2 ^ m) (newCircuit wiring).layers ins).getLast? = some outputs)
    (h : Heap (Cell F)) (inputs : Slice) (hv : HoldsTables h inputs ins) (nCore : Int) (hn : 1 ≤ nCore) :
    ∃ proof bound, gkrVerify H (m + k) (newCircuit wiring) proof ins outputs = .ok true ∧
      GoodCellRun ∅ h (fun s => s.gs 0 = .ret (.proof proof) ∧ HoldsTables s.mem inputs ins) bound
        (startOf (assignProveC H (newCircuit wiring) inputs nCore) h .tok) := by
  obtain ⟨p, proof, h1, h2, h3⟩ := C22_complete_partial H wiring hne hw G k m hk hG ins outputs hin hout nCore hn
  have ha := C12_assign_partial wiring G (2 ^ m) ins nCore hn hG hR (by
    intro c hc; rw [← pow_add]; exact hin.2 c hc)
  obtain ⟨bound, g⟩ := C50_assignProve H _ h inputs ins _ _ nCore p proof hn hv ha
    (even_of_honest (honest_of_wired wiring hne hw G k m hG ins hin)) h1 h2
  exact ⟨proof, bound, h3, g⟩

/-- C50. The labels of the accesses, on which the definition of a race rests, are right. -/
theorem C50_labels (H : List F → F) (p : GkrProverC F) (c : Circuit F) (inputs : Slice) (nCore : Int) :
    Labelled (p.proveC H nCore) ∧ Labelled (assignProveC H c inputs nCore) :=
  ⟨labC_gkr H p nCore, labC_assignProve H c inputs nCore⟩

/-! ### Examples -/

theorem gkrValues_even : EvenLayers 2 gkrValues := by
  intro tabs ht
  refine ⟨?_, 2, ?_⟩ <;> simp only [gkrValues, List.mem_cons, List.not_mem_nil, or_false] at ht <;> rcases ht with rfl | rfl <;> simp

/-- Two layers, two chunks, two cores. -/
example : ∃ (proof : GkrProof Fr) (bound : Nat), proof.claimsLeft = [44, 4] ∧
    GoodCellRun ∅ gkrHeap (fun s => s.gs 0 = .ret (.proof proof) ∧ HoldsLayers s.mem gkrProverC.values gkrValues) bound
      (startOf (gkrProverC.proveC (fun l => l.sum + 1) 2) gkrHeap .tok) := by
  obtain ⟨proof, e, hp⟩ := exists_ok_of_map (x := (⟨1, cellCircuit, gkrValues⟩ : GkrProver Fr).prove (fun l => l.sum + 1) 2)
    (f := fun p => p.claimsLeft) (b := [44, 4]) (by decide +kernel)
  obtain ⟨bound, g⟩ := C50_prove (fun l => l.sum + 1) gkrProverC gkrHeap gkrValues 2 2 proof (by decide) gkrHeap_layers gkrValues_even e
  exact ⟨proof, bound, hp, g⟩

theorem gkrHeap_inputs : HoldsTables gkrHeap ⟨1, 0, 2, 2⟩ [[1, 2], [3, 4]] := by
  have v : ∀ s : Slice, s.len = s.cap → s.arr < 5 → Valid gkrHeap s := fun s h1 h2 => ⟨h1.le, fun _ => h2⟩
  refine ⟨v _ rfl (by decide), [⟨3, 0, 2, 2⟩, ⟨3, 2, 2, 2⟩], rfl, .cons ⟨v _ rfl (by decide), ?_⟩ (.cons ⟨v _ rfl (by decide), ?_⟩ .nil)⟩
  all_goals simp [Heap.vals, Heap.get, gkrHeap, List.range_succ]
  all_goals norm_num

/-- From two instances of the inputs in two chunks to an accepted proof, on three cores. -/
example (H : List Fr → Fr) : ∃ proof bound,
    gkrVerify H 1 (newCircuit miniWiring) proof [[1, 2], [3, 4]] [[2 + 16390 ^ 7], [4 + 279944 ^ 7]] = .ok true ∧
    GoodCellRun ∅ gkrHeap (fun s => s.gs 0 = .ret (.proof proof) ∧ HoldsTables s.mem ⟨1, 0, 2, 2⟩ [[1, 2], [3, 4]]) bound
      (startOf (assignProveC H (newCircuit miniWiring) ⟨1, 0, 2, 2⟩ 3) gkrHeap .tok) := by
  refine C50_complete_assign H miniWiring (by simp [miniWiring]) miniWiring_good 1 1 0 le_rfl ⟨by decide +kernel, by decide +kernel, trivial⟩
    (fun _ _ _ _ => .inr rfl) _ _ ⟨rfl, by simp⟩ (by decide +kernel) gkrHeap _ gkrHeap_inputs 3 (by decide)

end GkrMimc
