import Verif.Proofs.CellRound
import Verif.Model.ConcGkrProve
import Verif.Proofs.CellGkrLabels
import Verif.Props.ConcCell

/-! Property C49: the tables of every round of the GKR prover are prepared without data races. -/

set_option linter.unusedSectionVars false

namespace GkrMimc

open Spec

variable {F : Type} [Field F] [DecidableEq F]

/-- C49. Every access to a cell is a step of its own. Under all schedules of `GetBookKeepingTablesForInitialRound`: no data race, no
panic, no deadlock, boundedly many steps, no existing cell changes, the tables hold the values of the goroutines run one after the
other, and they are all in new arrays, no two in the same. -/
theorem C49_initial (p : GkrProverC F) (h : Heap (Cell F)) (vs : List (List (List F))) (qPrime q : List F) (nCore : Int) (m : MProver F)
    (hn : 1 ≤ nCore) (hin : HoldsLayers h p.values vs) (e : (⟨p.bN, p.circuit, vs⟩ : GkrProver F).initialRound qPrime q nCore = .ok m) :
    ∃ bound, GoodCellRun ∅ h (fun s => ∃ t : RoundTables, s.gs 0 = .ret (.prover 0 ⟨t.vL, t.vR, t.eq, m.gates, [t.statics]⟩) ∧
        HoldsLayers s.mem p.values vs ∧ PreparedTables h s.mem t m.vL m.vR m.eq m.statics) bound
      (startOf (p.initialTables qPrime q nCore returnTables) h .tok) := by
  obtain ⟨C, g⟩ := initialTables_ga (B := 0) hn (CellFrame.refl ∅ h) hin e (k := returnTables)
    (post := fun s => ∃ t : RoundTables, s.gs 0 = .ret (.prover 0 ⟨t.vL, t.vR, t.eq, m.gates, [t.statics]⟩) ∧ HoldsLayers s.mem p.values vs ∧
      PreparedTables h s.mem t m.vL m.vR m.eq m.statics) fun h' l t _ hg f P => GA.ret f.cells fun s h3 h4 =>
        ⟨t, hg ▸ h3, h4 ▸ hin.mono f.cells, h4 ▸ P⟩
  exact ⟨_, GA.start g⟩

/-- C49. `GetBookKeepingTablesForIntermediateRound`: the same. -/
theorem C49_intermediate (p : GkrProverC F) (h : Heap (Cell F)) (vs : List (List (List F))) (layer : Nat) (qPrime qL qR : List F)
    (lambdaL lambdaR : F) (nCore : Int) (m : MProver F) (hn : 1 ≤ nCore) (hin : HoldsLayers h p.values vs)
    (e : (⟨p.bN, p.circuit, vs⟩ : GkrProver F).intermediateRound layer qPrime qL qR lambdaL lambdaR nCore = .ok m) :
    ∃ bound, GoodCellRun ∅ h (fun s => ∃ t : RoundTables, s.gs 0 = .ret (.prover 0 ⟨t.vL, t.vR, t.eq, m.gates, [t.statics]⟩) ∧
        HoldsLayers s.mem p.values vs ∧ PreparedTables h s.mem t m.vL m.vR m.eq m.statics) bound
      (startOf (p.intermediateTables layer qPrime qL qR lambdaL lambdaR nCore returnTables) h .tok) := by
  obtain ⟨C, g⟩ := intermediateTables_ga (B := 0) hn (CellFrame.refl ∅ h) hin e (k := returnTables)
    (post := fun s => ∃ t : RoundTables, s.gs 0 = .ret (.prover 0 ⟨t.vL, t.vR, t.eq, m.gates, [t.statics]⟩) ∧ HoldsLayers s.mem p.values vs ∧
      PreparedTables h s.mem t m.vL m.vR m.eq m.statics) fun h' l t _ hg f P => GA.ret f.cells fun s h3 h4 =>
        ⟨t, hg ▸ h3, h4 ▸ hin.mono f.cells, h4 ▸ P⟩
  exact ⟨_, GA.start g⟩

/-- C49. `GetChunkedEqTable` alone. -/
theorem C49_chunkedEq (h : Heap (Cell F)) (qPrime : List F) (nChunks : Nat) (nCore : Int) (ts : List (List F)) (hn : 1 ≤ nCore)
    (e : getChunkedEqTable qPrime nChunks nCore = .ok ts) :
    ∃ bound, GoodCellRun ∅ h (fun s => ∃ res, s.gs 0 = .ret (.slice res) ∧ HoldsTables s.mem res ts ∧ h.next ≤ res.arr) bound
      (startOf (getChunkedEqTableC qPrime nChunks nCore fun res => .ret (.slice res)) h .tok) := by
  refine ⟨_, GA.start (getChunkedEqTableC_ga (B := 0) hn (CellFrame.refl ∅ h) e fun h' res ds hr f T => GA.ret f.cells fun s h3 h4 => ?_)⟩
  exact ⟨res, h3, h4 ▸ ⟨T.valid, ds, T.vals, T.holds⟩, hr.ge⟩

/-- C49. The labels of the accesses, on which the definition of a race rests, are right. -/
theorem C49_labels (p : GkrProverC F) (layer nChunks : Nat) (qPrime q qL qR : List F) (lambdaL lambdaR : F) (nCore : Int) :
    Labelled (p.initialTables qPrime q nCore returnTables) ∧
    Labelled (p.intermediateTables layer qPrime qL qR lambdaL lambdaR nCore returnTables) ∧
    Labelled (getChunkedEqTableC qPrime nChunks nCore fun res => .ret (.slice res)) :=
  ⟨labC_initial p _ _ _ fun _ _ => trivial, labC_intermediate p _ _ _ _ _ _ _ fun _ _ => trivial, labC_chunkedEq fun _ => trivial⟩

/-! ### Examples -/

/-- Array 0 holds the headers of the values of two layers: arrays 1 and 2, which hold the headers of two chunks each, of arrays 3 and 4. -/
def gkrHeap : Heap (Cell Fr) where
  cells a i :=
    if a = 0 then .hdr ⟨i + 1, 0, 2, 2⟩ else if a = 1 then .hdr ⟨3, 2 * i, 2, 2⟩ else if a = 2 then .hdr ⟨4, 2 * i, 2, 2⟩
    else if a = 3 then .elem (i + 1) else .elem ([16386, 2, 279940, 4].getD i 0)
  next := 5
  extra _ := 0

/-- A prover for the circuit of two layers. -/
def gkrProverC : GkrProverC Fr := ⟨1, cellCircuit, ⟨0, 0, 2, 2⟩⟩

theorem gkrHeap_layers : HoldsLayers gkrHeap gkrProverC.values [[[1, 2], [3, 4]], [[16386, 2], [279940, 4]]] := by
  have v : ∀ s : Slice, s.len = s.cap → s.arr < 5 → Valid gkrHeap s := fun s h1 h2 => ⟨h1.le, fun _ => h2⟩
  refine ⟨v _ rfl (by decide), [⟨1, 0, 2, 2⟩, ⟨2, 0, 2, 2⟩], rfl, .cons ⟨v _ rfl (by decide), [⟨3, 0, 2, 2⟩, ⟨3, 2, 2, 2⟩], rfl, ?_⟩
    (.cons ⟨v _ rfl (by decide), [⟨4, 0, 2, 2⟩, ⟨4, 2, 2, 2⟩], rfl, ?_⟩ .nil)⟩
  all_goals refine .cons ⟨v _ rfl (by decide), ?_⟩ (.cons ⟨v _ rfl (by decide), ?_⟩ .nil)
  all_goals simp [Heap.vals, Heap.get, gkrHeap, List.range_succ]
  all_goals norm_num

/-- The assignment that `gkrHeap` holds. -/
def gkrValues : List (List (List Fr)) := [[[1, 2], [3, 4]], [[16386, 2], [279940, 4]]]

theorem exists_ok_of_map {α β : Type} {x : Go α} {f : α → β} {b : β} (h : x.map f = .ok b) : ∃ a, x = .ok a ∧ f a = b := by
  cases x with
  | error e => cases h
  | ok a => exact ⟨a, rfl, Except.ok.inj h⟩

/-- The last layer, two chunks, one challenge, two cores. -/
example : ∃ (m : MProver Fr) (bound : Nat), m.vL = [[16386, 2], [279940, 4]] ∧ m.eq = [[-4], [5]] ∧ m.statics = [[0, 1, 0, 0]] ∧
    GoodCellRun ∅ gkrHeap (fun s => ∃ t : RoundTables, s.gs 0 = .ret (.prover 0 ⟨t.vL, t.vR, t.eq, m.gates, [t.statics]⟩) ∧
        HoldsLayers s.mem gkrProverC.values gkrValues ∧ PreparedTables gkrHeap s.mem t m.vL m.vR m.eq m.statics) bound
      (startOf (gkrProverC.initialTables [5] [] 2 returnTables) gkrHeap .tok) := by
  obtain ⟨m, e, hm⟩ := exists_ok_of_map (x := (⟨1, cellCircuit, gkrValues⟩ : GkrProver Fr).initialRound [5] [] 2) (f := fun m => (m.vL, m.eq, m.statics))
    (b := ([[16386, 2], [279940, 4]], [[-4], [5]], [[0, 1, 0, 0]])) (by decide +kernel)
  simp only [Prod.mk.injEq] at hm
  obtain ⟨bound, g⟩ := C49_initial gkrProverC gkrHeap gkrValues [5] [] 2 m (by decide) gkrHeap_layers e
  exact ⟨m, bound, hm.1, hm.2.1, hm.2.2, g⟩

/-- Layer 0: the static tables are linear combinations. -/
example : ∃ (m : MProver Fr) (bound : Nat), m.vL = [[1, 2], [3, 4]] ∧ m.eq = [[-4], [5]] ∧ m.statics = [[0, 0, -7, 0], [0, 0, 11, 0]] ∧
    GoodCellRun ∅ gkrHeap (fun s => ∃ t : RoundTables, s.gs 0 = .ret (.prover 0 ⟨t.vL, t.vR, t.eq, m.gates, [t.statics]⟩) ∧
        HoldsLayers s.mem gkrProverC.values gkrValues ∧ PreparedTables gkrHeap s.mem t m.vL m.vR m.eq m.statics) bound
      (startOf (gkrProverC.intermediateTables 0 [5] [2] [3] 1 3 2 returnTables) gkrHeap .tok) := by
  obtain ⟨m, e, hm⟩ := exists_ok_of_map (x := (⟨1, cellCircuit, gkrValues⟩ : GkrProver Fr).intermediateRound 0 [5] [2] [3] 1 3 2)
    (f := fun m => (m.vL, m.eq, m.statics)) (b := ([[1, 2], [3, 4]], [[-4], [5]], [[0, 0, -7, 0], [0, 0, 11, 0]])) (by decide +kernel)
  simp only [Prod.mk.injEq] at hm
  obtain ⟨bound, g⟩ := C49_intermediate gkrProverC gkrHeap gkrValues 0 [5] [2] [3] 1 3 2 m (by decide) gkrHeap_layers e
  exact ⟨m, bound, hm.1, hm.2.1, hm.2.2, g⟩

/-- Four chunks of two entries. -/
example : ∃ bound, GoodCellRun ∅ gkrHeap (fun s => ∃ res, s.gs 0 = .ret (.slice res) ∧
      HoldsTables s.mem res [[-2, 4], [4, -8], [3, -6], [-6, 12]] ∧ gkrHeap.next ≤ res.arr) bound
    (startOf (getChunkedEqTableC [2, 3, 2] 4 2 fun res => .ret (.slice res)) gkrHeap .tok) :=
  C49_chunkedEq gkrHeap [2, 3, 2] 4 2 _ (by decide) (by decide +kernel)

end GkrMimc
