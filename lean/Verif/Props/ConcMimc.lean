import Verif.Props.ConcGkrProve
import Verif.Props.Snark

/-! Property C50 for the MiMC circuit with the real constants and the real challenge function. -/

namespace GkrMimc

open Spec

/-- C50: the whole way from states and blocks in memory to an accepted proof. For `2^k` chunks (`k ≥ 1`) of `2^m` instances of MiMC, all
states and blocks, every memory that holds them and every number of cores: under all schedules `Assign`, `NewProver` and `Prove` on the
circuit of `CreateMimcCircuit` give the same proof, without a race, a panic or a deadlock, and `Verify` accepts it for the outputs
`E_b(s) + b`. -/
theorem C50_mimc (k m : Nat) (hk : 1 ≤ k) (pairs : List (List Fr × List Fr)) (hl : pairs.length = 2 ^ k)
    (hN : ∀ p ∈ pairs, p.1.length = 2 ^ m ∧ p.2.length = 2 ^ m) (h : Heap (Cell Fr)) (inputs : Slice)
    (hv : HoldsTables h inputs (pairs.map mimcChunk)) (nCore : Int) (hn : 1 ≤ nCore) :
    ∃ c proof bound, createMimcCircuit frString arks = .ok c ∧
      gkrVerify mimcHash (m + k) c proof (pairs.map mimcChunk) (pairs.map mimcExpected) = .ok true ∧
      GoodCellRun ∅ h (fun s => s.gs 0 = .ret (.proof proof) ∧ HoldsTables s.mem inputs (pairs.map mimcChunk)) bound
        (startOf (assignProveC mimcHash c inputs nCore) h .tok) := by
  have hne : mimcWiring frString (arks.take 91) ≠ [] := by
    obtain ⟨cs, c, d, e, _, _⟩ := arks_split
    rw [e, show cs ++ [c, d] = (cs ++ [c]) ++ [d] by simp, mimcWiring_append]
    simp
  have hin : WellChunked k (1 + m) (pairs.map mimcChunk) := by
    refine ⟨by rw [List.length_map, hl], fun x hx => ?_⟩
    obtain ⟨p, hp, rfl⟩ := List.mem_map.1 hx
    obtain ⟨h1, h2⟩ := hN p hp
    simp only [mimcChunk, List.length_append, List.length_zipWith, h1, h2, pow_add]
    omega
  obtain ⟨proof, bound, h1, h2⟩ := C50_complete_assign mimcHash (mimcWiring frString (arks.take 91)) hne (mimcWiring_good _ _) 1 k m hk
    (mimcWiring_chained _ _) (fun ws h w hw => .inl (mimcWiring_R _ _ ws h w hw)) _ _ hin (mimc_values (2 ^ m) pairs hN) h inputs hv nCore hn
  exact ⟨_, proof, bound, mimc_circuit, h1, h2⟩

/-- Two instances in two chunks, with the states -1, -1 and the blocks 2, 4, in the memory `gkrHeap`, on four cores. -/
example : ∃ c proof bound, createMimcCircuit frString arks = .ok c ∧
    gkrVerify mimcHash 1 c proof [[1, 2], [3, 4]] [mimcExpected ([-1], [2]), mimcExpected ([-1], [4])] = .ok true ∧
    GoodCellRun ∅ gkrHeap (fun s => s.gs 0 = .ret (.proof proof) ∧ HoldsTables s.mem ⟨1, 0, 2, 2⟩ [[1, 2], [3, 4]]) bound
      (startOf (assignProveC mimcHash c ⟨1, 0, 2, 2⟩ 4) gkrHeap .tok) := by
  have e : ([[1, 2], [3, 4]] : List (List Fr)) = [(([-1], [2]) : List Fr × List Fr), ([-1], [4])].map mimcChunk := by
    simp only [mimcChunk, List.map_cons, List.map_nil, List.zipWith_cons_cons, List.zipWith_nil_left, List.cons_append, List.nil_append]
    norm_num
  have hv := gkrHeap_inputs
  rw [e] at hv ⊢
  exact C50_mimc 1 0 le_rfl _ rfl (by simp) gkrHeap _ hv 4 (by decide)

end GkrMimc
