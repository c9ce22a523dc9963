import Verif.Proofs.Mimc

/-! Property C27: the MiMC circuit; C22 for it. -/

set_option linter.unusedSectionVars false

namespace GkrMimc

open Spec

/-- A chunk of MiMC instances, given by the states and the blocks: states plus blocks, then blocks. -/
def mimcChunk {F : Type} [Field F] (p : List F × List F) : List F := p.1.zipWith (· + ·) p.2 ++ p.2

/-- The expected outputs of a chunk: `E_b(s) + b` for each instance. -/
def mimcExpected (p : List Fr × List Fr) : List Fr := p.1.zipWith (fun s b => mimcCipher (arks.take 91) b s + b) p.2

theorem chunk_halves {N : Nat} {p : List Fr × List Fr} (h1 : p.1.length = N) (h2 : p.2.length = N) :
    mimcChunk p = halves N (fun h => p.1.getD h 0 + p.2.getD h 0) (fun h => p.2.getD h 0) := by
  unfold mimcChunk halves
  congr 1
  · apply List.ext_getElem
    · simp [h1, h2]
    intro i a b
    simp only [tab_length] at b
    simp [List.getD_eq_getElem?_getD, List.getElem?_eq_getElem (show i < p.1.length by omega),
      List.getElem?_eq_getElem (show i < p.2.length by omega)]
  · have := eq_tab p.2 (0 : Fr)
    rwa [h2] at this

theorem arks_91 : 91 ≤ arks.length := by have := arks_length; omega

/-- The wiring of the MiMC circuit. -/
theorem mimc_circuit : createMimcCircuit frString arks = .ok (newCircuit (mimcWiring frString (arks.take 91))) :=
  createMimcCircuit_eq _ _ arks_91

/-- C27. For every number of chunks, every number `N` of instances per chunk, all states and blocks and every core count:
`Assign` on the MiMC circuit succeeds and the last layer holds `E_b(s) + b` for every instance. -/
theorem C27_circuit (N : Nat) (chunks : List (List Fr × List Fr))
    (hN : ∀ p ∈ chunks, p.1.length = N ∧ p.2.length = N) (nCore : Int) (hc : 1 ≤ nCore) :
    ∃ c values, createMimcCircuit frString arks = .ok c ∧ c.assign (chunks.map mimcChunk) nCore = .ok values ∧
      values.getLast? = some (chunks.map mimcExpected) := by
  refine ⟨_, _, mimc_circuit, C12_assign_partial _ 1 N _ nCore hc (mimcWiring_chained _ _)
    (fun ws h w hw => .inl (mimcWiring_R _ _ ws h w hw)) ?_, ?_⟩
  · intro x hx
    obtain ⟨p, hp, rfl⟩ := List.mem_map.1 hx
    obtain ⟨h1, h2⟩ := hN p hp
    simp [mimcChunk, h1, h2]; omega
  · have e1 : chunks.map mimcChunk = (chunks.map fun p : List Fr × List Fr =>
        ((fun h => p.1.getD h 0 + p.2.getD h 0), (fun h => p.2.getD h 0))).map fun p => halves N p.1 p.2 := by
      rw [List.map_map]
      apply List.map_congr_left
      intro p hp
      exact chunk_halves (hN p hp).1 (hN p hp).2
    have hlen : (arks.take 91).length = 91 := by
      have := arks_length
      rw [List.length_take]; omega
    obtain ⟨c, cs, hcs⟩ : ∃ c cs, arks.take 91 = c :: cs := by
      cases h : arks.take 91 with
      | nil => rw [h] at hlen; cases hlen
      | cons c cs => exact ⟨c, cs, rfl⟩
    unfold mimcExpected
    rw [e1, hcs, mimc_last, List.map_map]
    congr 1
    apply List.map_congr_left
    intro p hp
    obtain ⟨h1, h2⟩ := hN p hp
    apply List.ext_getElem
    · simp [h1, h2]
    intro i a b
    simp only [Function.comp, tab_length] at a
    simp only [Function.comp, tab_get, List.getElem_zipWith]
    simp only [List.getD_eq_getElem?_getD, List.getElem?_eq_getElem (show i < p.1.length by omega),
      List.getElem?_eq_getElem (show i < p.2.length by omega), Option.getD_some]
    exact rounds_cipher (c :: cs) _ _

/-- C27. Adding the old state to an output gives `MimcUpdateInplace`. -/
theorem C27_update (s b : Fr) : ∃ out, mimcExpected ([s], [b]) = [out] ∧ mimcUpdate arks s b = .ok (out + s) := by
  refine ⟨mimcCipher (arks.take 91) b s + b, by simp only [mimcExpected, List.zipWith_cons_cons, List.zipWith_nil_left], ?_⟩
  rw [C26_update]
  generalize mimcCipher _ b s = e
  rw [show e + b + s = e + s + b by ring]

example : ∃ c values, createMimcCircuit frString arks = .ok c ∧
    c.assign [mimcChunk ([1, 2], [3, 4]), mimcChunk ([5, 6], [7, 8])] 2 = .ok values ∧
    values.getLast? = some [mimcExpected ([1, 2], [3, 4]), mimcExpected ([5, 6], [7, 8])] :=
  C27_circuit 2 [([1, 2], [3, 4]), ([5, 6], [7, 8])] (by simp) 2 (by omega)

/-- C22 for the MiMC circuit with the real constants and the real challenge function, `2^k` chunks with `k ≥ 1`: the whole
pipeline `CreateMimcCircuit`, `Assign`, `NewProver`, `Prove`, `Verify` accepts. Missing: `k = 0`. -/
theorem C22_mimc_partial (k m : Nat) (hk : 1 ≤ k) (inputs : List (List Fr)) (hin : WellChunked k (1 + m) inputs)
    (nCore nCore' : Int) (hc : 1 ≤ nCore) (hc' : 1 ≤ nCore') :
    ∃ c values outputs p proof, createMimcCircuit frString arks = .ok c ∧ c.assign inputs nCore = .ok values ∧
      values.getLast? = some outputs ∧ newGkrProver c values = .ok p ∧ p.prove mimcHash nCore' = .ok proof ∧
      gkrVerify mimcHash (m + k) c proof inputs outputs = .ok true := by
  have hne : mimcWiring frString (arks.take 91) ≠ [] := by
    have hlen : (arks.take 91).length = 91 := by
      have := arks_length
      rw [List.length_take]; omega
    cases h : arks.take 91 with
    | nil => rw [h] at hlen; cases hlen
    | cons c cs => cases cs <;> simp [mimcWiring]
  obtain ⟨values, outputs, p, proof, h⟩ := C22_complete_assign_partial mimcHash (mimcWiring frString (arks.take 91)) hne
    (mimcWiring_good _ _) 1 k m hk (mimcWiring_chained _ _)
    (fun ws h w hw => .inl (mimcWiring_R _ _ ws h w hw)) inputs hin nCore nCore' hc hc'
  exact ⟨_, values, outputs, p, proof, mimc_circuit, h⟩

end GkrMimc
