import Verif.Props.Chunking
import Verif.Props.GadgetBench

/-! Property C73 for the gadget: the chunks of the native prover do not show in the witness. -/

namespace GkrMimc

open Spec

/-- C73. The witness of the GKR gadget does not depend on the chunks: whatever chunking of the inputs the native `Assign` and `Prove` work
on, with whatever number of cores, `Assign` of the test circuit fills in the same witness, and it satisfies all constraints. -/
theorem C73_gadget (k m k' m' : Nat) (hN : m + k = m' + k') (inputs inputs' : List (List Fr)) (hin : WellChunked k (1 + m) inputs)
    (hin' : WellChunked k' (1 + m') inputs')
    (heq : interleave (2 ^ k) (2 ^ (1 + m)) inputs = interleave (2 ^ k') (2 ^ (1 + m')) inputs')
    (n n' : Int) (hn : 1 ≤ n) (hn' : 1 ≤ n') :
    ∃ (c : Circuit Fr) (values values' : _) (outputs outputs' : _) (p p' : _) (proof : GkrProof Fr)
        (t : GkrMimcTestCircuit Fr (Option Fr)) (w : GkrMimcTestCircuit Fr Fr), createMimcCircuit frString arks = .ok c ∧
      c.assign inputs n = .ok values ∧ c.assign inputs' n' = .ok values' ∧
      values.getLast? = some outputs ∧ values'.getLast? = some outputs' ∧
      newGkrProver c values = .ok p ∧ newGkrProver c values' = .ok p' ∧
      p.prove mimcHash n = .ok proof ∧ p'.prove mimcHash n' = .ok proof ∧ allocateTestCircuit arks (m + k) = .ok t ∧
      t.assign proof inputs outputs (getInitialQPrimeAndQ (m + k) 0).1 = .ok w.filled ∧
      t.assign proof inputs' outputs' (getInitialQPrimeAndQ (m + k) 0).1 = .ok w.filled ∧ (w.define arks).Satisfied := by
  have hne : mimcWiring frString (arks.take 91) ≠ [] := by
    obtain ⟨cs, c, d, e, _, _⟩ := arks_split
    rw [e, show cs ++ [c, d] = (cs ++ [c]) ++ [d] by simp, mimcWiring_append]
    simp
  obtain ⟨v, v', p, p', proof, g1, g2, g3, g4, g5, g6, g7⟩ := C73_assign mimcHash (mimcWiring frString (arks.take 91)) hne
    (mimcWiring_good _ _) 1 k m k' m' hN (mimcWiring_chained _ _) (mimcWiring_R _ _) inputs inputs' hin hin' heq n n' n n' hn hn' hn hn'
  obtain ⟨c, values, o, q, pr, t, w, h1, h2, h3, h4, h5, h6, h7, h8, h9, _, h11, h12, h13, h14, h15⟩ :=
    honest_witness_full k m inputs hin n hn
  obtain ⟨c', values', o', q', pr', t', w', f1, f2, f3, f4, f5, f6, f7, f8, f9, _, f11, _, f13, f14, f15⟩ :=
    honest_witness_full k' m' inputs' hin' n' hn'
  obtain rfl : newCircuit (mimcWiring frString (arks.take 91)) = c := by
    have := mimc_circuit; rw [h1] at this; exact (Except.ok.inj this).symm
  obtain rfl : newCircuit (mimcWiring frString (arks.take 91)) = c' := by rw [h1] at f1; exact Except.ok.inj f1
  obtain rfl : v = values := by rw [g1] at h2; exact Except.ok.inj h2
  obtain rfl : v' = values' := by rw [g2] at f2; exact Except.ok.inj f2
  obtain rfl : p = q := by rw [g3] at h4; exact Except.ok.inj h4
  obtain rfl : p' = q' := by rw [g4] at f4; exact Except.ok.inj f4
  obtain rfl : proof = pr := by rw [g5] at h5; exact Except.ok.inj h5
  obtain rfl : proof = pr' := by rw [g6] at f5; exact Except.ok.inj f5
  rw [← hN] at f6 f7 f15
  obtain rfl : t = t' := by rw [h6] at f6; exact Except.ok.inj f6
  have ho : interleave (2 ^ k) (2 ^ m) o = interleave (2 ^ k') (2 ^ m') o' := by
    obtain ⟨cs, c, d, e, _, _⟩ := arks_split
    have hl : (newCircuit (mimcWiring frString (arks.take 91))).layers.getLast? = some (newLayer (mimcLastWires frString d)) := by
      rw [e, show cs ++ [c, d] = (cs ++ [c]) ++ [d] by simp, mimcWiring_append]
      simp [newCircuit]
    have := g7 _ o o' hl h3 f3
    rwa [last_bGOutputs, Nat.zero_add, Nat.zero_add] at this
  have hw : w = w' := by
    cases w
    cases w'
    simp_all
  subst hw
  exact ⟨_, v, v', o, o', p, p', proof, t, w, h1, g1, g2, h3, f3, g3, g4, g5, g6, h6, h7, f7, h12⟩

/-- Four instances in two chunks on three cores, and in four chunks on one core. -/
example : ∃ (c : Circuit Fr) (values values' : _) (outputs outputs' : _) (p p' : _) (proof : GkrProof Fr)
      (t : GkrMimcTestCircuit Fr (Option Fr)) (w : GkrMimcTestCircuit Fr Fr), createMimcCircuit frString arks = .ok c ∧
    c.assign [[1, 3, 5, 7], [2, 4, 6, 8]] 3 = .ok values ∧ c.assign [[1, 5], [2, 6], [3, 7], [4, 8]] 1 = .ok values' ∧
    values.getLast? = some outputs ∧ values'.getLast? = some outputs' ∧
    newGkrProver c values = .ok p ∧ newGkrProver c values' = .ok p' ∧
    p.prove mimcHash 3 = .ok proof ∧ p'.prove mimcHash 1 = .ok proof ∧ allocateTestCircuit arks 2 = .ok t ∧
    t.assign proof [[1, 3, 5, 7], [2, 4, 6, 8]] outputs (getInitialQPrimeAndQ 2 0).1 = .ok w.filled ∧
    t.assign proof [[1, 5], [2, 6], [3, 7], [4, 8]] outputs' (getInitialQPrimeAndQ 2 0).1 = .ok w.filled ∧ (w.define arks).Satisfied :=
  C73_gadget 1 1 2 0 rfl _ _ ⟨rfl, by simp⟩ ⟨rfl, by simp⟩ (by decide +kernel) 3 1 (by decide) (by decide)

end GkrMimc
