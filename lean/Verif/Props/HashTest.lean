import Verif.Model.HashTest
import Verif.Props.Hash

/-! Property C59, the test of package `hash`. -/

namespace GkrMimc

open Spec

/-- A package hasher of Poseidon on every message. -/
theorem poseidon_package (t nP : Nat) (ht : 1 ≤ t) (ht' : t ≤ 100) (hc : 8 + nP + 8 ≤ 100) :
    ∃ p, newPoseidonHasher xArr yArr t 8 nP = .ok p ∧ ∀ msg : List Fr, poseidonHash p arks msg =
      .ok ((blockHeads t msg).foldl (fun x k => (x + k + arks.getD 0 0) ^ 7) 0) := by
  obtain ⟨p, h1, h2, h3, h4, h5⟩ := newPoseidonHasher_square t 8 nP ht'
  have hcl : p.nRoundsF + p.nRoundsP + p.nRoundsF ≤ arks.length := by rw [h4, h5, arks_length]; exact hc
  refine ⟨p, h1, fun msg => ?_⟩
  have h0 : 0 < arks.length := by rw [arks_length]; omega
  rw [poseidonHash_heads p h2 arks msg (by omega) hcl (by omega), h3, ← List.getElem_eq_getD (h := h0)]

/-- C59. `TestHashes` does not panic, whatever the message. The hashes of MiMC and GMiMC that it computes are those of the
specification; those of Poseidon are folds over the first words of the blocks (finding C28). -/
theorem C59_hashes (msg : List Fr) : hashesTest msg = .ok
    ([2, 4, 8].map (fun t => (blockHeads t msg).foldl (fun x k => (x + k + arks.getD 0 0) ^ 7) 0) ++
      [2, 4, 8].map (fun t => Spec.gmimcHash (arks.take 91) t msg) ++ [mimcHash msg]) := by
  obtain ⟨p2, e2, f2⟩ := poseidon_package 2 82 (by omega) (by omega) (by omega)
  obtain ⟨p4, e4, f4⟩ := poseidon_package 4 83 (by omega) (by omega) (by omega)
  obtain ⟨p8, e8, f8⟩ := poseidon_package 8 84 (by omega) (by omega) (by omega)
  unfold hashesTest poseidonT2 poseidonT4 poseidonT8
  rw [e2, ok_bind, e4, ok_bind, e8, ok_bind, f2, ok_bind, f4, ok_bind, f8, ok_bind, C29_package 2 (by omega), ok_bind,
    C29_package 4 (by omega), ok_bind, C29_package 8 (by omega), ok_bind, C26_hash, ok_bind]
  rfl

/-- The message of the source. -/
example : ∃ r, hashesTest (List.replicate 100 0) = .ok r ∧ r.length = 7 := ⟨_, C59_hashes _, rfl⟩

end GkrMimc
