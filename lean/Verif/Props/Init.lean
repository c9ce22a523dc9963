import Verif.Model.Init
import Verif.Props.Hash
import Verif.Props.Lagrange
import Verif.Proofs.SnarkAssign

/-! Property C61: the initialisation of the packages. -/

namespace GkrMimc

open Spec

theorem fillArray_eq (nats : List Nat) (h : nats.length = 100) : fillArray nats = .ok (nats.map fun n : Nat => (n : Fr)) := by
  have h0 : List.replicate 100 (0 : Fr) = nats.map fun _ => 0 := by rw [← h, List.map_const']
  unfold fillArray
  rw [h0]
  apply forN_replace
  intro i hi f _
  rw [idx_ok hi, ok_bind, setIdx_tab hi]

/-- C61. `init` of the package `hash` does not panic, whatever the variables were, and leaves in them exactly the constants and
hashers of the other theorems. -/
theorem C61_hash (v : HashVars) : ∃ w, hashInit v = .ok w ∧ w.xArr = xNats.map (fun n : Nat => (n : Fr)) ∧
    w.yArr = yNats.map (fun n : Nat => (n : Fr)) ∧ w.arks = arkNats.map (fun n : Nat => (n : Fr)) ∧
    poseidonT2 = .ok w.poseidonT2 ∧ poseidonT4 = .ok w.poseidonT4 ∧ poseidonT8 = .ok w.poseidonT8 ∧
    w.gmimcT2 = gmimcT 2 ∧ w.gmimcT4 = gmimcT 4 ∧ w.gmimcT8 = gmimcT 8 ∧ hashInit w = .ok w := by
  obtain ⟨p2, e2, -⟩ := newPoseidonHasher_square 2 8 82 (by omega)
  obtain ⟨p4, e4, -⟩ := newPoseidonHasher_square 4 8 83 (by omega)
  obtain ⟨p8, e8, -⟩ := newPoseidonHasher_square 8 8 84 (by omega)
  have key : ∀ v, hashInit v = .ok ⟨xArr, yArr, arks, p2, p4, p8, gmimcT 2, gmimcT 4, gmimcT 8⟩ := by
    intro v
    unfold hashInit initArk
    rw [fillArray_eq _ consts_length.1, ok_bind, fillArray_eq _ consts_length.2.1, ok_bind, fillArray_eq _ consts_length.2.2, ok_bind]
    have e : initPoseidon { v with xArr := xArr, yArr := yArr, arks := arks } =
        .ok { v with xArr := xArr, yArr := yArr, arks := arks, poseidonT2 := p2, poseidonT4 := p4, poseidonT8 := p8 } := by
      unfold initPoseidon
      dsimp only
      rw [e2, ok_bind, e4, ok_bind, e8, ok_bind]
      rfl
    exact congrArg (· >>= fun v => Except.ok (initGMimc v)) e
  exact ⟨_, key v, rfl, rfl, rfl, e2, e4, e8, rfl, rfl, rfl, key _⟩

/-- C61. The order matters: before `initArk`, `initPoseidon` panics. -/
theorem C61_order : initPoseidon HashVars.zero = .error .index := rfl

/-- C61. `init` of the package `polynomial` does not panic, and `GetLagrangePolynomial` reads the table that it makes: for all
domain sizes, also those out of range. -/
theorem C61_lagrange {F : Type} [Field F] :
    ∃ t : List (List (List F)), initLagrangePolynomials = .ok t ∧ t.length = 13 ∧ ∀ n, idx t n = getLagrangePolynomial n := by
  have hrow : ∀ n, lagrangeCoefficient (F := F) n = .ok (tab n fun l => tab n (lagr F n l).coeff) := by
    intro n
    unfold lagrangeCoefficient
    exact gen_ok _ n fun l hl => lagrangeRow_eq n l hl
  have h0 : List.replicate (maxDomainSize + 1) ([] : List (List F)) = (List.range 13).map fun _ => [] := by
    rw [List.map_const', List.length_range]; rfl
  have h1 : initLagrangePolynomials (F := F) = .ok ((List.range 13).map fun n => tab n fun l => tab n (lagr F n l).coeff) := by
    unfold initLagrangePolynomials
    rw [h0]
    have := forN_replace (List.range 13) (fun _ => ([] : List (List F))) (fun n => tab n fun l => tab n (lagr F n l).coeff)
      (fun i t => do
        let m ← lagrangeCoefficient i
        setIdx t i m) (by
        intro i hi f _
        rw [hrow, ok_bind, setIdx_tab hi]
        simp)
    simpa [maxDomainSize] using this
  refine ⟨_, h1, by simp, fun n => ?_⟩
  unfold getLagrangePolynomial
  by_cases hn : n < maxDomainSize + 1
  · rw [if_pos hn, hrow]
    have hn' : n < ((List.range 13).map fun n => tab n fun l => tab n (lagr F n l).coeff).length := by simpa [maxDomainSize] using hn
    rw [idx_ok hn']
    simp
  · rw [if_neg hn]
    unfold idx
    rw [List.getElem?_eq_none (by simpa [maxDomainSize] using hn)]

example : ∃ w, hashInit HashVars.zero = .ok w ∧ w.arks[90]? = some (arkNats.getD 90 0 : Fr) := by
  obtain ⟨w, h, -, -, h3, -⟩ := C61_hash HashVars.zero
  refine ⟨w, h, ?_⟩
  rw [h3, List.getElem?_map]
  rfl

end GkrMimc
