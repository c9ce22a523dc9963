import Verif.Proofs.SumcheckPar
import Verif.Props.Sumcheck

/-! Property C18: the multi-threaded sumcheck prover equals the single-threaded one. -/

set_option linter.unusedSectionVars false

namespace GkrMimc

open Spec Finset

variable {F : Type} [Field F] [DecidableEq F]

/-- `2^k` chunks of each table: `2^m` entries of eq, `2^(bG+m)` entries of `vL` and `vR`. -/
structure SizedChunks (gates : List (Gate F)) (k m bG : Nat) (vL vR eq : List (List F)) (statics : List (List F)) :
    Prop where
  chunksL : WellChunked k (bG + m) vL
  chunksR : WellChunked k (bG + m) vR
  chunksEq : WellChunked k m eq
  lenStatics : statics.length = gates.length
  lenStatic : ∀ t ∈ statics, t.length = 2 ^ (bG + bG)

theorem SizedChunks.sized {gates : List (Gate F)} {k m bG : Nat} {vL vR eq : List (List F)} {statics : List (List F)}
    (h : SizedChunks gates k m bG vL vR eq statics) :
    Sized gates (m + k) bG (interleave (2 ^ k) (2 ^ (bG + m)) vL) (interleave (2 ^ k) (2 ^ (bG + m)) vR)
      (interleave (2 ^ k) (2 ^ m) eq) statics where
  lenL := by simp [interleave, pow_add, mul_assoc]
  lenR := by simp [interleave, pow_add, mul_assoc]
  lenEq := by simp [interleave, pow_add]
  lenStatics := h.lenStatics
  lenStatic := h.lenStatic

theorem SizedChunks.statics_eq {gates : List (Gate F)} {k m bG : Nat} {vL vR eq : List (List F)} {statics : List (List F)}
    (h : SizedChunks gates k m bG vL vR eq statics) :
    statics = tab gates.length (fun i => tab (2 ^ bG * 2 ^ bG) (fun u => (statics.getD i []).getD u 0)) := by
  apply tab_eq_of h.lenStatics
  intro i hi
  have hs : statics.getD i [] = statics[i] := by simp [hi]
  rw [hs]
  have := eq_tab statics[i] 0
  rwa [h.lenStatic _ (List.getElem_mem hi), pow_add] at this

/-- C18. `Prove` of the multi-threaded prover returns what `Prove` of the single-threaded prover returns on the
interleaved tables: same polynomials, challenges and final claims (and the same panics). -/
theorem C18_prove (H : List F → F) (gates : List (Gate F)) (hg : ∀ g ∈ gates, LawfulGate g) (k m bG : Nat)
    (vL vR eq : List (List F)) (statics : List (List F)) (h : SizedChunks gates k m bG vL vR eq statics)
    (nCore : Int) (hc : 1 ≤ nCore) :
    (newMProver vL vR eq gates statics).prove H nCore =
      (newSProver (interleave (2 ^ k) (2 ^ (bG + m)) vL) (interleave (2 ^ k) (2 ^ (bG + m)) vR)
        (interleave (2 ^ k) (2 ^ m) eq) gates statics).prove H := by
  rw [h.sized.mkP_eq, pow_add 2 m k, ← mprove_eq H hg bG m k _ _ _ _ nCore hc, ← pow_add, ← eq_chunksOf h.chunksL,
    ← eq_chunksOf h.chunksR, ← eq_chunksOf h.chunksEq, ← h.statics_eq]

/-- C18. The same for `GetClaim`; here the gates may be any functions. -/
theorem C18_getClaim (gates : List (Gate F)) (k m bG : Nat)
    (vL vR eq : List (List F)) (statics : List (List F)) (h : SizedChunks gates k m bG vL vR eq statics)
    (nCore : Int) (hc : 1 ≤ nCore) :
    (newMProver vL vR eq gates statics).getClaim nCore =
      (newSProver (interleave (2 ^ k) (2 ^ (bG + m)) vL) (interleave (2 ^ k) (2 ^ (bG + m)) vR)
        (interleave (2 ^ k) (2 ^ m) eq) gates statics).getClaim := by
  rw [h.sized.mkP_eq, pow_add 2 m k, ← mgetClaim_eq bG m k _ _ _ _ nCore hc, ← pow_add, ← eq_chunksOf h.chunksL,
    ← eq_chunksOf h.chunksR, ← eq_chunksOf h.chunksEq, ← h.statics_eq]

/-- C18 with C16: the multi-threaded proof of any chunked instance is accepted by the verifier. -/
theorem C18_complete [SmallCasts F] (H : List F → F) (gates : List (Gate F)) (hne : gates ≠ [])
    (hg : ∀ g ∈ gates, LawfulGate g) (hd : DegreesOk gates) (k m bG : Nat)
    (vL vR eq : List (List F)) (statics : List (List F)) (h : SizedChunks gates k m bG vL vR eq statics)
    (nCore : Int) (hc : 1 ≤ nCore) :
    ∃ claim out fc, (newMProver vL vR eq gates statics).getClaim nCore = .ok claim ∧
      (newMProver vL vR eq gates statics).prove H nCore = .ok out ∧
      sumcheckVerify H claim out.polyCoeffs bG = .ok (some ⟨out.qPrime, out.qL, out.qR, fc⟩) := by
  obtain ⟨out, fc, h1, h2, h3, _⟩ := C16_complete H gates hne hg hd (m + k) bG _ _ _ _ h.sized
  exact ⟨_, out, fc, by rw [C18_getClaim gates k m bG vL vR eq statics h nCore hc, h1],
    by rw [C18_prove H gates hg k m bG vL vR eq statics h nCore hc, h2], h3⟩

example : SizedChunks [cipherGate frString 3, copyGate] 1 0 1 [[1, 5], [2, 6]] [[1, 5], [2, 6]] [[-6], [7]]
    [[0, 0, 1 - 7, 0], [0, 0, 7, 0]] :=
  ⟨by simp [WellChunked], by simp [WellChunked], by simp [WellChunked], rfl, by simp⟩
example : (newMProver [[1, 5], [2, 6]] [[1, 5], [2, 6]] [[-6], [7]] [cipherGate frString 3, copyGate (F := Fr)]
    [[0, 0, 1 - 7, 0], [0, 0, 7, 0]]).getClaim 3 =
    (newSProver [1, 2, 5, 6] [1, 2, 5, 6] [-6, 7] [cipherGate frString 3, copyGate]
      [[0, 0, 1 - 7, 0], [0, 0, 7, 0]]).getClaim := by decide +kernel

end GkrMimc
