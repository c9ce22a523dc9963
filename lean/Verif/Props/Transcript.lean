import Verif.Props.GkrUntrusted

/-! Property C41: what the Fiat-Shamir challenges depend on. The full claim (each challenge depends on the claim and on all
earlier messages) is false: the challenge of a round is the hash of that round's polynomial alone. -/

set_option linter.unusedSectionVars false

namespace GkrMimc

open Spec

variable {F : Type} [Field F] [DecidableEq F]

/-- C41: in every accepted sumcheck, the challenge of round `i` is the hash of the polynomial of round `i` and nothing else:
not of the claim, not of the earlier rounds. -/
theorem C41_own_polynomial_only (H : List F → F) (claim : F) (cs : List (List F)) (bG : Nat) (v : SumcheckVerdict F)
    (h : sumcheckVerify H claim cs bG = .ok (some v)) (i : Nat) (hi : i < cs.length) :
    (v.qL ++ v.qR ++ v.qPrime)[i]? = some (H cs[i]) := by
  obtain ⟨_, _, hl, e1, e2, e3, _⟩ := (C17_accepts_iff H claim cs bG v).1 h
  have : v.qL ++ v.qR ++ v.qPrime = cs.map H := by
    rw [e1, e2, e3, List.append_assoc, two_mul, ← List.drop_drop, List.take_append_drop, List.take_append_drop]
  rw [this]
  simp [hi]

/-- C41, what remains (full claim: the challenge depends on the claim and on **all** messages so far). Two accepted runs whose
polynomials of round `i` differ share the challenge of round `i` only if the hash collides on these two polynomials. Missing:
dependence on the claim and on the earlier rounds, which is false (below). -/
theorem C41_binds_own_round_partial (H : List F → F) (claim claim' : F) (cs cs' : List (List F)) (bG : Nat)
    (v v' : SumcheckVerdict F) (h : sumcheckVerify H claim cs bG = .ok (some v))
    (h' : sumcheckVerify H claim' cs' bG = .ok (some v')) (i : Nat) (hi : i < cs.length) (hi' : i < cs'.length)
    (hne : cs[i] ≠ cs'[i]) (hsame : (v.qL ++ v.qR ++ v.qPrime)[i]? = (v'.qL ++ v'.qR ++ v'.qPrime)[i]?) :
    ∃ a b, a ≠ b ∧ H a = H b := by
  rw [C41_own_polynomial_only H claim cs bG v h i hi, C41_own_polynomial_only H claim' cs' bG v' h' i hi'] at hsame
  exact ⟨_, _, hne, Option.some.inj hsame⟩

/-- C41: the negation for every challenge function: two accepted runs with different first polynomials, the same second
polynomial, hence the same second challenge and the same final claim. Their claims are `2x+y` and `2(x+yρ)`, `ρ = H [x,y]`. -/
theorem C41_shared (H : List F → F) (h2 : (2 : F) ≠ 0) (x y : F) :
    ∃ (s : F) (v v' : SumcheckVerdict F), sumcheckVerify H (2 * x + y) [[x, y], [s]] 0 = .ok (some v) ∧
      sumcheckVerify H (2 * (x + y * H [x, y])) [[x + y * H [x, y]], [s]] 0 = .ok (some v') ∧
      v.qPrime[1]? = v'.qPrime[1]? ∧ v.qPrime[1]? = some (H [s]) ∧ v.finalClaim = v'.finalClaim := by
  have hs : (x + y * H [x, y]) / 2 + (x + y * H [x, y]) / 2 = x + y * H [x, y] := by field_simp; ring
  refine ⟨(x + y * H [x, y]) / 2, ⟨[H [x, y], H [(x + y * H [x, y]) / 2]], [], [], (x + y * H [x, y]) / 2⟩,
    ⟨[H [x + y * H [x, y]], H [(x + y * H [x, y]) / 2]], [], [], (x + y * H [x, y]) / 2⟩,
    (C17_accepts_iff _ _ _ _ _).2 ?_, (C17_accepts_iff _ _ _ _ _).2 ?_, rfl, rfl, rfl⟩
  · refine ⟨by simp, ?_, by simp, rfl, rfl, rfl, ?_⟩
    · simp [Consistent, polyOf, Finset.sum_range_succ]
      constructor
      · ring
      · linear_combination hs
    · simp [lastValue, polyOf, Finset.sum_range_succ]
  · refine ⟨by simp, ?_, by simp, rfl, rfl, rfl, ?_⟩
    · simp [Consistent, polyOf, Finset.sum_range_succ]
      constructor
      · ring
      · linear_combination hs
    · simp [lastValue, polyOf, Finset.sum_range_succ]

/-- C41: the negation with the real challenge function: different claims (the first is 1), different first rounds, same
second challenge. -/
theorem C41_negation : ∃ (claim claim' : Fr) (c c' s : List Fr) (v v' : SumcheckVerdict Fr), claim ≠ claim' ∧ c ≠ c' ∧
    sumcheckVerify mimcHash claim [c, s] 0 = .ok (some v) ∧ sumcheckVerify mimcHash claim' [c', s] 0 = .ok (some v') ∧
    v.qPrime[1]? = v'.qPrime[1]? ∧ v.qPrime[1]?.isSome := by
  obtain ⟨s, v, v', h1, h2, h3, h4, _⟩ := C41_shared mimcHash (show (2 : Fr) ≠ 0 by decide) 0 1
  refine ⟨_, _, [0, 1], _, [s], v, v', ?_, ?_, h1, h2, h3, by rw [h4]; rfl⟩
  · decide +kernel
  · simp

/-- C41: the initial point of the GKR verifier depends on nothing but the dimensions: not on the inputs or the outputs. -/
theorem C41_initial_point (bN bG : Nat) : getInitialQPrimeAndQ (F := F) bN bG =
    ((List.range bN).map (fun i => ((i + 1 : Nat) : F)), (List.range bG).map (fun i => ((i + 1 : Nat) : F))) := by
  simp [getInitialQPrimeAndQ]

/-- The hypotheses of `C41_binds_own_round_partial` hold for two runs under a constant (colliding) challenge function. -/
example : ∃ v v', sumcheckVerify (fun _ => (3 : Fr)) 2 [[1]] 0 = .ok (some v) ∧
    sumcheckVerify (fun _ => (3 : Fr)) 1 [[0, 1]] 0 = .ok (some v') ∧ v.qPrime[0]? = v'.qPrime[0]? :=
  ⟨⟨[3], [], [], 1⟩, ⟨[3], [], [], 3⟩, by decide +kernel, by decide +kernel, rfl⟩

end GkrMimc
