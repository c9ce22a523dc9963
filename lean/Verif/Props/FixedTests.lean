import Verif.Model.Sumcheck
import Verif.Model.Mimc
import Verif.Props.Common

/-! The tests of /repo with fixed values, run on the model. They are no proofs of properties (those are for all values); they check the
models against the values which the authors of the code expect. -/

namespace GkrMimc

/-- The value of a run, with a value for panics. -/
def okOr {α : Type} (d : α) : Go α → α
  | .ok a => a
  | .error _ => d

theorem log2Ceil_val {a : Int} (ha : 1 ≤ a) {k : Nat} (h : a ≤ 2 ^ k) (h' : k = 0 ∨ ¬ a ≤ 2 ^ (k - 1)) : log2Ceil a = k := by
  have c := (C01_log2_exact a ha).2.1
  have h1 := (c k).2 h
  rcases h' with rfl | h'
  · omega
  · have := (c (k - 1)).not.2 h'
    omega

/-- `TestLog2`, common/math_test.go:9-18. -/
example : (List.map log2Floor [1, 2, 3, 4, 5, 6, 7, 8, 9]) = [0, 1, 1, 2, 2, 2, 2, 3, 3] ∧
    (List.map log2Ceil [1, 2, 3, 4, 5, 6, 7, 8, 9]) = [0, 1, 2, 2, 3, 3, 3, 3, 4] := by
  have f := fun (a : Int) ha => (C01_log2_exact a ha).1
  simp only [List.map_cons, List.map_nil, List.cons.injEq, and_true]
  refine ⟨⟨?_, ?_, ?_, ?_, ?_, ?_, ?_, ?_, ?_⟩, ?_, ?_, ?_, ?_, ?_, ?_, ?_, ?_, ?_⟩ <;>
    first | exact (f _ (by norm_num) _).2 (by norm_num) | exact log2Ceil_val (by norm_num) (by norm_num) (by norm_num)

/-- `TestLinearCombinationOfBookKeepingTables`, polynomial/book_keeping_test.go:11-35. -/
example : okOr [] (linearCombination [0, (1 : Fr)] [2, 6] 13 1789) = [13 * 0 + 1789 * 2, 13 * 1 + 1789 * (1 * 1 + 3 * 1 + 2)] := by
  decide +kernel

/-- `TestFold`, polynomial/book_keeping_test.go:37-57. -/
example : fold [0, 1, 2, (3 : Fr)] 5 = [10, 11] := by decide +kernel

/-- `TestFuncEval`, polynomial/book_keeping_test.go:59-75. -/
example : functionEvals [0, 1, 2, (3 : Fr)] = [2, 2] := by decide +kernel

/-- `TestLagrangeCoefficients`, polynomial/lagrange_test.go:10-29. -/
example : (List.range 7).map (fun i => okOr 5 (do
      let l ← getLagrangePolynomial 7
      let p ← idx l 2
      evaluatePolynomial p ((i : Nat) : Fr))) = [0, 0, 1, 0, 0, 0, 0] := by decide +kernel

/-- The prover of `TestGetEvals`. -/
def getEvalsProver : SProver Fr := newSProver [0, 1, 2, 3] [0, 1, 2, 3] [0, 1] [addGate] [[0, 0, 1, 0]]

/-- `TestGetEvals`, sumcheck/prover_test.go:14-60. -/
example : okOr 0 getEvalsProver.getClaim = 4 ∧ (okOr [] getEvalsProver.getEvalsOnHL).take 3 = [0, 4, 12] ∧
    (okOr [] (getEvalsProver.foldHL 1).getEvalsOnHR).take 3 = [4, 0, -8] ∧
    (okOr [] ((getEvalsProver.foldHL 1).foldHR 0).getEvalsOnHPrime).take 3 = [0, 4, 12] := by decide +kernel

end GkrMimc
