import Verif.Model.Circuit
import Verif.Spec.Mle
import Mathlib.Algebra.Polynomial.Eval.Degree

/-! Specification: the sum that the sumcheck protocol is about. -/

namespace GkrMimc.Spec

open Finset Polynomial

variable {F : Type} [Field F]

/-- `∑_{h' < 2^bN} ∑_{l,r < 2^bG} ∑_i gate_i(vL[l,h'], vR[r,h']) * eq[h'] * static_i[l,r]`, with `v[l,h']` at index
`l*2^bN+h'` and `static[l,r]` at index `l*2^bG+r`. -/
def hypercubeSum (gates : List (Gate F)) (bN bG : Nat) (vL vR eq : List F) (statics : List (List F)) : F :=
  ∑ h ∈ range (2 ^ bN), ∑ l ∈ range (2 ^ bG), ∑ r ∈ range (2 ^ bG), ∑ i : Fin gates.length,
    gates[i].eval (vL.getD (l * 2 ^ bN + h) 0) (vR.getD (r * 2 ^ bN + h) 0) * eq.getD h 0 *
      (statics.getD i []).getD (l * 2 ^ bG + r) 0

/-- The summand's extension at a point: `eq * ∑_i static_i * gate_i(vL, vR)`. -/
def combinator (gates : List (Gate F)) (vL vR eq : F) (statics : List F) : F :=
  (∑ i : Fin gates.length, statics.getD i 0 * gates[i].eval vL vR) * eq

/-- The sum of `g` over the Boolean cube of dimension `n`. -/
def cubeSum : Nat → (List F → F) → F
  | 0, g => g []
  | n + 1, g => cubeSum n (fun b => g (0 :: b)) + cubeSum n (fun b => g (1 :: b))

/-- The polynomial with the given coefficients, lowest degree first. -/
noncomputable def polyOf (c : List F) : F[X] := ∑ i ∈ range c.length, C (c.getD i 0) * X ^ i

/-- The checks of the verifier: each polynomial sums to the previous value, and its value at its own challenge is the
next one. -/
def Consistent (H : List F → F) : List (List F) → F → Prop
  | [], _ => True
  | c :: cs, e => (polyOf c).eval 0 + (polyOf c).eval 1 = e ∧ Consistent H cs ((polyOf c).eval (H c))

/-- The value left after the last round. -/
noncomputable def lastValue (H : List F → F) : List (List F) → F → F
  | [], e => e
  | c :: cs, _ => lastValue H cs ((polyOf c).eval (H c))

/-- The function summed by the sumcheck of a layer, on `(hL, hR, h')`. -/
def summand (gates : List (Gate F)) (bG : Nat) (vL vR eq : List F) (statics : List (List F)) (x : List F) : F :=
  combinator gates (mle vL (x.take bG ++ x.drop (2 * bG))) (mle vR ((x.drop bG).take bG ++ x.drop (2 * bG)))
    (mle eq (x.drop (2 * bG))) (statics.map fun t => mle t (x.take (2 * bG)))

end GkrMimc.Spec
