import Mathlib.Algebra.BigOperators.Group.Finset.Basic
import Mathlib.Algebra.BigOperators.Fin
import Mathlib.Algebra.Field.Basic
import Mathlib.Data.Nat.Bitwise

/-! Specification: multilinear extensions as explicit sums over the hypercube, independent of the models. -/

namespace GkrMimc.Spec

open Finset

variable {F : Type} [Field F]

/-- `chi x i = ∏_j (x_j if bit j of i is set, else 1 - x_j)`, bits of `i` most significant first. -/
def chi (x : List F) (i : Nat) : F :=
  ∏ j : Fin x.length, if i.testBit (x.length - 1 - j) then x[j] else 1 - x[j]

/-- The multilinear extension of the function `T : {0..2^n-1} → F` at a point of `n` coordinates. -/
def mleF (T : Nat → F) (x : List F) : F := ∑ i ∈ range (2 ^ x.length), T i * chi x i

/-- The multilinear extension of a table of `2^n` entries at a point of `n` coordinates. -/
def mle (T : List F) (x : List F) : F := mleF (fun i => T.getD i 0) x

/-- The Boolean point spelling `i` with `n` bits, most significant first. -/
def bits (n i : Nat) : List F := (List.range n).map fun j => if i.testBit (n - 1 - j) then 1 else 0

/-- `eq(q,h) = ∏_i (q_i h_i + (1-q_i)(1-h_i))`. -/
def eqPoly (q h : List F) : F := (List.zipWith (fun a b => a * b + (1 - a) * (1 - b)) q h).prod

/-- The table obtained by interleaving `k` chunks of `m` entries: entry `u*k+s` is entry `u` of chunk `s`. -/
def interleave {α : Type} [Zero α] (k m : Nat) (chunks : List (List α)) : List α :=
  (List.range (m * k)).map fun i => (chunks.getD (i % k) []).getD (i / k) 0

end GkrMimc.Spec
