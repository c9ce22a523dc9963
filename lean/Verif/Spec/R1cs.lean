import Verif.Model.R1cs
import Verif.Spec.Snark

/-! Specification of constraint systems: values of the wires, and when they solve a system. -/

namespace GkrMimc

variable {F : Type} [Field F]

namespace Spec

/-- The value of a linear expression. -/
def linValue (w : Nat → F) (a : Lin F) : F := a.const + (a.terms.map fun t => t.1 * w t.2).sum

/-- The values `w` of the wires satisfy all the constraints. -/
def Solves (w : Nat → F) (cs : List (R1C F)) : Prop := ∀ c ∈ cs, linValue w c.l * linValue w c.r = linValue w c.o

/-- The values agree on the first `n` wires. -/
def AgreeTo (n : Nat) (w w' : Nat → F) : Prop := ∀ i < n, w i = w' i

/-- A system `(m, gs, cs)` with the variables of `xs` as its first wires accepts the values `xs` of these: the other wires can be given values
such that all constraints and assertions hold. -/
def Accepts (s : Nat × List (R1C F) × List (R1C F)) (xs : List F) : Prop :=
  ∃ w : Nat → F, (∀ i < xs.length, w i = xs.getD i 0) ∧ Solves w s.2.1 ∧ Solves w s.2.2

/-- Whatever the values of the first wires, exactly one choice of values of the others satisfies the constraints of the
multiplications. -/
def Determined (s : Nat × List (R1C F) × List (R1C F)) (k : Nat) : Prop :=
  ∀ xs : List F, xs.length = k → ∃ w : Nat → F, (∀ i < k, w i = xs.getD i 0) ∧ Solves w s.2.1 ∧
    ∀ w' : Nat → F, (∀ i < k, w' i = xs.getD i 0) → Solves w' s.2.1 → ∀ i < s.1, w' i = w i

end Spec

end GkrMimc
