import Verif.Model.Gkr

/-! Specification for property C69: the size of a proof and the messages that the challenges are hashed from. -/

namespace GkrMimc

variable {F : Type}

/-- The number of field elements of a proof. -/
def GkrProof.size (proof : GkrProof F) : Nat :=
  proof.sumcheckProofs.flatten.flatten.length + proof.claimsLeft.length + proof.claimsRight.length

/-- The round polynomials of all layers, and the pairs of claims about all layers but the inputs. -/
def GkrProof.hashed (proof : GkrProof F) : List (List F) :=
  proof.sumcheckProofs.flatten ++ ((proof.claimsLeft.zip proof.claimsRight).drop 1).map fun x => [x.1, x.2]

/-- The number of coefficients of a round polynomial, for gates whose degrees are `f`: one more than the largest degree plus one (the
factor `eq`, or the static table). -/
def coefficientsFor (f : Gate F → Nat) (gates : List (Gate F)) : Nat := (gates.map f).foldr max 0 + 2

/-- The number of field elements that a proof has for a layer, `2^n` instances. -/
def layerSize (n : Nat) (l : Layer F) : Nat :=
  l.bGInputs * coefficientsFor Gate.degHL l.gates + l.bGInputs * coefficientsFor Gate.degHR l.gates +
    n * coefficientsFor Gate.degHPrime l.gates + 2

end GkrMimc
