import Verif.Spec.Gkr

/-! Specification: the messages that say the truth about a layer. -/

namespace GkrMimc.Spec

variable {F : Type} [Field F]

/-- Each polynomial is the sum of `g` over the Boolean values of the later variables, as a function of its own variable, with
the challenges of the earlier rounds put in. -/
def TrueSums (H : List F → F) (rounds : List (List F)) (g : List F → F) : Prop :=
  ∀ (j : Nat) (c : List F), rounds[j]? = some c → ∀ x,
    (polyOf c).eval x = cubeSum (rounds.length - 1 - j) (fun b => g ((rounds.map H).take j ++ x :: b))

/-- The messages of a layer with inputs `V` say the truth about the goal `t`: the round polynomials are the partial sums of the
function summed, and the two claims are the extension of `V` at the two points. -/
def TrueMsg (H : List F → F) (l : Layer F) (V : List F) (t : Goal F) (a : Msg F) : Prop :=
  TrueSums H a.rounds (goalSummand l V t) ∧
    a.left = mle V (a.qL H l.bGInputs ++ a.qN H l.bGInputs) ∧ a.right = mle V (a.qR H l.bGInputs ++ a.qN H l.bGInputs)

end GkrMimc.Spec
