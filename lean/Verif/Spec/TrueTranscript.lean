import Verif.Spec.Transcript

/-! Specification: the runs with transcript challenges in which all messages say the truth. -/

namespace GkrMimc.Spec

variable {F : Type} [Field F]

/-- The message says the truth at this stage, when the true inputs of layer `i` are `V i`: nothing while the point is drawn; in a
round the partial sum as a polynomial in the variable of the round; after the rounds the extensions at the two points. -/
def TrueNext (bN : Nat) (layers : List (Layer F)) (V : Nat → List F) : Stage F → List F → Prop
  | .rejected, _ => False
  | .point _, _ => True
  | .layer i t ρ _, msg => ∃ l : Layer F, layers[i]? = some l ∧
      if ρ.length < 2 * l.bGInputs + bN then
        ∀ x, (polyOf msg).eval x = cubeSum (2 * l.bGInputs + bN - (ρ.length + 1)) fun b => goalSummand l (V i) t (ρ ++ x :: b)
      else msg = [mle (V i) (ρ.take l.bGInputs ++ ρ.drop (2 * l.bGInputs)),
        mle (V i) ((ρ.drop l.bGInputs).take l.bGInputs ++ ρ.drop (2 * l.bGInputs))]

/-- All of the messages that follow `past`, with the challenges of `H`, say the truth. -/
def AllTrue (bN bG : Nat) (layers : List (Layer F)) (U : List F) (V : Nat → List F) (H : List (List F × F) → List F → F) :
    List (List F × F) → List (List F) → Prop
  | _, [] => True
  | past, c :: cs => TrueNext bN layers V (stageAfter bN bG layers U past) c ∧
      AllTrue bN bG layers U V H (past ++ [(c, H past c)]) cs

/-- The challenge is unlucky: the run was doomed before the message or the message does not say the truth, and now the run is not
doomed. -/
def Unlucky (bN bG : Nat) (layers : List (Layer F)) (U T : List F) (V : Nat → List F) (s : Stage F) (msg : List F) (a : F) : Prop :=
  (Doomed bN bG layers U T V s ∨ ¬ TrueNext bN layers V s msg) ∧ ¬ Doomed bN bG layers U T V (step bN bG layers U s msg a)

end GkrMimc.Spec
