import Verif.Model.Gkr
import Verif.Spec.Sumcheck

/-! Specification of a GKR proof: what each layer's messages have to satisfy. Of the models only the data types
(`Wire`, `Gate`, `Layer`, `GkrProof`) are used. -/

namespace GkrMimc.Spec

open Polynomial

variable {F : Type} [Field F]

/-- `∑_w weight(O_w) χ_{L_w}(nL) χ_{R_w}(nR) gate_w(vl, vr)` over the wires `w` of a layer. -/
def wiringValue (wires : List (Wire F)) (weight : Nat → F) (nL nR : List F) (vl vr : F) : F :=
  (wires.map fun w => weight w.O * chi nL w.L * chi nR w.R * w.gate.eval vl vr).sum

/-- The messages of one layer: the round polynomials and the two claimed values. -/
structure Msg (F : Type) where
  rounds : List (List F)
  left : F
  right : F

/-- The messages of layer `i` in a proof. -/
def msgOf (proof : GkrProof F) (i : Nat) : Msg F :=
  ⟨proof.sumcheckProofs.getD i [], proof.claimsLeft.getD i 0, proof.claimsRight.getD i 0⟩

/-- The three parts of the challenge point of a layer with `2^g` inputs. -/
def Msg.qL (H : List F → F) (g : Nat) (a : Msg F) : List F := (a.rounds.map H).take g
def Msg.qR (H : List F → F) (g : Nat) (a : Msg F) : List F := ((a.rounds.map H).drop g).take g
def Msg.qN (H : List F → F) (g : Nat) (a : Msg F) : List F := (a.rounds.map H).drop (2 * g)

/-- What has to be proved about a layer: `claim = ∑_{h'} eq(point, h') ∑_w weight(O_w) gate_w(…)`. -/
structure Goal (F : Type) where
  claim : F
  point : List F
  weight : Nat → F

/-- The goal left for the layer below by the messages of a layer with `2^g` inputs. -/
def goalBelow (H : List F → F) (g : Nat) (a : Msg F) : Goal F :=
  ⟨a.left + H [a.left, a.right] * a.right, a.qN H g,
    fun O => chi (a.qL H g) O + H [a.left, a.right] * chi (a.qR H g) O⟩

/-- The goal of layer `i`: `top` for the last layer, else the one left by layer `i+1`. -/
def goalOf (H : List F → F) (layers : List (Layer F)) (proof : GkrProof F) (top : Goal F) (i : Nat) : Goal F :=
  match layers[i + 1]? with
  | some l => goalBelow H l.bGInputs (msgOf proof (i + 1))
  | none => top

/-- The initial goal: the outputs at the fixed point `(1, 2, …; 1, 2, …)`. -/
def initialGoal (bN bG : Nat) (outputs : List F) : Goal F :=
  let q' : List F := (List.range bN).map (fun i => ((i + 1 : Nat) : F))
  let q : List F := (List.range bG).map (fun i => ((i + 1 : Nat) : F))
  ⟨mle outputs (q ++ q'), q', chi q⟩

/-- The round checks of a layer: enough non-empty polynomials, each consistent with the one before. -/
def RoundChecks (H : List F → F) (l : Layer F) (t : Goal F) (a : Msg F) : Prop :=
  (∀ c ∈ a.rounds, c ≠ []) ∧ 2 * l.bGInputs + t.point.length ≤ a.rounds.length ∧ Consistent H a.rounds t.claim

/-- The value left by the rounds is the one that the claimed wire values give. -/
def ValueCheck (H : List F → F) (l : Layer F) (t : Goal F) (a : Msg F) : Prop :=
  lastValue H a.rounds t.claim = eqPoly t.point (a.qN H l.bGInputs) *
    wiringValue l.wires t.weight (a.qL H l.bGInputs) (a.qR H l.bGInputs) a.left a.right

/-- The claims of the first layer are the extensions of the inputs, at a point with as many coordinates as needed. -/
def InputsOk (H : List F → F) (g bN : Nat) (inputs : List F) (a : Msg F) : Prop :=
  (a.qN H g).length = bN ∧ mle inputs (a.qL H g ++ a.qN H g) = a.left ∧ mle inputs (a.qR H g ++ a.qN H g) = a.right

/-- All the checks that a verifier of GKR has to make. -/
structure GkrConsistent (H : List F → F) (bN : Nat) (layers : List (Layer F)) (proof : GkrProof F)
    (inputs : List F) (top : Goal F) : Prop where
  each : ∀ (i : Nat) (l : Layer F), layers[i]? = some l →
    RoundChecks H l (goalOf H layers proof top i) (msgOf proof i) ∧ ValueCheck H l (goalOf H layers proof top i) (msgOf proof i)
  first : ∀ l : Layer F, layers[0]? = some l → InputsOk H l.bGInputs bN inputs (msgOf proof 0)

/-- The function summed for a goal, for layer inputs `V`, at `(hL, hR, h')`. -/
def goalSummand (l : Layer F) (V : List F) (t : Goal F) (x : List F) : F :=
  let hL := x.take l.bGInputs
  let hR := (x.drop l.bGInputs).take l.bGInputs
  let h' := x.drop (2 * l.bGInputs)
  eqPoly t.point h' * wiringValue l.wires t.weight hL hR (mle V (hL ++ h')) (mle V (hR ++ h'))

/-- An unlucky challenge in a round: some round polynomial is not the partial sum `Q` of the summand, whose degree is at
most `d`, but agrees with it at the challenge. -/
def BadRound (H : List F → F) (l : Layer F) (V : List F) (t : Goal F) (a : Msg F) (d : Nat) : Prop :=
  ∃ (j : Nat) (hj : j < a.rounds.length) (Q : F[X]), Q.natDegree ≤ d ∧
    (∀ x, Q.eval x = cubeSum (a.rounds.length - 1 - j) (fun b => goalSummand l V t ((a.rounds.map H).take j ++ x :: b))) ∧
    polyOf a.rounds[j] ≠ Q ∧ (polyOf a.rounds[j]).eval (H a.rounds[j]) = Q.eval (H a.rounds[j])

/-- An unlucky challenge combining the two claims of a layer: they are not both the extension of `V`, but their
combination is right, that is the challenge is a root of a non-zero polynomial of degree at most 1. -/
def BadCombination (H : List F → F) (g : Nat) (V : List F) (a : Msg F) : Prop :=
  let x := a.left - mle V (a.qL H g ++ a.qN H g)
  let y := a.right - mle V (a.qR H g ++ a.qN H g)
  ¬ (x = 0 ∧ y = 0) ∧ x + H [a.left, a.right] * y = 0

section
variable (H : List F → F) (c : Circuit F) (proof : GkrProof F) (top : Goal F)

/-- The checks of layer `i`. -/
def LayerRounds (i : Nat) : Prop :=
  ∀ l : Layer F, c.layers[i]? = some l → RoundChecks H l (goalOf H c.layers proof top i) (msgOf proof i)

def LayerValue (i : Nat) : Prop :=
  ∀ l : Layer F, c.layers[i]? = some l → ValueCheck H l (goalOf H c.layers proof top i) (msgOf proof i)

/-- Acceptance of the layers below `n`: either all the checks hold and the inputs match, or the checks hold down to a
layer whose rounds hold but whose value is wrong. -/
def AcceptsBelow (bN : Nat) (inputs : List F) (n : Nat) : Prop :=
  ((∀ i < n, LayerRounds H c proof top i ∧ LayerValue H c proof top i) ∧
    ∀ l : Layer F, c.layers[0]? = some l → InputsOk H l.bGInputs bN inputs (msgOf proof 0)) ∨
  ∃ i < n, (∀ j, i < j → j < n → LayerRounds H c proof top j ∧ LayerValue H c proof top j) ∧
    LayerRounds H c proof top i ∧ ¬ LayerValue H c proof top i

/-- Rounds that can not be evaluated: after rounds that are consistent comes an empty polynomial; or all the rounds are
non-empty and consistent but there are too few of them. -/
def RoundsBroken (l : Layer F) (t : Goal F) (a : Msg F) : Prop :=
  (∃ j, a.rounds[j]? = some [] ∧ (∀ p ∈ a.rounds.take j, p ≠ []) ∧ Consistent H (a.rounds.take j) t.claim) ∨
  ((∀ p ∈ a.rounds, p ≠ []) ∧ Consistent H a.rounds t.claim ∧ a.rounds.length < 2 * l.bGInputs + t.point.length)

def LayerBroken (i : Nat) : Prop :=
  ∃ l : Layer F, c.layers[i]? = some l ∧ RoundsBroken H l (goalOf H c.layers proof top i) (msgOf proof i)

/-- No answer from the layers below `n`: the checks hold down to a layer whose rounds can not be evaluated, or down to the
inputs, where the point left has too many coordinates. -/
def BrokenBelow (bN n : Nat) : Prop :=
  (∃ i < n, (∀ j, i < j → j < n → LayerRounds H c proof top j ∧ LayerValue H c proof top j) ∧
    LayerBroken H c proof top i) ∨
  (∀ i < n, LayerRounds H c proof top i ∧ LayerValue H c proof top i) ∧
    ∃ l : Layer F, c.layers[0]? = some l ∧ ((msgOf proof 0).qN H l.bGInputs).length ≠ bN

/-- The proof holds messages for every layer. -/
def HasShape : Prop :=
  c.layers.length ≤ proof.sumcheckProofs.length ∧ c.layers.length ≤ proof.claimsLeft.length ∧
    c.layers.length ≤ proof.claimsRight.length

end

/-- What the messages of the layers above `i` claim about a table `T` of the outputs of layer `i`: its extension at the
initial point, or the combination of its extensions at the two points of layer `i+1`. -/
def claimAbout (H : List F → F) (layers : List (Layer F)) (bN bG : Nat) (proof : GkrProof F) (i : Nat) (T : List F) : F :=
  match layers[i + 1]? with
  | some l =>
    let a := msgOf proof (i + 1)
    mle T (a.qL H l.bGInputs ++ a.qN H l.bGInputs) +
      H [a.left, a.right] * mle T (a.qR H l.bGInputs ++ a.qN H l.bGInputs)
  | none => (initialGoal bN bG T).claim

end GkrMimc.Spec
