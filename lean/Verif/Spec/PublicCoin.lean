import Verif.Spec.Gkr
import Mathlib.Data.Fintype.Pi

/-! Specification: the interactive form of the protocols, in which the challenges are drawn by the verifier. -/

namespace GkrMimc.Spec

variable {F : Type} [Field F]

/-- The number of elements with property `p`. -/
noncomputable def count {α : Type} [Fintype α] (p : α → Prop) : Nat := (@Finset.filter α p (Classical.decPred p) Finset.univ).card

/-- The messages of a sumcheck prover `P` that chooses each polynomial after the challenges `ρ` of the rounds before. -/
def playSumcheck (P : List F → List F) (ρ : List F) : List (List F) := (List.range ρ.length).map fun i => P (ρ.take i)

/-- The challenges of `playSumcheck` are the values of `H`. -/
def DrawnSumcheck (P : List F → List F) (H : List F → F) (ρ : List F) : Prop :=
  ∀ i < ρ.length, H (P (ρ.take i)) = ρ.getD i 0

/-- A GKR prover: the next round polynomial and the claims of a layer, as functions of all the challenges so far. -/
structure Cheater (F : Type) where
  poly : List F → List F
  claims : List F → F × F

/-- Number of rounds of layer `i`. -/
def roundsOf (bN : Nat) (layers : List (Layer F)) (i : Nat) : Nat :=
  match layers[i]? with
  | some l => 2 * l.bGInputs + bN
  | none => 0

/-- Number of challenges before the first round of layer `i`. The last layer comes first; each layer but layer 0 has one
challenge per round and one for combining its two claims. -/
def offset (bN : Nat) (layers : List (Layer F)) (i : Nat) : Nat :=
  ((layers.drop (i + 1)).map fun l => 2 * l.bGInputs + bN + 1).sum

/-- Number of all challenges. -/
def coins (bN : Nat) (layers : List (Layer F)) : Nat := offset bN layers 0 + roundsOf bN layers 0

/-- The proof made by `P` when the challenges are `ρ`. -/
def Cheater.play (P : Cheater F) (bN : Nat) (layers : List (Layer F)) (ρ : List F) : GkrProof F :=
  let claims := fun i => P.claims (ρ.take (offset bN layers i + roundsOf bN layers i))
  { sumcheckProofs := (List.range layers.length).map fun i =>
      (List.range (roundsOf bN layers i)).map fun j => P.poly (ρ.take (offset bN layers i + j))
    claimsLeft := (List.range layers.length).map fun i => (claims i).1
    claimsRight := (List.range layers.length).map fun i => (claims i).2 }

/-- The challenges of that proof are the values of `H`. -/
def Cheater.Drawn (P : Cheater F) (bN : Nat) (layers : List (Layer F)) (H : List F → F) (ρ : List F) : Prop :=
  ∀ i < layers.length,
    (∀ j < roundsOf bN layers i, H (P.poly (ρ.take (offset bN layers i + j))) = ρ.getD (offset bN layers i + j) 0) ∧
    (0 < i → H [(P.claims (ρ.take (offset bN layers i + roundsOf bN layers i))).1,
      (P.claims (ρ.take (offset bN layers i + roundsOf bN layers i))).2] =
        ρ.getD (offset bN layers i + roundsOf bN layers i) 0)

end GkrMimc.Spec
