import Verif.Model.Circuit
import Verif.Spec.Mle

/-! Specification of layers: what a wiring means. Only the data types `Wire` and `Gate` of the model are used. -/

namespace GkrMimc.Spec

variable {F : Type} [Field F]

/-- Value of output `O`, instance `h`, of a layer whose inputs (for `N` instances) are laid out with input wire `i`,
instance `h` at index `i*N+h`: the sum of the gates wired to `O`. -/
def wiredOutput (wires : List (Wire F)) (N : Nat) (inp : List F) (O h : Nat) : F :=
  ((wires.filter (fun w => w.O = O)).map fun w =>
    w.gate.eval (inp.getD (w.L * N + h) 0) (inp.getD (w.R * N + h) 0)).sum

/-- All outputs of a layer, output `O`, instance `h` at index `O*N+h`. -/
def wiredOutputs (wires : List (Wire F)) (N nOut : Nat) (inp : List F) : List F :=
  (List.range (nOut * N)).map fun j => wiredOutput wires N inp (j / N) (j % N)

/-- The coefficient of the pair of inputs `(L, R)` for the gate named `id`, at the point `q` of the output cube. -/
def staticCoeff (wires : List (Wire F)) (id : String) (q : List F) (L R : Nat) : F :=
  ((wires.filter (fun w => w.gate.id = id ∧ w.L = L ∧ w.R = R)).map fun w => eqPoly q (bits q.length w.O)).sum

/-- Every gate of the list applied to the inputs of every wire whose gate has the same ID: the wires themselves when all
IDs are distinct, `n²` wires for a gate used `n` times. -/
def countedWires (wires : List (Wire F)) : List (Wire F) :=
  wires.flatMap fun w => (wires.filter fun w' => w'.gate.id = w.gate.id).map fun w' => { w' with gate := w.gate }

/-- The same for a given list of gates: every gate of the list applied to the inputs of every wire whose gate has its ID. -/
def countedBy (gates : List (Gate F)) (wires : List (Wire F)) : List (Wire F) :=
  gates.flatMap fun g => (wires.filter fun w => w.gate.id = g.id).map fun w => { w with gate := g }

/-- A list of gates that lists the gates of the wires: no ID twice, and for every wire a gate with the ID of its gate that
computes the same. -/
structure ListsGates (gates : List (Gate F)) (wires : List (Wire F)) : Prop where
  nodup : (gates.map (·.id)).Nodup
  listed : ∀ w ∈ wires, ∃ g ∈ gates, g.id = w.gate.id ∧ g.eval = w.gate.eval

end GkrMimc.Spec
