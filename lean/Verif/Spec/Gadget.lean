import Verif.Model.Snark
import Verif.Spec.Snark
import Verif.Spec.Mle

/-! Specification of gadget circuits: when a circuit of the GKR gadget stands for a native circuit. -/

namespace GkrMimc.Spec

variable {F : Type} [Field F]

/-- The table of a group of wires folded at `q`: at `(L, R)` the sum of `χ_O(q)` over the wires of the group with these inputs. -/
def groupTable (G : Nat) (ws : List (Wire F)) (q : List F) : List F :=
  (List.range (2 ^ (2 * G))).map fun u => (ws.map fun w => if u = 2 ^ G * w.L + w.R then chi q w.O else 0).sum

/-- The gadget layer `sl` stands for the native layer `l`: the wires of `l` can be put in groups, one for each gate of `sl`, so
that the gate gadget computes the gate of all the wires of its group and the table generator the table of its group. -/
structure Represents (sl : SnarkLayer F) (l : Layer F) : Prop where
  bG : sl.bG = l.bGInputs
  groups : ∃ groups : List (List (Wire F)), groups.flatten.Perm l.wires ∧ groups.length = sl.gates.length ∧
    groups.length ≤ sl.staticTable.length ∧
    ∀ (i : Nat) (ws : List (Wire F)), groups[i]? = some ws →
      (∀ gate, sl.gates[i]? = some gate → ∃ f : F → F → F, (∀ vL vR, (gate vL vR).Computes (.ok (f vL vR))) ∧
        ∀ w ∈ ws, ∀ vL vR, w.gate.eval vL vR = f vL vR) ∧
      ∀ table, sl.staticTable[i]? = some table → ∀ q : List F, q.length = l.bGOutputs →
        (table q).Computes (.ok (groupTable l.bGInputs ws q))

/-- The first layers of the gadget circuit `sc` stand for the layers of `c`. -/
def RepresentsCircuit (sc : SnarkCircuit F) (c : Circuit F) : Prop :=
  ∀ (i : Nat) (l : Layer F), c.layers[i]? = some l → ∃ sl, sc.layers[i]? = some sl ∧ Represents sl l

end GkrMimc.Spec
