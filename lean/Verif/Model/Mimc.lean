import Verif.Model.Circuit
import Verif.Model.Hash

/-! Model of package `examples`. -/

namespace GkrMimc

variable {F : Type} [Field F]

/-- A layer of the MiMC circuit other than the last one, loop body of `CreateMimcCircuit`, examples/mimc.go:14-17. -/
def mimcMidWires (toStr : F → String) (ark : F) : List (Wire F) :=
  [⟨1, 0, 0, cipherGate toStr ark⟩, ⟨1, 0, 1, copyGate⟩]

/-- The last layer, part of `CreateMimcCircuit`, examples/mimc.go:21-23. -/
def mimcLastWires (toStr : F → String) (ark : F) : List (Wire F) :=
  [⟨1, 0, 0, cipherGate toStr ark⟩]

/-- `CreateMimcCircuit`, examples/mimc.go:9-26. -/
def createMimcCircuit (toStr : F → String) (arks : List F) : Go (Circuit F) := do
  let nRounds := 91
  let wiring ← gen (nRounds - 1) fun i => do
    let ark ← idx arks i
    return mimcMidWires toStr ark
  let ark ← idx arks (nRounds - 1)
  return newCircuit (wiring ++ [mimcLastWires toStr ark])

end GkrMimc
