import Verif.Model.Gkr
import Verif.Model.Mimc

/-! Model of the end-to-end tests of the repository: `TestMimc`, `TestGKR` and `TestMultiBGs`. A test returns what it
compares; the random values that it draws are a parameter. -/

namespace GkrMimc

variable {F : Type} [Field F] [DecidableEq F]

/-- `RandomFrArray`, common/common.go:63-69. `draw n` is the result of call number `n` of `SetRandom`; `start` calls were
made before. -/
def randomFrArray (draw : Nat → F) (start size : Nat) : List F := (List.range size).map fun j => draw (start + j)

/-- `RandomFrDoubleSlice`, common/common.go:72-81. -/
def randomFrDoubleSlice (draw : Nat → F) (start nChunks chunkSize : Nat) : List (List F) :=
  (List.range nChunks).map fun i => (List.range chunkSize).map fun j => draw (start + (i * chunkSize + j))

/-- `randomInputs`, examples/mimc_test.go:18-26. -/
def randomInputs (draw : Nat → F) (nChunks bN : Nat) : Go (List (List F)) := do
  let size := 2 * 2 ^ bN
  let chunkSize ← goDiv size nChunks
  gen nChunks fun i => return randomFrArray draw (i * chunkSize) chunkSize

/-- What a test compares: pairs given to `assert.Equal`, and the answer of the verifier. -/
structure TestRun (F : Type) where
  pairs : List (F × F)
  accepted : Bool

/-- `TestMimc` after the choice of `bN`, `nChunks` and the inputs, part of `TestMimc`, examples/mimc_test.go:31-101
(`assert.Equal` on the strings of two elements is a pair of elements here). -/
def mimcTest (H : List F → F) (toStr : F → String) (arks : List F) (bN nChunks : Nat) (inputs : List (List F)) :
    Go (TestRun F) := do
  let c ← createMimcCircuit toStr arks
  let inputChunkSize ← goDiv (2 * 2 ^ bN) nChunks
  let values ← c.assign inputs 1
  let outputs ← idx values 91
  let x ← idx2 inputs 0 0
  let key ← idx2 inputs 0 (inputChunkSize / 2)
  let expectedHash ← mimcPermutation arks (x - key) key
  let expectedHash := expectedHash + key
  let out ← idx2 outputs 0 0
  let layer1 ← idx values 1
  let l0 ← idx c.layers 0
  let comb0 ← evaluateCombinator key x 1 l0.gates [1, 0]
  let comb1 ← evaluateCombinator key x 1 l0.gates [0, 1]
  let first ← idx2 layer1 0 0
  let second ← idx2 layer1 0 (inputChunkSize / 2)
  let ptest ← newGkrProver c values
  let qPrime := List.replicate bN (0 : F)
  let sumcheckPQ0 ← ptest.intermediateRound 0 qPrime [0] [0] 1 0 1
  let sumcheckPQ1 ← ptest.intermediateRound 0 qPrime [1] [0] 1 0 1
  let claimQ0 ← sumcheckPQ0.getClaim 1
  let claimQ1 ← sumcheckPQ1.getClaim 1
  let sumcheckPQInit ← ptest.initialRound qPrime [] 1
  let claimQInit ← sumcheckPQInit.getClaim 1
  let prover ← newGkrProver c values
  let proof ← prover.prove H 1
  let valid ← gkrVerify H bN c proof inputs outputs
  return ⟨[(expectedHash, out), (first, comb0), (second, comb1), (first, claimQ0), (second, claimQ1), (out, claimQInit)], valid⟩

/-- `TestMimc`, examples/mimc_test.go:28-103. -/
def testMimc (H : List F → F) (toStr : F → String) (arks : List F) (draw : Nat → F) : Go (TestRun F) := do
  let bN := 3
  let nChunks := 2
  let inputs ← randomInputs draw nChunks bN
  mimcTest H toStr arks bN nChunks inputs

/-- The wiring of `TestGKR`, part of `TestGKR`, gkr/gkr_test.go:120-133. -/
def testGkrWiring : List (List (Wire F)) :=
  [[⟨0, 1, 0, addGate⟩, ⟨0, 1, 1, mulGate⟩], [⟨0, 1, 0, addGate⟩, ⟨0, 1, 1, mulGate⟩]]

/-- The wiring of `TestMultiBGs`, part of `TestMultiBGs`, gkr/gkr_test.go:58-70. -/
def testMultiWiring : List (List (Wire F)) :=
  [[⟨0, 1, 0, addGate⟩, ⟨0, 1, 1, mulGate⟩], [⟨0, 1, 0, addGate⟩]]

/-- The common body of `TestGKR`, gkr/gkr_test.go:116-177, and of `TestMultiBGs`, 54-114, for a wiring of two layers, a value of
`bN` and inputs: the values of the assignment and the answer of the verifier. (In `TestMultiBGs` the inputs are given to
the verifier as a copy of the outer slice.) -/
def gkrTest (H : List F → F) (wiring : List (List (Wire F))) (bN : Nat) (inputs : List (List F)) :
    Go (List (List (List F)) × Bool) := do
  let c := newCircuit wiring
  let values ← c.assign inputs 2
  let outputs ← idx values 2
  let p ← newGkrProver c values
  let proof ← p.prove H 1
  let validity ← gkrVerify H bN c proof inputs outputs
  return (values, validity)

end GkrMimc
