import Verif.Model.Sumcheck

/-! The two provers of sumcheck/testing.go, on which the tests and benchmarks of the package run. -/

namespace GkrMimc

variable {F : Type} [Field F]

/-- `qPrime`, all 2, sumcheck/testing.go:20-23 and 60-63. -/
def testQPrime (bN : Nat) : List F := List.replicate bN 2

/-- The gates, sumcheck/testing.go:45 and 80; `toStr` prints the round key in `CipherGate.ID`. -/
def testGates (toStr : F → String) : List (Gate F) := [copyGate, cipherGate toStr 2]

/-- `copy` and `cipher` after their fold at 2, in the order of the arguments, sumcheck/testing.go:26-29, 46 and 65-68, 81. -/
def testStatics : List (Table F) :=
  let cipher := fold [0, 0, 1, 0, 0, 0, 0, 0] 2
  let copy := fold [0, 0, 0, 0, 0, 0, 1, 0] 2
  [copy, cipher]

/-- Chunk `k` of the values, sumcheck/testing.go:35-38. The sums are machine integers in Go; `nChunks * i + k` is below
the number `2^(bN+1)` of allocated elements, so they do not wrap. -/
def testChunk (nChunks size k : Nat) : Table F := (List.range size).map fun i => ((k + nChunks * i : Nat) : F)

/-- `InitializeMultiThreadedProver`, sumcheck/testing.go:12-48, for `bN ≥ 0`. `DeepCopy` is the identity on values. -/
def initializeMultiThreadedProver (toStr : F → String) (bN nChunks : Nat) : Go (MProver F) := do
  let eq ← getChunkedEqTable (testQPrime bN) nChunks 1
  let vL ← gen nChunks fun k => do
    let size ← goDiv (1 <<< (bN + 1)) nChunks
    return testChunk nChunks size k
  return newMProver vL vL eq (testGates toStr) testStatics

/-- `InitializeProverForTests`, sumcheck/testing.go:51-83, for `bN ≥ 0`. -/
def initializeProverForTests (toStr : F → String) (bN : Nat) : Go (SProver F) := do
  let eq ← getFoldedEqTable (testQPrime bN)
  let v := (List.range (1 <<< (bN + 1))).map fun i => ((i : Nat) : F)
  return newSProver v v eq (testGates toStr) testStatics

end GkrMimc
