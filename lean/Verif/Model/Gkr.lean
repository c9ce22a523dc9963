import Verif.Model.Sumcheck

/-! Model of package `gkr`. -/

namespace GkrMimc

variable {F : Type} [Field F] [DecidableEq F]

/-- `Prover`, gkr/prover.go:13-17. -/
structure GkrProver (F : Type) where
  bN : Nat
  circuit : Circuit F
  assignment : List (List (List F))

/-- `gkr.Proof`, gkr/prover.go:20-24. -/
structure GkrProof (F : Type) where
  sumcheckProofs : List (List (List F))
  claimsLeft : List F
  claimsRight : List F
deriving DecidableEq

/-- `NewProver`, gkr/prover.go:27-34. A negative `bN` is stored by the source and makes `Prove` panic
(`make` with a negative size, line 39); here the panic is raised at once. -/
def newGkrProver (c : Circuit F) (assignment : List (List (List F))) : Go (GkrProver F) := do
  let v0 ← idx assignment 0
  let v00 ← idx v0 0
  let l0 ← idx c.layers 0
  let lg := log2Ceil ((v0.length * v00.length : Nat) : Int)
  if lg < l0.bGInputs then .error .makeNeg
  else return { bN := lg - l0.bGInputs, circuit := c, assignment := assignment }

/-- `GetInitialQPrimeAndQ`, gkr/prover.go:37-52. Returns `(qPrime, q)`. -/
def getInitialQPrimeAndQ (bN bG : Nat) : List F × List F :=
  ((List.range bN).map (fun i => ((i + 1 : Nat) : F)), (List.range bG).map (fun i => ((i + 1 : Nat) : F)))

/-- `xs[n-1]` for `n = len`: the source computes the index as an `int`, `-1` panics. -/
def idxPred {α : Type} (xs : List α) (n : Nat) : Go α :=
  if n = 0 then .error .index else idx xs (n - 1)

/-- `InitialRoundSumcheckProver`, gkr/prover.go:106-110, together with
`GetBookKeepingTablesForInitialRound`, gkr/prover.go:55-70. -/
def GkrProver.initialRound (p : GkrProver F) (qPrime q : List F) (nCore : Int) : Go (MProver F) := do
  let nLayers := p.circuit.layers.length
  let l ← idxPred p.circuit.layers nLayers
  let statics ← getStaticTable l q
  let vL ← layerAsBKTWithCopy p.assignment (nLayers - 1) nCore
  let vR ← layerAsBKTWithCopy p.assignment (nLayers - 1) nCore
  let eq ← getChunkedEqTable qPrime vL.length nCore
  return newMProver vL vR eq l.gates statics

/-- `IntermediateRoundsSumcheckProver`, gkr/prover.go:113-121, together with
`GetBookKeepingTablesForIntermediateRound`, gkr/prover.go:73-103. -/
def GkrProver.intermediateRound (p : GkrProver F) (layer : Nat) (qPrime qL qR : List F)
    (lambdaL lambdaR : F) (nCore : Int) : Go (MProver F) := do
  let vL ← layerAsBKTWithCopy p.assignment layer nCore
  let vR ← layerAsBKTWithCopy p.assignment layer nCore
  let eq ← getChunkedEqTable qPrime vL.length nCore
  let l ← idx p.circuit.layers layer
  let staticsL ← getStaticTable l qL
  let staticsR ← getStaticTable l qR
  let statics ← gen staticsL.length fun i => do
    let a ← idx staticsL i
    let b ← idx staticsR i
    linearCombination a b lambdaL lambdaR
  return newMProver vL vR eq l.gates statics

/-- The loop of `Prove`, gkr/prover.go:138-152, for the layers `k-1, …, 0`; `out` is the sumcheck output of layer `k`.
Returns the outputs of layers `0, …, k-1` in index order. -/
def GkrProver.proveLayers (H : List F → F) (p : GkrProver F) (nCore : Int) :
    Nat → SumcheckOut F → Go (List (SumcheckOut F))
  | 0, _ => .ok []
  | layer + 1, out => do
    let cl ← idx out.finalClaims 0
    let cr ← idx out.finalClaims 1
    let lambdaR := H [cl, cr]
    let mp ← p.intermediateRound layer out.qPrime out.qL out.qR 1 lambdaR nCore
    let out' ← mp.prove H nCore
    let rest ← p.proveLayers H nCore layer out'
    return rest ++ [out']

/-- `Prove`, gkr/prover.go:124-160. -/
def GkrProver.prove (H : List F → F) (p : GkrProver F) (nCore : Int) : Go (GkrProof F) := do
  let nLayers := p.circuit.layers.length
  let l ← idxPred p.circuit.layers nLayers
  let (qPrime, q) := getInitialQPrimeAndQ (F := F) p.bN l.bGOutputs
  let mp ← p.initialRound qPrime q nCore
  let out ← mp.prove H nCore
  let rest ← p.proveLayers H nCore (nLayers - 1) out
  let outs := rest ++ [out]
  let cl ← mapGo (fun o : SumcheckOut F => idx o.finalClaims 0) outs
  let cr ← mapGo (fun o : SumcheckOut F => idx o.finalClaims 1) outs
  return { sumcheckProofs := outs.map (·.polyCoeffs), claimsLeft := cl, claimsRight := cr }

/-- `evaluateStaticTables`, gkr/verifier.go:116-123. -/
def evaluateStaticTables (l : Layer F) (q nextQL nextQR : List F) : Go (List F) := do
  let tables ← getStaticTable l q
  mapGo (fun t => evaluate t (nextQL ++ nextQR)) tables

/-- `evaluateStaticTablesLinCombs`, gkr/verifier.go:125-138. -/
def evaluateStaticTablesLinCombs (l : Layer F) (qL qR nextQL nextQR : List F) (lambdaL lambdaR : F) :
    Go (List F) := do
  let tablesL ← getStaticTable l qL
  let tablesR ← getStaticTable l qR
  gen tablesL.length fun i => do
    let tl ← idx tablesL i
    let left ← evaluate tl (nextQL ++ nextQR)
    let tr ← idx tablesR i
    let right ← evaluate tr (nextQL ++ nextQR)
    return left * lambdaL + right * lambdaR

/-- The final check of `Verify`, gkr/verifier.go:103-113. -/
def verifyInputs (proof : GkrProof F) (inputs : List (List F)) (v : SumcheckVerdict F) : Go Bool := do
  let (actualVL, actualVR) ← evaluateMixedChunked inputs v.qPrime v.qL v.qR
  let cl ← idx proof.claimsLeft 0
  let cr ← idx proof.claimsRight 0
  if actualVL ≠ cl ∨ actualVR ≠ cr then return false else return true

/-- The loop of `Verify`, gkr/verifier.go:67-101, for the layers `k-1, …, 0`, followed by the final check.
Line 99 returns `true` when the claim of an intermediate layer is inconsistent; so does the model. -/
def verifyLayers (H : List F → F) (c : Circuit F) (proof : GkrProof F) (inputs : List (List F)) :
    Nat → SumcheckVerdict F → Go Bool
  | 0, v => verifyInputs proof inputs v
  | layer + 1, v => do
    let cl ← idx proof.claimsLeft (layer + 1)
    let cr ← idx proof.claimsRight (layer + 1)
    let lambdaR := H [cl, cr]
    let claim := cr * lambdaR + cl
    let sp ← idx proof.sumcheckProofs layer
    let l ← idx c.layers layer
    let res ← sumcheckVerify H claim sp l.bGInputs
    match res with
    | none => return false
    | some v' => do
      let eqEval ← evalEq v.qPrime v'.qPrime
      let vl ← idx proof.claimsLeft layer
      let vr ← idx proof.claimsRight layer
      let statics ← evaluateStaticTablesLinCombs l v.qL v.qR v'.qL v'.qR 1 lambdaR
      let comb ← evaluateCombinator vl vr eqEval l.gates statics
      if v'.finalClaim ≠ comb then return true
      else verifyLayers H c proof inputs layer v'

/-- `Verify`, gkr/verifier.go:27-114 (`Verifier{bN, circuit}`, 13-16). -/
def gkrVerify (H : List F → F) (bN : Nat) (c : Circuit F) (proof : GkrProof F)
    (inputs outputs : List (List F)) : Go Bool := do
  let nLayers := c.layers.length
  let l ← idxPred c.layers nLayers
  let (qPrime, q) := getInitialQPrimeAndQ (F := F) bN l.bGOutputs
  let claim ← evaluateChunked outputs (q ++ qPrime)
  let sp ← idx proof.sumcheckProofs (nLayers - 1)
  let res ← sumcheckVerify H claim sp l.bGInputs
  match res with
  | none => return false
  | some v => do
    let eqEval ← evalEq qPrime v.qPrime
    let vl ← idx proof.claimsLeft (nLayers - 1)
    let vr ← idx proof.claimsRight (nLayers - 1)
    let statics ← evaluateStaticTables l q v.qL v.qR
    let comb ← evaluateCombinator vl vr eqEval l.gates statics
    if v.finalClaim ≠ comb then return false
    else verifyLayers H c proof inputs (nLayers - 1) v

end GkrMimc
