import Verif.Model.Transcript

/-! A prover for the verifier of `Model/Transcript.lean`: the provers of the source with the challenges of the transcript. The chunks of a
layer are merged and the single-threaded prover of the sumcheck is used. **Not the code of /repo.** -/

namespace GkrMimc

variable {F : Type} [Field F] [DecidableEq F]

/-- One of the three round loops of `Prove`, e.g. sumcheck/prover.go:76-82, with the challenges of the transcript. -/
def roundsT (H : List (List F × F) → List F → F) (evals : SProver F → Go (List F)) (foldX : SProver F → F → SProver F) :
    Nat → SProver F → List (List F × F) → Go (SProver F × List (List F) × List F × List (List F × F))
  | 0, p, past => .ok (p, [], [], past)
  | k + 1, p, past => do
    let e ← evals p
    let c ← interpolateOnRange e
    let r := H past c
    let (p, cs, rs, past) ← roundsT H evals foldX k (foldX p r) (past ++ [(c, r)])
    return (p, c :: cs, r :: rs, past)

/-- `SingleThreadedProver.Prove`, sumcheck/prover.go:60-110, with the challenges of the transcript. -/
def SProver.proveT (H : List (List F × F) → List F → F) (p : SProver F) (past : List (List F × F)) :
    Go (SumcheckOut F × List (List F × F)) := do
  let n := p.eq.length
  let g ← goDiv p.vR.length n
  let bN := log2Ceil n
  let bG := log2Ceil g
  let (p, cL, qL, past) ← roundsT H SProver.getEvalsOnHL SProver.foldHL bG p past
  let (p, cR, qR, past) ← roundsT H SProver.getEvalsOnHR SProver.foldHR bG p past
  let (p, cP, qPrime, past) ← roundsT H SProver.getEvalsOnHPrime SProver.foldHPrime bN p past
  let fc ← p.finalClaims
  return ({ polyCoeffs := cL ++ cR ++ cP, qPrime := qPrime, qL := qL, qR := qR, finalClaims := fc }, past)

/-- The chunks of a layer as one table: entry `u` of chunk `s` is entry `u*n+s`. -/
def mergeChunks (chunks : List (List F)) : Table F :=
  (List.range ((chunks.headD []).length * chunks.length)).map fun i =>
    (chunks.getD (i % chunks.length) []).getD (i / chunks.length) 0

/-- `GetBookKeepingTablesForInitialRound`, gkr/prover.go:55-70, for merged chunks. -/
def initialRoundT (l : Layer F) (table : Table F) (qPrime q : List F) : Go (SProver F) := do
  let statics ← getStaticTable l q
  let eq ← getFoldedEqTable qPrime
  return newSProver table table eq l.gates statics

/-- `GetBookKeepingTablesForIntermediateRound`, gkr/prover.go:73-103, for merged chunks. -/
def intermediateRoundT (l : Layer F) (table : Table F) (qPrime qL qR : List F) (lambdaR : F) : Go (SProver F) := do
  let eq ← getFoldedEqTable qPrime
  let statics ← (do
    let staticsL ← getStaticTable l qL
    let staticsR ← getStaticTable l qR
    gen staticsL.length fun i => do
      let a ← idx staticsL i
      let b ← idx staticsR i
      linearCombination a b 1 lambdaR)
  return newSProver table table eq l.gates statics

/-- The loop of `Prove`, gkr/prover.go:138-152, with the challenges of the transcript. -/
def proveLayersT (H : List (List F × F) → List F → F) (c : Circuit F) (tables : List (Table F)) :
    Nat → SumcheckOut F → List (List F × F) → Go (List (SumcheckOut F))
  | 0, _, _ => .ok []
  | layer + 1, out, past => do
    let cl ← idx out.finalClaims 0
    let cr ← idx out.finalClaims 1
    let lambdaR := H past [cl, cr]
    let l ← idx c.layers layer
    let table ← idx tables layer
    let sp ← intermediateRoundT l table out.qPrime out.qL out.qR lambdaR
    let (out', past) ← sp.proveT H (past ++ [([cl, cr], lambdaR)])
    let rest ← proveLayersT H c tables layer out' past
    return rest ++ [out']

/-- `Prove`, gkr/prover.go:124-160, with the point and the challenges of the transcript. -/
def gkrProveT (H : Query F → F) (bN : Nat) (c : Circuit F) (values : List (List (List F))) : Go (GkrProof F) := do
  let inputs ← idx values 0
  let outputs ← idxPred values values.length
  let h := fun past msg => H ⟨inputs, outputs, past, msg⟩
  let nLayers := c.layers.length
  let l ← idxPred c.layers nLayers
  let (p, past) := drawPoint h (l.bGOutputs + bN) []
  let tables := values.map mergeChunks
  let table ← idx tables (nLayers - 1)
  let sp ← initialRoundT l table (p.drop l.bGOutputs) (p.take l.bGOutputs)
  let (out, past) ← sp.proveT h past
  let rest ← proveLayersT h c tables (nLayers - 1) out past
  let outs := rest ++ [out]
  let cl ← mapGo (fun o : SumcheckOut F => idx o.finalClaims 0) outs
  let cr ← mapGo (fun o : SumcheckOut F => idx o.finalClaims 1) outs
  return { sumcheckProofs := outs.map (·.polyCoeffs), claimsLeft := cl, claimsRight := cr }

end GkrMimc
