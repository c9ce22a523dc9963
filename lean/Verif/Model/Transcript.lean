import Verif.Model.Repaired

/-! The repaired verifier of C65 and C66 with challenges that are hashes of all that was said before. **Not the code of /repo.** -/

namespace GkrMimc

variable {F : Type} [Field F] [DecidableEq F]

/-- What is hashed for a challenge: the statement, the earlier messages with their challenges, and the message of this round.
common/challenge.go:10-12 hashes the message only. A real hash takes bytes; that different queries have different bytes is
assumed. -/
structure Query (F : Type) where
  inputs : List (List F)
  outputs : List (List F)
  past : List (List F × F)
  msg : List F
deriving DecidableEq

/-- The initial point, gkr/prover.go:37-52, drawn: one coordinate at a time, with an empty message. -/
def drawPoint (H : List (List F × F) → List F → F) : Nat → List (List F × F) → List F × List (List F × F)
  | 0, past => ([], past)
  | n + 1, past =>
    let r := H past []
    let x := drawPoint H n (past ++ [([], r)])
    (r :: x.1, x.2)

/-- The loop of `Verify`, sumcheck/verifier.go:21-35, with the challenges of the transcript. -/
def sumcheckVerifyLoopT (H : List (List F × F) → List F → F) :
    List (List F) → F → List (List F × F) → Go (Option (List F × F × List (List F × F)))
  | [], expected, past => .ok (some ([], expected, past))
  | c :: cs, expected, past => do
    let a0 ← evaluatePolynomial c 0
    let a1 ← evaluatePolynomial c 1
    if expected ≠ a0 + a1 then return none
    else do
      let r := H past c
      let expected' ← evaluatePolynomial c r
      let rest ← sumcheckVerifyLoopT H cs expected' (past ++ [(c, r)])
      return rest.map (fun x => (r :: x.1, x.2))

/-- `Verify`, sumcheck/verifier.go:14-44, with the challenges of the transcript; the transcript is returned too. -/
def sumcheckVerifyT (H : List (List F × F) → List F → F) (claim : F) (polyCoeffs : List (List F)) (bG : Nat)
    (past : List (List F × F)) : Go (Option (SumcheckVerdict F × List (List F × F))) := do
  let r ← sumcheckVerifyLoopT H polyCoeffs claim past
  match r with
  | none => return none
  | some (challenges, expected, past) => do
    let qL ← sliceTo challenges bG
    let qR ← sliceBetween challenges bG (2 * bG)
    let qPrime ← sliceFrom challenges (2 * bG)
    return some ({ qPrime := qPrime, qL := qL, qR := qR, finalClaim := expected }, past)

/-- The loop of `Verify`, gkr/verifier.go:67-101, repaired as in `verifyLayersR`, with the challenges of the transcript. -/
def verifyLayersT (H : List (List F × F) → List F → F) (c : Circuit F) (proof : GkrProof F) (inputs : List (List F)) :
    Nat → SumcheckVerdict F → List (List F × F) → Go Bool
  | 0, v, _ => verifyInputsR proof inputs v
  | layer + 1, v, past => do
    let cl ← idx proof.claimsLeft (layer + 1)
    let cr ← idx proof.claimsRight (layer + 1)
    let lambdaR := H past [cl, cr]
    let claim := cr * lambdaR + cl
    let sp ← idx proof.sumcheckProofs layer
    let l ← idx c.layers layer
    let res ← sumcheckVerifyT H claim sp l.bGInputs (past ++ [([cl, cr], lambdaR)])
    match res with
    | none => return false
    | some (v', past) => do
      let eqEval ← evalEq v.qPrime v'.qPrime
      let vl ← idx proof.claimsLeft layer
      let vr ← idx proof.claimsRight layer
      let statics ← evaluateStaticTablesLinCombs l v.qL v.qR v'.qL v'.qR 1 lambdaR
      let comb ← evaluateCombinator vl vr eqEval l.gates statics
      if v'.finalClaim ≠ comb then return false
      else verifyLayersT H c proof inputs layer v' past

/-- `Verify`, gkr/verifier.go:27-114, repaired as in `gkrVerifyAtR`, with the point and the challenges of the transcript. -/
def gkrVerifyT (H : Query F → F) (bN : Nat) (c : Circuit F) (proof : GkrProof F) (inputs outputs : List (List F)) : Go Bool := do
  let h := fun past msg => H ⟨inputs, outputs, past, msg⟩
  if ¬ proofShaped bN c proof then return false
  else do
    let nLayers := c.layers.length
    let l ← idxPred c.layers nLayers
    let (p, past) := drawPoint h (l.bGOutputs + bN) []
    let q := p.take l.bGOutputs
    let qPrime := p.drop l.bGOutputs
    let claim ← evaluateChunkedR outputs (q ++ qPrime)
    let sp ← idx proof.sumcheckProofs (nLayers - 1)
    let res ← sumcheckVerifyT h claim sp l.bGInputs past
    match res with
    | none => return false
    | some (v, past) => do
      let eqEval ← evalEq qPrime v.qPrime
      let vl ← idx proof.claimsLeft (nLayers - 1)
      let vr ← idx proof.claimsRight (nLayers - 1)
      let statics ← evaluateStaticTables l q v.qL v.qR
      let comb ← evaluateCombinator vl vr eqEval l.gates statics
      if v.finalClaim ≠ comb then return false
      else verifyLayersT h c proof inputs (nLayers - 1) v past

end GkrMimc
