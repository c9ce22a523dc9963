import Verif.Model.Gkr
import Verif.Model.Hash
import Verif.Model.Heap

/-! **Not the code of /repo.** Copies of the functions that falsify a property, each with the faulty line repaired; the
comment of each definition cites the original and says what is changed. Property C65 shows that the full claims hold of
these. A suffix `R` marks a repaired function or one that calls a repaired function. -/

namespace GkrMimc

variable {F : Type} [Field F]

/-- `Gates`, circuit/layers.go:130-139, repaired: the ID of a gate appended to the result is inserted into the map. -/
def gatesR (wires : List (Wire F)) : List (Gate F) :=
  (wires.foldl (fun (s : List String × List (Gate F)) w =>
    if w.gate.id ∈ s.1 then s else (w.gate.id :: s.1, s.2 ++ [w.gate])) ([], [])).2

/-- `NewLayer`, circuit/layers.go:26-33, with the repaired `Gates`. -/
def newLayerR (wires : List (Wire F)) : Layer F where
  wires := wires
  gates := gatesR wires
  bGInputs := bGInputsOf wires
  bGOutputs := bGOutputsOf wires

/-- `NewCircuit`, circuit/circuit.go:24-34, with the repaired `NewLayer`. -/
def newCircuitR (wiring : List (List (Wire F))) : Circuit F where
  layers := wiring.map newLayerR

/-- The body of one goroutine of `Evaluate`, circuit/layers.go:78-95, repaired: line 91 reads `inps[wRN+h]`. -/
def evaluateChunkR (l : Layer F) (inps : List F) : Go (List F) :=
  let GInputs := 1 <<< l.bGInputs
  let GOutputs := 1 <<< l.bGOutputs
  let N := inps.length / GInputs
  forEach l.wires (List.replicate (N * GOutputs) (0 : F)) fun w subRes =>
    let wON := w.O * N
    let wLN := w.L * N
    let wRN := w.R * N
    forN N subRes fun h subRes => do
      let vL ← idx inps (wLN + h)
      let vR ← idx inps (wRN + h)
      let tmp := w.gate.eval vL vR
      modIdx subRes (wON + h) (fun x => x + tmp)

/-- `Layer.Evaluate`, circuit/layers.go:68-102, with the repaired body. -/
def Layer.evaluateR (l : Layer F) (inputs : List (List F)) (nCore : Int) : Go (List (List F)) := do
  semaphoreSection nCore inputs.length
  mapGo (evaluateChunkR l) inputs

/-- The loop of `Assign`, circuit/circuit.go:43-45, with the repaired `Evaluate`. -/
def assignFromR (nCore : Int) : List (Layer F) → List (List F) → Go (List (List (List F)))
  | [], cur => .ok [cur]
  | l :: ls, cur => do
    let nxt ← l.evaluateR cur nCore
    let rest ← assignFromR nCore ls nxt
    return cur :: rest

/-- `Assign`, circuit/circuit.go:37-47, with the repaired `Evaluate`. -/
def Circuit.assignR (c : Circuit F) (inputs : List (List F)) (nCore : Int) : Go (List (List (List F))) :=
  assignFromR nCore c.layers inputs

/-- `chunkedEvalRecombine`, polynomial/chunked.go:19-40, repaired: line 39 returns `inp[0]`, which is the only chunk when
the loop does not run, instead of `res[0]`. -/
def chunkedEvalRecombineR (bkts : List (Table F)) (qs : List F) : Go (Table F) := do
  let logNChunks := log2Ceil bkts.length
  if logNChunks ≠ qs.length then .error (.explicit "q and bkts sizes are not compatible")
  else do
    let s ← forEach qs (bkts, ([] : List (Table F))) fun q s => do
      let res ← recombineStep s.1 q
      return (res, res)
    idx s.1 0

/-- `EvaluateChunked`, polynomial/chunked.go:43-47, with the repaired recombination. -/
def evaluateChunkedR (bkts : List (Table F)) (q : List F) : Go F := do
  let logNChunks := log2Ceil bkts.length
  let cut ← goSubBound q.length logNChunks
  let recombined ← chunkedEvalRecombineR bkts (q.drop cut)
  evaluate recombined (q.take cut)

/-- `EvaluateMixedChunked`, polynomial/chunked.go:50-58, with the repaired recombination. -/
def evaluateMixedChunkedR (bkts : List (Table F)) (hPrime hL hR : List F) : Go (F × F) := do
  let logNChunks := log2Ceil bkts.length
  if logNChunks > hPrime.length then .error (.explicit "We can only chunks on hPrime")
  else do
    let recombined ← chunkedEvalRecombineR bkts (hPrime.drop (hPrime.length - logNChunks))
    evaluateLeftAndRight recombined (hPrime.take (hPrime.length - logNChunks)) hL hR

/-- `Update`, hash/poseidon.go:68-97, repaired: at the end the local `state` is copied to the slice of the caller. -/
def poseidonUpdateR (p : PoseidonHasher F) (arks state block : List F) : Go (List F) := do
  let s ← poseidonUpdateVar p arks state block
  return s.cur

/-- `Hash`, hash/poseidon.go:43-63, with the repaired `Update`. -/
def poseidonHashR (p : PoseidonHasher F) (arks msg : List F) : Go F :=
  hashLoop p.t (poseidonUpdateR p arks) msg

/-- `LinearCombinationOfBookKeepingTables`, polynomial/book_keeping.go:116-133, repaired: the result is a new table. -/
def linearCombinationR (h : Heap F) (bkt0 bkt1 : Slice) (a0 a1 : F) : Go (Slice × Heap F) := do
  let m := h.make bkt1.len
  let h ← forN bkt1.len m.2 fun i h => do
    let v ← (do
      let x ← h.load bkt0 i
      let y ← h.load bkt1 i
      return a0 * x + a1 * y)
    h.store m.1 i v
  return (m.1, h)

variable [DecidableEq F]

/-- The final check of `Verify`, gkr/verifier.go:103-113, with the repaired `EvaluateMixedChunked`. -/
def verifyInputsR (proof : GkrProof F) (inputs : List (List F)) (v : SumcheckVerdict F) : Go Bool := do
  let (actualVL, actualVR) ← evaluateMixedChunkedR inputs v.qPrime v.qL v.qR
  let cl ← idx proof.claimsLeft 0
  let cr ← idx proof.claimsRight 0
  if actualVL ≠ cl ∨ actualVR ≠ cr then return false else return true

/-- The loop of `Verify`, gkr/verifier.go:67-101, repaired: line 99 returns `false`. -/
def verifyLayersR (H : List F → F) (c : Circuit F) (proof : GkrProof F) (inputs : List (List F)) :
    Nat → SumcheckVerdict F → Go Bool
  | 0, v => verifyInputsR proof inputs v
  | layer + 1, v => do
    let cl ← idx proof.claimsLeft (layer + 1)
    let cr ← idx proof.claimsRight (layer + 1)
    let lambdaR := H [cl, cr]
    let claim := cr * lambdaR + cl
    let sp ← idx proof.sumcheckProofs layer
    let l ← idx c.layers layer
    let res ← sumcheckVerify H claim sp l.bGInputs
    match res with
    | none => return false
    | some v' => do
      let eqEval ← evalEq v.qPrime v'.qPrime
      let vl ← idx proof.claimsLeft layer
      let vr ← idx proof.claimsRight layer
      let statics ← evaluateStaticTablesLinCombs l v.qL v.qR v'.qL v'.qR 1 lambdaR
      let comb ← evaluateCombinator vl vr eqEval l.gates statics
      if v'.finalClaim ≠ comb then return false
      else verifyLayersR H c proof inputs layer v'

/-- The numbers of coefficients that the prover sends for a layer, sumcheck/prover.go:57-58: degree plus one, per round. -/
def roundSizes (l : Layer F) (bN : Nat) : List Nat :=
  List.replicate l.bGInputs (l.gates.foldl (fun d g => max d g.degHL) 0 + 2) ++
  List.replicate l.bGInputs (l.gates.foldl (fun d g => max d g.degHR) 0 + 2) ++
  List.replicate bN (l.gates.foldl (fun d g => max d g.degHPrime) 0 + 2)

/-- A check that `Verify`, gkr/verifier.go:27-114, does not have: the proof has one message per layer, of the right sizes. -/
def proofShaped (bN : Nat) (c : Circuit F) (proof : GkrProof F) : Bool :=
  proof.sumcheckProofs.length = c.layers.length ∧ proof.claimsLeft.length = c.layers.length ∧
    proof.claimsRight.length = c.layers.length ∧
    (c.layers.zip proof.sumcheckProofs).all fun x => x.2.map List.length = roundSizes x.1 bN

/-- `Verify`, gkr/verifier.go:27-114, repaired: the shape of the proof is checked first, chunks are evaluated with the
repaired functions, line 99 returns `false`. -/
def gkrVerifyR (H : List F → F) (bN : Nat) (c : Circuit F) (proof : GkrProof F)
    (inputs outputs : List (List F)) : Go Bool := do
  if ¬ proofShaped bN c proof then return false
  else do
    let nLayers := c.layers.length
    let l ← idxPred c.layers nLayers
    let (qPrime, q) := getInitialQPrimeAndQ (F := F) bN l.bGOutputs
    let claim ← evaluateChunkedR outputs (q ++ qPrime)
    let sp ← idx proof.sumcheckProofs (nLayers - 1)
    let res ← sumcheckVerify H claim sp l.bGInputs
    match res with
    | none => return false
    | some v => do
      let eqEval ← evalEq qPrime v.qPrime
      let vl ← idx proof.claimsLeft (nLayers - 1)
      let vr ← idx proof.claimsRight (nLayers - 1)
      let statics ← evaluateStaticTables l q v.qL v.qR
      let comb ← evaluateCombinator vl vr eqEval l.gates statics
      if v.finalClaim ≠ comb then return false
      else verifyLayersR H c proof inputs (nLayers - 1) v

/-- `Verify`, gkr/verifier.go:27-114, repaired as in `gkrVerifyR`, for a given initial point `(q, qPrime)`: line 34, which takes
constants, is left out. -/
def gkrVerifyAtR (H : List F → F) (bN : Nat) (c : Circuit F) (qPrime q : List F) (proof : GkrProof F)
    (inputs outputs : List (List F)) : Go Bool := do
  if ¬ proofShaped bN c proof then return false
  else do
    let nLayers := c.layers.length
    let l ← idxPred c.layers nLayers
    let claim ← evaluateChunkedR outputs (q ++ qPrime)
    let sp ← idx proof.sumcheckProofs (nLayers - 1)
    let res ← sumcheckVerify H claim sp l.bGInputs
    match res with
    | none => return false
    | some v => do
      let eqEval ← evalEq qPrime v.qPrime
      let vl ← idx proof.claimsLeft (nLayers - 1)
      let vr ← idx proof.claimsRight (nLayers - 1)
      let statics ← evaluateStaticTables l q v.qL v.qR
      let comb ← evaluateCombinator vl vr eqEval l.gates statics
      if v.finalClaim ≠ comb then return false
      else verifyLayersR H c proof inputs (nLayers - 1) v

/-- `Prove`, gkr/prover.go:124-160, for a given initial point `(q, qPrime)`: line 132, which takes constants, is left out. -/
def GkrProver.proveAt (H : List F → F) (p : GkrProver F) (q' q : List F) (nCore : Int) : Go (GkrProof F) := do
  let mp ← p.initialRound q' q nCore
  let out ← mp.prove H nCore
  let rest ← p.proveLayers H nCore (p.circuit.layers.length - 1) out
  let outs := rest ++ [out]
  let cl ← mapGo (fun o : SumcheckOut F => idx o.finalClaims 0) outs
  let cr ← mapGo (fun o : SumcheckOut F => idx o.finalClaims 1) outs
  return { sumcheckProofs := outs.map (·.polyCoeffs), claimsLeft := cl, claimsRight := cr }

end GkrMimc
