import Verif.Model.Heap

/-!
Memory-level model of the verifier: `gkr/verifier.go`, `sumcheck/verifier.go` and what they call, with slices as headers into
arrays. Functions that only read slices (`EvaluatePolynomial`, `EvalEq`, `GetChallenge`, `EvaluateCombinator`) are applied to
the contents. Slices of slices and of tables are never written after they are built; they are lists of headers.
-/

namespace GkrMimc

variable {F : Type} [Field F] [DecidableEq F]

/-- `for i := k; i < k+n; i++ { res[i] = f(i) }` for an `f` that uses memory. -/
def genH {β : Type} (f : Nat → Heap F → Go (β × Heap F)) : Nat → Nat → Heap F → Go (List β × Heap F)
  | _, 0, h => .ok ([], h)
  | k, n + 1, h => do
    let y ← f k h
    let ys ← genH f (k + 1) n y.2
    return (y.1 :: ys.1, ys.2)

/-- `for _, r := range q { bkt.Fold(r) }`, circuit/layers.go:57-59. -/
def foldAllH (h : Heap F) (bkt q : Slice) : Go (Slice × Heap F) :=
  forN q.len (bkt, h) fun i s => do
    let r ← s.2.load q i
    foldH s.2 s.1 r

/-- The unfolded table of one gate, part of `GetStaticTable`, circuit/layers.go:48-54. -/
def rawStaticTableH (h : Heap F) (l : Layer F) (gate : Gate F) : Go (Slice × Heap F) := do
  let gO := 1 <<< (2 * l.bGInputs)
  let gL := 1 <<< l.bGInputs
  let m := h.make ((1 <<< l.bGOutputs) * (1 <<< (2 * l.bGInputs)))
  let h ← forEach l.wires m.2 fun w h =>
    if w.gate.id = gate.id then do
      let x ← h.load m.1 (gO * w.O + gL * w.L + w.R)
      h.store m.1 (gO * w.O + gL * w.L + w.R) (x + 1)
    else .ok h
  return (m.1, h)

/-- `GetStaticTable`, circuit/layers.go:37-64. -/
def getStaticTableH (h : Heap F) (l : Layer F) (q : Slice) : Go (List Slice × Heap F) :=
  genH (fun i h => do
    let gate ← idx l.gates i
    let t ← rawStaticTableH h l gate
    foldAllH t.2 t.1 q) 0 l.gates.length h

/-- One pass of the outer loop of `chunkedEvalRecombine`, polynomial/chunked.go:27-37; the receiver `res[k]` has a nil slice. -/
def recombineStepH (h : Heap F) (inp : List Slice) (q : F) : Go (List Slice × Heap F) :=
  let mid := inp.length / 2
  genH (fun k h => do
    let hi ← idx inp (k + mid)
    let lo ← idx inp k
    let t ← subH h Slice.nil hi lo 1
    let t ← mulH t.2 t.1 q t.1 1
    addH t.2 t.1 t.1 lo) 0 mid h

/-- `chunkedEvalRecombine`, polynomial/chunked.go:19-40. -/
def chunkedEvalRecombineH (h : Heap F) (bkts : List Slice) (qs : Slice) : Go (Slice × Heap F) := do
  let logNChunks := log2Ceil bkts.length
  if logNChunks ≠ qs.len then .error (.explicit "q and bkts sizes are not compatible")
  else do
    let s ← forN qs.len ((bkts, ([] : List Slice)), h) fun i s => do
      let q ← s.2.load qs i
      let res ← recombineStepH s.2 s.1.1 q
      return ((res.1, res.1), res.2)
    let t ← idx s.1.2 0
    return (t, s.2)

/-- `EvaluateChunked`, polynomial/chunked.go:43-47. -/
def evaluateChunkedH (h : Heap F) (bkts : List Slice) (q : Slice) : Go (F × Heap F) := do
  let logNChunks := log2Ceil bkts.length
  let cut ← goSubBound q.len logNChunks
  let qs ← q.sub cut q.len
  let recombined ← chunkedEvalRecombineH h bkts qs
  let q0 ← q.sub 0 cut
  evaluateH recombined.2 recombined.1 q0

/-- `EvaluateMixedChunked`, polynomial/chunked.go:50-58. -/
def evaluateMixedChunkedH (h : Heap F) (bkts : List Slice) (hPrime hL hR : Slice) : Go ((F × F) × Heap F) := do
  let logNChunks := log2Ceil bkts.length
  if logNChunks > hPrime.len then .error (.explicit "We can only chunks on hPrime")
  else do
    let qs ← hPrime.sub (hPrime.len - logNChunks) hPrime.len
    let recombined ← chunkedEvalRecombineH h bkts qs
    let q0 ← hPrime.sub 0 (hPrime.len - logNChunks)
    evaluateLeftAndRightH recombined.2 recombined.1 q0 hL hR

/-- The loop of `Verify`, sumcheck/verifier.go:21-35, from round `i` on. -/
def sumcheckVerifyLoopH (H : List F → F) (challenges : Slice) : Nat → List Slice → F → Heap F → Go (Option F × Heap F)
  | _, [], expected, h => .ok (some expected, h)
  | i, c :: cs, expected, h => do
    let a0 ← evaluatePolynomial (h.vals c) 0
    let a1 ← evaluatePolynomial (h.vals c) 1
    if expected ≠ a0 + a1 then return (none, h)
    else do
      let r := H (h.vals c)
      let h ← h.store challenges i r
      let expected' ← evaluatePolynomial (h.vals c) r
      sumcheckVerifyLoopH H challenges (i + 1) cs expected' h

/-- What `sumcheck.Verifier.Verify` returns when its first result is `true`. -/
structure VerdictH (F : Type) where
  qPrime : Slice
  qL : Slice
  qR : Slice
  finalClaim : F

/-- `Verify`, sumcheck/verifier.go:14-44. -/
def sumcheckVerifyH (H : List F → F) (h : Heap F) (claim : F) (polyCoeffs : List Slice) (bG : Nat) :
    Go (Option (VerdictH F) × Heap F) := do
  let m := h.make polyCoeffs.length
  let r ← sumcheckVerifyLoopH H m.1 0 polyCoeffs claim m.2
  match r.1 with
  | none => return (none, r.2)
  | some expected => do
    let s ← m.1.sub 0 bG
    let l := r.2.append Slice.nil s
    let s ← m.1.sub bG (2 * bG)
    let rr := l.2.append Slice.nil s
    let s ← m.1.sub (2 * bG) m.1.len
    let p := rr.2.append Slice.nil s
    return (some ⟨p.1, l.1, rr.1, expected⟩, p.2)

/-- `evaluateStaticTables`, gkr/verifier.go:116-123. -/
def evaluateStaticTablesH (h : Heap F) (l : Layer F) (q nextQL nextQR : Slice) : Go (Slice × Heap F) := do
  let tables ← getStaticTableH h l q
  let evals := tables.2.make tables.1.length
  let h ← forN tables.1.length evals.2 fun i h => do
    let t ← idx tables.1 i
    let c := h.append nextQL nextQR
    let v ← evaluateH c.2 t c.1
    v.2.store evals.1 i v.1
  return (evals.1, h)

/-- `evaluateStaticTablesLinCombs`, gkr/verifier.go:125-138. -/
def evaluateStaticTablesLinCombsH (h : Heap F) (l : Layer F) (qL qR nextQL nextQR : Slice) (lambdaL lambdaR : F) :
    Go (Slice × Heap F) := do
  let tablesL ← getStaticTableH h l qL
  let tablesR ← getStaticTableH tablesL.2 l qR
  let evals := tablesR.2.make tablesL.1.length
  let h ← forN tablesL.1.length evals.2 fun i h => do
    let tl ← idx tablesL.1 i
    let c := h.append nextQL nextQR
    let left ← evaluateH c.2 tl c.1
    let tr ← idx tablesR.1 i
    let c := left.2.append nextQL nextQR
    let right ← evaluateH c.2 tr c.1
    right.2.store evals.1 i (left.1 * lambdaL + right.1 * lambdaR)
  return (evals.1, h)

/-- `gkr.Proof`, gkr/prover.go:20-24; `PolyCoeffs` of a sumcheck proof is sumcheck/prover.go:11-14. -/
structure GkrProofH where
  sumcheckProofs : List (List Slice)
  claimsLeft : Slice
  claimsRight : Slice

/-- `make` followed by a loop that sets every entry. -/
def makeFill (h : Heap F) (n : Nat) (f : Nat → F) : Go (Slice × Heap F) := do
  let m := h.make n
  let h ← forN n m.2 fun i h => h.store m.1 i (f i)
  return (m.1, h)

/-- `GetInitialQPrimeAndQ`, gkr/prover.go:37-52. Returns `(qPrime, q)`. -/
def getInitialQPrimeAndQH (h : Heap F) (bN bG : Nat) : Go ((Slice × Slice) × Heap F) := do
  let q ← makeFill h bG fun i => ((i + 1 : Nat) : F)
  let qPrime ← makeFill q.2 bN fun i => ((i + 1 : Nat) : F)
  return ((qPrime.1, q.1), qPrime.2)

/-- The final check of `Verify`, gkr/verifier.go:103-113. -/
def verifyInputsH (h : Heap F) (proof : GkrProofH) (inputs : List Slice) (v : VerdictH F) : Go (Bool × Heap F) := do
  let a ← evaluateMixedChunkedH h inputs v.qPrime v.qL v.qR
  let cl ← a.2.load proof.claimsLeft 0
  let cr ← a.2.load proof.claimsRight 0
  if a.1.1 ≠ cl ∨ a.1.2 ≠ cr then return (false, a.2) else return (true, a.2)

/-- The loop of `Verify`, gkr/verifier.go:67-101, for the layers `k-1, …, 0`, followed by the final check. -/
def verifyLayersH (H : List F → F) (c : Circuit F) (proof : GkrProofH) (inputs : List Slice) :
    Nat → VerdictH F → Heap F → Go (Bool × Heap F)
  | 0, v, h => verifyInputsH h proof inputs v
  | layer + 1, v, h => do
    let cl ← h.load proof.claimsLeft (layer + 1)
    let cr ← h.load proof.claimsRight (layer + 1)
    let lambdaR := H [cl, cr]
    let claim := cr * lambdaR + cl
    let sp ← idx proof.sumcheckProofs layer
    let l ← idx c.layers layer
    let res ← sumcheckVerifyH H h claim sp l.bGInputs
    match res.1 with
    | none => return (false, res.2)
    | some v' => do
      let eqEval ← evalEq (res.2.vals v.qPrime) (res.2.vals v'.qPrime)
      let vl ← res.2.load proof.claimsLeft layer
      let vr ← res.2.load proof.claimsRight layer
      let statics ← evaluateStaticTablesLinCombsH res.2 l v.qL v.qR v'.qL v'.qR 1 lambdaR
      let comb ← evaluateCombinator vl vr eqEval l.gates (statics.2.vals statics.1)
      if v'.finalClaim ≠ comb then return (true, statics.2)
      else verifyLayersH H c proof inputs layer v' statics.2

/-- `Verify`, gkr/verifier.go:27-114. -/
def gkrVerifyH (H : List F → F) (bN : Nat) (c : Circuit F) (h : Heap F) (proof : GkrProofH) (inputs outputs : List Slice) :
    Go (Bool × Heap F) := do
  let nLayers := c.layers.length
  let l ← idxPred c.layers nLayers
  let init ← getInitialQPrimeAndQH h bN l.bGOutputs
  let a := init.2.append Slice.nil init.1.2
  let a := a.2.append a.1 init.1.1
  let claim ← evaluateChunkedH a.2 outputs a.1
  let sp ← idx proof.sumcheckProofs (nLayers - 1)
  let res ← sumcheckVerifyH H claim.2 claim.1 sp l.bGInputs
  match res.1 with
  | none => return (false, res.2)
  | some v => do
    let eqEval ← evalEq (res.2.vals init.1.1) (res.2.vals v.qPrime)
    let vl ← res.2.load proof.claimsLeft (nLayers - 1)
    let vr ← res.2.load proof.claimsRight (nLayers - 1)
    let statics ← evaluateStaticTablesH res.2 l init.1.2 v.qL v.qR
    let comb ← evaluateCombinator vl vr eqEval l.gates (statics.2.vals statics.1)
    if v.finalClaim ≠ comb then return (false, statics.2)
    else verifyLayersH H c proof inputs (nLayers - 1) v statics.2

end GkrMimc
