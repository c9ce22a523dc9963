import Verif.Model.Gkr

/-! Go's `int` on a 64-bit machine. The other models compute with unbounded natural numbers and integers; here the
functions of /repo that compute sizes and indices are modelled once more, with two's complement arithmetic.
A register is the residue modulo `2^64` of the integer it holds, a natural number below `2^64`.
`lim` is the largest length that `make` accepts (the Go runtime panics on larger requests); it is a parameter below `2^63`. -/

namespace GkrMimc

/-- The register that holds the integer `x`. -/
def reg (x : Int) : Nat := (x % 18446744073709551616).toNat

/-- The signed value of a register. -/
def sgn (a : Nat) : Int :=
  if a % 18446744073709551616 < 9223372036854775808 then ((a % 18446744073709551616 : Nat) : Int)
  else ((a % 18446744073709551616 : Nat) : Int) - 18446744073709551616

/-- Go's `+` on `int`. -/
def wAdd (a b : Nat) : Nat := reg (sgn a + sgn b)

/-- Go's `-` on `int`. -/
def wSub (a b : Nat) : Nat := reg (sgn a - sgn b)

/-- Go's `*` on `int`. -/
def wMul (a b : Nat) : Nat := reg (sgn a * sgn b)

/-- Go's `/` on `int`: truncates toward zero, panics on a zero divisor. -/
def wDiv (a b : Nat) : Go Nat := if sgn b = 0 then .error .divZero else .ok (reg (Int.tdiv (sgn a) (sgn b)))

/-- `a / 2`. -/
def wHalf (a : Nat) : Nat := reg (Int.tdiv (sgn a) 2)

/-- Go's `a << k` on `int`: shifts by 64 and more give 0, a negative count panics. -/
def wShl (a k : Nat) : Go Nat :=
  if sgn k < 0 then .error (.explicit "negative shift amount") else .ok (reg (sgn a * 2 ^ (sgn k).toNat))

/-- `a >> 1`, the arithmetic shift. -/
def wShr1 (a : Nat) : Nat := reg (sgn a >>> 1)

/-- `make([]T, n)`: the length of the new slice; a negative length or one above `lim` panics. -/
def wMake (lim n : Nat) : Go Nat := if sgn n < 0 ∨ (lim : Int) < sgn n then .error .makeNeg else .ok (sgn n).toNat

/-- `make([]T, n)` for element types other than the field elements: only a negative length panics. -/
def wMake0 (n : Nat) : Go Nat := if sgn n < 0 then .error .makeNeg else .ok (sgn n).toNat

/-- The number of iterations of `for i := 0; i < n; i++`. -/
def wIter (n : Nat) : Nat := (sgn n).toNat

/-- `common.Min`, common/math.go:4-9. -/
def wMin (a b : Nat) : Nat := if sgn a ≤ sgn b then a else b

/-- `common.Max`, common/math.go:12-17. -/
def wMax (a b : Nat) : Nat := if sgn a ≥ sgn b then a else b

theorem wShr1_lt (i : Nat) (h : sgn i > 1) : wShr1 i < i := by
  have e : sgn i >>> 1 = sgn i / 2 := by simp [Int.shiftRight_eq_div_pow]
  unfold wShr1 reg
  rw [e]
  unfold sgn at *
  split at h <;> rename_i h' <;> simp only [h', if_true, if_false] at * <;> omega

/-- The loop of `Log2Floor`, common/math.go:22-24. -/
def log2FloorLoopW (i res : Nat) : Nat :=
  if _h : sgn i > 1 then log2FloorLoopW (wShr1 i) (wAdd res 1) else res
termination_by i
decreasing_by exact wShr1_lt i (by assumption)

/-- `Log2Floor`, common/math.go:20-26. -/
def log2FloorW (a : Nat) : Nat := log2FloorLoopW a 0

/-- `Log2Ceil`, common/math.go:29-35. -/
def log2CeilW (a : Nat) : Go Nat := do
  let floor := log2FloorW a
  let p ← wShl 1 floor
  return if sgn a ≠ sgn p then wAdd floor 1 else floor

/-- The loop of `IntoChunkRanges`, common/chunks.go:27-30; the ends of a range are registers. -/
def chunkRangesLoopW (N chunkSize : Nat) : Nat → Nat → List ChunkRange
  | 0, _ => []
  | k + 1, begin_ =>
    { begin_ := begin_, end_ := wMin N (wAdd begin_ chunkSize) } ::
      chunkRangesLoopW N chunkSize k (wAdd begin_ chunkSize)

/-- `IntoChunkRanges`, common/chunks.go:16-33. -/
def intoChunkRangesW (nCore N : Nat) : Go (List ChunkRange) := do
  let q ← wDiv N (wMul maxChunkPerCore nCore)
  let chunkSize := wMax minChunkSize q
  let nChunks ← wDiv N chunkSize
  let nChunks := if sgn (wMul nChunks chunkSize) < sgn N then wAdd nChunks 1 else nChunks
  let k ← wMake0 nChunks
  return chunkRangesLoopW N chunkSize k 0

section Tables

variable {F : Type} [Field F]

/-- `InterleavedChunk`, polynomial/book_keeping.go:28-35. -/
def interleavedChunkW (bkt : Table F) (on nChunk : Nat) : Go (Table F) := do
  let chunkSize ← wDiv bkt.length nChunk
  gen (wIter chunkSize) fun i => idx bkt (wAdd on (wMul i nChunk))

/-- The loop over the chunks in Sub and Mul, polynomial/book_keeping.go:173-184, 203-213. -/
def chunkLoopW (chunks : List ChunkRange) (dst : Table F) (f : Nat → Go F) : Go (Table F) :=
  forEach chunks dst fun c t =>
    forFrom (fun i t => do let v ← f i; setIdx t i v) c.begin_ (sgn c.end_ - sgn c.begin_).toNat t

/-- `Sub`, polynomial/book_keeping.go:155-185. -/
def tableSubW (dst left right : Table F) (nCore : Int) : Go (Table F) := do
  let size := left.length
  let chunks ← intoChunkRangesW (reg nCore) size
  newSemaphore nCore
  if right.length ≠ size then .error (.explicit "Left and right do not have the right size")
  else
    chunkLoopW chunks (resizeDst dst size) fun i => do
      let l ← idx left i
      let r ← idx right i
      return l - r

/-- `Mul`, polynomial/book_keeping.go:188-214. -/
def tableMulW (dst : Table F) (lambda : F) (x : Table F) (nCore : Int) : Go (Table F) := do
  let size := x.length
  let chunks ← intoChunkRangesW (reg nCore) size
  newSemaphore nCore
  chunkLoopW chunks (resizeDst dst size) fun i => do
    let v ← idx x i
    return v * lambda

/-- One iteration of the inner loop of `GetFoldedEqTable`, polynomial/eq.go:48-53. -/
def foldedEqStepW (n i : Nat) (r : F) (j : Nat) (t : Table F) : Go (Table F) := do
  let J ← wShl j (wSub n i)
  let d ← wShl 1 (wSub (wSub n 1) i)
  let JNext := wAdd J d
  let tJ ← idx t J
  let vNext := r * tJ
  let t ← setIdx t JNext vNext
  let tJ ← idx t J
  let tJNext ← idx t JNext
  setIdx t J (tJ - tJNext)

/-- `GetFoldedEqTable`, polynomial/eq.go:42-57. -/
def getFoldedEqTableW (lim : Nat) (qPrime : List F) : Go (Table F) := do
  let n := qPrime.length
  let size ← wShl 1 n
  let size ← wMake lim size
  let t0 ← setIdx (List.replicate size (0 : F)) 0 1
  forN n t0 fun i t => do
    let r ← idx qPrime i
    let m ← wShl 1 i
    forN (wIter m) t (foldedEqStepW n i r)

/-- One iteration of the inner loop of `GetChunkedEqTable`, polynomial/eq.go:67-70. -/
def chunkedEqStepW (logNChunks i : Nat) (r : F) (nCore : Int) (j : Nat) (res : List (Table F)) :
    Go (List (Table F)) := do
  let J ← wShl j (wSub logNChunks i)
  let d ← wShl 1 (wSub (wSub logNChunks 1) i)
  let JNext := wAdd J d
  let dst ← idx res JNext
  let x ← idx res J
  let m ← tableMulW dst r x nCore
  let res ← setIdx res JNext m
  let left ← idx res J
  let right ← idx res JNext
  let s ← tableSubW left left right nCore
  setIdx res J s

/-- `GetChunkedEqTable`, polynomial/eq.go:60-75. -/
def getChunkedEqTableW (lim : Nat) (qPrime : List F) (nChunks : Nat) (nCore : Int) : Go (List (Table F)) := do
  let logNChunks ← log2CeilW nChunks
  let q0 ← sliceTo qPrime (wSub qPrime.length logNChunks)
  let eq0 ← getFoldedEqTableW lim q0
  let res ← setIdx (List.replicate nChunks ([] : Table F)) 0 eq0
  let qs ← sliceFrom qPrime (wSub qPrime.length logNChunks)
  forN qs.length res fun i res => do
    let r ← idx qs i
    let m ← wShl 1 i
    forN (wIter m) res (chunkedEqStepW logNChunks i r nCore)

/-- One pass of the outer loop of `chunkedEvalRecombine`, polynomial/chunked.go:27-37. -/
def recombineStepW (inp : List (Table F)) (q : F) : Go (List (Table F)) :=
  let mid := wHalf inp.length
  gen (wIter mid) fun k => do
    let hi ← idx inp (wAdd k mid)
    let lo ← idx inp k
    let t ← tableSubW [] hi lo 1
    let t ← tableMulW t q t 1
    tableAdd t t lo

/-- `chunkedEvalRecombine`, polynomial/chunked.go:19-40. -/
def chunkedEvalRecombineW (bkts : List (Table F)) (qs : List F) : Go (Table F) := do
  let logNChunks ← log2CeilW bkts.length
  if logNChunks ≠ qs.length then .error (.explicit "q and bkts sizes are not compatible")
  else do
    let s ← forEach qs (bkts, ([] : List (Table F))) fun q s => do
      let res ← recombineStepW s.1 q
      return (res, res)
    idx s.2 0

/-- `EvaluateChunked`, polynomial/chunked.go:43-47. -/
def evaluateChunkedW (bkts : List (Table F)) (q : List F) : Go F := do
  let logNChunks ← log2CeilW bkts.length
  let q1 ← sliceFrom q (wSub q.length logNChunks)
  let recombined ← chunkedEvalRecombineW bkts q1
  let q0 ← sliceTo q (wSub q.length logNChunks)
  evaluate recombined q0

/-- `EvaluateMixedChunked`, polynomial/chunked.go:50-58. -/
def evaluateMixedChunkedW (bkts : List (Table F)) (hPrime hL hR : List F) : Go (F × F) := do
  let logNChunks ← log2CeilW bkts.length
  if sgn logNChunks > sgn hPrime.length then .error (.explicit "We can only chunks on hPrime")
  else do
    let q1 ← sliceFrom hPrime (wSub hPrime.length logNChunks)
    let recombined ← chunkedEvalRecombineW bkts q1
    let q0 ← sliceTo hPrime (wSub hPrime.length logNChunks)
    evaluateLeftAndRight recombined q0 hL hR

end Tables

section Layers

variable {F : Type} [Field F]

/-- `BGOutputs`, circuit/layers.go:105-113. -/
def bGOutputsOfW (wires : List (Wire F)) : Go Nat :=
  log2CeilW (wAdd (wires.foldl (fun res w => if sgn res < sgn w.O then w.O else res) 0) 1)

/-- `BGInputs`, circuit/layers.go:116-127. -/
def bGInputsOfW (wires : List (Wire F)) : Go Nat :=
  log2CeilW (wAdd (wires.foldl (fun res w =>
    let res := if sgn res < sgn w.L then w.L else res
    if sgn res < sgn w.R then w.R else res) 0) 1)

/-- `NewLayer`, circuit/layers.go:26-33. -/
def newLayerW (wires : List (Wire F)) : Go (Layer F) := do
  let i ← bGInputsOfW wires
  let o ← bGOutputsOfW wires
  return { wires := wires, gates := gatesOf wires, bGInputs := i, bGOutputs := o }

/-- `NewCircuit`, circuit/circuit.go:24-34. -/
def newCircuitW (wiring : List (List (Wire F))) : Go (Circuit F) := do
  let ls ← mapGo newLayerW wiring
  return { layers := ls }

/-- The unfolded table of one gate, part of `GetStaticTable`, circuit/layers.go:42-54. -/
def rawStaticTableW (lim : Nat) (l : Layer F) (gate : Gate F) : Go (Table F) := do
  let gO ← wShl 1 (wMul 2 l.bGInputs)
  let gL ← wShl 1 l.bGInputs
  let sO ← wShl 1 l.bGOutputs
  let sI ← wShl 1 (wMul 2 l.bGInputs)
  let size ← wMake lim (wMul sO sI)
  forEach l.wires (List.replicate size (0 : F)) fun w tab =>
    if w.gate.id = gate.id then
      modIdx tab (wAdd (wAdd (wMul gO w.O) (wMul gL w.L)) w.R) (fun x => x + 1)
    else .ok tab

/-- `GetStaticTable`, circuit/layers.go:37-64. -/
def getStaticTableW (lim : Nat) (l : Layer F) (q : List F) : Go (List (Table F)) :=
  mapGo (fun gate => do
    let tab ← rawStaticTableW lim l gate
    return q.foldl fold tab) l.gates

/-- The body of one goroutine of `Evaluate`, circuit/layers.go:78-95. -/
def evaluateChunkW (lim : Nat) (l : Layer F) (inps : List F) : Go (List F) := do
  let GInputs ← wShl 1 l.bGInputs
  let GOutputs ← wShl 1 l.bGOutputs
  let N ← wDiv inps.length GInputs
  let size ← wMake lim (wMul N GOutputs)
  forEach l.wires (List.replicate size (0 : F)) fun w subRes =>
    let wON := wMul w.O N
    let wLN := wMul w.L N
    let wRN := wMul w.R N
    forN (wIter N) subRes fun h subRes => do
      let vL ← idx inps (wAdd wLN h)
      let vR ← idx inps (wAdd (wMul wRN N) h)
      let tmp := w.gate.eval vL vR
      modIdx subRes (wAdd wON h) (fun x => x + tmp)

/-- `Layer.Evaluate`, circuit/layers.go:68-102, its goroutines run one after the other. -/
def Layer.evaluateW (lim : Nat) (l : Layer F) (inputs : List (List F)) (nCore : Int) : Go (List (List F)) := do
  semaphoreSection nCore inputs.length
  mapGo (evaluateChunkW lim l) inputs

/-- The loop of `Assign`, circuit/circuit.go:43-45. -/
def assignFromW (lim : Nat) (nCore : Int) : List (Layer F) → List (List F) → Go (List (List (List F)))
  | [], cur => .ok [cur]
  | l :: ls, cur => do
    let nxt ← l.evaluateW lim cur nCore
    let rest ← assignFromW lim nCore ls nxt
    return cur :: rest

/-- `Assign`, circuit/circuit.go:37-47. -/
def Circuit.assignW (lim : Nat) (c : Circuit F) (inputs : List (List F)) (nCore : Int) :
    Go (List (List (List F))) :=
  assignFromW lim nCore c.layers inputs

end Layers

section Sumcheck

variable {F : Type} [Field F] [DecidableEq F]

/-- `GetClaim`, sumcheck/evals.go:10-61. -/
def SProver.getClaimW (lim : Nat) (p : SProver F) : Go F := do
  let n := p.eq.length
  let g ← wDiv p.vL.length n
  let nGate := p.statics.length
  let staticIsNotZero ← gen nGate fun i => do
    let size ← wMake lim (wMul g g)
    gen size fun h => do
      let s ← idx2 p.statics i h
      return decide (s ≠ 0)
  let split0 := List.replicate nGate (List.replicate (wIter (wMul g g)) (0 : F))
  let split ← forN n split0 fun hPrime split => do
    let eq ← idx p.eq hPrime
    forN (wIter g) split fun hL split => do
      let vL ← idx p.vL (wAdd (wMul hL n) hPrime)
      forN (wIter g) split fun hR split => do
        let vR ← idx p.vR (wAdd (wMul hR n) hPrime)
        forN nGate split fun i split => do
          let nz ← idx2 staticIsNotZero i (wAdd (wMul hL g) hR)
          if nz then do
            let gate ← idx p.gates i
            modIdx2 split i (wAdd (wMul hL g) hR) (fun x => x + gate.eval vL vR * eq)
          else return split
  forN nGate (0 : F) fun i res => do
    let row ← idx split i
    forN row.length res fun h res => do
      let v ← idx row h
      let s ← idx2 p.statics i h
      return res + v * s

/-- The precomputation loops of GetEvalsOnHL and GetEvalsOnHR, sumcheck/evals.go:74-95, 108-129. -/
def preEvalStaticsW (lim : Nat) (statics : List (Table F)) (size nEvals : Nat) :
    Go (List (List Bool) × List (List (List F))) := do
  let nz ← mapGo (fun tab => do
    let m ← wMake lim size
    gen m fun h => do
      let x ← idx tab h
      let d ← idx (functionEvals tab) h
      return decide (¬ (x = 0 ∧ d = 0))) statics
  let ev ← mapGo (fun tab => do
    let m ← wMake lim size
    gen m fun h => do
      let x ← idx tab h
      let d ← idx (functionEvals tab) h
      let k ← wMake lim nEvals
      return ramp x d k) statics
  return (nz, ev)

/-- `accumulateEvalsOnHL`, sumcheck/evals.go:148-221. -/
def SProver.accumulateEvalsOnHLW (lim : Nat) (p : SProver F) (ev : List (List (List F)))
    (nz : List (List Bool)) : Go (List F) := do
  let n := p.eq.length
  let g ← wDiv p.vR.length n
  let st0 ← idx p.statics 0
  let lenHL ← wDiv st0.length g
  let nGate := p.statics.length
  let nEvals ← wMake lim (wAdd p.degreeHL 1)
  let mid := wHalf p.vL.length
  let rows ← wMake lim (wHalf (wMul lenHL g))
  let split0 := List.replicate nGate (List.replicate rows (List.replicate nEvals (0 : F)))
  let split ← forN n split0 fun hPrime split => do
    let evaledEq ← idx p.eq hPrime
    forN (wIter (wHalf lenHL)) split fun hL split => do
      let bVL := wAdd (wMul hL n) hPrime
      let v0 ← idx p.vL bVL
      let v1 ← idx p.vL (wAdd bVL mid)
      let evaledVLs := ramp v0 (v1 - v0) nEvals
      forN (wIter g) split fun hR split => do
        let h := wAdd (wMul hL g) hR
        let evaledVR ← idx p.vR (wAdd (wMul hR n) hPrime)
        forN p.gates.length split fun i split => do
          let gate ← idx p.gates i
          let b ← idx2 nz i h
          if b then do
            let vS ← gate.evalManyVL (List.replicate nEvals 0) evaledVLs evaledVR
            addRow vS evaledEq i h split
          else return split
  combineSplit split ev nEvals

/-- `GetEvalsOnHL`, sumcheck/evals.go:64-98. -/
def SProver.getEvalsOnHLW (lim : Nat) (p : SProver F) : Go (List F) := do
  let n := p.eq.length
  let g ← wDiv p.vR.length n
  let st0 ← idx p.statics 0
  let lenHL ← wDiv st0.length g
  let (nz, ev) ← preEvalStaticsW lim p.statics (wHalf (wMul lenHL g)) (wAdd p.degreeHL 1)
  p.accumulateEvalsOnHLW lim ev nz

/-- `accumulateEvalsOnHR`, sumcheck/evals.go:223-291. -/
def SProver.accumulateEvalsOnHRW (lim : Nat) (p : SProver F) (nz : List (List Bool))
    (ev : List (List (List F))) : Go (List F) := do
  let n := p.eq.length
  let lenHR ← wDiv p.vR.length n
  let nGate := p.statics.length
  let nEvals ← wMake lim (wAdd p.degreeHR 1)
  let mid := wHalf p.vR.length
  let rows ← wMake lim (wHalf lenHR)
  let split0 := List.replicate nGate (List.replicate rows (List.replicate nEvals (0 : F)))
  let split ← forN n split0 fun hPrime split => do
    let evaledEq ← idx p.eq hPrime
    let evaledVL ← idx p.vL hPrime
    forN (wIter (wHalf lenHR)) split fun hR split => do
      let bVR := wAdd (wMul hR n) hPrime
      let v0 ← idx p.vR bVR
      let v1 ← idx p.vR (wAdd bVR mid)
      let evaledVRs := ramp v0 (v1 - v0) nEvals
      forN p.gates.length split fun i split => do
        let gate ← idx p.gates i
        let b ← idx2 nz i hR
        if b then do
          let vS ← gate.evalManyVR (List.replicate nEvals 0) evaledVL evaledVRs
          addRow vS evaledEq i hR split
        else return split
  combineSplit split ev nEvals

/-- `GetEvalsOnHR`, sumcheck/evals.go:101-132. -/
def SProver.getEvalsOnHRW (lim : Nat) (p : SProver F) : Go (List F) := do
  let n := p.eq.length
  let lenHR ← wDiv p.vR.length n
  let (nz, ev) ← preEvalStaticsW lim p.statics (wHalf lenHR) (wAdd p.degreeHR 1)
  p.accumulateEvalsOnHRW lim nz ev

/-- `accumulateEvalsOnHPrime`, sumcheck/evals.go:293-354. -/
def SProver.accumulateEvalsOnHPrimeW (lim : Nat) (p : SProver F) (staticVals : List F) : Go (List F) := do
  let nGate := p.statics.length
  let nEvals ← wMake lim (wAdd p.degreeHPrime 1)
  let mid := wHalf p.eq.length
  let split0 := List.replicate nGate (List.replicate nEvals (0 : F))
  let split ← forN (wIter mid) split0 fun hPrime split => do
    let l0 ← idx p.vL hPrime
    let r0 ← idx p.vR hPrime
    let e0 ← idx p.eq hPrime
    let l1 ← idx p.vL (wAdd hPrime mid)
    let r1 ← idx p.vR (wAdd hPrime mid)
    let e1 ← idx p.eq (wAdd hPrime mid)
    let evaledVL := ramp l0 (l1 - l0) nEvals
    let evaledVR := ramp r0 (r1 - r0) nEvals
    let evaledEq := ramp e0 (e1 - e0) nEvals
    forN p.gates.length split fun i split => do
      let gate ← idx p.gates i
      forN nEvals split fun t split => do
        let vl ← idx evaledVL t
        let vr ← idx evaledVR t
        let e ← idx evaledEq t
        modIdx2 split i t (fun x => x + gate.eval vl vr * e)
  forN split.length (List.replicate nEvals (0 : F)) fun i res => do
    let row ← idx split i
    forN row.length res fun t res => do
      let v ← idx row t
      let s ← idx staticVals i
      modIdx res t (fun x => x + v * s)

/-- `GetEvalsOnHPrime`, sumcheck/evals.go:135-146. -/
def SProver.getEvalsOnHPrimeW (lim : Nat) (p : SProver F) : Go (List F) := do
  let staticVals ← mapGo (fun tab => idx tab 0) p.statics
  p.accumulateEvalsOnHPrimeW lim staticVals

/-- `SingleThreadedProver.Prove`, sumcheck/prover.go:60-110. The loops run from `0`, `bG` and `2*bG` up to `bG`, `2*bG` and
`bN+2*bG`; `PolyCoeffs` is made with length `bN+2*bG`. -/
def SProver.proveW (lim : Nat) (H : List F → F) (p : SProver F) : Go (SumcheckOut F) := do
  let n := p.eq.length
  let g ← wDiv p.vR.length n
  let bN ← log2CeilW n
  let bG ← log2CeilW g
  let twoBG := wMul 2 bG
  let _ ← wMake lim (wAdd bN twoBG)
  let (p, cL, qL) ← rounds H (SProver.getEvalsOnHLW lim) SProver.foldHL (wIter bG) p
  let (p, cR, qR) ← rounds H (SProver.getEvalsOnHRW lim) SProver.foldHR (sgn twoBG - sgn bG).toNat p
  let (p, cP, qPrime) ← rounds H (SProver.getEvalsOnHPrimeW lim) SProver.foldHPrime
    (sgn (wAdd bN twoBG) - sgn twoBG).toNat p
  let fc ← p.finalClaims
  return { polyCoeffs := cL ++ cR ++ cP, qPrime := qPrime, qL := qL, qR := qR, finalClaims := fc }

/-- `MultiThreadedProver.GetClaim`, sumcheck/par.go:61-78. -/
def MProver.getClaimW (lim : Nat) (p : MProver F) (nCore : Int) : Go F := do
  let nChunks := p.eq.length
  semaphoreSection nCore nChunks
  forN nChunks (0 : F) fun i res => do
    let sp ← p.subProver i
    let x ← sp.getClaimW lim
    return x + res

/-- `(bG, bN)` of `RunForChunk`, sumcheck/par.go:256-259. -/
def SProver.dimsW (sp : SProver F) : Go (Nat × Nat) := do
  let n := sp.eq.length
  let g ← wDiv sp.vR.length n
  let bN ← log2CeilW n
  let bG ← log2CeilW g
  return (bG, bN)

/-- The evaluations that `RunForChunk` sends in its `k`-th round, sumcheck/par.go:261-286. -/
def workerEvalsW (lim bG k : Nat) (sp : SProver F) : Go (List F) :=
  if k < bG then sp.getEvalsOnHLW lim else if k < 2 * bG then sp.getEvalsOnHRW lim else sp.getEvalsOnHPrimeW lim

/-- `MultiThreadedProver.Prove`, sumcheck/par.go:81-148, with the workers run in index order in each round. -/
def MProver.proveW (lim : Nat) (H : List F → F) (p : MProver F) (nCore : Int) : Go (SumcheckOut F) := do
  let nChunks := p.eq.length
  let eq0 ← idx p.eq 0
  let n := wMul nChunks eq0.length
  let vL0 ← idx p.vL 0
  let g ← wDiv (wMul nChunks vL0.length) n
  let bN ← log2CeilW n
  let bG ← log2CeilW g
  let logNChunk ← log2CeilW nChunks
  let _ ← wMake lim (wAdd bN (wMul 2 bG))
  semaphoreSection nCore nChunks
  let workers ← gen nChunks p.subProver
  let dims ← mapGo SProver.dimsW workers
  let total := wIter (wSub (wAdd (wMul 2 bG) bN) logNChunk)
  if dims.any (fun d => 2 * d.1 + d.2 ≠ total) then .error .deadlock
  else do
    let s ← forN total (workers, ([] : List (List F)), ([] : List F)) fun k s => do
      let msgs ← mapGo (fun x => workerEvalsW lim x.2.1 k x.1) (s.1.zip dims)
      let evals ← consumeAccumulate msgs
      let c ← interpolateOnRange evals
      let r := H c
      return ((s.1.zip dims).map (fun x => workerFold x.2.1 k x.1 r), s.2.1 ++ [c], s.2.2 ++ [r])
    let newP ← consumeMergeProvers nChunks ((List.range nChunks).zip s.1)
    let rest := (sgn (wAdd bN (wMul 2 bG)) - sgn (wSub (wAdd (wMul 2 bG) bN) logNChunk)).toNat
    let (newP, cF, qF) ← rounds H (SProver.getEvalsOnHPrimeW lim) SProver.foldHPrime rest newP
    let fc ← newP.finalClaims
    return { polyCoeffs := s.2.1 ++ cF,
             qL := s.2.2.take (wIter bG),
             qR := (s.2.2.drop (wIter bG)).take (wIter bG),
             qPrime := s.2.2.drop (wIter (wMul 2 bG)) ++ qF,
             finalClaims := fc }

/-- `Verify`, sumcheck/verifier.go:14-44. -/
def sumcheckVerifyW (H : List F → F) (claim : F) (polyCoeffs : List (List F)) (bG : Nat) :
    Go (Option (SumcheckVerdict F)) := do
  let r ← sumcheckVerifyLoop H polyCoeffs claim
  match r with
  | none => return none
  | some (challenges, expected) => do
    let qL ← sliceTo challenges bG
    let qR ← sliceBetween challenges bG (wMul 2 bG)
    let qPrime ← sliceFrom challenges (wMul 2 bG)
    return some { qPrime := qPrime, qL := qL, qR := qR, finalClaim := expected }

/-- `NewProver`, gkr/prover.go:27-34 (a negative `bN` panics at once here, see `newGkrProver`). -/
def newGkrProverW (c : Circuit F) (assignment : List (List (List F))) : Go (GkrProver F) := do
  let v0 ← idx assignment 0
  let v00 ← idx v0 0
  let l0 ← idx c.layers 0
  let lg ← log2CeilW (wMul v0.length v00.length)
  let bN := wSub lg l0.bGInputs
  if sgn bN < 0 then .error .makeNeg
  else return { bN := bN, circuit := c, assignment := assignment }

/-- `InitialRoundSumcheckProver`, gkr/prover.go:106-110, together with
`GetBookKeepingTablesForInitialRound`, gkr/prover.go:55-70. -/
def GkrProver.initialRoundW (lim : Nat) (p : GkrProver F) (qPrime q : List F) (nCore : Int) : Go (MProver F) := do
  let nLayers := p.circuit.layers.length
  let l ← idx p.circuit.layers (wSub nLayers 1)
  let statics ← getStaticTableW lim l q
  let vL ← layerAsBKTWithCopy p.assignment (wSub nLayers 1) nCore
  let vR ← layerAsBKTWithCopy p.assignment (wSub nLayers 1) nCore
  let eq ← getChunkedEqTableW lim qPrime vL.length nCore
  return newMProver vL vR eq l.gates statics

/-- `IntermediateRoundsSumcheckProver`, gkr/prover.go:113-121, together with
`GetBookKeepingTablesForIntermediateRound`, gkr/prover.go:73-103. -/
def GkrProver.intermediateRoundW (lim : Nat) (p : GkrProver F) (layer : Nat) (qPrime qL qR : List F)
    (lambdaL lambdaR : F) (nCore : Int) : Go (MProver F) := do
  let vL ← layerAsBKTWithCopy p.assignment layer nCore
  let vR ← layerAsBKTWithCopy p.assignment layer nCore
  let eq ← getChunkedEqTableW lim qPrime vL.length nCore
  let l ← idx p.circuit.layers layer
  let staticsL ← getStaticTableW lim l qL
  let staticsR ← getStaticTableW lim l qR
  let statics ← gen staticsL.length fun i => do
    let a ← idx staticsL i
    let b ← idx staticsR i
    linearCombination a b lambdaL lambdaR
  return newMProver vL vR eq l.gates statics

/-- The loop of `Prove`, gkr/prover.go:138-152. -/
def GkrProver.proveLayersW (lim : Nat) (H : List F → F) (p : GkrProver F) (nCore : Int) :
    Nat → SumcheckOut F → Go (List (SumcheckOut F))
  | 0, _ => .ok []
  | layer + 1, out => do
    let cl ← idx out.finalClaims 0
    let cr ← idx out.finalClaims 1
    let lambdaR := H [cl, cr]
    let mp ← p.intermediateRoundW lim layer out.qPrime out.qL out.qR 1 lambdaR nCore
    let out' ← mp.proveW lim H nCore
    let rest ← p.proveLayersW lim H nCore layer out'
    return rest ++ [out']

/-- `Prove`, gkr/prover.go:124-160. The loop runs from `nLayers-2` down to `0`. -/
def GkrProver.proveW (lim : Nat) (H : List F → F) (p : GkrProver F) (nCore : Int) : Go (GkrProof F) := do
  let nLayers := p.circuit.layers.length
  let l ← idx p.circuit.layers (wSub nLayers 1)
  let bN ← wMake lim p.bN
  let bG ← wMake lim l.bGOutputs
  let (qPrime, q) := getInitialQPrimeAndQ (F := F) bN bG
  let mp ← p.initialRoundW lim qPrime q nCore
  let out ← mp.proveW lim H nCore
  let rest ← p.proveLayersW lim H nCore (sgn (wSub nLayers 2) + 1).toNat out
  let outs := rest ++ [out]
  let cl ← mapGo (fun o : SumcheckOut F => idx o.finalClaims 0) outs
  let cr ← mapGo (fun o : SumcheckOut F => idx o.finalClaims 1) outs
  return { sumcheckProofs := outs.map (·.polyCoeffs), claimsLeft := cl, claimsRight := cr }

/-- `evaluateStaticTables`, gkr/verifier.go:116-123. -/
def evaluateStaticTablesW (lim : Nat) (l : Layer F) (q nextQL nextQR : List F) : Go (List F) := do
  let tables ← getStaticTableW lim l q
  mapGo (fun t => evaluate t (nextQL ++ nextQR)) tables

/-- `evaluateStaticTablesLinCombs`, gkr/verifier.go:125-138. -/
def evaluateStaticTablesLinCombsW (lim : Nat) (l : Layer F) (qL qR nextQL nextQR : List F)
    (lambdaL lambdaR : F) : Go (List F) := do
  let tablesL ← getStaticTableW lim l qL
  let tablesR ← getStaticTableW lim l qR
  gen tablesL.length fun i => do
    let tl ← idx tablesL i
    let left ← evaluate tl (nextQL ++ nextQR)
    let tr ← idx tablesR i
    let right ← evaluate tr (nextQL ++ nextQR)
    return left * lambdaL + right * lambdaR

/-- The final check of `Verify`, gkr/verifier.go:103-113. -/
def verifyInputsW (proof : GkrProof F) (inputs : List (List F)) (v : SumcheckVerdict F) : Go Bool := do
  let (actualVL, actualVR) ← evaluateMixedChunkedW inputs v.qPrime v.qL v.qR
  let cl ← idx proof.claimsLeft 0
  let cr ← idx proof.claimsRight 0
  if actualVL ≠ cl ∨ actualVR ≠ cr then return false else return true

/-- The loop of `Verify`, gkr/verifier.go:67-101, followed by the final check. -/
def verifyLayersW (lim : Nat) (H : List F → F) (c : Circuit F) (proof : GkrProof F) (inputs : List (List F)) :
    Nat → SumcheckVerdict F → Go Bool
  | 0, v => verifyInputsW proof inputs v
  | layer + 1, v => do
    let cl ← idx proof.claimsLeft (wAdd layer 1)
    let cr ← idx proof.claimsRight (wAdd layer 1)
    let lambdaR := H [cl, cr]
    let claim := cr * lambdaR + cl
    let sp ← idx proof.sumcheckProofs layer
    let l ← idx c.layers layer
    let res ← sumcheckVerifyW H claim sp l.bGInputs
    match res with
    | none => return false
    | some v' => do
      let eqEval ← evalEq v.qPrime v'.qPrime
      let vl ← idx proof.claimsLeft layer
      let vr ← idx proof.claimsRight layer
      let statics ← evaluateStaticTablesLinCombsW lim l v.qL v.qR v'.qL v'.qR 1 lambdaR
      let comb ← evaluateCombinator vl vr eqEval l.gates statics
      if v'.finalClaim ≠ comb then return true
      else verifyLayersW lim H c proof inputs layer v'

/-- `Verify`, gkr/verifier.go:27-114. -/
def gkrVerifyW (lim : Nat) (H : List F → F) (bN : Nat) (c : Circuit F) (proof : GkrProof F)
    (inputs outputs : List (List F)) : Go Bool := do
  let nLayers := c.layers.length
  let l ← idx c.layers (wSub nLayers 1)
  let n ← wMake lim bN
  let g ← wMake lim l.bGOutputs
  let (qPrime, q) := getInitialQPrimeAndQ (F := F) n g
  let claim ← evaluateChunkedW outputs (q ++ qPrime)
  let sp ← idx proof.sumcheckProofs (wSub nLayers 1)
  let res ← sumcheckVerifyW H claim sp l.bGInputs
  match res with
  | none => return false
  | some v => do
    let eqEval ← evalEq qPrime v.qPrime
    let vl ← idx proof.claimsLeft (wSub nLayers 1)
    let vr ← idx proof.claimsRight (wSub nLayers 1)
    let statics ← evaluateStaticTablesW lim l q v.qL v.qR
    let comb ← evaluateCombinator vl vr eqEval l.gates statics
    if v.finalClaim ≠ comb then return false
    else verifyLayersW lim H c proof inputs (sgn (wSub nLayers 2) + 1).toNat v

end Sumcheck

end GkrMimc
