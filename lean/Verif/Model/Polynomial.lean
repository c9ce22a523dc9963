import Verif.Go
import Verif.Model.Common
import Mathlib.Algebra.Field.Basic

/-! Value-level model of package `polynomial`. A `BookKeepingTable` (polynomial/book_keeping.go:12-14) is the list of
its `Table` entries; mutation through the pointer receiver is modelled by returning the new list.
The in-place behaviour (aliasing, capacity) is modelled separately in `Model/Heap.lean`. -/

namespace GkrMimc

variable {F : Type} [Field F]

/-- `NewBookKeepingTable`, polynomial/book_keeping.go:21-25 and `DeepCopy`, 75-79: identity on values. -/
abbrev Table (F : Type) := List F

/-- `InterleavedChunk`, polynomial/book_keeping.go:28-35. -/
def interleavedChunk (bkt : Table F) (on nChunk : Nat) : Go (Table F) := do
  let chunkSize ← goDiv bkt.length nChunk
  gen chunkSize fun i => idx bkt (on + i * nChunk)

/-- `Fold`, polynomial/book_keeping.go:38-49. Iteration `i` of the loop reads and writes only
`bottom[i]` and `top[i]`; the loop is written as a `zipWith` and the scratch left in `top` is dropped
(the heap model keeps it). `middleIndex` is `len/2` (67-69). -/
def fold (bkt : Table F) (r : F) : Table F :=
  let mid := bkt.length / 2
  List.zipWith (fun bottom top => bottom + (top - bottom) * r) (bkt.take mid) (bkt.drop mid)

/-- `FunctionEvals`, polynomial/book_keeping.go:55-65. -/
def functionEvals (bkt : Table F) : List F :=
  let mid := bkt.length / 2
  List.zipWith (fun bottom top => top - bottom) (bkt.take mid) (bkt.drop mid)

/-- `Evaluate`, polynomial/book_keeping.go:85-92 (folds a deep copy, then `Table[0]`). -/
def evaluate (bkt : Table F) (coordinates : List F) : Go F :=
  idx (coordinates.foldl fold bkt) 0

/-- `EvaluateLeftAndRight`, polynomial/book_keeping.go:98-112. -/
def evaluateLeftAndRight (bkt : Table F) (hPrime hL hR : List F) : Go (F × F) := do
  let left ← evaluate bkt (hL ++ hPrime)
  let right ← evaluate bkt (hR ++ hPrime)
  return (left, right)

/-- `LinearCombinationOfBookKeepingTables`, polynomial/book_keeping.go:116-133, returned table only.
The loop ranges over `prefoldedBKT1` and indexes `prefoldedBKT0`. -/
def linearCombination (bkt0 bkt1 : Table F) (a0 a1 : F) : Go (Table F) :=
  gen bkt1.length fun i => do
    let x0 ← idx bkt0 i
    let x1 ← idx bkt1 i
    return x1 * a1 + x0 * a0

/-- The destination after "reallocate if necessary, then resize", polynomial/book_keeping.go:142-147,
166-171, 195-201. `dst` is the content of the receiver's backing array up to its capacity. -/
def resizeDst (dst : List F) (size : Nat) : List F :=
  if dst.length < size then List.replicate size 0 else dst.take size

/-- `Add`, polynomial/book_keeping.go:136-152. -/
def tableAdd (dst left right : Table F) : Go (Table F) :=
  let size := left.length
  if right.length ≠ size then .error (.explicit "Left and right do not have the right size")
  else
    forN size (resizeDst dst size) fun i t => do
      let l ← idx left i
      let r ← idx right i
      setIdx t i (l + r)

/-- The parallel loop of `Sub`/`Mul` run chunk after chunk: `for i := Begin; i < End; i++ { bkt[i] = f(i) }`,
polynomial/book_keeping.go:173-184, 203-213. That every schedule gives this result is `Props` C09/C21. -/
def chunkLoop (chunks : List ChunkRange) (dst : Table F) (f : Nat → Go F) : Go (Table F) :=
  forEach chunks dst fun c t =>
    forFrom (fun i t => do let v ← f i; setIdx t i v) c.begin_ (c.end_ - c.begin_) t

/-- `Sub`, polynomial/book_keeping.go:155-185. -/
def tableSub (dst left right : Table F) (nCore : Int) : Go (Table F) := do
  let size := left.length
  let chunks ← intoChunkRanges nCore size
  newSemaphore nCore
  if right.length ≠ size then .error (.explicit "Left and right do not have the right size")
  else
    chunkLoop chunks (resizeDst dst size) fun i => do
      let l ← idx left i
      let r ← idx right i
      return l - r

/-- `Mul`, polynomial/book_keeping.go:188-214. -/
def tableMul (dst : Table F) (lambda : F) (x : Table F) (nCore : Int) : Go (Table F) := do
  let size := x.length
  let chunks ← intoChunkRanges nCore size
  newSemaphore nCore
  chunkLoop chunks (resizeDst dst size) fun i => do
    let v ← idx x i
    return v * lambda

/-- `EvalEq`, polynomial/eq.go:20-33. -/
def evalEq (qPrime nextQPrime : List F) : Go F :=
  forN qPrime.length 1 fun i res => do
    let q ← idx qPrime i
    let h ← idx nextQPrime i
    let nxt := q * h
    let nxt := nxt + nxt
    let nxt := nxt + 1
    let sum := q + h
    let nxt := nxt - sum
    return res * nxt

/-- One iteration of the inner loop of `GetFoldedEqTable`, polynomial/eq.go:48-53. -/
def foldedEqStep (n i : Nat) (r : F) (j : Nat) (t : Table F) : Go (Table F) := do
  let J := j <<< (n - i)
  let JNext := J + 1 <<< (n - 1 - i)
  let tJ ← idx t J
  let vNext := r * tJ
  let t ← setIdx t JNext vNext
  let tJ ← idx t J
  let tJNext ← idx t JNext
  setIdx t J (tJ - tJNext)

/-- `GetFoldedEqTable`, polynomial/eq.go:42-57. -/
def getFoldedEqTable (qPrime : List F) : Go (Table F) := do
  let n := qPrime.length
  let t0 ← setIdx (List.replicate (1 <<< n) (0 : F)) 0 1
  forN n t0 fun i t => do
    let r ← idx qPrime i
    forN (1 <<< i) t (foldedEqStep n i r)

/-- One iteration of the inner loop of `GetChunkedEqTable`, polynomial/eq.go:67-70. -/
def chunkedEqStep (logNChunks i : Nat) (r : F) (nCore : Int) (j : Nat) (res : List (Table F)) :
    Go (List (Table F)) := do
  let J := j <<< (logNChunks - i)
  let JNext := J + 1 <<< (logNChunks - 1 - i)
  let dst ← idx res JNext
  let x ← idx res J
  let m ← tableMul dst r x nCore
  let res ← setIdx res JNext m
  let left ← idx res J
  let right ← idx res JNext
  let s ← tableSub left left right nCore
  setIdx res J s

/-- `GetChunkedEqTable`, polynomial/eq.go:60-75. `nChunks` is a slice length in the callers. -/
def getChunkedEqTable (qPrime : List F) (nChunks : Nat) (nCore : Int) : Go (List (Table F)) := do
  let logNChunks := log2Ceil nChunks
  let cut ← goSubBound qPrime.length logNChunks
  let eq0 ← getFoldedEqTable (qPrime.take cut)
  let res ← setIdx (List.replicate nChunks ([] : Table F)) 0 eq0
  let qs ← sliceFrom qPrime cut
  forN qs.length res fun i res => do
    let r ← idx qs i
    forN (1 <<< i) res (chunkedEqStep logNChunks i r nCore)

/-- `AsChunkedBookKeepingTable`, polynomial/chunked.go:10-16: identity on values. -/
abbrev asChunkedBookKeepingTable (x : List (List F)) : List (Table F) := x

/-- One pass of the outer loop of `chunkedEvalRecombine`, polynomial/chunked.go:27-37. -/
def recombineStep (inp : List (Table F)) (q : F) : Go (List (Table F)) :=
  let mid := inp.length / 2
  gen mid fun k => do
    let hi ← idx inp (k + mid)
    let lo ← idx inp k
    let t ← tableSub [] hi lo 1
    let t ← tableMul t q t 1
    tableAdd t t lo

/-- `chunkedEvalRecombine`, polynomial/chunked.go:19-40. `res` is the Go variable of that name, which is
nil until the first pass of the loop; the state of the loop is `(inp, res)`. -/
def chunkedEvalRecombine (bkts : List (Table F)) (qs : List F) : Go (Table F) := do
  let logNChunks := log2Ceil bkts.length
  if logNChunks ≠ qs.length then .error (.explicit "q and bkts sizes are not compatible")
  else do
    let s ← forEach qs (bkts, ([] : List (Table F))) fun q s => do
      let res ← recombineStep s.1 q
      return (res, res)
    idx s.2 0

/-- `EvaluateChunked`, polynomial/chunked.go:43-47. -/
def evaluateChunked (bkts : List (Table F)) (q : List F) : Go F := do
  let logNChunks := log2Ceil bkts.length
  let cut ← goSubBound q.length logNChunks
  let recombined ← chunkedEvalRecombine bkts (q.drop cut)
  evaluate recombined (q.take cut)

/-- `EvaluateMixedChunked`, polynomial/chunked.go:50-58. -/
def evaluateMixedChunked (bkts : List (Table F)) (hPrime hL hR : List F) : Go (F × F) := do
  let logNChunks := log2Ceil bkts.length
  if logNChunks > hPrime.length then .error (.explicit "We can only chunks on hPrime")
  else do
    let recombined ← chunkedEvalRecombine bkts (hPrime.drop (hPrime.length - logNChunks))
    evaluateLeftAndRight recombined (hPrime.take (hPrime.length - logNChunks)) hL hR

/-- `EvaluatePolynomial`, polynomial/lagrange.go:31-39: Horner's rule from the last coefficient.
The loop `for i := len-2; i >= 0; i--` is run over `k = len-2-i`. -/
def evaluatePolynomial (coeffs : List F) (x : F) : Go F :=
  if coeffs.length = 0 then .error .index
  else do
    let last ← idx coeffs (coeffs.length - 1)
    forN (coeffs.length - 1) last fun k result => do
      let c ← idx coeffs (coeffs.length - 2 - k)
      return result * x + c

/-- The loops of `LagrangeCoefficient` that multiply the accumulator by the binomial `X - i`,
polynomial/lagrange.go:67-75 (`binomials[i] = [-i, 1]`, 44-50). -/
def mulBinomial (domainSize i : Nat) (accumulator : List F) : Go (List F) :=
  let binomial : List F := [-(i : F), 1]
  forN domainSize (List.replicate domainSize (0 : F)) fun j updated =>
    forN (min 2 (domainSize - j)) updated fun k updated => do
      let a ← idx accumulator j
      let b ← idx binomial k
      modIdx updated (j + k) (fun u => u + a * b)

/-- One iteration of the outer loop of `LagrangeCoefficient`: the `l`-th Lagrange polynomial,
polynomial/lagrange.go:54-89. -/
def lagrangeRow (domainSize l : Nat) : Go (List F) := do
  let acc0 ← setIdx (List.replicate domainSize (0 : F)) 0 1
  let acc ← forN domainSize acc0 fun i acc =>
    if i = l then .ok acc else mulBinomial domainSize i acc
  let normalizationFactor ← evaluatePolynomial acc (l : F)
  let inv := normalizationFactor⁻¹
  return acc.map (fun a => a * inv)

/-- `LagrangeCoefficient`, polynomial/lagrange.go:42-92. -/
def lagrangeCoefficient (domainSize : Nat) : Go (List (List F)) :=
  gen domainSize (fun l => lagrangeRow domainSize l)

/-- `maxDomainSize`, polynomial/lagrange.go:21. -/
def maxDomainSize : Nat := 12

/-- `GetLagrangePolynomial`, polynomial/lagrange.go:15-17: index into the table of
`maxDomainSize+1` matrices precomputed by `initLagrangePolynomials` (23-28). -/
def getLagrangePolynomial (domainSize : Nat) : Go (List (List F)) :=
  if domainSize < maxDomainSize + 1 then lagrangeCoefficient domainSize else .error .index

/-- `InterpolateOnRange`, polynomial/lagrange.go:96-111. -/
def interpolateOnRange (values : List F) : Go (List F) := do
  let nEvals := values.length
  let lagrange ← getLagrangePolynomial (F := F) nEvals
  forN nEvals (List.replicate nEvals (0 : F)) fun i result => do
    let value ← idx values i
    let row ← idx lagrange i
    forN row.length result fun j result => do
      let c ← idx row j
      modIdx result j (fun u => u + c * value)

end GkrMimc
