import Verif.Model.HeapGkr

/-!
Memory-level model of the prover: `gkr/prover.go`, `sumcheck/par.go` and what they call. The tables that are folded in place are
slices. The methods that only read tables (`GetEvalsOnHL` …) are applied to the contents. The workers of one round run in index
order (all schedules are in `Model/ConcProve.lean`). Coefficients and claims are new slices in every call, never written after
they are filled; they are lists here.
-/

namespace GkrMimc

variable {F : Type} [Field F] [DecidableEq F]

/-- `for i := range xs { f(&xs[i]) }` for an `f` that uses memory. -/
def mapH {α : Type} (f : α → Heap F → Go (α × Heap F)) : List α → Heap F → Go (List α × Heap F)
  | [], h => .ok ([], h)
  | x :: xs, h => do
    let y ← f x h
    let ys ← mapH f xs y.2
    return (y.1 :: ys.1, ys.2)

/-! ### polynomial/eq.go -/

/-- One iteration of the inner loop of `GetFoldedEqTable`, polynomial/eq.go:49-52. -/
def foldedEqStepH (t : Slice) (n i : Nat) (r : F) (j : Nat) (h : Heap F) : Go (Heap F) := do
  let J := j <<< (n - i)
  let JNext := J + 1 <<< (n - 1 - i)
  let x ← h.load t J
  let h ← h.store t JNext (r * x)
  let x ← h.load t J
  let y ← h.load t JNext
  h.store t J (x - y)

/-- `GetFoldedEqTable`, polynomial/eq.go:42-57. -/
def getFoldedEqTableH (h : Heap F) (qPrime : Slice) : Go (Slice × Heap F) := do
  let n := qPrime.len
  let m := h.make (1 <<< n)
  let h ← m.2.store m.1 0 1
  let h ← forN n h fun i h => do
    let r ← h.load qPrime i
    forN (1 <<< i) h (foldedEqStepH m.1 n i r)
  return (m.1, h)

/-- One iteration of the inner loop of `GetChunkedEqTable`, polynomial/eq.go:67-70. -/
def chunkedEqStepH (logNChunks i : Nat) (r : F) (nCore : Int) (j : Nat) (s : List Slice × Heap F) :
    Go (List Slice × Heap F) := do
  let J := j <<< (logNChunks - i)
  let JNext := J + 1 <<< (logNChunks - 1 - i)
  let dst ← idx s.1 JNext
  let x ← idx s.1 J
  let m ← mulH s.2 dst r x nCore
  let res ← setIdx s.1 JNext m.1
  let left ← idx res J
  let right ← idx res JNext
  let d ← subH m.2 left left right nCore
  let res ← setIdx res J d.1
  return (res, d.2)

/-- `GetChunkedEqTable`, polynomial/eq.go:60-75. -/
def getChunkedEqTableH (h : Heap F) (qPrime : Slice) (nChunks : Nat) (nCore : Int) : Go (List Slice × Heap F) := do
  let logNChunks := log2Ceil nChunks
  let cut ← goSubBound qPrime.len logNChunks
  let q0 ← qPrime.sub 0 cut
  let eq0 ← getFoldedEqTableH h q0
  let res ← setIdx (List.replicate nChunks Slice.nil) 0 eq0.1
  let qs ← qPrime.sub cut qPrime.len
  forN qs.len (res, eq0.2) fun i s => do
    let r ← s.2.load qs i
    forN (1 <<< i) s (chunkedEqStepH logNChunks i r nCore)

/-! ### sumcheck -/

/-- `SingleThreadedProver`, sumcheck/prover.go:17-29; the degrees are functions of the gates. -/
structure SProverH (F : Type) where
  vL : Slice
  vR : Slice
  eq : Slice
  gates : List (Gate F)
  statics : List Slice

/-- What the methods that only read see. -/
def SProverH.toS (p : SProverH F) (h : Heap F) : SProver F :=
  newSProver (h.vals p.vL) (h.vals p.vR) (h.vals p.eq) p.gates (p.statics.map h.vals)

/-- `FoldHL`, sumcheck/prover.go:113-118. -/
def SProverH.foldHL (p : SProverH F) (r : F) (h : Heap F) : Go (SProverH F × Heap F) := do
  let s ← mapH (fun t h => foldH h t r) p.statics h
  let v ← foldH s.2 p.vL r
  return ({ p with statics := s.1, vL := v.1 }, v.2)

/-- `FoldHR`, sumcheck/prover.go:121-126. -/
def SProverH.foldHR (p : SProverH F) (r : F) (h : Heap F) : Go (SProverH F × Heap F) := do
  let s ← mapH (fun t h => foldH h t r) p.statics h
  let v ← foldH s.2 p.vR r
  return ({ p with statics := s.1, vR := v.1 }, v.2)

/-- `FoldHPrime`, sumcheck/prover.go:129-133. -/
def SProverH.foldHPrime (p : SProverH F) (r : F) (h : Heap F) : Go (SProverH F × Heap F) := do
  let a ← foldH h p.vR r
  let b ← foldH a.2 p.vL r
  let c ← foldH b.2 p.eq r
  return ({ p with vR := a.1, vL := b.1, eq := c.1 }, c.2)

/-- `MultiThreadedProver`, sumcheck/par.go:13-25. -/
structure MProverH (F : Type) where
  vL : List Slice
  vR : List Slice
  eq : List Slice
  gates : List (Gate F)
  statics : List Slice

/-- The contents of all the tables. -/
def MProverH.toM (p : MProverH F) (h : Heap F) : MProver F :=
  newMProver (p.vL.map h.vals) (p.vR.map h.vals) (p.eq.map h.vals) p.gates (p.statics.map h.vals)

/-- The sub-prover built at the start of `RunForChunk`, sumcheck/par.go:242-253. -/
def MProverH.subProver (p : MProverH F) (i : Nat) (h : Heap F) : Go (SProverH F × Heap F) := do
  let c ← mapH (fun t h => .ok (deepCopyH h t)) p.statics h
  let vL ← idx p.vL i
  let vR ← idx p.vR i
  let eq ← idx p.eq i
  return (⟨vL, vR, eq, p.gates, c.1⟩, c.2)

/-- The fold that `RunForChunk` performs at the end of its `k`-th round, sumcheck/par.go:261-286. -/
def workerFoldH (bG k : Nat) (r : F) (w : SProverH F) (h : Heap F) : Go (SProverH F × Heap F) :=
  if k < bG then w.foldHL r h else if k < 2 * bG then w.foldHR r h else w.foldHPrime r h

/-- `ConsumeMergeProvers`, sumcheck/par.go:152-182, on the list of `(I, P)` in arrival order. -/
def consumeMergeProversH (nToMerge : Nat) (l : List (Nat × SProverH F)) (h : Heap F) : Go (SProverH F × Heap F) := do
  let a := h.make nToMerge
  let b := a.2.make nToMerge
  let c := b.2.make nToMerge
  match l with
  | [] => .error .deadlock
  | m :: ms => do
    let h ← forEach (m :: ms) c.2 fun ip h => do
      let x ← h.load ip.2.vL 0
      let h ← h.store a.1 ip.1 x
      let x ← h.load ip.2.vR 0
      let h ← h.store b.1 ip.1 x
      let x ← h.load ip.2.eq 0
      h.store c.1 ip.1 x
    return (⟨a.1, b.1, c.1, m.2.gates, m.2.statics⟩, h)

/-- Output of `Prove`: the slices of challenges are read by the caller. -/
structure SumcheckOutH (F : Type) where
  polyCoeffs : List (List F)
  qPrime : Slice
  qL : Slice
  qR : Slice
  finalClaims : List F

/-- A new slice with given contents. -/
def newSlice (h : Heap F) (l : List F) : Go (Slice × Heap F) := makeFill h l.length fun i => l.getD i 0

/-- `MultiThreadedProver.Prove`, sumcheck/par.go:81-148. `qPrime`, `qL`, `qR` are allocated when complete. -/
def MProverH.prove (H : List F → F) (p : MProverH F) (nCore : Int) (h : Heap F) : Go (SumcheckOutH F × Heap F) := do
  let nChunks := p.eq.length
  let eq0 ← idx p.eq 0
  let n := nChunks * eq0.len
  let vL0 ← idx p.vL 0
  let g ← goDiv (nChunks * vL0.len) n
  let bN := log2Ceil n
  let bG := log2Ceil g
  let logNChunk := log2Ceil nChunks
  semaphoreSection nCore nChunks
  let workers ← genH p.subProver 0 nChunks h
  let dims ← mapGo SProver.dims (workers.1.map fun w => w.toS workers.2)
  let total := 2 * bG + bN - logNChunk
  if dims.any (fun d => 2 * d.1 + d.2 ≠ total) then .error .deadlock
  else do
    let s ← forN total (workers, ([] : List (List F)), ([] : List F)) fun k s => do
      let msgs ← mapGo (fun x => workerEvals x.2.1 k x.1) ((s.1.1.map fun w => w.toS s.1.2).zip dims)
      let evals ← consumeAccumulate msgs
      let c ← interpolateOnRange evals
      let r := H c
      let ws ← mapH (fun x h => do
        let w ← workerFoldH x.2.1 k r x.1 h
        return ((w.1, x.2), w.2)) (s.1.1.zip dims) s.1.2
      return ((ws.1.map (·.1), ws.2), s.2.1 ++ [c], s.2.2 ++ [r])
    let newP ← consumeMergeProversH nChunks ((List.range nChunks).zip s.1.1) s.1.2
    let f ← forN logNChunk (newP, ([] : List (List F)), ([] : List F)) fun _ s => do
      let e ← (s.1.1.toS s.1.2).getEvalsOnHPrime
      let c ← interpolateOnRange e
      let r := H c
      let q ← s.1.1.foldHPrime r s.1.2
      return (q, s.2.1 ++ [c], s.2.2 ++ [r])
    let fc ← (f.1.1.toS f.1.2).finalClaims
    let qPrime ← newSlice f.1.2 (s.2.2.drop (2 * bG) ++ f.2.2)
    let qL ← newSlice qPrime.2 (s.2.2.take bG)
    let qR ← newSlice qL.2 ((s.2.2.drop bG).take bG)
    return (⟨s.2.1 ++ f.2.1, qPrime.1, qL.1, qR.1, fc⟩, qR.2)

/-! ### gkr -/

/-- `LayerAsBKTWithCopy`, circuit/circuit.go:50-68, the goroutines in index order. -/
def layerAsBKTWithCopyH (values : List (List Slice)) (layer : Nat) (nCore : Int) (h : Heap F) : Go (List Slice × Heap F) := do
  let v ← idx values layer
  semaphoreSection nCore v.length
  mapH (fun t h => .ok (deepCopyH h t)) v h

/-- `LayerAsBKTNoCopy`, circuit/circuit.go:71-78. -/
def layerAsBKTNoCopyH (values : List (List Slice)) (layer : Nat) : Go (List Slice) := idx values layer

/-- `Prover`, gkr/prover.go:13-17. -/
structure GkrProverH (F : Type) where
  bN : Nat
  circuit : Circuit F
  assignment : List (List Slice)

/-- The contents of the assignment. -/
def GkrProverH.toG (p : GkrProverH F) (h : Heap F) : GkrProver F :=
  ⟨p.bN, p.circuit, p.assignment.map fun l => l.map h.vals⟩

/-- `InitialRoundSumcheckProver`, gkr/prover.go:106-110, together with
`GetBookKeepingTablesForInitialRound`, gkr/prover.go:55-70. -/
def GkrProverH.initialRound (p : GkrProverH F) (qPrime q : Slice) (nCore : Int) (h : Heap F) : Go (MProverH F × Heap F) := do
  let nLayers := p.circuit.layers.length
  let l ← idxPred p.circuit.layers nLayers
  let statics ← getStaticTableH h l q
  let vL ← layerAsBKTWithCopyH p.assignment (nLayers - 1) nCore statics.2
  let vR ← layerAsBKTWithCopyH p.assignment (nLayers - 1) nCore vL.2
  let eq ← getChunkedEqTableH vR.2 qPrime vL.1.length nCore
  return (⟨vL.1, vR.1, eq.1, l.gates, statics.1⟩, eq.2)

/-- `IntermediateRoundsSumcheckProver`, gkr/prover.go:113-121, together with
`GetBookKeepingTablesForIntermediateRound`, gkr/prover.go:73-103. -/
def GkrProverH.intermediateRound (p : GkrProverH F) (layer : Nat) (qPrime qL qR : Slice)
    (lambdaL lambdaR : F) (nCore : Int) (h : Heap F) : Go (MProverH F × Heap F) := do
  let vL ← layerAsBKTWithCopyH p.assignment layer nCore h
  let vR ← layerAsBKTWithCopyH p.assignment layer nCore vL.2
  let eq ← getChunkedEqTableH vR.2 qPrime vL.1.length nCore
  let l ← idx p.circuit.layers layer
  let staticsL ← getStaticTableH eq.2 l qL
  let staticsR ← getStaticTableH staticsL.2 l qR
  let statics ← genH (fun i h => do
    let a ← idx staticsL.1 i
    let b ← idx staticsR.1 i
    linearCombinationH h a b lambdaL lambdaR) 0 staticsL.1.length staticsR.2
  return (⟨vL.1, vR.1, eq.1, l.gates, statics.1⟩, statics.2)

/-- The loop of `Prove`, gkr/prover.go:138-152, for the layers `k-1, …, 0`. -/
def GkrProverH.proveLayers (H : List F → F) (p : GkrProverH F) (nCore : Int) :
    Nat → SumcheckOutH F → Heap F → Go (List (SumcheckOutH F) × Heap F)
  | 0, _, h => .ok ([], h)
  | layer + 1, out, h => do
    let cl ← idx out.finalClaims 0
    let cr ← idx out.finalClaims 1
    let lambdaR := H [cl, cr]
    let mp ← p.intermediateRound layer out.qPrime out.qL out.qR 1 lambdaR nCore h
    let out' ← mp.1.prove H nCore mp.2
    let rest ← p.proveLayers H nCore layer out'.1 out'.2
    return (rest.1 ++ [out'.1], rest.2)

/-- `Prove`, gkr/prover.go:124-160. -/
def GkrProverH.prove (H : List F → F) (p : GkrProverH F) (nCore : Int) (h : Heap F) : Go (GkrProof F × Heap F) := do
  let nLayers := p.circuit.layers.length
  let l ← idxPred p.circuit.layers nLayers
  let init ← getInitialQPrimeAndQH h p.bN l.bGOutputs
  let mp ← p.initialRound init.1.1 init.1.2 nCore init.2
  let out ← mp.1.prove H nCore mp.2
  let rest ← p.proveLayers H nCore (nLayers - 1) out.1 out.2
  let outs := rest.1 ++ [out.1]
  let cl ← mapGo (fun o : SumcheckOutH F => idx o.finalClaims 0) outs
  let cr ← mapGo (fun o : SumcheckOutH F => idx o.finalClaims 1) outs
  return ({ sumcheckProofs := outs.map (·.polyCoeffs), claimsLeft := cl, claimsRight := cr }, rest.2)

end GkrMimc
