import Verif.Model.ConcGkr

/-!
`gkr.Prover.Prove` as one concurrent program over shared memory, where every read and every write of a cell is one step: the tables of
a round (`ConcGkr`), then the sumcheck of the round (`ConcHeap`), and so on for all the layers. The workers of a sumcheck may still be
running (they release the semaphore and close a channel) when the caller is in the next round.

* `MProverH.proveP` is code over memory of elements; here it runs over memory of elements and headers (`overCells`).
* The caller reads the headers of the tables before the sumcheck; in the source every worker reads its own (`p.vL[chunkIndex]`,
  sumcheck/par.go:242-253). Nobody writes to these cells after the tables have been made.
* Challenges, coefficients and claims are only seen by the caller; they are lists.
-/

namespace GkrMimc

variable {F : Type} [Field F] [DecidableEq F]

/-- The elements in memory. -/
def Heap.elems (h : Heap (Cell F)) : Heap F := ⟨fun a i => (h.cells a i).toElem, h.next, h.extra⟩

/-- One access to memory of elements, on memory of elements and headers. -/
def onCells (a : Access) (f : Heap F → Heap F) (h : Heap (Cell F)) : Heap (Cell F) :=
  match a with
  | .read _ _ => h
  | .write b j => { h with cells := fun b' j' => if b' = b ∧ j' = j then .elem ((f h.elems).cells b j) else h.cells b' j' }
  | .alloc => { cells := Function.update h.cells h.next fun j => .elem ((f h.elems).cells h.next j), next := h.next + 1,
                extra := (f h.elems).extra }

/-- Code over memory of elements, on memory of elements and headers. (Such code has no `act`.) -/
def Prog.overCells : Prog (Heap F) (MsgH F) → CProg F
  | .ret r => .ret r
  | .crash e => .crash e
  | .make cap k => .make cap fun c => (k c).overCells
  | .send c v k => .send c v k.overCells
  | .recv c k => .recv c fun v => (k v).overCells
  | .close c k => .close c k.overCells
  | .go p k => .go p.overCells k.overCells
  | .wgNew n k => .wgNew n fun w => (k w).overCells
  | .wgDone w k => .wgDone w k.overCells
  | .wgWait w k => .wgWait w k.overCells
  | .act _ k => .act id k.overCells
  | .mem a f k => .mem a (onCells a f) fun h => (k h.elems).overCells

/-- Read all the headers of a slice of tables. -/
def readHdrsC (s : Slice) (k : List Slice → CProg F) : CProg F :=
  loopP (fun i xs next => loadS s i fun x => next (xs ++ [x])) k 0 s.len []

/-- The end of the functions that make the tables of a round: they return their headers. -/
def returnTables (l : Layer F) (t : RoundTables) : CProg F := .ret (.prover 0 ⟨t.vL, t.vR, t.eq, l.gates, [t.statics]⟩)

/-- A call of a function that makes the tables of a round, then `NewMultiThreadedProver`, sumcheck/par.go:33-58. -/
def thenProverC (tables : CProg F) (k : MProverH F → CProg F) : CProg F :=
  tables.andThen fun r => match r with
    | .prover _ ⟨vL, vR, eq, gates, [statics]⟩ =>
      readHdrsC vL fun vL => readHdrsC vR fun vR => readHdrsC eq fun eq => readHdrsC statics fun statics => k ⟨vL, vR, eq, gates, statics⟩
    | _ => .crash (.explicit "no tables")

/-- The call `prover.Prove(nCore)`, sumcheck/par.go:81-148. -/
def MProverH.proveC (H : List F → F) (p : MProverH F) (nCore : Int) (k : SumcheckOut F → CProg F) : CProg F :=
  (p.proveP H nCore).overCells.andThen fun r => match r with
    | .out o => k o
    | _ => .crash (.explicit "no proof")

/-- The loop of `Prove`, gkr/prover.go:138-152, for the layers `k-1, …, 0`. -/
def GkrProverC.proveLayersC (H : List F → F) (p : GkrProverC F) (nCore : Int) :
    Nat → SumcheckOut F → (List (SumcheckOut F) → CProg F) → CProg F
  | 0, _, k => k []
  | layer + 1, out, k =>
    liftGo (idx out.finalClaims 0) fun cl =>
    liftGo (idx out.finalClaims 1) fun cr =>
    thenProverC (p.intermediateTables layer out.qPrime out.qL out.qR 1 (H [cl, cr]) nCore returnTables) fun mp =>
    mp.proveC H nCore fun out' =>
    p.proveLayersC H nCore layer out' fun rest => k (rest ++ [out'])

/-- `Prove`, gkr/prover.go:124-160. -/
def GkrProverC.proveC (H : List F → F) (p : GkrProverC F) (nCore : Int) : CProg F :=
  let nLayers := p.circuit.layers.length
  liftGo (idxPred p.circuit.layers nLayers) fun l =>
  let qs := getInitialQPrimeAndQ (F := F) p.bN l.bGOutputs
  thenProverC (p.initialTables qs.1 qs.2 nCore returnTables) fun mp =>
  mp.proveC H nCore fun out =>
  p.proveLayersC H nCore (nLayers - 1) out fun rest =>
  let outs := rest ++ [out]
  liftGo (mapGo (fun o : SumcheckOut F => idx o.finalClaims 0) outs) fun cl =>
  liftGo (mapGo (fun o : SumcheckOut F => idx o.finalClaims 1) outs) fun cr =>
  .ret (.proof { sumcheckProofs := outs.map (·.polyCoeffs), claimsLeft := cl, claimsRight := cr })

/-- `NewProver`, gkr/prover.go:27-34, with a panic at once for a negative `bN`, as in `newGkrProver`. -/
def newGkrProverC (c : Circuit F) (values : Slice) (k : GkrProverC F → CProg F) : CProg F :=
  loadS values 0 fun v0 =>
  loadS values 0 fun v0' =>
  loadS v0' 0 fun v00 =>
  liftGo (idx c.layers 0) fun l0 =>
  let lg := log2Ceil ((v0.len * v00.len : Nat) : Int)
  if lg < l0.bGInputs then .crash .makeNeg else k ⟨lg - l0.bGInputs, c, values⟩

/-- `Assign`, then `NewProver` and `Prove`, as in examples/mimc_test.go:144-149. -/
def assignProveC (H : List F → F) (c : Circuit F) (inputs : Slice) (nCore : Int) : CProg F :=
  (c.assignC inputs nCore fun values => .ret (.slice values)).andThen fun r => match r with
    | .slice values => newGkrProverC c values fun p => p.proveC H nCore
    | _ => .crash (.explicit "no assignment")

end GkrMimc
