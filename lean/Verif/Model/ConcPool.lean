import Verif.Model.Conc
import Verif.Model.Sumcheck

/-!
The worker pools of /repo as concurrent programs. Every `act` is one access to memory shared between goroutines.
-/

namespace GkrMimc

variable {F : Type} [Field F] [DecidableEq F]

/-- The values that channels carry: tokens of a semaphore (`struct{}`), field elements, slices of field elements, sub-provers
with their index (`indexedProver`, sumcheck/par.go:27-30), and what `Prove` returns. -/
inductive Msg (F : Type) where
  | tok
  | elem (x : F)
  | vec (xs : List F)
  | prover (i : Nat) (p : SProver F)
  | out (o : SumcheckOut F)

/-- The end of every job of a pool: `semaphore.Release(); wg.Done()`, e.g. circuit/layers.go:96-97. -/
def jobEnd {M : Type} (sem wg : Nat) : Prog M (Msg F) := releaseP sem .tok <| .wgDone wg <| .ret .tok

/-- `Layer.Evaluate`, circuit/layers.go:68-102. The shared memory is the slice `res`. -/
def Layer.evaluateP (l : Layer F) (inputs : List (List F)) (nCore : Int) : Prog (List (List F)) (Msg F) :=
  newSemaphoreP .tok nCore fun sem =>
  .wgNew inputs.length fun wg =>
  loopP (fun i _ next => .go
      (acquireP sem <|
       liftGo (idx inputs i) fun inps =>
       liftGo (evaluateChunk l inps) fun subRes =>
       .act (fun res => res.set i subRes) <|
       jobEnd sem wg)
      (next ()))
    (fun _ => .wgWait wg <| closeSemP sem <| .ret .tok) 0 inputs.length ()

/-- `Assignment.LayerAsBKTWithCopy`, circuit/circuit.go:50-68; `values` is `a.Values`. The shared memory is the slice
`res`. -/
def layerAsBKTWithCopyP (values : List (List (List F))) (layer : Nat) (nCore : Int) : Prog (List (Table F)) (Msg F) :=
  liftGo (idx values layer) fun v =>
  .wgNew v.length fun wg =>
  newSemaphoreP .tok nCore fun sem =>
  loopP (fun i _ next =>
      liftGo (idx v i) fun tab => .go
      (acquireP sem <|
       .act (fun res => res.set i (List.replicate tab.length 0)) <|
       .act (fun res => res.set i tab) <|
       jobEnd sem wg)
      (next ()))
    (fun _ => .wgWait wg <| closeSemP sem <| .ret .tok) 0 v.length ()

/-- The parallel part of two methods of `BookKeepingTable`: of Sub, polynomial/book_keeping.go:157-161 and 173-184, and of
Mul, polynomial/book_keeping.go:190-193 and 203-213; `write i` is the statement in the inner loop, for index `i`. -/
def chunkedLoopP {M : Type} (write : Nat → M → M) (size : Nat) (nCore : Int) : Prog M (Msg F) :=
  liftGo (intoChunkRanges nCore size) fun chunks =>
  newSemaphoreP .tok nCore fun sem =>
  .wgNew chunks.length fun wg =>
  loopP (fun c _ next =>
      liftGo (idx chunks c) fun chunk =>
      acquireP sem <| .go
      (loopP (fun i _ next => .act (write i) (next ())) (fun _ => jobEnd sem wg) chunk.begin_ (chunk.end_ - chunk.begin_) ())
      (next ()))
    (fun _ => .wgWait wg <| .ret .tok) 0 chunks.length ()

/-- `bkt.Table[i].Sub(&left.Table[i], &right.Table[i])`, polynomial/book_keeping.go:177, on a receiver whose memory is not
shared with the operands (shared memory is in `Model/Heap.lean`). -/
def subWrite (left right : Table F) (i : Nat) (t : Table F) : Table F := t.set i (left.getD i 0 - right.getD i 0)

/-- `bkt.Table[i].Mul(&x.Table[i], &lambda)`, polynomial/book_keeping.go:207, likewise. -/
def mulWrite (lambda : F) (x : Table F) (i : Nat) (t : Table F) : Table F := t.set i (x.getD i 0 * lambda)

/-- `GetClaimForChunk`, sumcheck/par.go:211-230 (`Release` is deferred, so it comes last). -/
def MProver.getClaimForChunkP (p : MProver F) (i evalsChan sem : Nat) : Prog Unit (Msg F) :=
  acquireP sem <|
  liftGo (p.subProver i) fun sp =>
  liftGo sp.getClaim fun x =>
  .send evalsChan (.elem x) <|
  releaseP sem .tok <|
  .ret .tok

/-- Receive on a channel of field elements; a closed channel gives the zero value. -/
def recvElem {M : Type} (c : Nat) (k : F → Prog M (Msg F)) : Prog M (Msg F) :=
  .recv c fun v => match v with
    | some (.elem x) => k x
    | _ => k 0

/-- `MultiThreadedProver.GetClaim`, sumcheck/par.go:61-78. -/
def MProver.getClaimP (p : MProver F) (nCore : Int) : Prog Unit (Msg F) :=
  .make p.eq.length fun evalsChan =>
  newSemaphoreP .tok nCore fun sem =>
  loopP (fun i _ next => .go (p.getClaimForChunkP i evalsChan sem) (next ()))
    (fun _ => loopP (fun _ res next => recvElem evalsChan fun x => next (x + res)) (fun res => .ret (.elem res))
      0 p.eq.length (0 : F)) 0 p.eq.length ()

end GkrMimc
