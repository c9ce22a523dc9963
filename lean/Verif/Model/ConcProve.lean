import Verif.Model.ConcPool

/-!
`MultiThreadedProver.Prove` as a concurrent program. The tables of a sub-prover are written by one goroutine only (chunk `i`
belongs to worker `i`, the static tables are copied), so they are local state of the worker; the only shared objects are the
channels, the wait groups and the semaphore.
-/

namespace GkrMimc

variable {F : Type} [Field F] [DecidableEq F]

/-- Receive on a channel of slices; a closed channel gives a nil slice. -/
def recvVec (c : Nat) (k : List F → Prog Unit (Msg F)) : Prog Unit (Msg F) :=
  .recv c fun v => match v with
    | some (.vec xs) => k xs
    | _ => k []

/-- Receive on `finChan`; a closed channel gives the zero `indexedProver` (sumcheck/par.go:27-30). -/
def recvProver (c : Nat) (k : Nat → SProver F → Prog Unit (Msg F)) : Prog Unit (Msg F) :=
  .recv c fun v => match v with
    | some (.prover i p) => k i p
    | _ => k 0 ⟨[], [], [], [], [], 0, 0, 0⟩

/-- One turn of the three loops of `RunForChunk`, e.g. sumcheck/par.go:263-267. -/
def workerTurn (evals : SProver F → Go (List F)) (foldX : SProver F → F → SProver F) (evalsChan rChan sem : Nat)
    (sp : SProver F) (next : SProver F → Prog Unit (Msg F)) : Prog Unit (Msg F) :=
  liftGo (evals sp) fun e =>
  .send evalsChan (.vec e) <|
  releaseP sem .tok <|
  recvElem rChan fun r =>
  acquireP sem <|
  next (foldX sp r)

/-- `RunForChunk`, sumcheck/par.go:233-291. -/
def MProver.runForChunkP (p : MProver F) (i evalsChan rChan finChan sem : Nat) : Prog Unit (Msg F) :=
  acquireP sem <|
  liftGo (p.subProver i) fun sp =>
  liftGo sp.dims fun d =>
  loopP (fun _ => workerTurn SProver.getEvalsOnHL SProver.foldHL evalsChan rChan sem)
    (fun sp =>
      loopP (fun _ => workerTurn SProver.getEvalsOnHR SProver.foldHR evalsChan rChan sem)
        (fun sp =>
          loopP (fun _ => workerTurn SProver.getEvalsOnHPrime SProver.foldHPrime evalsChan rChan sem)
            (fun sp =>
              .send finChan (.prover i sp) <|
              releaseP sem .tok <|
              .close rChan <|
              .ret .tok)
            0 d.2 sp)
        0 d.1 sp)
    0 d.1 sp

/-- `for i := range res { res[i].Add(&res[i], &tmp[i]) }`, sumcheck/par.go:190-192. -/
def addMsg (tmp res : List F) : Go (List F) :=
  forN res.length res fun i res => do
    let t ← idx tmp i
    modIdx res i (fun x => x + t)

/-- `ConsumeAccumulate`, sumcheck/par.go:186-195. -/
def consumeAccumulateP (ch nToConsume : Nat) (k : List F → Prog Unit (Msg F)) : Prog Unit (Msg F) :=
  recvVec ch fun res =>
  loopP (fun _ res next => recvVec ch fun tmp => liftGo (addMsg tmp res) next) k 0 (nToConsume - 1) res

/-- The three new tables of `ConsumeMergeProvers` take the entry of one sub-prover, e.g. sumcheck/par.go:161-163. -/
def mergeMsg (i : Nat) (sp : SProver F) (s : List F × List F × List F) : Go (List F × List F × List F) := do
  let l ← idx sp.vL 0
  let a ← setIdx s.1 i l
  let r ← idx sp.vR 0
  let b ← setIdx s.2.1 i r
  let e ← idx sp.eq 0
  let c ← setIdx s.2.2 i e
  return (a, b, c)

/-- `ConsumeMergeProvers`, sumcheck/par.go:152-182. -/
def consumeMergeProversP (ch nToMerge : Nat) (k : SProver F → Prog Unit (Msg F)) : Prog Unit (Msg F) :=
  recvProver ch fun i0 sp0 =>
  liftGo (mergeMsg i0 sp0 (List.replicate nToMerge 0, List.replicate nToMerge 0, List.replicate nToMerge 0)) fun s =>
  loopP (fun _ s next => recvProver ch fun i sp => liftGo (mergeMsg i sp s) next)
    (fun s => k (newSProver s.1 s.2.1 s.2.2 sp0.gates sp0.statics)) 0 (nToMerge - 1) s

/-- `Broadcast`, sumcheck/par.go:198-208. -/
def broadcastP (chs : List Nat) (r : F) (k : Prog Unit (Msg F)) : Prog Unit (Msg F) :=
  .wgNew chs.length fun wg =>
  loopP (fun i _ next =>
      liftGo (idx chs i) fun ch =>
      .go (.send ch (.elem r) <| .wgDone wg <| .ret .tok) (next ()))
    (fun _ => .wgWait wg k) 0 chs.length ()

/-- `MultiThreadedProver.Prove`, sumcheck/par.go:81-148. As in `MProver.prove`, writes into the preallocated results are
written as appends. -/
def MProver.proveP (H : List F → F) (p : MProver F) (nCore : Int) : Prog Unit (Msg F) :=
  let nChunks := p.eq.length
  liftGo (idx p.eq 0) fun eq0 =>
  let n := nChunks * eq0.length
  liftGo (idx p.vL 0) fun vL0 =>
  liftGo (goDiv (nChunks * vL0.length) n) fun g =>
  let bN := log2Ceil n
  let bG := log2Ceil g
  let logNChunk := log2Ceil nChunks
  .make nChunks fun evalsChan =>
  .make nChunks fun finChan =>
  newSemaphoreP .tok nCore fun sem =>
  loopP (fun i chs next =>
      .make 1 fun rChan =>
      .go (p.runForChunkP i evalsChan rChan finChan sem) (next (chs ++ [rChan])))
    (fun rChans =>
      loopP (fun _ s next =>
          consumeAccumulateP evalsChan nChunks fun evals =>
          liftGo (interpolateOnRange evals) fun c =>
          broadcastP rChans (H c) (next (s.1 ++ [c], s.2 ++ [H c])))
        (fun (s : List (List F) × List F) =>
          consumeMergeProversP finChan nChunks fun newP =>
          liftGo (rounds H SProver.getEvalsOnHPrime SProver.foldHPrime logNChunk newP) fun t =>
          liftGo t.1.finalClaims fun fc =>
          .close evalsChan <|
          .close finChan <|
          .ret (.out { polyCoeffs := s.1 ++ t.2.1,
                       qL := s.2.take bG,
                       qR := (s.2.drop bG).take bG,
                       qPrime := s.2.drop (2 * bG) ++ t.2.2,
                       finalClaims := fc }))
        0 (2 * bG + bN - logNChunk) ([], []))
    0 nChunks []

end GkrMimc
