import Verif.Model.ConcProve
import Verif.Model.HeapProve

/-!
`MultiThreadedProver.Prove` and `GetClaim` as concurrent programs over shared memory, where every read and every write of a cell
of a slice of field elements is one step: goroutines may interleave between any two accesses.

* Slices sent on channels are headers: sender and receiver see the same cells.
* The methods that only read the tables (`GetEvalsOnHL`, `GetEvalsOnHR`, `GetEvalsOnHPrime`, `GetClaim`, `InterpolateOnRange`)
  first read all the cells of their tables, one step each, and then compute on the values.
* The results of `Prove` (coefficients, challenges, claims) are never shared; they are lists.
-/

namespace GkrMimc

variable {F : Type} [Field F] [DecidableEq F]

/-- The values that channels carry; slices and sub-provers (`indexedProver`, sumcheck/par.go:27-30) are headers. -/
inductive MsgH (F : Type) where
  | tok
  | elem (x : F)
  | slice (s : Slice)
  | prover (i : Nat) (p : SProverH F)
  | out (o : SumcheckOut F)
  | proof (p : GkrProof F)

/-! ### Single accesses (Go language) -/

/-- Read `s[i]`. -/
def loadP (s : Slice) (i : Nat) (k : F → Prog (Heap F) (MsgH F)) : Prog (Heap F) (MsgH F) :=
  if i < s.len then .mem (.read s.arr (s.off + i)) id (fun h => k (h.get s i)) else .crash .index

/-- `s[i] = v`. -/
def storeP (s : Slice) (i : Nat) (v : F) (k : Prog (Heap F) (MsgH F)) : Prog (Heap F) (MsgH F) :=
  if i < s.len then .mem (.write s.arr (s.off + i)) (fun h => h.put s i v) (fun _ => k) else .crash .index

/-- `make([]fr.Element, n)`. -/
def makeP (n : Nat) (k : Slice → Prog (Heap F) (MsgH F)) : Prog (Heap F) (MsgH F) :=
  .mem .alloc (fun h => (h.make n).2) (fun h => k (h.make n).1)

/-- `for i, x := range xs { res[i] = f(x) }` for local `xs`, `res`. -/
def mapP {α β : Type} (f : α → (β → Prog (Heap F) (MsgH F)) → Prog (Heap F) (MsgH F)) :
    List α → (List β → Prog (Heap F) (MsgH F)) → Prog (Heap F) (MsgH F)
  | [], k => k []
  | x :: xs, k => f x fun y => mapP f xs fun ys => k (y :: ys)

/-- Read all the cells of a slice. -/
def readP (s : Slice) (k : List F → Prog (Heap F) (MsgH F)) : Prog (Heap F) (MsgH F) :=
  loopP (fun i xs next => loadP s i fun x => next (xs ++ [x])) k 0 s.len []

/-- A new slice, filled with given values. -/
def newSliceP (l : List F) (k : Slice → Prog (Heap F) (MsgH F)) : Prog (Heap F) (MsgH F) :=
  makeP l.length fun d => loopP (fun i _ next => storeP d i (l.getD i 0) (next ())) (fun _ => k d) 0 l.length ()

/-! ### polynomial/book_keeping.go -/

/-- `DeepCopy`, polynomial/book_keeping.go:75-79. -/
def deepCopyP (s : Slice) (k : Slice → Prog (Heap F) (MsgH F)) : Prog (Heap F) (MsgH F) :=
  makeP s.len fun d => loopP (fun i _ next => loadP s i fun x => storeP d i x (next ())) (fun _ => k d) 0 s.len ()

/-- `Fold`, polynomial/book_keeping.go:38-49; goes on with the new header of `bkt.Table`. -/
def foldP (bkt : Slice) (r : F) (k : Slice → Prog (Heap F) (MsgH F)) : Prog (Heap F) (MsgH F) :=
  let mid := bkt.len / 2
  liftGo (bkt.sub 0 mid) fun bottom =>
  liftGo (bkt.sub mid bkt.len) fun top =>
  loopP (fun i _ next =>
      loadP top i fun t =>
      loadP bottom i fun b =>
      storeP top i (t - b) <|
      loadP top i fun t =>
      storeP top i (t * r) <|
      loadP bottom i fun b =>
      loadP top i fun t =>
      storeP bottom i (b + t) (next ()))
    (fun _ => liftGo (bkt.sub 0 mid) k) 0 bottom.len ()

/-! ### sumcheck/prover.go -/

/-- The methods that only read see the contents of all the tables. -/
def SProverH.readP (w : SProverH F) (k : SProver F → Prog (Heap F) (MsgH F)) : Prog (Heap F) (MsgH F) :=
  GkrMimc.readP w.vL fun l =>
  GkrMimc.readP w.vR fun r =>
  GkrMimc.readP w.eq fun e =>
  mapP GkrMimc.readP w.statics fun ss => k (newSProver l r e w.gates ss)

/-- `FoldHL`, sumcheck/prover.go:113-118. -/
def SProverH.foldHLP (w : SProverH F) (r : F) (k : SProverH F → Prog (Heap F) (MsgH F)) : Prog (Heap F) (MsgH F) :=
  mapP (fun t => foldP t r) w.statics fun ss =>
  foldP w.vL r fun v => k { w with statics := ss, vL := v }

/-- `FoldHR`, sumcheck/prover.go:121-126. -/
def SProverH.foldHRP (w : SProverH F) (r : F) (k : SProverH F → Prog (Heap F) (MsgH F)) : Prog (Heap F) (MsgH F) :=
  mapP (fun t => foldP t r) w.statics fun ss =>
  foldP w.vR r fun v => k { w with statics := ss, vR := v }

/-- `FoldHPrime`, sumcheck/prover.go:129-133. -/
def SProverH.foldHPrimeP (w : SProverH F) (r : F) (k : SProverH F → Prog (Heap F) (MsgH F)) : Prog (Heap F) (MsgH F) :=
  foldP w.vR r fun a =>
  foldP w.vL r fun b =>
  foldP w.eq r fun c => k { w with vR := a, vL := b, eq := c }

/-! ### sumcheck/par.go -/

/-- Receive on a channel of field elements; a closed channel gives the zero value. -/
def recvElemH (c : Nat) (k : F → Prog (Heap F) (MsgH F)) : Prog (Heap F) (MsgH F) :=
  .recv c fun v => match v with
    | some (.elem x) => k x
    | _ => k 0

/-- Receive on a channel of slices; a closed channel gives a nil slice. -/
def recvSliceH (c : Nat) (k : Slice → Prog (Heap F) (MsgH F)) : Prog (Heap F) (MsgH F) :=
  .recv c fun v => match v with
    | some (.slice s) => k s
    | _ => k Slice.nil

/-- Receive on `finChan`; a closed channel gives the zero `indexedProver` (sumcheck/par.go:27-30). -/
def recvProverH (c : Nat) (k : Nat → SProverH F → Prog (Heap F) (MsgH F)) : Prog (Heap F) (MsgH F) :=
  .recv c fun v => match v with
    | some (.prover i p) => k i p
    | _ => k 0 ⟨Slice.nil, Slice.nil, Slice.nil, [], []⟩

/-- The sub-prover built at the start of `RunForChunk`, sumcheck/par.go:242-253, and of `GetClaimForChunk`,
sumcheck/par.go:215-226. -/
def MProverH.subProverP (p : MProverH F) (i : Nat) (k : SProverH F → Prog (Heap F) (MsgH F)) : Prog (Heap F) (MsgH F) :=
  mapP deepCopyP p.statics fun copies =>
  liftGo (idx p.vL i) fun vL =>
  liftGo (idx p.vR i) fun vR =>
  liftGo (idx p.eq i) fun eq =>
  k ⟨vL, vR, eq, p.gates, copies⟩

/-- One turn of the three loops of `RunForChunk`, e.g. sumcheck/par.go:263-267. -/
def workerTurnH (evals : SProver F → Go (List F))
    (foldX : SProverH F → F → (SProverH F → Prog (Heap F) (MsgH F)) → Prog (Heap F) (MsgH F)) (evalsChan rChan sem : Nat)
    (w : SProverH F) (next : SProverH F → Prog (Heap F) (MsgH F)) : Prog (Heap F) (MsgH F) :=
  w.readP fun sp =>
  liftGo (evals sp) fun e =>
  newSliceP e fun s =>
  .send evalsChan (.slice s) <|
  releaseP sem .tok <|
  recvElemH rChan fun r =>
  acquireP sem <|
  foldX w r next

/-- `RunForChunk`, sumcheck/par.go:233-291. -/
def MProverH.runForChunkP (p : MProverH F) (i evalsChan rChan finChan sem : Nat) : Prog (Heap F) (MsgH F) :=
  acquireP sem <|
  p.subProverP i fun w =>
  liftGo (goDiv w.vR.len w.eq.len) fun g =>
  let bN := log2Ceil w.eq.len
  let bG := log2Ceil g
  loopP (fun _ => workerTurnH SProver.getEvalsOnHL SProverH.foldHLP evalsChan rChan sem)
    (fun w =>
      loopP (fun _ => workerTurnH SProver.getEvalsOnHR SProverH.foldHRP evalsChan rChan sem)
        (fun w =>
          loopP (fun _ => workerTurnH SProver.getEvalsOnHPrime SProverH.foldHPrimeP evalsChan rChan sem)
            (fun w =>
              .send finChan (.prover i w) <|
              releaseP sem .tok <|
              .close rChan <|
              .ret .tok)
            0 bN w)
        0 bG w)
    0 bG w

/-- `for i := range res { res[i].Add(&res[i], &tmp[i]) }`, sumcheck/par.go:190-192. -/
def addMsgP (tmp res : Slice) (k : Prog (Heap F) (MsgH F)) : Prog (Heap F) (MsgH F) :=
  loopP (fun i _ next =>
      loadP res i fun x =>
      loadP tmp i fun y =>
      storeP res i (x + y) (next ()))
    (fun _ => k) 0 res.len ()

/-- `ConsumeAccumulate`, sumcheck/par.go:186-195. -/
def consumeAccumulateH (ch nToConsume : Nat) (k : Slice → Prog (Heap F) (MsgH F)) : Prog (Heap F) (MsgH F) :=
  recvSliceH ch fun res =>
  loopP (fun _ _ next => recvSliceH ch fun tmp => addMsgP tmp res (next ())) (fun _ => k res) 0 (nToConsume - 1) ()

/-- The three new tables of `ConsumeMergeProvers` take the entry of one sub-prover, e.g. sumcheck/par.go:161-163. -/
def mergeMsgP (i : Nat) (w : SProverH F) (newVL newVR newEq : Slice) (k : Prog (Heap F) (MsgH F)) : Prog (Heap F) (MsgH F) :=
  loadP w.vL 0 fun x =>
  storeP newVL i x <|
  loadP w.vR 0 fun x =>
  storeP newVR i x <|
  loadP w.eq 0 fun x =>
  storeP newEq i x k

/-- `ConsumeMergeProvers`, sumcheck/par.go:152-182. -/
def consumeMergeProversPH (ch nToMerge : Nat) (k : SProverH F → Prog (Heap F) (MsgH F)) : Prog (Heap F) (MsgH F) :=
  makeP nToMerge fun newVL =>
  makeP nToMerge fun newVR =>
  makeP nToMerge fun newEq =>
  recvProverH ch fun i0 w0 =>
  mergeMsgP i0 w0 newVL newVR newEq <|
  loopP (fun _ _ next => recvProverH ch fun i w => mergeMsgP i w newVL newVR newEq (next ()))
    (fun _ => k ⟨newVL, newVR, newEq, w0.gates, w0.statics⟩) 0 (nToMerge - 1) ()

/-- `Broadcast`, sumcheck/par.go:198-208. -/
def broadcastH (chs : List Nat) (r : F) (k : Prog (Heap F) (MsgH F)) : Prog (Heap F) (MsgH F) :=
  .wgNew chs.length fun wg =>
  loopP (fun i _ next =>
      liftGo (idx chs i) fun ch =>
      .go (.send ch (.elem r) <| .wgDone wg <| .ret .tok) (next ()))
    (fun _ => .wgWait wg k) 0 chs.length ()

/-- The final claims, sumcheck/par.go:136-141. -/
def SProverH.finalClaimsP (w : SProverH F) (k : List F → Prog (Heap F) (MsgH F)) : Prog (Heap F) (MsgH F) :=
  loadP w.vL 0 fun l =>
  loadP w.vR 0 fun r =>
  loadP w.eq 0 fun e =>
  mapP (fun t => loadP t 0) w.statics fun ss => k (l :: r :: e :: ss)

/-- `MultiThreadedProver.Prove`, sumcheck/par.go:81-148. As in `MProver.prove`, writes into the preallocated results are
written as appends. -/
def MProverH.proveP (H : List F → F) (p : MProverH F) (nCore : Int) : Prog (Heap F) (MsgH F) :=
  let nChunks := p.eq.length
  liftGo (idx p.eq 0) fun eq0 =>
  let n := nChunks * eq0.len
  liftGo (idx p.vL 0) fun vL0 =>
  liftGo (goDiv (nChunks * vL0.len) n) fun g =>
  let bN := log2Ceil n
  let bG := log2Ceil g
  let logNChunk := log2Ceil nChunks
  .make nChunks fun evalsChan =>
  .make nChunks fun finChan =>
  newSemaphoreP .tok nCore fun sem =>
  loopP (fun i chs next =>
      .make 1 fun rChan =>
      .go (p.runForChunkP i evalsChan rChan finChan sem) (next (chs ++ [rChan])))
    (fun rChans =>
      loopP (fun _ s next =>
          consumeAccumulateH evalsChan nChunks fun evals =>
          GkrMimc.readP evals fun e =>
          liftGo (interpolateOnRange e) fun c =>
          broadcastH rChans (H c) (next (s.1 ++ [c], s.2 ++ [H c])))
        (fun (s : List (List F) × List F) =>
          consumeMergeProversPH finChan nChunks fun newP =>
          loopP (fun _ t next =>
              t.1.readP fun sp =>
              liftGo sp.getEvalsOnHPrime fun e =>
              liftGo (interpolateOnRange e) fun c =>
              t.1.foldHPrimeP (H c) fun w => next (w, t.2.1 ++ [c], t.2.2 ++ [H c]))
            (fun (t : SProverH F × List (List F) × List F) =>
              t.1.finalClaimsP fun fc =>
              .close evalsChan <|
              .close finChan <|
              .ret (.out { polyCoeffs := s.1 ++ t.2.1,
                           qL := s.2.take bG,
                           qR := (s.2.drop bG).take bG,
                           qPrime := s.2.drop (2 * bG) ++ t.2.2,
                           finalClaims := fc }))
            0 logNChunk (newP, [], []))
        0 (2 * bG + bN - logNChunk) ([], []))
    0 nChunks []

/-- `GetClaimForChunk`, sumcheck/par.go:211-230; `Release` is deferred. -/
def MProverH.getClaimForChunkP (p : MProverH F) (i evalsChan sem : Nat) : Prog (Heap F) (MsgH F) :=
  acquireP sem <|
  p.subProverP i fun w =>
  w.readP fun sp =>
  liftGo sp.getClaim fun x =>
  .send evalsChan (.elem x) <|
  releaseP sem .tok <|
  .ret .tok

/-- `MultiThreadedProver.GetClaim`, sumcheck/par.go:61-78. -/
def MProverH.getClaimP (p : MProverH F) (nCore : Int) : Prog (Heap F) (MsgH F) :=
  .make p.eq.length fun evalsChan =>
  newSemaphoreP .tok nCore fun sem =>
  loopP (fun i _ next => .go (p.getClaimForChunkP i evalsChan sem) (next ()))
    (fun _ => loopP (fun _ res next => recvElemH evalsChan fun x => next (x + res)) (fun res => .ret (.elem res))
      0 p.eq.length (0 : F)) 0 p.eq.length ()

end GkrMimc
