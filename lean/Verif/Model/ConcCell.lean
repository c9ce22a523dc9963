import Verif.Model.ConcHeap
import Verif.Model.Circuit

/-!
The worker pools of /repo (`Layer.Evaluate`, `LayerAsBKTWithCopy`, `Sub`, `Mul`) and `Circuit.Assign` as concurrent programs over
shared memory, where every read and every write of a cell is one step. Here also the slices of slices are in memory: a cell
holds a field element or a slice header.

* A gate reads its two operands once each (`Eval` of the cipher gate reads them several times, from the same cells).
* The local variable `tmp` and the chunk ranges of `Sub` and `Mul` are not in shared memory.
-/

namespace GkrMimc

/-- What a memory cell holds: a field element or the header of a slice. -/
inductive Cell (F : Type) where
  | elem (x : F)
  | hdr (s : Slice)

/-- The element in a cell (Go is typed, so only cells with elements are read as such). -/
def Cell.toElem {F : Type} [Zero F] : Cell F → F
  | .elem x => x
  | .hdr _ => 0

/-- The header in a cell. -/
def Cell.toHdr {F : Type} : Cell F → Slice
  | .elem _ => Slice.nil
  | .hdr s => s

/-- Code over memory with elements and headers. -/
abbrev CProg (F : Type) := Prog (Heap (Cell F)) (MsgH F)

variable {F : Type} [Field F] [DecidableEq F]

/-! ### Single accesses (Go language) -/

/-- Read `s[i]`. -/
def loadC (s : Slice) (i : Nat) (k : Cell F → CProg F) : CProg F :=
  if i < s.len then .mem (.read s.arr (s.off + i)) id (fun h => k (h.get s i)) else .crash .index

/-- Read the element `s[i]`. -/
def loadE (s : Slice) (i : Nat) (k : F → CProg F) : CProg F := loadC s i fun x => k x.toElem

/-- Read the header `s[i]`. -/
def loadS (s : Slice) (i : Nat) (k : Slice → CProg F) : CProg F := loadC s i fun x => k x.toHdr

/-- `s[i] = v`. -/
def storeC (s : Slice) (i : Nat) (v : Cell F) (k : CProg F) : CProg F :=
  if i < s.len then .mem (.write s.arr (s.off + i)) (fun h => h.put s i v) (fun _ => k) else .crash .index

/-- `make([]T, n)`, where `z` is the zero value of `T`. -/
def makeC (z : Cell F) (n : Nat) (k : Slice → CProg F) : CProg F :=
  .mem .alloc (fun h => h.alloc fun _ => z) (fun h => k ⟨h.next, 0, n, n⟩)

/-- `make([]fr.Element, n)`. -/
def makeE (n : Nat) (k : Slice → CProg F) : CProg F := makeC (.elem 0) n k

/-- `make([][]fr.Element, n)`, and likewise for slices of tables and of layers. -/
def makeS (n : Nat) (k : Slice → CProg F) : CProg F := makeC (.hdr Slice.nil) n k

/-- `for _, x := range xs { … }` for a local `xs`. -/
def eachP {α : Type} (body : α → CProg F → CProg F) (k : CProg F) : List α → CProg F
  | [] => k
  | x :: xs => body x (eachP body k xs)

/-- `copy(dst, src)`, for slices that do not overlap. -/
def copyC (dst src : Slice) (k : CProg F) : CProg F :=
  loopP (fun i _ next => loadC src i fun x => storeC dst i x (next ())) (fun _ => k) 0 (min dst.len src.len) ()

/-- The end of every job of a pool: `semaphore.Release(); wg.Done()`, e.g. circuit/layers.go:96-97. -/
def jobEndC (sem wg : Nat) : CProg F := releaseP sem .tok <| .wgDone wg <| .ret .tok

/-! ### circuit/layers.go, circuit/circuit.go -/

/-- The body of one goroutine of `Evaluate` between `Acquire` and `Release`, circuit/layers.go:78-95. -/
def Layer.evaluateJobC (l : Layer F) (inputs res : Slice) (i : Nat) (k : CProg F) : CProg F :=
  loadS inputs i fun inps =>
  let GInputs := 1 <<< l.bGInputs
  let GOutputs := 1 <<< l.bGOutputs
  let N := inps.len / GInputs
  makeE (N * GOutputs) fun subRes =>
  eachP (fun w next =>
      let wON := w.O * N
      let wLN := w.L * N
      let wRN := w.R * N
      loopP (fun h _ next =>
          loadE inps (wLN + h) fun vL =>
          loadE inps (wRN * N + h) fun vR =>
          let tmp := w.gate.eval vL vR
          loadE subRes (wON + h) fun x =>
          storeC subRes (wON + h) (.elem (x + tmp)) (next ()))
        (fun _ => next) 0 N ())
    (storeC res i (.hdr subRes) k) l.wires

/-- `Layer.Evaluate`, circuit/layers.go:68-102; the caller goes on with the header of the result. -/
def Layer.evaluateC (l : Layer F) (inputs : Slice) (nCore : Int) (k : Slice → CProg F) : CProg F :=
  makeS inputs.len fun res =>
  newSemaphoreP .tok nCore fun sem =>
  .wgNew inputs.len fun wg =>
  loopP (fun i _ next => .go (acquireP sem <| l.evaluateJobC inputs res i (jobEndC sem wg)) (next ()))
    (fun _ => .wgWait wg <| closeSemP sem <| k res) 0 inputs.len ()

/-- `Circuit.Assign`, circuit/circuit.go:37-47; the caller goes on with the header of `Assignment.Values`. -/
def Circuit.assignC (c : Circuit F) (inputs : Slice) (nCore : Int) (k : Slice → CProg F) : CProg F :=
  makeS (c.layers.length + 1) fun assignment =>
  storeC assignment 0 (.hdr inputs) <|
  loopP (fun i _ next =>
      liftGo (idx c.layers i) fun layer =>
      loadS assignment i fun cur =>
      layer.evaluateC cur nCore fun out =>
      storeC assignment (i + 1) (.hdr out) (next ()))
    (fun _ => k assignment) 0 c.layers.length ()

/-- `Assignment.LayerAsBKTWithCopy`, circuit/circuit.go:50-68; `values` is the header of `a.Values`. `res[i].Table` is the
header in cell `i` of `res`. -/
def layerAsBKTWithCopyC (values : Slice) (layer : Nat) (nCore : Int) (k : Slice → CProg F) : CProg F :=
  loadS values layer fun v =>
  makeS v.len fun res =>
  .wgNew v.len fun wg =>
  newSemaphoreP .tok nCore fun sem =>
  loopP (fun i _ next =>
      loadS v i fun tab => .go
      (acquireP sem <|
       makeE tab.len fun d =>
       storeC res i (.hdr d) <|
       loadS res i fun d =>
       copyC d tab <|
       jobEndC sem wg)
      (next ()))
    (fun _ => .wgWait wg <| closeSemP sem <| k res) 0 v.len ()

/-! ### polynomial/book_keeping.go -/

/-- "Reallocate the table if necessary" and "resize the destination table", e.g. polynomial/book_keeping.go:166-171; `bkt.Table` is the
header in the cell that `bkt` points to. -/
def resizeC (bkt : Slice) (size : Nat) (k : CProg F) : CProg F :=
  let resize : CProg F := loadS bkt 0 fun t => liftGo (t.sub 0 size) fun d => storeC bkt 0 (.hdr d) k
  loadS bkt 0 fun t =>
  if t.cap < size then makeE size fun d => storeC bkt 0 (.hdr d) resize else resize

/-- The parallel part of two methods of `BookKeepingTable`, without the set-up: of Sub, polynomial/book_keeping.go:173-184, and of
Mul, polynomial/book_keeping.go:203-213; `write i` is the statement in the inner loop, for index `i`. -/
def chunkLoopC (write : Nat → CProg F → CProg F) (chunks : List ChunkRange) (sem wg : Nat) (k : CProg F) : CProg F :=
  loopP (fun c _ next =>
      liftGo (idx chunks c) fun chunk =>
      acquireP sem <| .go
      (loopP (fun i _ next => write i (next ())) (fun _ => jobEndC sem wg) chunk.begin_ (chunk.end_ - chunk.begin_) ())
      (next ()))
    (fun _ => .wgWait wg k) 0 chunks.length ()

/-- `Sub`, polynomial/book_keeping.go:155-185. `bkt` points to the receiver. -/
def subC (bkt left right : Slice) (nCore : Int) (k : CProg F) : CProg F :=
  let size := left.len
  liftGo (intoChunkRanges nCore size) fun chunks =>
  newSemaphoreP .tok nCore fun sem =>
  .wgNew chunks.length fun wg =>
  if right.len ≠ size then .crash (.explicit "Left and right do not have the right size")
  else
    resizeC bkt size <|
    chunkLoopC (fun i next =>
        loadS bkt 0 fun d =>
        loadE left i fun x =>
        loadE right i fun y =>
        storeC d i (.elem (x - y)) next)
      chunks sem wg k

/-- `Mul`, polynomial/book_keeping.go:188-214. -/
def mulC (bkt : Slice) (lambda : F) (x : Slice) (nCore : Int) (k : CProg F) : CProg F :=
  let size := x.len
  liftGo (intoChunkRanges nCore size) fun chunks =>
  newSemaphoreP .tok nCore fun sem =>
  .wgNew chunks.length fun wg =>
  resizeC bkt size <|
  chunkLoopC (fun i next =>
      loadS bkt 0 fun d =>
      loadE x i fun y =>
      storeC d i (.elem (y * lambda)) next)
    chunks sem wg k

end GkrMimc
