import Verif.Model.ConcCell

/-!
What `gkr.Prover` does before each sumcheck, as concurrent programs over shared memory, where every read and every write of a cell is
one step. Challenges (`q`, `qPrime`, `qL`, `qR`) and coefficients are only seen by the caller; they are lists.
-/

namespace GkrMimc

variable {F : Type} [Field F] [DecidableEq F]

/-! ### polynomial/book_keeping.go, polynomial/eq.go -/

/-- `Fold`, polynomial/book_keeping.go:38-49; goes on with the new header of `bkt.Table`. -/
def foldC (bkt : Slice) (r : F) (k : Slice → CProg F) : CProg F :=
  let mid := bkt.len / 2
  liftGo (bkt.sub 0 mid) fun bottom =>
  liftGo (bkt.sub mid bkt.len) fun top =>
  loopP (fun i _ next =>
      loadE top i fun t =>
      loadE bottom i fun b =>
      storeC top i (.elem (t - b)) <|
      loadE top i fun t =>
      storeC top i (.elem (t * r)) <|
      loadE bottom i fun b =>
      loadE top i fun t =>
      storeC bottom i (.elem (b + t)) (next ()))
    (fun _ => liftGo (bkt.sub 0 mid) k) 0 bottom.len ()

/-- `LinearCombinationOfBookKeepingTables`, polynomial/book_keeping.go:116-133. -/
def linearCombinationC (bkt0 bkt1 : Slice) (a0 a1 : F) (k : Slice → CProg F) : CProg F :=
  loopP (fun i _ next =>
      loadE bkt0 i fun x =>
      storeC bkt0 i (.elem (x * a0)) <|
      loadE bkt1 i fun y =>
      storeC bkt1 i (.elem (y * a1)) <|
      loadE bkt1 i fun y =>
      loadE bkt0 i fun x =>
      storeC bkt1 i (.elem (y + x)) (next ()))
    (fun _ => k bkt1) 0 bkt1.len ()

/-- `GetFoldedEqTable`, polynomial/eq.go:42-57. -/
def getFoldedEqTableC (qPrime : List F) (k : Slice → CProg F) : CProg F :=
  let n := qPrime.length
  makeE (1 <<< n) fun t =>
  storeC t 0 (.elem 1) <|
  loopP (fun i _ next =>
      liftGo (idx qPrime i) fun r =>
      loopP (fun j _ next =>
          let J := j <<< (n - i)
          let JNext := J + 1 <<< (n - 1 - i)
          loadE t J fun x =>
          storeC t JNext (.elem (r * x)) <|
          loadE t J fun x =>
          loadE t JNext fun y =>
          storeC t J (.elem (x - y)) (next ()))
        (fun _ => next ()) 0 (1 <<< i) ())
    (fun _ => k t) 0 n ()

/-- `&s[i]`. -/
def Slice.at (s : Slice) (i : Nat) : Go Slice := if i < s.len then .ok ⟨s.arr, s.off + i, 1, 1⟩ else .error .index

/-- `GetChunkedEqTable`, polynomial/eq.go:60-75; `res[i].Table` is the header in cell `i` of `res`. -/
def getChunkedEqTableC (qPrime : List F) (nChunks : Nat) (nCore : Int) (k : Slice → CProg F) : CProg F :=
  let logNChunks := log2Ceil nChunks
  makeS nChunks fun res =>
  liftGo (goSubBound qPrime.length logNChunks) fun cut =>
  getFoldedEqTableC (qPrime.take cut) fun eq0 =>
  storeC res 0 (.hdr eq0) <|
  liftGo (sliceFrom qPrime cut) fun qs =>
  loopP (fun i _ next =>
      liftGo (idx qs i) fun r =>
      loopP (fun j _ next =>
          let J := j <<< (logNChunks - i)
          let JNext := J + 1 <<< (logNChunks - 1 - i)
          liftGo (res.at JNext) fun dst =>
          loadS res J fun x =>
          mulC dst r x nCore <|
          liftGo (res.at J) fun dst =>
          loadS res J fun left =>
          loadS res JNext fun right =>
          subC dst left right nCore (next ()))
        (fun _ => next ()) 0 (1 <<< i) ())
    (fun _ => k res) 0 qs.length ()

/-! ### circuit/layers.go -/

/-- `for _, r := range q { bkt.Fold(r) }`, circuit/layers.go:57-59. -/
def foldAllC : List F → Slice → (Slice → CProg F) → CProg F
  | [], bkt, k => k bkt
  | r :: q, bkt, k => foldC bkt r fun bkt => foldAllC q bkt k

/-- The unfolded table of one gate, part of `GetStaticTable`, circuit/layers.go:48-54. -/
def rawStaticTableC (l : Layer F) (gate : Gate F) (k : Slice → CProg F) : CProg F :=
  let gO := 1 <<< (2 * l.bGInputs)
  let gL := 1 <<< l.bGInputs
  makeE ((1 <<< l.bGOutputs) * (1 <<< (2 * l.bGInputs))) fun tab =>
  eachP (fun w next =>
      if w.gate.id = gate.id then
        loadE tab (gO * w.O + gL * w.L + w.R) fun x => storeC tab (gO * w.O + gL * w.L + w.R) (.elem (x + 1)) next
      else next)
    (k tab) l.wires

/-- `GetStaticTable`, circuit/layers.go:37-64. -/
def getStaticTableC (l : Layer F) (q : List F) (k : Slice → CProg F) : CProg F :=
  makeS l.gates.length fun res =>
  loopP (fun i _ next =>
      liftGo (idx l.gates i) fun gate =>
      rawStaticTableC l gate fun tab =>
      foldAllC q tab fun bkt =>
      storeC res i (.hdr bkt) (next ()))
    (fun _ => k res) 0 l.gates.length ()

/-! ### gkr/prover.go -/

/-- The tables of `GetBookKeepingTablesForInitialRound`, gkr/prover.go:55-70: headers of slices of tables. -/
structure RoundTables where
  vL : Slice
  vR : Slice
  eq : Slice
  statics : Slice

/-- `Prover`, gkr/prover.go:13-17; `values` is the header of `assignment.Values`. -/
structure GkrProverC (F : Type) where
  bN : Nat
  circuit : Circuit F
  values : Slice

/-- `GetBookKeepingTablesForInitialRound`, gkr/prover.go:55-70. -/
def GkrProverC.initialTables (p : GkrProverC F) (qPrime q : List F) (nCore : Int) (k : Layer F → RoundTables → CProg F) : CProg F :=
  let nLayers := p.circuit.layers.length
  liftGo (idxPred p.circuit.layers nLayers) fun l =>
  getStaticTableC l q fun statics =>
  layerAsBKTWithCopyC p.values (nLayers - 1) nCore fun vL =>
  layerAsBKTWithCopyC p.values (nLayers - 1) nCore fun vR =>
  getChunkedEqTableC qPrime vL.len nCore fun eq =>
  k l ⟨vL, vR, eq, statics⟩

/-- `GetBookKeepingTablesForIntermediateRound`, gkr/prover.go:73-103. -/
def GkrProverC.intermediateTables (p : GkrProverC F) (layer : Nat) (qPrime qL qR : List F) (lambdaL lambdaR : F) (nCore : Int)
    (k : Layer F → RoundTables → CProg F) : CProg F :=
  layerAsBKTWithCopyC p.values layer nCore fun vL =>
  layerAsBKTWithCopyC p.values layer nCore fun vR =>
  getChunkedEqTableC qPrime vL.len nCore fun eq =>
  liftGo (idx p.circuit.layers layer) fun l =>
  getStaticTableC l qL fun staticsL =>
  getStaticTableC l qR fun staticsR =>
  makeS staticsL.len fun statics =>
  loopP (fun i _ next =>
      loadS staticsL i fun a =>
      loadS staticsR i fun b =>
      linearCombinationC a b lambdaL lambdaR fun c =>
      storeC statics i (.hdr c) (next ()))
    (fun _ => k l ⟨vL, vR, eq, statics⟩) 0 statics.len ()

end GkrMimc
