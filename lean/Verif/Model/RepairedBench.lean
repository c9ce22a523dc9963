import Verif.Model.Harness
import Verif.Model.UnitTests

/-! **Not the code of /repo.** Copies of the test and benchmark code that falsifies a property, each with the faulty lines repaired;
the comment of each definition cites the original and says what is changed. Property C68 shows that the full claims hold of
these. A suffix `R` marks a repaired function or one that calls a repaired function. -/

namespace GkrMimc

variable {F : Type} [Field F] [DecidableEq F]

/-! ### The eq test -/

/-- `Assign`, snark/polynomial/eq_test.go:36-44, repaired: the inner loop ranges over `Q[k]`. -/
def EqTestCircuit.assignR (c : EqTestCircuit (Option F)) (H Q : List (List F)) : Go (EqTestCircuit (Option F)) :=
  forN H.length c fun k c => do
    let Qk ← idx Q k
    let h ← idx c.h k
    let q ← idx c.q k
    let (h, q) ← forN Qk.length (h, q) fun n (h, q) => do
      let x ← idx2 H k n
      let h ← slotsAssign h n x
      let y ← idx2 Q k n
      let q ← slotsAssign q n y
      return (h, q)
    let hs ← setIdx c.h k h
    let qs ← setIdx c.q k q
    let Hk ← idx H k
    let e ← evalEq Qk Hk
    let es ← slotsAssign c.expectedValue k e
    return ⟨hs, qs, es⟩

/-- `TestEq`, snark/polynomial/eq_test.go:54-83, with the repaired `Assign`. -/
def eqTestR (nTests testSize : Nat) (draw : Nat → F) : Cs F Unit := do
  let H := (List.range nTests).map fun k => randomFrArray draw (k * testSize) testSize
  let Q := (List.range nTests).map fun k => randomFrArray draw (nTests * testSize + k * testSize) testSize
  let w ← Cs.go (EqTestCircuit.assignR (allocateEqTest nTests testSize) H Q)
  let w ← Cs.go w.values
  w.define

/-! ### One prover per process -/

variable {C σ : Type}

/-- The goroutine of `benchmarkMIMCGKRProverMultiProcess`, part of `benchmarkMIMCGKRProverMultiProcess`,
examples/mimc_test.go:136-149, repaired: goroutine `k` gets its number as an argument and stores its proof in entry `k` of a slice
(array 0) instead of the global variable. -/
def benchWorkerR (k : Nat) (setup : Go σ) (run : σ → Go C) (wgReady wgGo wgDone : Nat) : Prog (Heap C) Unit :=
  liftBlock setup fun p =>
  .wgDone wgReady <|
  .wgWait wgGo <|
  liftBlock (run p) fun proof =>
  .mem (.write 0 k) (fun h => { h with cells := fun b j => if b = 0 ∧ j = k then proof else h.cells b j }) fun _ =>
  .wgDone wgDone (.ret ())

/-- One round of `benchmarkMIMCGKRProverMultiProcess`, part of `benchmarkMIMCGKRProverMultiProcess`,
examples/mimc_test.go:130-160, with the repaired goroutines; then `K`. -/
def benchRoundR (setup : Nat → Go σ) (run : σ → Go C) (n : Nat) (K : Prog (Heap C) Unit) : Prog (Heap C) Unit :=
  .wgNew n fun wgReady =>
  .wgNew 1 fun wgGo =>
  .wgNew n fun wgDone =>
  loopP (fun k _ next => .go (benchWorkerR k (setup k) run wgReady wgGo wgDone) (next ()))
    (fun _ => .wgWait wgReady <| .wgDone wgGo <| .wgWait wgDone K) 0 n ()

/-- The loop of `benchmarkMIMCGKRProverMultiProcess`, part of `benchmarkMIMCGKRProverMultiProcess`,
examples/mimc_test.go:129-161, with the repaired rounds. -/
def benchRoundsR (setup : Nat → Nat → Go σ) (run : σ → Go C) (n : Nat) : Nat → Nat → Prog (Heap C) Unit
  | _, 0 => .ret ()
  | i, N + 1 => benchRoundR (setup i) run n (benchRoundsR setup run n (i + 1) N)

/-- `benchmarkMIMCGKRProverMultiProcess`, examples/mimc_test.go:125-163, with the repaired rounds. -/
def benchmarkMultiR (H : List F → F) (toStr : F → String) (arks : List F) (draw : Nat → Nat → Nat → F) (bN : Nat)
    (nProcesses nCore : Int) (nChunks N : Nat) : Prog (Heap (GkrProof F)) Unit :=
  if nProcesses < 0 ∧ 0 < N then .crash (.explicit "sync: negative WaitGroup counter")
  else
    let n := nProcesses.toNat
    benchRoundsR (fun i k => benchSetup toStr arks (draw i k) (nChunks / n) (bN - log2Ceil n) (nCore.tdiv n))
      (fun p => p.prove H (nCore.tdiv n)) n 0 N

/-! ### Timer and recorders -/

variable {R : Type}

/-- `f.Close` of the file `name`. -/
def fileClose (name : String) : Bm R Unit := Bm.modify fun s => { s with opened := s.opened.erase name }

/-- `ProfileTrace`, common/profiling.go:13-44, repaired: `defer f.Close()` follows the creation of the trace file, and the timer is
stopped first. -/
def profileTraceR (bad : FileErrors) (name : String) (profiled traced : Bool) (fn : Bm R Unit) : Bm R Unit :=
  let timed : Bm R Unit := do
    startTimer
    Bm.deferring stopTimer fn
  let withProfile : Bm R Unit :=
    if profiled then do
      profileStart bad ("../profiling/" ++ name ++ "-pprof")
      Bm.deferring (profileStop ("../profiling/" ++ name ++ "-pprof")) timed
    else timed
  do
    stopTimer
    if traced then do
      osCreate bad ("../profiling/" ++ name ++ "-trace.out")
      Bm.deferring (fileClose ("../profiling/" ++ name ++ "-trace.out")) do
        traceStart ("../profiling/" ++ name ++ "-trace.out")
        Bm.deferring traceStop withProfile
    else withProfile

/-- `benchmarkMIMCCircuit`, examples/mimc_test.go:107-123, with the repaired `ProfileTrace`. -/
def timedProverR (bad : FileErrors) (name : String) (profiled traced : Bool) (setup : Nat → Go σ) (run : σ → Go C) (n : Nat) :
    Bm (Option C) Unit := do
  resetTimer
  Bm.forN n fun i => do
    stopTimer
    let p ← Bm.work (.setup i) (setup i)
    profileTraceR bad name profiled traced (runAndStore i (run p))

/-- The caller in `benchmarkMIMCGKRProverMultiProcess`, part of `benchmarkMIMCGKRProverMultiProcess`, examples/mimc_test.go:125-163,
with the repaired `ProfileTrace`. -/
def timedMultiR (bad : FileErrors) (name : String) (profiled traced : Bool) (setup : Nat → Go σ) (run : σ → Go C) (n : Nat) :
    Bm (Option C) Unit := do
  resetTimer
  stopTimer
  Bm.forN n fun i => do
    let p ← Bm.work (.setup i) (setup i)
    startTimer
    profileTraceR bad name profiled traced (runAndStore i (run p))
    stopTimer

/-- `benchmarkFullSumcheckProver`, sumcheck/prover_test.go:119-129, and the loops like it, with the repaired `ProfileTrace` and
the timer stopped before the first set-up. -/
def timedSumcheckR (bad : FileErrors) (name : String) (profiled traced : Bool) (setup : Nat → Go σ) (run : σ → Go C) (n : Nat) :
    Bm (Option C) Unit := do
  resetTimer
  Bm.forN n fun i => do
    stopTimer
    let p ← Bm.work (.setup i) (setup i)
    profileTraceR bad name profiled traced (runAndStore i (run p))

end GkrMimc
