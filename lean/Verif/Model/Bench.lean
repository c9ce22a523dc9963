import Verif.Model.Tests
import Verif.Model.Conc
import Verif.Model.Heap

/-! Model of the two benchmarks of the repository, examples/mimc_test.go:105-163. The random values that they draw are a
parameter; timers and `ProfileTrace` (which here runs its function once) are left out. -/

namespace GkrMimc

variable {F : Type} [Field F] [DecidableEq F]

/-- The set-up of a prover, part of `benchmarkMIMCCircuit`, examples/mimc_test.go:112-117, and of
`benchmarkMIMCGKRProverMultiProcess`, 140-145; `bN` is negative if there are more processes than instances, and then the
shift of line 19 panics. -/
def benchSetup (toStr : F → String) (arks : List F) (draw : Nat → F) (nChunks : Nat) (bN : Int) (nCore : Int) :
    Go (GkrProver F) := do
  let c ← createMimcCircuit toStr arks
  if bN < 0 then .error (.explicit "negative shift amount")
  let inputs ← randomInputs draw nChunks bN.toNat
  let values ← c.assign inputs nCore
  newGkrProver c values

/-- `benchmarkMIMCCircuit`, examples/mimc_test.go:107-123, with `b.N = n`; `draw i` are the values drawn in round `i`. The result
is the final value of the global variable `_mimcProof` (line 105), `none` if there is no round. -/
def benchmarkMimc (H : List F → F) (toStr : F → String) (arks : List F) (draw : Nat → Nat → F) (bN : Nat) (nCore : Int)
    (nChunks n : Nat) : Go (Option (GkrProof F)) :=
  forN n none fun i _ => do
    let prover ← benchSetup toStr arks (draw i) nChunks bN 1
    let proof ← prover.prove H nCore
    return some proof

/-! ### One prover per process -/

variable {C σ : Type}

/-- A computation of a goroutine; where it would wait for ever on a semaphore of its own, the goroutine waits for ever. -/
def liftBlock {M α : Type} (x : Go α) (k : α → Prog M Unit) : Prog M Unit :=
  match x with
  | .ok a => k a
  | .error .deadlock => .make 0 fun c => .recv c fun _ => .ret ()
  | .error e => .crash e

/-- What the goroutines of `benchmarkMIMCGKRProverMultiProcess` do, part of `benchmarkMIMCGKRProverMultiProcess`,
examples/mimc_test.go:136-149, for any set-up and any computation: the global variable is cell 0 of array 0. -/
def benchWorker (setup : Go σ) (run : σ → Go C) (wgReady wgGo wgDone : Nat) : Prog (Heap C) Unit :=
  liftBlock setup fun p =>
  .wgDone wgReady <|
  .wgWait wgGo <|
  liftBlock (run p) fun proof =>
  .mem (.write 0 0) (fun h => { h with cells := fun b j => if b = 0 ∧ j = 0 then proof else h.cells b j }) fun _ =>
  .wgDone wgDone (.ret ())

/-- One round of `benchmarkMIMCGKRProverMultiProcess`, part of `benchmarkMIMCGKRProverMultiProcess`,
examples/mimc_test.go:130-160, with `n` processes; then `K`. -/
def benchRound (setup : Nat → Go σ) (run : σ → Go C) (n : Nat) (K : Prog (Heap C) Unit) : Prog (Heap C) Unit :=
  .wgNew n fun wgReady =>
  .wgNew 1 fun wgGo =>
  .wgNew n fun wgDone =>
  loopP (fun k _ next => .go (benchWorker (setup k) run wgReady wgGo wgDone) (next ()))
    (fun _ => .wgWait wgReady <| .wgDone wgGo <| .wgWait wgDone K) 0 n ()

/-- The loop of `benchmarkMIMCGKRProverMultiProcess`, part of `benchmarkMIMCGKRProverMultiProcess`,
examples/mimc_test.go:129-161: `N` rounds from round `i` on. -/
def benchRounds (setup : Nat → Nat → Go σ) (run : σ → Go C) (n : Nat) : Nat → Nat → Prog (Heap C) Unit
  | _, 0 => .ret ()
  | i, N + 1 => benchRound (setup i) run n (benchRounds setup run n (i + 1) N)

/-- `benchmarkMIMCGKRProverMultiProcess`, examples/mimc_test.go:125-163, with `b.N = N`; `draw i k` are the values that process
`k` draws in round `i`. A negative number of processes is a negative counter of a wait group. -/
def benchmarkMulti (H : List F → F) (toStr : F → String) (arks : List F) (draw : Nat → Nat → Nat → F) (bN : Nat)
    (nProcesses nCore : Int) (nChunks N : Nat) : Prog (Heap (GkrProof F)) Unit :=
  if nProcesses < 0 ∧ 0 < N then .crash (.explicit "sync: negative WaitGroup counter")
  else
    let n := nProcesses.toNat
    benchRounds (fun i k => benchSetup toStr arks (draw i k) (nChunks / n) (bN - log2Ceil n) (nCore.tdiv n))
      (fun p => p.prove H (nCore.tdiv n)) n 0 N

end GkrMimc
