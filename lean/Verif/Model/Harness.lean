import Verif.Model.Bench
import Verif.Model.SumcheckTesting

/-! Model of what surrounds the benchmarks: the environment variables (common/env.go), the timer, the execution trace and the CPU
profile (common/profiling.go), and the benchmarks with them. Of the libraries it models: `os.Getenv`, `strconv.Atoi` (64-bit `int`),
`testing.B` (a timer that is on or off; what it measures is the list of the pieces of work done while it was on), `runtime/trace`
(one trace at a time), `github.com/pkg/profile` (one profile at a time; `Start` ends the process on failure). -/

namespace GkrMimc

/-! ### The environment -/

/-- An environment: the variables that are set. -/
abbrev Env := String → Option String

/-- `os.Getenv`: an unset variable reads as the empty string. -/
def getenv (env : Env) (name : String) : String := (env name).getD ""

/-- `strconv.Atoi` with 64-bit `int`: an optional sign, at least one digit, nothing else, a value in the range of `int`. -/
def atoi (s : String) : Option Int :=
  let (neg, ds) : Bool × List Char := match s.toList with
    | '-' :: t => (true, t)
    | '+' :: t => (false, t)
    | t => (false, t)
  if ds.isEmpty || ds.any (fun c => !c.isDigit) then none
  else
    let n : Nat := ds.foldl (fun n c => n * 10 + (c.toNat - '0'.toNat)) 0
    let v : Int := if neg then -(n : Int) else n
    if -2 ^ 63 ≤ v ∧ v < 2 ^ 63 then some v else none

/-- The common part of the three getters of integers, with `panicMsg`, common/env.go:15. -/
def getInt (env : Env) (name : String) : Go Int :=
  match atoi (getenv env name) with
  | some v => .ok v
  | none => .error (.explicit ("Please set \"" ++ name ++ "\" before running the benchmark"))

/-- `GetBN`, common/env.go:20-26. -/
def getBN (env : Env) : Go Int := getInt env "BN_GKR"

/-- `GetNChunks`, common/env.go:30-36. -/
def getNChunks (env : Env) : Go Int := getInt env "NCHUNKS_GKR"

/-- `GetProfiled`, common/env.go:40-42. -/
def getProfiled (env : Env) : Bool := getenv env "PROFILE_GKR" == "1"

/-- `GetTraced`, common/env.go:46-48. -/
def getTraced (env : Env) : Bool := getenv env "TRACE_GKR" == "1"

/-- `GetNProcesses`, common/env.go:51-57. -/
def getNProcesses (env : Env) : Go Int := getInt env "NPROCESSES_ENV"

/-! ### The process in which a benchmark runs -/

/-- Pieces of work: the set-up of a round, the computation of a round, and the start and stop of the recorders. -/
inductive Work where
  | setup (i : Nat)
  | run (i : Nat)
  | create
  | traceStart
  | traceStop
  | profileStart
  | profileStop
  deriving DecidableEq, Repr

/-- The state of the process: is the timer on, what it has measured since the last reset, the file of the running trace, the path
of the running profile, the files that are open, the contents of files, all the work done so far, and the variable in which the
benchmark leaves its result. -/
structure Host (R : Type) where
  timer : Bool
  elapsed : List Work
  tracing : Option String
  profiling : Option String
  opened : List String
  files : String → List Work
  log : List Work
  result : R

/-- How a call ends: it returns, it panics (deferred calls run), or the process ends or waits for ever (they do not). -/
inductive CallEnd (α : Type) where
  | ret (a : α)
  | panic (e : Abort)
  | halted

variable {R α β σ C : Type}

/-- A call: changes the state and ends in some way. -/
def Bm (R α : Type) := Host R → CallEnd α × Host R

/-- The call that returns at once. -/
def Bm.pure (a : α) : Bm R α := fun s => (.ret a, s)

/-- One call after the other. -/
def Bm.bind (x : Bm R α) (f : α → Bm R β) : Bm R β := fun s =>
  match x s with
  | (.ret a, s) => f a s
  | (.panic e, s) => (.panic e, s)
  | (.halted, s) => (.halted, s)

instance : Monad (Bm R) where
  pure := Bm.pure
  bind := Bm.bind

/-- `panic`. -/
def Bm.panic (e : Abort) : Bm R α := fun s => (.panic e, s)

/-- `log.Fatal`. -/
def Bm.halt : Bm R α := fun s => (.halted, s)

/-- `defer d` followed by the rest of the function. -/
def Bm.deferring (d : Bm R Unit) (rest : Bm R α) : Bm R α := fun s =>
  match rest s with
  | (.halted, s) => (.halted, s)
  | (r, s) =>
    match d s with
    | (.ret _, s) => (r, s)
    | (.panic e, s) => (.panic e, s)
    | (.halted, s) => (.halted, s)

/-- A change of the state. -/
def Bm.modify (f : Host R → Host R) : Bm R Unit := fun s => (.ret (), f s)

/-- A piece of work is done: the timer measures it, and the running trace and profile record it. -/
def Host.did (s : Host R) (w : Work) : Host R :=
  { s with
    elapsed := if s.timer then s.elapsed ++ [w] else s.elapsed
    files := fun n => if s.tracing = some n ∨ s.profiling = some n then s.files n ++ [w] else s.files n
    log := s.log ++ [w] }

/-- A computation that takes no notable time. -/
def Bm.go (x : Go α) : Bm R α :=
  match x with
  | .ok a => Bm.pure a
  | .error .deadlock => Bm.halt
  | .error e => Bm.panic e

/-- A computation as a piece of work; waiting for ever is no panic. -/
def Bm.work (w : Work) (x : Go α) : Bm R α := do
  Bm.modify fun s => s.did w
  Bm.go x

/-- `for i := 0; i < n; i++ { body }`. -/
def Bm.forN : Nat → (Nat → Bm R Unit) → Bm R Unit
  | 0, _ => Bm.pure ()
  | n + 1, body => Bm.bind (Bm.forN n body) fun _ => body n

/-- `b.StartTimer`: no effect if the timer is on. -/
def startTimer : Bm R Unit := Bm.modify fun s => { s with timer := true }

/-- `b.StopTimer`. -/
def stopTimer : Bm R Unit := Bm.modify fun s => { s with timer := false }

/-- `b.ResetTimer`: forgets what was measured; the timer stays on or off. -/
def resetTimer : Bm R Unit := Bm.modify fun s => { s with elapsed := [] }

/-- Which files cannot be created, and the error. -/
abbrev FileErrors := String → Option String

/-- `os.Create`: an existing file is truncated. -/
def osCreate (bad : FileErrors) (name : String) : Bm R Unit := do
  Bm.modify fun s => s.did .create
  match bad name with
  | some e => Bm.panic (.explicit e)
  | none => Bm.modify fun s => { s with opened := s.opened ++ [name], files := fun n => if n = name then [] else s.files n }

/-- `trace.Start`: an error if a trace is running. -/
def traceStart (name : String) : Bm R Unit := fun s =>
  match s.tracing with
  | some _ => Bm.panic (.explicit "tracing is already enabled") s
  | none => Bm.modify (fun s => { s.did .traceStart with tracing := some name }) s

/-- `trace.Stop`. -/
def traceStop : Bm R Unit := Bm.modify fun s => ({ s with tracing := none } : Host R).did .traceStop

/-- `profile.Start` with a path: ends the process if a profile is running or the file cannot be created. -/
def profileStart (bad : FileErrors) (path : String) : Bm R Unit := fun s =>
  if s.profiling.isSome || (bad path).isSome then Bm.halt s
  else Bm.modify (fun s =>
    let s := s.did .profileStart
    { s with profiling := some path, opened := s.opened ++ [path], files := fun n => if n = path then [] else s.files n }) s

/-- `Stop` of a profile, which closes its file. -/
def profileStop (path : String) : Bm R Unit :=
  Bm.modify fun s => ({ s with profiling := none, opened := s.opened.erase path } : Host R).did .profileStop

/-- `ProfileTrace`, common/profiling.go:13-44. -/
def profileTrace (bad : FileErrors) (name : String) (profiled traced : Bool) (fn : Bm R Unit) : Bm R Unit :=
  let timed : Bm R Unit := do
    startTimer
    Bm.deferring stopTimer fn
  let withProfile : Bm R Unit :=
    if profiled then do
      profileStart bad ("../profiling/" ++ name ++ "-pprof")
      Bm.deferring (profileStop ("../profiling/" ++ name ++ "-pprof")) timed
    else timed
  if traced then do
    osCreate bad ("../profiling/" ++ name ++ "-trace.out")
    traceStart ("../profiling/" ++ name ++ "-trace.out")
    Bm.deferring traceStop withProfile
  else withProfile

/-! ### The benchmarks with timer and recorders

`setup i` and `run p` are the computations of a round; the result is stored in a variable. -/

/-- What the timed function does: compute and store the result. -/
def runAndStore (i : Nat) (x : Go C) : Bm (Option C) Unit := do
  let c ← Bm.work (.run i) x
  Bm.modify fun s => { s with result := some c }

/-- The control flow of `benchmarkMIMCCircuit`, part of `benchmarkMIMCCircuit`, examples/mimc_test.go:107-123. -/
def timedProver (bad : FileErrors) (name : String) (profiled traced : Bool) (setup : Nat → Go σ) (run : σ → Go C) (n : Nat) :
    Bm (Option C) Unit := do
  resetTimer
  Bm.forN n fun i => do
    stopTimer
    let p ← Bm.work (.setup i) (setup i)
    profileTrace bad name profiled traced (runAndStore i (run p))

/-- The control flow of the caller in `benchmarkMIMCGKRProverMultiProcess`, part of `benchmarkMIMCGKRProverMultiProcess`,
examples/mimc_test.go:125-163. The set-up is what happens until all the processes are ready, the computation what happens between
the signal and the end of the last process. -/
def timedMulti (bad : FileErrors) (name : String) (profiled traced : Bool) (setup : Nat → Go σ) (run : σ → Go C) (n : Nat) :
    Bm (Option C) Unit := do
  resetTimer
  stopTimer
  Bm.forN n fun i => do
    let p ← Bm.work (.setup i) (setup i)
    startTimer
    profileTrace bad name profiled traced (runAndStore i (run p))
    stopTimer

/-- The control flow of `benchmarkFullSumcheckProver` (sumcheck/prover_test.go:119-129), of `benchmarkFullSumcheckMultiThreaded`
(sumcheck/par_test.go:44-54), and of the loop of `BenchmarkFolding`, part of `BenchmarkFolding`,
polynomial/book_keeping_test.go:93-100. -/
def timedSumcheck (bad : FileErrors) (name : String) (profiled traced : Bool) (setup : Nat → Go σ) (run : σ → Go C) (n : Nat) :
    Bm (Option C) Unit := do
  resetTimer
  Bm.forN n fun i => do
    let p ← Bm.work (.setup i) (setup i)
    profileTrace bad name profiled traced (runAndStore i (run p))

variable {F : Type} [Field F] [DecidableEq F]

/-- The set-up of a round for the integers read from the environment, part of `benchmarkMIMCCircuit`,
examples/mimc_test.go:112-117: `make` of a negative number of chunks panics, after the shift by `bN`. -/
def benchSetupInt (toStr : F → String) (arks : List F) (draw : Nat → F) (nChunks bN : Int) : Go (GkrProver F) :=
  if 0 ≤ bN ∧ nChunks < 0 then createMimcCircuit toStr arks >>= fun _ => .error .makeNeg
  else benchSetup toStr arks draw nChunks.toNat bN 1

/-- `BenchmarkMimcGKRProver`, examples/mimc_test.go:165-174, one invocation of the inner function with `b.N = n`; `nCore` is
`runtime.GOMAXPROCS(0)`. The name of the inner benchmark is that of the outer one, a slash, and the name given to `b.Run`. -/
def benchmarkMimcGkrProver (H : List F → F) (toStr : F → String) (arks : List F) (env : Env) (nCore : Int) (bad : FileErrors)
    (draw : Nat → Nat → F) (n : Nat) : Bm (Option (GkrProof F)) Unit := do
  let nChunks ← Bm.go (getNChunks env)
  let bN ← Bm.go (getBN env)
  let profiled := getProfiled env
  let traced := getTraced env
  timedProver bad ("BenchmarkMimcGKRProver/bN=" ++ toString bN ++ "-nCore") profiled traced
    (fun i => benchSetupInt toStr arks (draw i) nChunks bN) (fun p => p.prove H nCore) n

end GkrMimc
