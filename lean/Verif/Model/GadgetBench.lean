import Verif.Model.Harness
import Verif.Model.R1cs
import Verif.Model.MachInt

/-! Model of the benchmarks of the gadgets (snark/hash/mimc_test.go, snark/gkr/mimc_test.go) and of the benchmarks of single steps
(sumcheck/prover_test.go, polynomial/book_keeping_test.go). A benchmark of the gadgets runs phases one after the other, which share
variables. A phase is a call of `b.Run`; the testing package calls its function several times, with `b.N` as it likes, or not at all
if the phase is excluded on the command line. `groth16.Prove` is not modelled, only what it is given. -/

namespace GkrMimc

/-! ### `strconv.Atoi` when its error is ignored -/

/-- How `strconv.ParseUint` ends. -/
inductive ParseEnd where
  | value (n : Nat)
  | syntaxErr
  | rangeErr

/-- The loop of `strconv.ParseUint` in base 10: stops at the first character that is not a digit and at the first overflow. -/
def parseUintLoop : List Char → Nat → ParseEnd
  | [], n => .value n
  | c :: cs, n =>
    if c.isDigit then
      let n' := n * 10 + (c.toNat - '0'.toNat)
      if 2 ^ 64 ≤ n' then .rangeErr else parseUintLoop cs n'
    else .syntaxErr

/-- The number that `strconv.Atoi` returns beside its error, which snark/hash/mimc_test.go:76 ignores: 0 if the string is not a
numeral, the nearest `int` if it is out of range. -/
def atoiIgnored (s : String) : Int :=
  let (neg, ds) : Bool × List Char := match s.toList with
    | '-' :: t => (true, t)
    | '+' :: t => (false, t)
    | t => (false, t)
  if ds.isEmpty then 0
  else
    match parseUintLoop ds 0 with
    | .syntaxErr => 0
    | .rangeErr => if neg then -2 ^ 63 else 2 ^ 63 - 1
    | .value n =>
      if neg then (if 2 ^ 63 < n then -2 ^ 63 else -(n : Int))
      else if 2 ^ 63 ≤ n then 2 ^ 63 - 1 else (n : Int)

/-! ### Phases -/

variable {V α σ : Type}

/-- The variables that the phases share, and what each call of a phase has measured. -/
structure Phases (V : Type) where
  vars : V
  reports : List (List Work)

/-- The variables. -/
def getVars : Bm (Phases V) V := fun s => (.ret s.result.vars, s)

/-- Assignment to the variables. -/
def setVars (v : V) : Bm (Phases V) Unit := Bm.modify fun s => { s with result := { s.result with vars := v } }

/-- `b.Run`: the function of the phase is called once for each entry of `ns`, with this `b.N`; the timer is reset and on when it is
called, and what it measured is reported. -/
def bRun (body : Nat → Bm (Phases V) Unit) : List Nat → Bm (Phases V) Unit
  | [] => pure ()
  | n :: ns => do
    resetTimer
    startTimer
    body n
    stopTimer
    Bm.modify fun s => { s with result := { s.result with reports := s.result.reports ++ [s.elapsed] } }
    bRun body ns

/-- A phase that does nothing with the timer, e.g. snark/gkr/mimc_test.go:132-137 and 164-168, snark/hash/mimc_test.go:103-107. -/
def phasePlain (run : V → Go V) (n : Nat) : Bm (Phases V) Unit :=
  Bm.forN n fun i => do
    let v ← getVars
    let v ← Bm.work (.run i) (run v)
    setVars v

/-- A phase with a set-up that should not be measured, snark/gkr/mimc_test.go:151-159 and, after `b.ResetTimer`, 139-148;
snark/hash/mimc_test.go:92-100. -/
def phaseTimed (setup : V → Go σ) (run : V → σ → Go V) (n : Nat) : Bm (Phases V) Unit := do
  stopTimer
  Bm.forN n fun i => do
    let v ← getVars
    let p ← Bm.work (.setup i) (setup v)
    startTimer
    let v ← Bm.work (.run i) (run v p)
    setVars v
    stopTimer

/-! ### The benchmark of the hash gadget -/

variable {F : Type} [Field F] [DecidableEq F]

/-- A compiled system: the number of wires, the constraints of the multiplications and the assertions. -/
abbrev System (F : Type) := Nat × List (R1C F) × List (R1C F)

/-- The variable `witness` (snark/hash/mimc_test.go:90), and what `groth16.Prove` was given in each call. -/
structure HashBenchVars (F : Type) where
  witness : HashTestCircuit (Option F)
  proved : List (System F × HashTestCircuit (Option F))

/-- The variables before the first phase. -/
def HashBenchVars.zero : HashBenchVars F := ⟨⟨[], []⟩, []⟩

/-- `BenchmarkMimc`, snark/hash/mimc_test.go:74-109; `nsA` and `nsP` are the values of `b.N` in the two phases. `1<<bN` is a machine
integer. -/
def benchmarkHashGadget (arks : List F) (env : Env) (draw : Nat → F) (nsA nsP : List Nat) : Bm (Phases (HashBenchVars F)) Unit := do
  let bN := atoiIgnored (getenv env "BN_GKR")
  let size ← Bm.go (wShl 1 (reg bN))
  let size ← Bm.go (wMake0 size)
  let system ← Bm.go ((allocateHashTest (F := F) size 1).compile arks)
  let x := (List.range size).map fun i => randomFrArray draw i 1
  bRun (phaseTimed (fun _ => .ok (allocateHashTest (F := F) size 1)) fun v w => do
    let w ← w.assign arks x
    return { v with witness := w }) nsA
  bRun (phasePlain fun v => return { v with proved := v.proved ++ [(system, v.witness)] }) nsP

/-! ### The benchmark of the GKR gadget -/

/-- The variables of snark/gkr/mimc_test.go:118-126, and what `groth16.Prove` was given in each call. -/
structure GkrBenchVars (F : Type) where
  assignment : List (List (List F))
  outputs : List (List F)
  proof : GkrProof F
  witness : GkrMimcTestCircuit F (Option F)
  proved : List (System F × GkrMimcTestCircuit F (Option F))

/-- The variables before the first phase. -/
def GkrBenchVars.zero : GkrBenchVars F := ⟨[], [], ⟨[], [], []⟩, ⟨⟨[], 0⟩, ⟨[], [], []⟩, [], [], [], []⟩, []⟩

/-- The four phases of `BenchmarkMimcCircuit`, part of `BenchmarkMimcCircuit`, snark/gkr/mimc_test.go:132-168; `nsA`, `nsG`, `nsW` and
`nsP` are the values of `b.N` in the phases. -/
def gkrGadgetPhases (H : List F → F) (arks : List F) (bN : Nat) (nCore : Int) (system : System F) (c : Circuit F)
    (inputs : List (List F)) (nsA nsG nsW nsP : List Nat) : Bm (Phases (GkrBenchVars F)) Unit := do
  bRun (phasePlain fun v => do
    let a ← c.assign inputs nCore
    let o ← idx a 91
    return { v with assignment := a, outputs := o }) nsA
  bRun (fun n => do
    resetTimer
    phaseTimed (fun v => newGkrProver c v.assignment) (fun v p => do
      let proof ← p.prove H nCore
      return { v with proof := proof }) n) nsG
  bRun (phaseTimed (fun _ => allocateTestCircuit arks bN) fun v w => do
    let w ← w.assign v.proof inputs v.outputs (getInitialQPrimeAndQ (F := F) bN 0).1
    return { v with witness := w }) nsW
  bRun (phasePlain fun v => return { v with proved := v.proved ++ [(system, v.witness)] }) nsP

/-- `BenchmarkMimcCircuit`, snark/gkr/mimc_test.go:97-169. -/
def benchmarkGkrGadget (H : List F → F) (toStr : F → String) (arks : List F) (env : Env) (nCore : Int) (draw : Nat → F)
    (nsA nsG nsW nsP : List Nat) : Bm (Phases (GkrBenchVars F)) Unit := do
  let bN ← Bm.go (getBN env)
  let nChunk ← Bm.go (getNChunks env)
  if bN < 0 then Bm.panic (.explicit "negative shift amount")
  else if nChunk = 0 then Bm.panic .divZero
  else do
    let t ← Bm.go (allocateTestCircuit arks bN.toNat)
    let system ← Bm.go (t.compile arks)
    let c ← Bm.go (createMimcCircuit toStr arks)
    if nChunk < 0 then Bm.panic .makeNeg
    else do
      let size := 2 * 2 ^ bN.toNat / nChunk.toNat
      let inputs := randomFrDoubleSlice draw 0 nChunk.toNat size
      gkrGadgetPhases H arks bN.toNat nCore system c inputs nsA nsG nsW nsP

/-! ### The benchmarks of single steps -/

/-- `benchmarkFineGrainedProver`, sumcheck/prover_test.go:131-172, with `b.N = n` outside; `nsL`, `nsR` and `nsP` are the values of
`b.N` in the three phases, which evaluate and drop the result. The result is kept here. `BenchmarkSumcheckFineGrained`,
sumcheck/prover_test.go:184-191, asks for no recorder. -/
def fineGrained (toStr : F → String) (bN n : Nat) (nsL nsR nsP : List Nat) : Bm (Phases (List (List F))) Unit := do
  if n ≠ 1 then Bm.panic (.explicit "Call it with N = 1")
  else do
    let prover ← Bm.go (initializeProverForTests toStr bN)
    bRun (fun n => profileTrace (fun _ => none) "" false false (phasePlain (fun v => do
      let e ← prover.getEvalsOnHL
      return v ++ [e]) n)) nsL
    let prover := prover.foldHL 2
    bRun (fun n => profileTrace (fun _ => none) "" false false (phasePlain (fun v => do
      let e ← prover.getEvalsOnHR
      return v ++ [e]) n)) nsR
    let prover := prover.foldHR 2
    bRun (fun n => profileTrace (fun _ => none) "" false false (phasePlain (fun v => do
      let e ← prover.getEvalsOnHPrime
      return v ++ [e]) n)) nsP

/-- The table on which the two benchmarks work, polynomial/book_keeping_test.go:79-85 and 104-110, where `size` is `2^25`. -/
def benchTable (size : Nat) : Table F := (List.range size).map fun i => ((i : Nat) : F)

/-- One call of the timed function of `BenchmarkFolding`, part of `BenchmarkFolding`, polynomial/book_keeping_test.go:96-99:
folds a copy at 5. -/
def benchFold (size : Nat) : Table F := fold (benchTable size) 5

/-- One call of the timed function of `BenchmarkEvals`, part of `BenchmarkEvals`, polynomial/book_keeping_test.go:118-120. -/
def benchEvals (size : Nat) : Table F := functionEvals (benchTable size)

end GkrMimc
