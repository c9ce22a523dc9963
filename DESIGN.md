# Formal model of ConsenSys/gkr-mimc in Lean 4

Status: design, written before the proofs and kept current (see also MANIFEST.json).

## 1. What is modelled and how

The Go code is translated function by function to total, computable Lean functions. Every definition cites file and lines;
`tools/check_citations.py` checks that the cited lines exist and that a citation of a function covers it from `func` to the
closing brace.

### 1.1 Values (`Model/{Common,Polynomial,Circuit,Sumcheck,Gkr,Hash,Mimc,Snark,Pretty}.lean`)

* **Panics** are values: `Go α = Except Abort α`; every slice index, re-slice, integer division, `make` and explicit
  `panic(...)` of the source that can fail is an explicit failing operation (`Verif/Go.lean`). A deadlock of a blocking call
  is also an `Abort` in the sequential models and is derived in the concurrent ones.
* **Loops** are `forN n s body` / `forEach` (structural recursion) with the loop state threaded explicitly.
* **`fr.Element`** is an element of a field `F`. The models are polymorphic in `F`; the concrete field is `Fr = ZMod r` with
  `r` the BN254 scalar order, proved prime (Pratt certificate, `Model/Field.lean`).
* **`GetChallenge`** is a parameter `H : List F → F` in the sumcheck and GKR models, so that the theorems hold for every hash;
  `mimcHash` (with the 91 round constants of hash/ark.go) where the concrete one matters.
* **Round constants**: `Model/Arks.lean` is generated from hash/ark.go by `tools/gen_arks.py`.
* **Gates** (`circuit.Gate`, an open interface) are records of functions; the interface contract is the predicate
  `LawfulGate`; the four shipped gates are proved lawful.

### 1.2 Memory (`Model/{Heap,HeapGkr,HeapProve}.lean`)

A slice is a header (array, offset, length, capacity) into a heap of arrays. `append` uses spare capacity if there is enough,
else allocates with an arbitrary spare capacity (`Heap.extra`, any growth policy). Modelled again at this level: tables and
their in-place operations, the verifier, the prover. Simulation theorems (`Proofs/HeapSim.lean`, `HeapVerify.lean`,
`HeapProve.lean`) relate them to 1.1 for every initial heap and aliasing of the arguments.

Simplifications: a field element (four words) is one cell; functions that only read slices are applied to the contents;
slices of slices, coefficient lists and claims are lists (they are filled once and never written again); in `Prove` the
workers of a round run in index order and the slices of challenges are allocated when complete.

### 1.3 Goroutines (`Model/{Conc,ConcPool,ConcProve,ConcHeap,ConcCell,ConcGkr,ConcGkrProve,Bench}.lean`)

`Conc.lean` is a small-step semantics of goroutines, buffered and unbuffered channels, `close` and wait groups. One step is one
operation of any goroutine that is not blocked; the theorems quantify over all paths, so no fairness is assumed. A panic of one
goroutine ends the process. The worker pools and `MultiThreadedProver.Prove` are programs over it. Writes to shared slices are
single steps. In `ConcProve.lean` the tables of a worker are its local state: chunk `i` belongs to worker `i`, the static
tables are copied; C38 shows at the level of memory that gkr.Prover hands over tables in pairwise different arrays.

`ConcHeap.lean` joins 1.2 and 1.3: `Prove` and `GetClaim` over the heap, where every load, store and allocation is a step of its
own (`Prog.mem`), labelled with the cell. A race is a reachable configuration in which two goroutines are about to make
conflicting accesses (`Spec/Race.lean`); in sequentially consistent executions this is the same as an unordered conflicting pair.
The proof (`Proofs/Race*.lean`) is an ownership argument: every array is owned by one goroutine, one message in a channel, or is
read-only; the program simulates the one of `ConcProve.lean`. Simplifications: a method that only reads its tables
(`GetEvalsOn…`, `GetClaim`) loads all their cells first, in one order; coefficient lists, challenges and claims of the caller are
local; the bound on the number of workers between `Acquire` and `Release` (C20) is not restated at this level.

`ConcCell.lean` does the same for the pools (`Evaluate`, `Assign`, `LayerAsBKTWithCopy`, `Sub`, `Mul`). A cell holds an element or
a slice header, so that slices of slices are in memory too. `Proofs/PoolCell.lean` proves one theorem for all pools: if each job,
run alone from any heap that agrees with the first one on the cells nobody writes, only writes its own cells and reads its own or
shared cells, then all schedules are race-free and end in the same contents. `ConcGkr.lean` adds what `gkr.Prover` does between the
sumchecks: `GetStaticTable`, `GetFoldedEqTable`, `GetChunkedEqTable`, the linear combinations.

`ConcGkrProve.lean` puts everything together: `Assign`, `NewProver` and `gkr.Prover.Prove` as one program, in which the tables and the
sumchecks of all the layers follow one another. When a sumcheck returns, its workers may still have to release the semaphore and to
close a channel; they then run along with the later rounds. The proof (`Proofs/{Seq,Par,Shift,Tails,GkrConc}.lean`): what such a
worker still does never blocks, touches no memory and only its own channels and wait groups; the rest of the program only uses
channels and wait groups that it makes itself (`Avoids`), and its behaviour does not depend on their names (`Ren`); so every run of
the two together is a run of the rest, with the steps of the workers in between. Simplification: the caller reads the headers of the
tables before the sumcheck; in the source every worker reads its own (nobody writes these cells after the tables are made).

`Bench.lean` is the multi-process benchmark: goroutines that wait for one another with three wait groups. There a whole prover is one
local computation (its own goroutines are those of the programs above), and one that would wait for ever on its semaphore is a
goroutine that waits for ever.

`Harness.lean` is a small model of its own for timer, trace, profile and environment: a call changes the state of the process and
returns, panics (deferred calls run) or halts (they do not). What a timer measures is the list of the pieces of work done while it
was on. `os.Getenv`, `strconv.Atoi`, `os.Create`, `testing.B`, `runtime/trace` and `pkg/profile` are described by what they do to
that state. `GadgetBench.lean` uses it for benchmarks with phases; how often a phase is called, and with which `b.N`, is a parameter.

### 1.4 gnark (`Model/{Snark,R1cs}.lean`)

A gadget is run on the values that a witness gives to its variables; it collects the asserted equalities. `cs.Add/Sub/Mul/
Constant/AssertIsEqual` are assumed to mean what they say. Satisfiable means: all the asserted equalities hold.
`Variable.Assign` on a variable that already has a value is assumed to panic (gnark is not in /repo). Where the theorems say that an
assignment succeeds, they use only that a variable without a value takes it, and show that none is assigned twice; only `C37_once` is about the panic.
* `Model/R1cs.lean`: the same gadgets at compile time, without values. A variable is a linear expression in numbered wires; `cs.Mul` makes a
  wire and a constraint, `cs.AssertIsEqual` an assertion, `cs.Add`, `cs.Sub`, `cs.Constant` nothing. The variables of a circuit are numbered
  in the order of the fields. That a product with a constant also makes a constraint is an assumption (gnark is not in /repo;
  the multiplication by 1 in snark/polynomial/univariate.go:48 suggests it). It matters for the numbers in C62 only, not for which
  witnesses are accepted.

### 1.5 Machine integers (`Model/MachInt.lean`)

The functions of common, polynomial, circuit, sumcheck and gkr that compute with sizes, once more, with every `+ - * / << >>` and every
comparison on 64-bit registers (a register is its unsigned value; `C63_arith` compares the operations with `BitVec 64`). `make`
fails above a parameter `lim`, the largest possible length. Field elements are as before.
Functions whose only size computation is half of a length or a loop over a slice (`Fold`, `FunctionEvals`, `Evaluate`, the gates)
cannot overflow and are not repeated.

### 1.6 Repaired functions (`Model/Repaired.lean`)

Not the code of /repo: copies of the functions behind findings 1, 4, 5, 6, 7, 8, 9 and 11 of section 3 with the faulty lines changed.
C65 proves the full claims of them, by the same lemmas as for the code (stated for every list of gates that names each gate of
the layer once, `ListsGates`). No other property uses them.

`gkrVerifyAtR` and `GkrProver.proveAt` take the initial point as an argument, where the code uses the constants 1, 2, 3, …. C66
counts over the points.

`gkrVerifyT` (`Model/Transcript.lean`) is `gkrVerifyAtR` with the point and every challenge hashed from the inputs, the outputs, all
messages and challenges before, and the current message. `Spec/Transcript.lean` has the stages of a run and adversaries that ask a
random oracle, sampled lazily from a tape; C67 counts over the tapes. `gkrProveT` (`Model/TranscriptProve.lean`) is a prover for it: `Prove` of
the source with these challenges, the chunks of a layer merged into one table and the single-threaded sumcheck prover.

`Model/RepairedBench.lean` has the same for the tests and benchmarks (C58, C59, C60): a slot per process, the eq test over the
coordinates, a `ProfileTrace` that closes its file and stops the timer. C68 proves the full claims of them.

## 2. Trusted base

* The Lean 4.33 kernel and the axioms `propext`, `Classical.choice`, `Quot.sound`. `AXIOMS.txt` lists the axioms of every
  theorem in the manifest (`tools/axioms.py` regenerates it). No `sorry`, `native_decide`, `bv_decide`, own axioms.
* The models are faithful readings of /repo (the code was not run).
* gurvy (outside /repo): `Add/Sub/Mul/Square/Neg/Inverse/SetUint64/SetString/IsZero/==` are the field operations with
  `Inverse(0) = 0`; `Element.String()` is the decimal representation of the canonical representative.
* gnark (outside /repo): see 1.4.
* The Go semantics of 1.2 and 1.3. Accesses to one cell are atomic and sequentially consistent.
* Go `int` is unbounded (`Nat`/`Int`) in all models except `Model/MachInt.lean` (1.5). C63 gives the bounds within which common,
  polynomial, circuit, sumcheck and gkr compute the same on 64 bits. It is not redone for the gadgets and for the models of 1.2 and 1.3.

The tests of single values (`TestLog2`, `TestFold`, `TestFuncEval`, `TestLinearCombinationOfBookKeepingTables`,
`TestLagrangeCoefficients`, `TestGetEvals`) are run on the models as examples in `Props/FixedTests.lean`: a check of the models against
values that the authors of the code expect.

Not modelled: the random generator (its draws are parameters), benchmarks other than
those of C58, C60 and C64, performance, Montgomery limbs, gnark's R1CS compiler, Groth16, garbage collection.

## 3. Where the code disagrees with a property

Each has a theorem `Cnn_negation…` with a concrete witness, and `_partial` theorems for what holds.
For findings 1, 4–9 and 11, C65 shows that there is no cause other than the lines given: with them repaired the full claims hold.
For the constant or chosen initial point (C25, C54, C53 for outputs) C66 shows the same: with a point drawn after the outputs, the
full claims hold.
C67 shows it for challenges that forget (C41, C43, C53): hashed from the statement and the whole transcript, they bind inputs and
outputs in the random-oracle model.
C68 shows it for the tests and benchmarks (C58, C59, C60).

1. gkr/verifier.go:99 returns `true` when the check of an intermediate layer fails; zero outputs are accepted for the MiMC
   circuit on every input (C23, C36), and so are all other outputs (`C23_all_outputs`). For every circuit of at least two layers the
   outputs on any inputs are accepted for all inputs (`C23_transplant`: the honest message of the last layer, then a layer whose
   value is wrong). The gadget (snark/gkr) does not have this bug (C35).
2. gkr/prover.go:37-52: the initial point is the constant 1, 2, 3, …; its first coordinate 1 gives weight 0 to half of the
   outputs (C25).
3. The challenge of a round is the hash of that round's polynomial only (C41).
4. `Verify` panics on malformed proofs and ignores extra entries (C24, `C72_appended`; `C24_panics_iff` says exactly which proofs panic).
5. polynomial/chunked.go: one chunk panics, so a GKR proof with one chunk cannot be verified (C07, C22).
6. circuit/layers.go:91 reads the right operand at `wRN*N+h`, with `wRN` already multiplied by `N`: correct only if the wire is
   0 or there is one instance per chunk (C12). If no index gets out of range, `Assign` returns wrong values and `Verify` rejects
   the proof made from them (C51).
7. circuit/layers.go:130-139: `Gates` never removes a repetition (C13). A gate used n times in a layer is counted n times in the
   claim of the layer: the honest proof is rejected, and the proof of the n-fold values is accepted (C51, C52).
8. hash/poseidon.go: `Update` rebinds its local slice, so most message words are ignored (C28).
9. `LinearCombinationOfBookKeepingTables` of a table with itself is wrong (C09); no caller does that.
10. The inputs enter `Verify` only through their extension at two points fixed by the proof: the inputs can be chosen after the
    proof, so that an honest proof is accepted for other inputs with other true outputs (C43). The same holds for the gadget, although it has no bug like the one
    of line 99: given one witness, the tables that satisfy it with the same proof are those with the same extensions at three
    points (C53). In `GKRMimcTestCircuit` the initial point is a variable of the witness, so the prover can choose it after the
    outputs: nearly all wrong outputs have a satisfying witness (C54), which the compiled system accepts too
    (`C62_gadget_wrong_outputs`).
11. sumcheck/verifier.go does not check the number of coefficients of the round polynomials; the soundness error grows with it
    (C44).
12. Documented by theorems of the property itself: `InterpolateOnRange` panics above 12 values (C08), `nCore = 0` blocks for
    ever or panics (C19, C21, C38), zero-padding collisions of GMiMC (C29), `MultiThreadedProver.Prove` consumes its tables (C38),
    the gadget reads 91 layers whatever the circuit (C57).
13. examples/mimc_test.go:125-163: the goroutines of the multi-process benchmark write `_mimcProof` without synchronisation, and
    block for ever if there are fewer cores than processes (C58).
14. snark/polynomial/eq_test.go:36-44: the inner loop of `Assign` runs over the tests, not over the coordinates; the test works
    because both numbers are 5 (C59). Also, sumcheck/par_test.go:50 passes `nChunks` where the number of cores is meant, and
    snark/sumcheck/sumcheck_test.go swaps the names of qL and qR twice; neither changes a result.
15. common/profiling.go:18-29 never closes the trace file; each round truncates it, so that only the last round is kept. The
    multi-process benchmark starts the timer before `ProfileTrace`, and the benchmarks of the sumcheck provers and of `Fold` do not
    stop it before the first set-up (C60). The path contains the slash of the name of a sub-benchmark, so that with `TRACE_GKR=1` the
    directory profiling/BenchmarkMimcGKRProver has to exist; if not, `os.Create` fails and `C60_not_started` applies.
16. circuit/layers.go:81-91: because of the doubled factor of finding 6 the index `w.R*N*N` overflows 64 bits from `N = 2^32` instances in a
    chunk; where it wraps to a small number, wrong values are returned instead of a panic (`C63_evaluate_wraps`). common/chunks.go
    overflows only near 2^63 items (`C63_chunks_overflow`).
17. snark/hash/mimc_test.go:76 ignores the error of `strconv.Atoi`: unlike in the other benchmarks an unset `BN_GKR` is taken as 0, and
    `bN >= 64` benchmarks an empty circuit (`C64_hash_sizes`). snark/gkr/mimc_test.go:132-168: with `-bench` patterns that leave out a
    phase, the next one panics, or proves an empty witness and drops the error (`C64_gkr_skipped`).

## 4. Mutation tests

`seeded/LOG.jsonl` has one line per wrong program: the definition edited, the edit, the claim it breaks, the theorems that no
longer prove, and what was tightened. They were run in a scratch copy. Attempts `m…` are written by hand; attempts `a…` are
random edits of one line of a model definition by a script (edits that do not compile are left out). `failed_directly` is the first
proof that broke, `theorems_failed` the claims that depend on it.

How far the log can be trusted: "caught" means that the build failed. `theorems_failed` is computed from the dependencies of the
first broken proofs, so a theorem listed there need not be false of the edited program, its proof only rests on a lemma that broke.
For the attempts `m…` the claim in `claim_broken` was named before the run, and `named_claim_failed` says whether a theorem of that
claim is among those that failed; where it is false, other claims caught the edit, and the named one was not shown to. A module
that imports a broken one is not tried, and in the later runs the build was stopped 40 seconds after its first error,
so more theorems may fail than the log says. For the
attempts `a…` the claim was not named beforehand: it is read off the theorems that failed (`claim_basis`), and it was not checked
one by one that the claim is false of the edited program. Some of these edits may be equivalent programs that only broke a proof.

## 5. Plan per property

| id | model | proof |
|----|-------|-------|
| C01 | `log2Floor`, `log2Ceil` over `Int` | strong induction on the argument |
| C02 | `intoChunkRanges` | closed form of the ranges + arithmetic; each range exactly (`C02_sizes`, `C02_negative`) |
| C03 | `fold`, `evaluate` | induction on the number of variables, spec = explicit hypercube sum |
| C04 | heap model | frame theorems by induction over loops |
| C05 | `evalEq`, `getFoldedEqTable` | loop invariant of the doubling construction |
| C06 | `getChunkedEqTable` | same invariant on tables of tables |
| C07 | `evaluateChunked…` | fold/interleave commutation; single-chunk panic proved as a negation (code bug) |
| C08 | `lagrangeCoefficient`, `interpolateOnRange` | product polynomial invariant, root counting for uniqueness |
| C09 | value + heap + pool models | element-wise loops, disjoint ranges (C02) |
| C10, C11 | gates | algebra, `Polynomial` degree bounds |
| C12 | `layerEvaluate` | the general claim is false (index `wRN*N`): negation + partial theorem |
| C13 | `gatesOf` | the claim is false (map never filled): negation + what it does return |
| C14 | `getStaticTable` | loop invariants |
| C15 | `getClaim` | sum rearrangement |
| C16 | single-threaded prover/verifier | one-round lemma (evals = sums of the folded state, degree bound, interpolation) and induction on rounds |
| C17 | verifier | induction on rounds, root counting |
| C18 | multi-threaded prover (sequentialised) | chunk sums add up; folds commute with interleaving |
| C19, C20 | protocol LTS | invariant, decreasing measure, progress |
| C21 | pool LTS | invariant, decreasing measure, progress |
| C22 | GKR prover + verifier | C15 + C16 + C18 by induction on layers |
| C23 | GKR verifier | false because of `return true` at gkr/verifier.go:99: negation (explicit forgery) + characterisation of acceptance + soundness of the strict part |
| C24 | GKR verifier | false (panics): negation with witnesses + a shape under which it never panics + exactly which proofs panic |
| C25 | GKR verifier | false (initial point is the constant 1,2,3…): negation |
| C26, C27 | MiMC | 7 coprime to r-1; induction on layers |
| C28 | Poseidon | false (`state` is rebound in Update): negation, closed form |
| C29 | GMiMC | loop lemmas |
| C30 | MDS | Cauchy determinant + finite table check of the constants |
| C31–C33 | gadgets | equality with native functions by induction |
| C34–C37 | GKR gadget | C22 + gadget/native correspondence; soundness as C23 without the bug |
| C38 | heap model of the prover | simulation with the value-level prover + frame theorem |
| C39 | PrettyString | decimal representation lemmas |
| C40 | interleaving | index arithmetic |
| C41 | challenges | false (challenge = hash of the round polynomial only): negation |
| C42 | heap `append` | frame theorem over all growth policies |
| C43 | GKR verifier | characterisation of acceptance (C23); two linear conditions on three unknowns: negation |
| C44, C45 | verifiers, `Spec/PublicCoin.lean` | bad events of C17/C23 depend on the prefix only; union bound over the coordinates; Schwartz–Zippel |
| C46 | provers of sumcheck/testing.go | C06, C15, C18, C19 on the instance |
| C47 | `ConcHeap.lean` | ownership of arrays by goroutines and messages; simulation of C19's program; a computed schedule for the race |
| C48 | `ConcCell.lean` | ownership of cells by the jobs of a pool; a computed schedule for the race |
| C49 | `ConcGkr.lean` | C48 for the pools; invariants on the arrays of the tables for the parts that the caller runs alone |
| C50 | `ConcGkrProve.lean` | C47 and C49 one after the other for all layers; workers left over from earlier rounds run in parallel; C22 for completeness |
| C51, C52 | GKR prover + verifier | the induction of C22 for any tables; the layer sum for repeated gates |
| C53 | GKR gadget | characterisation of the assertions (C36); negations as for C25 and C43 |
| C54 | `GKRMimcTestCircuit` | the induction of C34 for any initial point; a zero of a multilinear polynomial that is not constant |
| C55 | round provers of `gkr/prover.go` | the hypercube sum of a layer (C22) for free points and coefficients |
| C56 | `TestMimc`, `TestGKR`, `TestMultiBGs` (`Model/Tests.lean`) | composition of C12, C22, C26, C27, C55 |
| C57 | GKR gadget, any circuit (`Spec/Gadget.lean`) | the induction of C36 over layers described by groups of wires; completeness and soundness from C22, C23 |
| C58 | the benchmarks (`Model/Bench.lean`, `Spec/Bench.lean`) | an invariant with a stage for the caller and a phase for each goroutine; a measure that every step lowers; induction over the rounds |
| C59 | unit tests (`Model/UnitTests.lean`, `Model/HashTest.lean`) | composition of C05, C07, C16, C26, C33, C37, C46; one loop lemma for the assertions |
| C60 | common/env.go, common/profiling.go and the loops of the benchmarks (`Model/Harness.lean`, `Spec/Harness.lean`) | a state with timer, recorders and files; deferred calls as a change after the end; induction over the rounds |
| C61 | `init` of the packages hash and polynomial (`Model/Init.lean`) | the tables filled entry by entry; the hashers and Lagrange coefficients of C26, C28–C30 and C08 |
| C62 | the gadgets at compile time (`Model/R1cs.lean`, `Spec/R1cs.lean`) | a simulation between compiling and running, with counts: existence and uniqueness of the internal wires, assertions hold together, panics agree; induction over loops and layers; C34, C37 and C59 for the honest witness and the hashes |
| C63 | the size arithmetic on 64-bit registers (`Model/MachInt.lean`) | an operation that fits is the operation on naturals; loops by `forN_congr`; the bounds of the tables are preserved by folding and by the layers; C22 and C36 for the pipeline; the wraps by computation |
| C64 | the benchmarks of the gadgets and of single steps (`Model/GadgetBench.lean`) | a phase iterates a step on the shared variables (`bRun_ran`); C37, C54 and C62 for the witness; the round sums of C16 in closed form |
| C65 | repaired copies (`Model/Repaired.lean`) | the lemmas of C22, C23, C36 and C45 for circuits with any faithful list of gates; the shape check turns the exact condition of C23 into the specification |
| C66 | repaired copies with a given point | `C65` and `C35` at any point; a non-zero multilinear polynomial in n variables has at most n·|F|^(n-1) zeros (`count_mle_eq`); the count of C45 summed over the points |
| C67 | repaired copy with transcript challenges | the verifier walks through the stages (`gkrVerifyT_spec`); from a doomed stage at most D+1 challenges escape (`step_count`); a lazily sampled oracle answers a fresh question with a fresh element of the tape (`oracleLog_fresh`, `count_family`); the verifier's own questions are in the log (`verifier_asks`); the prover's run goes through the stages of its own messages (`proveLayersT_run`) |
| C68 | repaired tests and benchmarks | the invariant of a round of C58 with a cell per goroutine (`Proofs/BenchSlots.lean`); the repaired `ProfileTrace` is the original followed by a deferred close (`profileTraceR_eq`) |
| C69 | `GkrProof.size`, `GkrProof.hashed` (`Spec/ProofSize.lean`) | the shape of honest proofs (`gkr_honest`); two runs with hashes that agree go through the same states (`forN_agree`, `mprove_agree`) |
| C70 | `Crashes` (`Spec/Crash.lean`) | as long as it does not panic, the program is also a run of two other programs that go on after a panic, with different marks in their results (`Upto`, `crashes_of_two`); these are schedule independent by the theory of C19 and C21, so no run of the program itself can end without a panic |
| C71 | `NeverReturns` (`Spec/Crash.lean`) | the run is one of the program with marks and the workers' number of rounds (C70), until main waits on the other channel (`UptoZ.stall`); by the invariant of C19 that channel is empty and open whenever main is in a round, so main stays there (`neverReturns_of`). `C71_uneven`: with chunks of different dimensions the schedule decides between result and panic, shown by running two priority schedules (`runPrio`) of one prover. `C71_pipeline`: workers that wait for a token of an empty semaphore (`IdlePool`) |
| C72 | `TrueSums`, `TrueMsg` (`Spec/TrueProof.lean`), `TrueNext`, `AllTrue`, `Unlucky` (`Spec/TrueTranscript.lean`) | honest: induction over the rounds as in C15 (`prove_sums`), over the layers as in C22 (`gkr_true_at`). Conversely from the inputs upwards: a wrong message below an unlucky-free layer would be found (`wrong_below`, `true_down`), and from the last round backwards (`true_core`); true messages of the same shape are equal, since a polynomial is determined by its values (`polyOf_inj`). The count is that of C45 (`gkr_bad_count`). With transcript challenges (`C72_transcript`, `C72_oracle`): after a message that does not say the truth few challenges leave a stage that is not doomed (`false_count`); an accepted run without unlucky challenges says the truth throughout, from its end backwards (`lucky_run`); so does the prover (`proverT_true`), and there is one such run (`allTrue_unique`). The count over the oracle's answers is that of C67 (`oracle_count`) |
| C73 | `interleave`, `wiredAssignment`, `TrueMsg` | layers: `interleave_wired` by induction. Proof: by C72 both provers send the true messages about the same tables, and proofs of one shape that do so are equal (`true_unique_tables`). Verdict: the exact conditions of C23 and C24 mention the tables only. `C73_negation`: for `Assign` with a wire with R ≠ 0 the outputs depend on the chunking. `C73_repaired`, `C74_repaired`: the functions of C65 for all circuits. `C73_gadget`: the witness of the gadget is the same too |
| C74 | `instanceOf` (`Props/Instances.lean`), `wiredAssignment` | the instances of a wired layer are the layer on one instance (`instanceOf_wired`), induction over the layers; what `Evaluate` really computes is by `C12_evaluate_exact` a wired layer too. `C74_negation`: with R ≠ 0 an instance gets other values in a batch than alone |
