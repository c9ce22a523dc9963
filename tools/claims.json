{
 "C01": [
  "proved",
  "All Go ints, both positive and non-positive arguments."
 ],
 "C02": [
  "proved",
  "All nCore (negative too) and all N; panics exactly for nCore = 0. C02_sizes and C02_negative give every range exactly, and at most nCore + 1 ranges for nCore <= 4096."
 ],
 "C03": [
  "proved",
  "All table sizes 2^n and points, also points that are too long (panic) or too short."
 ],
 "C04": [
  "proved",
  "Memory model with arbitrary aliasing, offsets, capacities and append growth policy (Heap.extra is arbitrary)."
 ],
 "C05": [
  "proved",
  "All lengths, also mismatched ones."
 ],
 "C06": [
  "proved",
  "All q, k <= n, nCore >= 1; panics for every other chunk count."
 ],
 "C07": [
  "partial",
  "Proved for 2^k chunks with k >= 1. The full claim is false for one chunk: the code panics (C07_negation, C07_single_chunk_panics)."
 ],
 "C08": [
  "proved",
  "All coefficient lists; 1..12 values; panic beyond."
 ],
 "C09": [
  "partial",
  "Add, Sub (every schedule), Mul (every schedule): proved for receivers that coincide with or do not overlap the operands. Linear combination: proved for tables without common cells; false for a table combined with itself (C09_linearCombination_negation), which no caller does."
 ],
 "C10": [
  "proved",
  "All gates of the package, all inputs and destination slices that are long enough."
 ],
 "C11": [
  "proved",
  "All gates of the package; the bounds are also shown to be attained."
 ],
 "C12": [
  "partial",
  "Proved when every right operand is wire 0 or each chunk has one instance. The full claim is false (C12_negation: wrong value; C12_negation_panic: panic). What Evaluate does for every wiring: it evaluates the layer with right operands R*N and panics if one is out of range (C12_evaluate_exact)."
 ],
 "C13": [
  "partial",
  "Proved exactly when no gate ID repeats (C13_gates_iff). The full claim is false (C13_negation): Gates never removes a repetition."
 ],
 "C14": [
  "proved",
  "All wirings and all points."
 ],
 "C15": [
  "proved",
  "All layers with distinct gate IDs, all inputs and points; distinctness is shown to be needed."
 ],
 "C16": [
  "proved",
  "All gate lists meeting the interface contract, dimensions, tables, challenge functions. The empty gate list is shown to panic."
 ],
 "C17": [
  "proved",
  "All proofs and claims, all lawful gate lists."
 ],
 "C18": [
  "proved",
  "All 2^k chunks, all nCore >= 1, all well-chunked tables; both Prove and GetClaim. The value-level model runs the workers in index order; independence of the schedule is C19."
 ],
 "C19": [
  "proved",
  "Every schedule of the small-step semantics of Model/Conc.lean. Worker-local state (tables of chunk i) is private to worker i. C19_complete covers every instance with 2^k chunks of equal power-of-two sizes and the gates of the package; C19_prove any prover whose workers, run in turn, succeed."
 ],
 "C20": [
  "proved",
  "Every reachable configuration of Evaluate, LayerAsBKTWithCopy, Sub/Mul, GetClaim and Prove. In Sub and Mul it is the caller that acquires, for the worker it then starts; the bound counts the other goroutines. In all of them the bound is attained by some schedule (C20_*_attained)."
 ],
 "C21": [
  "proved",
  "Every schedule of the small-step semantics of Model/Conc.lean; the jobs themselves do not panic (hypothesis: the sequential loop succeeds). Sub/Mul: C21_chunked_loop for any memory; C21_sub/C21_mul for a receiver that shares no memory with the operands."
 ],
 "C22": [
  "partial",
  "Proved for 2^k chunks with k >= 1, every circuit with distinct gate IDs per layer and lawful gates of degree <= 10. False for a single chunk: Verify panics (C22_negation, C22_single_chunk_panics)."
 ],
 "C23": [
  "partial",
  "Acceptance is characterised exactly for every proof (C23_accepts_iff). Soundness is proved for proofs passing the combinator checks of all layers (C23_sound_partial). The full claim is false: gkr/verifier.go:99 returns true when an intermediate check fails, so zero outputs are accepted for the real MiMC circuit on every input (C23_negation), and so are all other outputs (C23_all_outputs; C23_any_outputs writes the proof down without evaluating the circuit, unless one of the hashes involved has an exceptional value). For every circuit of at least two layers the outputs on any inputs are accepted for all inputs (C23_transplant)."
 ],
 "C24": [
  "partial",
  "Proved: no panic on well-shaped proofs with arbitrary contents, and exactly which of all proofs panic (C24_panics_iff). False in general: the empty proof and empty round polynomials panic, and proofs with extra entries are accepted."
 ],
 "C25": [
  "partial",
  "Proved: the answer depends on the outputs through their extension at the initial point only; an output is bound iff its weight there is non-zero; for MiMC exactly the upper half. The full claim is false (C25_negation)."
 ],
 "C26": [
  "proved",
  "All messages, blocks and states; the 91 real round constants."
 ],
 "C27": [
  "proved",
  "CreateMimcCircuit with the 91 real constants: Assign yields E_b(s)+b for every instance, any number of chunks and instances; adding the state gives MimcUpdateInplace."
 ],
 "C28": [
  "partial",
  "The full claim is false (C28_negation, C28_collision): Update rebinds its local slice, so words at indices that are not multiples of t are ignored. Proved: what Update computes locally, what the caller sees, and that words at multiples of t do count. Also: the permutation is a bijection for every width t <= 100, all round constants and all blocks, and the parameters of the three package instances (t, round counts)."
 ],
 "C29": [
  "proved",
  "All messages, all t >= 1, all round counts up to the number of constants. C29_package: the package instance runs 91 rounds."
 ],
 "C30": [
  "proved",
  "All t <= 100 and all choices of rows and columns; the 200 real constants."
 ],
 "C31": [
  "proved",
  "All messages and all constants (panics included); with the 91 real constants the gadget computes MiMC without assertions."
 ],
 "C32": [
  "proved",
  "All tables and points (panics included for Eval and EqEval); EvalMixed for points fitting the table; Univariate.Eval and ZeroAndOne for non-empty coefficient lists (on the empty one they differ: C32_uniEval_nil)."
 ],
 "C33": [
  "proved",
  "All claims, round polynomials and bG: gadget satisfiable with result v iff native Verify returns (true, v)."
 ],
 "C34": [
  "proved",
  "All batches in 2^k chunks (k = 0 included), all core counts, the real MiMC circuit and hash."
 ],
 "C35": [
  "proved",
  "All witnesses: wrong outputs at the initial point imply a bad round challenge or a bad combination, per layer."
 ],
 "C36": [
  "partial",
  "Proved: native Verify = true iff gadget satisfied or the line-99 case. The full claim is false: a well-shaped proof is accepted natively for all inputs with zero outputs, while the gadget rejects (C36_negation)."
 ],
 "C37": [
  "proved",
  "All batches in 2^k chunks: allocated shape = shape of the native proof, Assign succeeds, every slot holds the native value; also for the input and output tables. C37_once: what holds values takes no second assignment."
 ],
 "C39": [
  "proved",
  "All field elements; also the exact condition for the sign, injectivity of FrSliceToString, IntSliceToString, UintSliceToString and BookKeepingTable.String on all slices, of Uint64ToFr, and FrToGenericArray."
 ],
 "C40": [
  "proved",
  "All tables of m*nChunk entries and all nChunk >= 1, both directions."
 ],
 "C41": [
  "partial",
  "Proved: the challenge of a round is the hash of that round's polynomial only. The full claim is false (C41_negation)."
 ],
 "C42": [
  "proved",
  "Memory-level model of Verify and all it calls (static tables, folds, chunked evaluation, append with any growth policy). C42_verify: no existing cell changes and the answer is that of the value-level verifier on the contents; C42_staticTables and C42_staticTablesLinCombs for the two functions named in the property."
 ],
 "C38": [
  "proved",
  "At the level of memory, for every heap, aliasing of the assignment, capacity and growth policy: Prove changes no existing cell; any sequence of calls with any core counts returns one proof; the verifier then reads the old inputs and outputs. MultiThreadedProver.Prove writes only the arrays of vL, vR, eq; two concrete runs show that it is not repeatable and that LayerAsBKTNoCopy would destroy the assignment. Within one round the workers run in index order; C19 covers all schedules at the value level. C38_layer_tables: LayerAsBKTWithCopy returns new tables with the contents of the layer, LayerAsBKTNoCopy the slices of the assignment themselves."
 ],
 "C43": [
  "partial",
  "Proved: Verify uses the inputs only through two linear evaluations at points fixed by the proof; for honest proofs the exact set of accepted inputs (C43_honest_iff_partial); a single changed input with non-zero weight is rejected. The full claim is false: with the real circuit and hash, the honest proof of any batch of 4 instances or more is accepted for other inputs with different true outputs (C43_negation), also without the bug of line 99 (C43_only_two_values, C43_shift)."
 ],
 "C44": [
  "proved",
  "All finite fields, gates, tables, wrong claims and adaptive provers (challenges drawn by the verifier: the set of challenge vectors that some hash function can give). The bound is sharp in the length of the polynomials, which Verify does not check (C44_no_degree_check)."
 ],
 "C45": [
  "proved",
  "All good circuits, instances and adaptive provers: for the checks of the specification (those of the gadget, C36_gadget_iff), for Verify when line 99 is not reached (C45_verify), without condition for one layer, for the MiMC circuit with explicit numbers, and with a random initial point for all wrong outputs. Through line 99 Verify accepts wrong outputs for every hash function (C23_forgery)."
 ],
 "C46": [
  "proved",
  "All bN, chunk counts, core counts, schedules and hash functions; the panics for other chunk counts are C46_panics. bN is a natural number (a negative length panics in Go)."
 ],
 "C47": [
  "proved",
  "All heaps, provers, hash functions, numbers of cores and schedules of single accesses, for every instance on which the sequential workers succeed (C47_complete: every chunked instance). The labels on which the notion of race rests are proved right (C47_labels). That static tables share no array with folded tables is a hypothesis; the provers built by gkr meet it (C47_initialRound, C47_intermediateRound)."
 ],
 "C48": [
  "proved",
  "All heaps, circuits, numbers of cores and schedules of single accesses, for every input on which the sequential code succeeds. C48_assign_copy composes Assign with the copy that gkr makes of a layer. That an operand of Sub/Mul is the receiver or does not overlap it is a hypothesis; C48_overlap_race shows that it is needed. C48_labels: the labels of the accesses are right."
 ],
 "C49": [
  "proved",
  "All heaps, circuits, challenges, numbers of cores and schedules of single accesses, for every input on which the sequential code succeeds. C49_labels: the labels of the accesses are right."
 ],
 "C50": [
  "proved",
  "All heaps, circuits, challenge functions, numbers of cores and schedules of single accesses, for every input on which the sequential code succeeds and whose layers have as many tables each, of one length within a layer (true of honest assignments). C50_complete and C50_complete_assign: the proof of every schedule is accepted by Verify. C50_labels: the labels of the accesses are right. C50_mimc: the same for the circuit of CreateMimcCircuit with the real constants and challenges, from states and blocks in memory to an accepted proof."
 ],
 "C51": [
  "proved",
  "All circuits, assignments of the right sizes (any contents), challenge functions and numbers of cores. C51_counted_accepted: the values that Verify accepts when gates repeat. C51_misread_rejected: an adder on which Assign misreads an input without panic and Verify rejects the proof."
 ],
 "C52": [
  "partial",
  "Proved: no panic, and the exact condition for the answer true (C52_honest_partial). The full claim is false (C52_negation: two adders in a layer, for every challenge function; the honest proof is rejected and the proof of the doubled outputs accepted; C52_uniform_rejected is the general form)."
 ],
 "C53": [
  "partial",
  "Proved: given one satisfying witness, the exact set of other tables that satisfy the gadget with the same proof: the ones with the same extension at three points (C53_binds_partial). The full claim is false: with the initial point of the native verifier the first output is free (C53_negation_outputs), and for 4 instances or more the honest proof satisfies the gadget for other states, whose MiMC outputs are different (C53_negation_inputs)."
 ],
 "C54": [
  "partial",
  "Proved: the test of the repository for every batch, number of chunks and core count (C54_test); completeness for every initial point (C54_complete); outputs that differ from the MiMC outputs by the same non-zero number everywhere need an unlucky challenge (C54_sound_partial). The full claim is false: the initial point is part of the witness, so for all inputs every other table of outputs has a satisfying witness (C54_negation)."
 ],
 "C55": [
  "proved",
  "For any points and coefficients (C55_intermediate, C55_initial) and as entries of the assignment at Boolean points (C55_boolean), which is what TestMimc asserts."
 ],
 "C56": [
  "proved",
  "TestMimc for every draw (C56_testMimc) and for all sizes and inputs (C56_mimc, C56_inputs); TestGKR and TestMultiBGs for all inputs (C56_gkr, C56_multi)."
 ],
 "C57": [
  "proved",
  "Exactly what the assertions say (C57_gadget_iff), soundness (C57_sound), completeness and fit of the allocated variables (C57_complete); MiMC and every native circuit have such gadget circuits (C57_mimc, C57_gadget_circuit). Other numbers of layers: only the first 91 are read (C57_only_91, C57_further_layers, with a wrong output that is accepted in C57_negation), fewer panic (C57_too_few)."
 ],
 "C58": [
  "partial",
  "The absence of races is false for two processes or more: C58_race gives, for all parameters with enough cores, a schedule in which two goroutines are about to write _mimcProof. Everything else is proved for all schedules (C58_multi_partial, labels right by C58_labels), for the benchmark with one process (C58_single), and for the parameters that fail (C58_blocks, C58_panics). The provers of the goroutines are local computations here; all their schedules are C50."
 ],
 "C59": [
  "partial",
  "TestEq is satisfied if there are as many pairs of points as coordinates, as in the file (C59_eq_partial); for all other sizes its witness is never complete (C59_eq_negation: Assign loops over the wrong slice). TestChunked needs two chunks or more (C59_chunked; C59_chunked_one: it panics with one). All others are proved for all draws and sizes, together with the exact meaning of the assertions (C59_*_circuit). TestMimcCircuit of snark/gkr is C54_test."
 ],
 "C60": [
  "partial",
  "The trace file is never closed (C60_negation_files; C60_files_partial says exactly what stays open), and two kinds of benchmarks measure more than their computations (C60_negation_timer; C60_multi and C60_sumcheck say exactly what they measure). The rest is proved: C60_atoi, C60_numeral, C60_getters, C60_flags, C60_profileTrace, C60_not_started, C60_blocked (a computation that waits for ever), C60_prover, C60_benchmark, C60_benchmark_panics."
 ],
 "C61": [
  "proved",
  "The other models use the constants and hashers directly, and getLagrangePolynomial computes its entry; C61 shows that this is what init puts into the variables."
 ],
 "C62": [
  "proved",
  "Relative to the interface of gnark as modelled in Model/R1cs.lean: cs.Mul of two variables (constants included) makes one constraint and one wire, cs.Add/Sub/Constant none, cs.AssertIsEqual one. What gnark does after Define (flattening, optimising) is outside the model."
 ],
 "C63": [
  "proved",
  "The bounds are part of the statement. The largest length that make accepts is a parameter lim <= 2^61. Loops that only count entries of slices in memory, the gadgets and the hash functions have no size arithmetic that is modelled on registers. C63_chunks: InterleavedChunk and MultiThreadedProver.GetClaim."
 ],
 "C64": [
  "proved",
  "groth16.DummySetup and groth16.Prove are not modelled, only what Prove is given. 1<<bN is a machine integer in BenchmarkMimc; in the others sizes are unbounded (cf. C63). The dependence of the phases and the ignored errors are stated as they are (DESIGN.md, finding 17)."
 ],
 "C65": [
  "proved",
  "About repaired copies of the functions (Model/Repaired.lean), not about the code as it is; it shows that the negations of C07, C09, C12, C13, C22, C23, C24, C28, C36 and C52 have no other cause. Soundness is still relative to the initial point and to the challenges: C25, C41, C43, C53 and C54 are faults of the protocol, which these repairs do not touch."
 ],
 "C66": [
  "proved",
  "About the repaired verifier of C65 with the initial point as an argument (Model/Repaired.lean), and about the gadget of the code with a point drawn after the outputs are fixed; not about the constants that the code uses. It gives the full claims of C25, C54 and, for outputs, C53. Challenges that do not depend on the inputs and on earlier rounds (C41, C43, C53 for inputs) are untouched."
 ],
 "C67": [
  "proved",
  "About the repaired verifier of C65 with point and challenges hashed from the statement and the whole transcript (Model/Transcript.lean); not about the code, whose challenges are hashes of the current message alone. It gives the full claims of C41, C43 and C53 in the random-oracle form, the statement chosen by the adversary included. The oracle is asked about structured data: that a concrete hash gets an injective encoding of it is assumed."
 ],
 "C68": [
  "proved",
  "About repaired copies (Model/RepairedBench.lean), not about the code: they show that the faults named in C58, C59 and C60 are all that stands in the way of the full claims."
 ],
 "C69": [
  "proved",
  "Size for circuits whose layers do not repeat gates (GoodWires), as in C22, but for one chunk too; the statements about the hash have no hypothesis on circuit, proof or inputs."
 ],
 "C70": [
  "proved",
  "For Prove the kind of panic is left open, as the schedule decides which worker panics first. Chunks of different dimensions are excluded by EvenChunks; where the sequential reading says deadlock see C71. C70_pipeline: with a negative number of cores the whole pipeline Assign, NewProver, Prove over shared memory panics."
 ],
 "C71": [
  "proved",
  "With this the answer `.error .deadlock` of the sequential model, so far part of the trusted reading, is a theorem about the concurrent programs. EvenChunks is needed: with chunks of different dimensions some schedules of Prove return and others panic (C71_uneven). C71_pipeline: with zero cores the whole pipeline Assign, NewProver, Prove over shared memory blocks for ever, for every circuit with a layer, every input with a chunk and every memory."
 ],
 "C72": [
  "proved",
  "C72_appended and C72_malleable: the verifier of the code does not look at the number of messages, so there the honest proof is not the only one. C72_repaired: with the verifier of C65, at the point of the code, an accepted proof is what Prove returns or some challenge is unlucky."
 ],
 "C73": [
  "proved",
  "Props/Chunking.lean. C73_values: the values of every layer of a circuit evaluated as wired interleave to the same tables. C73_proof: NewProver and Prove on two chunkings of the same table (also a single chunk), with any positive numbers of cores, return the same proof. C73_verify: Verify accepts, rejects or panics alike for every proof, honest or not, and all inputs and outputs (at least two chunks). C73_assign, C73_mimc: the pipeline from the inputs, where the wires have R = 0 (C12), so for the circuit of CreateMimcCircuit with the real constants and challenges. C73_schedules (Props/ChunkingConc.lean): over shared memory, one proof for both chunkings and all schedules. The claim leaves out Assign with other wires, for which it fails (C73_negation, the index bug of C12). C73_repaired (Props/RepairedBatch.lean): with the repairs of C65 it holds for all circuits, for a single chunk too, and the answers of Verify are equal. C73_gadget (Props/ChunkingGadget.lean): Assign of the GKR test circuit fills in the same witness for both chunkings, and it satisfies all constraints."
 ],
 "C74": [
  "proved",
  "Props/Instances.lean. C74_isolated: for every circuit (also where Assign reads the wrong right operand, C12) the values of an instance depend on its own inputs only: calls of Assign that return and agree on one instance, at whatever places, agree on all its values. C74_alone: for wires with R = 0 each instance of a batch gets what it gets as the only instance. C74_mimc: the same for the circuit of CreateMimcCircuit with the real constants. The claim leaves out C74_alone for other wires, for which it fails (C74_negation, the index bug of C12). C74_repaired (Props/RepairedBatch.lean): with the Assign of C65 it holds for all wirings."
 ]
}
