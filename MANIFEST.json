{
 "claims": [
  {
   "property": "C01",
   "status": "proved",
   "theorems": [
    "GkrMimc.C01_log2_exact",
    "GkrMimc.C01_log2_nonpos"
   ],
   "note": "All Go ints, both positive and non-positive arguments."
  },
  {
   "property": "C02",
   "status": "proved",
   "theorems": [
    "GkrMimc.C02_sizes",
    "GkrMimc.C02_negative",
    "GkrMimc.C02_chunk_ranges",
    "GkrMimc.C02_chunk_ranges_panic"
   ],
   "note": "All nCore (negative too) and all N; panics exactly for nCore = 0. C02_sizes and C02_negative give every range exactly, and at most nCore + 1 ranges for nCore <= 4096."
  },
  {
   "property": "C03",
   "status": "proved",
   "theorems": [
    "GkrMimc.C03_evaluate_is_mle",
    "GkrMimc.C03_evaluate_boolean",
    "GkrMimc.C03_fold_partial_eval",
    "GkrMimc.C03_evaluate_too_many",
    "GkrMimc.C03_evaluate_too_few"
   ],
   "note": "All table sizes 2^n and points, also points that are too long (panic) or too short."
  },
  {
   "property": "C04",
   "status": "proved",
   "theorems": [
    "GkrMimc.C04_deepCopy",
    "GkrMimc.C04_evaluate",
    "GkrMimc.C04_evaluateLeftAndRight",
    "GkrMimc.C04_fold",
    "GkrMimc.C04_linearCombination"
   ],
   "note": "Memory model with arbitrary aliasing, offsets, capacities and append growth policy (Heap.extra is arbitrary)."
  },
  {
   "property": "C05",
   "status": "proved",
   "theorems": [
    "GkrMimc.C05_evalEq",
    "GkrMimc.C05_evalEq_symm",
    "GkrMimc.C05_evalEq_boolean",
    "GkrMimc.C05_foldedEqTable"
   ],
   "note": "All lengths, also mismatched ones."
  },
  {
   "property": "C06",
   "status": "proved",
   "theorems": [
    "GkrMimc.C06_chunkedEqTable",
    "GkrMimc.C06_chunkedEqTable_panics"
   ],
   "note": "All q, k <= n, nCore >= 1; panics for every other chunk count."
  },
  {
   "property": "C07",
   "status": "partial",
   "theorems": [
    "GkrMimc.C07_evaluateChunked_partial",
    "GkrMimc.C07_evaluateMixedChunked_partial",
    "GkrMimc.C07_single_chunk_panics",
    "GkrMimc.C07_single_chunk_mixed_panics",
    "GkrMimc.C07_negation"
   ],
   "note": "Proved for 2^k chunks with k >= 1. The full claim is false for one chunk: the code panics (C07_negation, C07_single_chunk_panics)."
  },
  {
   "property": "C08",
   "status": "proved",
   "theorems": [
    "GkrMimc.C08_evaluatePolynomial",
    "GkrMimc.C08_evaluatePolynomial_empty",
    "GkrMimc.C08_interpolateOnRange",
    "GkrMimc.C08_interpolateOnRange_panics",
    "GkrMimc.C08_interpolateOnRange_fr"
   ],
   "note": "All coefficient lists; 1..12 values; panic beyond."
  },
  {
   "property": "C09",
   "status": "partial",
   "theorems": [
    "GkrMimc.C09_add",
    "GkrMimc.C09_sub",
    "GkrMimc.C09_mul",
    "GkrMimc.C09_length",
    "GkrMimc.C09_no_core",
    "GkrMimc.C09_linearCombination_partial",
    "GkrMimc.C09_linearCombination_negation"
   ],
   "note": "Add, Sub (every schedule), Mul (every schedule): proved for receivers that coincide with or do not overlap the operands. Linear combination: proved for tables without common cells; false for a table combined with itself (C09_linearCombination_negation), which no caller does."
  },
  {
   "property": "C10",
   "status": "proved",
   "theorems": [
    "GkrMimc.C10_batch_routes",
    "GkrMimc.C10_functions",
    "GkrMimc.C10_equal_id",
    "GkrMimc.C10_snark_gates"
   ],
   "note": "All gates of the package, all inputs and destination slices that are long enough."
  },
  {
   "property": "C11",
   "status": "proved",
   "theorems": [
    "GkrMimc.C11_degrees",
    "GkrMimc.C11_degrees_tight"
   ],
   "note": "All gates of the package; the bounds are also shown to be attained."
  },
  {
   "property": "C12",
   "status": "partial",
   "theorems": [
    "GkrMimc.C12_layer_evaluate_partial",
    "GkrMimc.C12_assign_partial",
    "GkrMimc.C12_negation",
    "GkrMimc.C12_negation_panic",
    "GkrMimc.C12_evaluate_exact"
   ],
   "note": "Proved when every right operand is wire 0 or each chunk has one instance. The full claim is false (C12_negation: wrong value; C12_negation_panic: panic). What Evaluate does for every wiring: it evaluates the layer with right operands R*N and panics if one is out of range (C12_evaluate_exact)."
  },
  {
   "property": "C13",
   "status": "partial",
   "theorems": [
    "GkrMimc.C13_gates_distinct_partial",
    "GkrMimc.C13_gates_iff",
    "GkrMimc.C13_gates_always",
    "GkrMimc.C13_negation"
   ],
   "note": "Proved exactly when no gate ID repeats (C13_gates_iff). The full claim is false (C13_negation): Gates never removes a repetition."
  },
  {
   "property": "C14",
   "status": "proved",
   "theorems": [
    "GkrMimc.C14_static_tables",
    "GkrMimc.C14_wires_in_range"
   ],
   "note": "All wirings and all points."
  },
  {
   "property": "C15",
   "status": "proved",
   "theorems": [
    "GkrMimc.C15_layer_claim",
    "GkrMimc.C15_layer_claim_evaluated",
    "GkrMimc.C15_needs_distinct_ids"
   ],
   "note": "All layers with distinct gate IDs, all inputs and points; distinctness is shown to be needed."
  },
  {
   "property": "C16",
   "status": "proved",
   "theorems": [
    "GkrMimc.C16_complete",
    "GkrMimc.C16_no_gates_panics"
   ],
   "note": "All gate lists meeting the interface contract, dimensions, tables, challenge functions. The empty gate list is shown to panic."
  },
  {
   "property": "C17",
   "status": "proved",
   "theorems": [
    "GkrMimc.C17_accepts_iff",
    "GkrMimc.C17_rejects",
    "GkrMimc.C17_sound",
    "GkrMimc.C17_few_bad_challenges"
   ],
   "note": "All proofs and claims, all lawful gate lists."
  },
  {
   "property": "C18",
   "status": "proved",
   "theorems": [
    "GkrMimc.C18_prove",
    "GkrMimc.C18_getClaim",
    "GkrMimc.C18_complete"
   ],
   "note": "All 2^k chunks, all nCore >= 1, all well-chunked tables; both Prove and GetClaim. The value-level model runs the workers in index order; independence of the schedule is C19."
  },
  {
   "property": "C19",
   "status": "proved",
   "theorems": [
    "GkrMimc.C19_prove",
    "GkrMimc.C19_complete",
    "GkrMimc.C19_deadlock"
   ],
   "note": "Every schedule of the small-step semantics of Model/Conc.lean. Worker-local state (tables of chunk i) is private to worker i. C19_complete covers every instance with 2^k chunks of equal power-of-two sizes and the gates of the package; C19_prove any prover whose workers, run in turn, succeed."
  },
  {
   "property": "C20",
   "status": "proved",
   "theorems": [
    "GkrMimc.C20_holds",
    "GkrMimc.C20_evaluate_attained",
    "GkrMimc.C20_getClaim_attained",
    "GkrMimc.C20_prove",
    "GkrMimc.C20_getClaim",
    "GkrMimc.C20_evaluate",
    "GkrMimc.C20_layerAsBKTWithCopy",
    "GkrMimc.C20_chunked_loop",
    "GkrMimc.C20_prove_attained",
    "GkrMimc.C20_layerAsBKTWithCopy_attained",
    "GkrMimc.C20_chunked_loop_attained"
   ],
   "note": "Every reachable configuration of Evaluate, LayerAsBKTWithCopy, Sub/Mul, GetClaim and Prove. In Sub and Mul it is the caller that acquires, for the worker it then starts; the bound counts the other goroutines. In all of them the bound is attained by some schedule (C20_*_attained)."
  },
  {
   "property": "C21",
   "status": "proved",
   "theorems": [
    "GkrMimc.C21_evaluate",
    "GkrMimc.C21_evaluate_deadlock",
    "GkrMimc.C21_layerAsBKTWithCopy",
    "GkrMimc.C21_layerAsBKTWithCopy_deadlock",
    "GkrMimc.C21_chunked_loop",
    "GkrMimc.C21_sub",
    "GkrMimc.C21_mul",
    "GkrMimc.C21_getClaim",
    "GkrMimc.C21_getClaim_deadlock"
   ],
   "note": "Every schedule of the small-step semantics of Model/Conc.lean; the jobs themselves do not panic (hypothesis: the sequential loop succeeds). Sub/Mul: C21_chunked_loop for any memory; C21_sub/C21_mul for a receiver that shares no memory with the operands."
  },
  {
   "property": "C22",
   "status": "partial",
   "theorems": [
    "GkrMimc.C22_complete_partial",
    "GkrMimc.C22_complete_assign_partial",
    "GkrMimc.C22_single_chunk_panics",
    "GkrMimc.C22_negation",
    "GkrMimc.C22_mimc_partial"
   ],
   "note": "Proved for 2^k chunks with k >= 1, every circuit with distinct gate IDs per layer and lawful gates of degree <= 10. False for a single chunk: Verify panics (C22_negation, C22_single_chunk_panics)."
  },
  {
   "property": "C23",
   "status": "partial",
   "theorems": [
    "GkrMimc.C23_forgery_any",
    "GkrMimc.C23_any_outputs",
    "GkrMimc.C23_transplant",
    "GkrMimc.C23_all_outputs",
    "GkrMimc.C23_accepts_iff",
    "GkrMimc.C23_accept_partial",
    "GkrMimc.C23_sound_partial",
    "GkrMimc.C23_unlucky_round",
    "GkrMimc.C23_unlucky_combination",
    "GkrMimc.C23_forgery",
    "GkrMimc.C23_negation",
    "GkrMimc.C23_outputs_wrong"
   ],
   "note": "Acceptance is characterised exactly for every proof (C23_accepts_iff). Soundness is proved for proofs passing the combinator checks of all layers (C23_sound_partial). The full claim is false: gkr/verifier.go:99 returns true when an intermediate check fails, so zero outputs are accepted for the real MiMC circuit on every input (C23_negation), and so are all other outputs (C23_all_outputs; C23_any_outputs writes the proof down without evaluating the circuit, unless one of the hashes involved has an exceptional value). For every circuit of at least two layers the outputs on any inputs are accepted for all inputs (C23_transplant)."
  },
  {
   "property": "C24",
   "status": "partial",
   "theorems": [
    "GkrMimc.C24_panics_iff",
    "GkrMimc.C24_total_partial",
    "GkrMimc.C24_negation_empty",
    "GkrMimc.C24_negation_empty_round",
    "GkrMimc.C24_negation_junk"
   ],
   "note": "Proved: no panic on well-shaped proofs with arbitrary contents, and exactly which of all proofs panic (C24_panics_iff). False in general: the empty proof and empty round polynomials panic, and proofs with extra entries are accepted."
  },
  {
   "property": "C25",
   "status": "partial",
   "theorems": [
    "GkrMimc.C25_only_initial_value",
    "GkrMimc.C25_binds_partial",
    "GkrMimc.C25_single_output_partial",
    "GkrMimc.C25_mimc_weights",
    "GkrMimc.C25_negation"
   ],
   "note": "Proved: the answer depends on the outputs through their extension at the initial point only; an output is bound iff its weight there is non-zero; for MiMC exactly the upper half. The full claim is false (C25_negation)."
  },
  {
   "property": "C26",
   "status": "proved",
   "theorems": [
    "GkrMimc.C26_hash",
    "GkrMimc.C26_permutation",
    "GkrMimc.C26_update",
    "GkrMimc.C26_empty",
    "GkrMimc.C26_chain"
   ],
   "note": "All messages, blocks and states; the 91 real round constants."
  },
  {
   "property": "C27",
   "status": "proved",
   "theorems": [
    "GkrMimc.C27_circuit",
    "GkrMimc.C27_update"
   ],
   "note": "CreateMimcCircuit with the 91 real constants: Assign yields E_b(s)+b for every instance, any number of chunks and instances; adding the state gives MimcUpdateInplace."
  },
  {
   "property": "C28",
   "status": "partial",
   "theorems": [
    "GkrMimc.C28_update_partial",
    "GkrMimc.C28_heads_partial",
    "GkrMimc.C28_negation",
    "GkrMimc.C28_collision",
    "GkrMimc.C28_permutation_partial",
    "GkrMimc.C28_package_partial"
   ],
   "note": "The full claim is false (C28_negation, C28_collision): Update rebinds its local slice, so words at indices that are not multiples of t are ignored. Proved: what Update computes locally, what the caller sees, and that words at multiples of t do count. Also: the permutation is a bijection for every width t <= 100, all round constants and all blocks, and the parameters of the three package instances (t, round counts)."
  },
  {
   "property": "C29",
   "status": "proved",
   "theorems": [
    "GkrMimc.C29_rotate",
    "GkrMimc.C29_update",
    "GkrMimc.C29_hash",
    "GkrMimc.C29_bijective",
    "GkrMimc.C29_padding_collides",
    "GkrMimc.C29_package"
   ],
   "note": "All messages, all t >= 1, all round counts up to the number of constants. C29_package: the package instance runs 91 rounds."
  },
  {
   "property": "C30",
   "status": "proved",
   "theorems": [
    "GkrMimc.C30_mds"
   ],
   "note": "All t <= 100 and all choices of rows and columns; the 200 real constants."
  },
  {
   "property": "C31",
   "status": "proved",
   "theorems": [
    "GkrMimc.C31_computes",
    "GkrMimc.C31_mimc"
   ],
   "note": "All messages and all constants (panics included); with the 91 real constants the gadget computes MiMC without assertions."
  },
  {
   "property": "C32",
   "status": "proved",
   "theorems": [
    "GkrMimc.C32_eval",
    "GkrMimc.C32_evalMixed",
    "GkrMimc.C32_eqEval",
    "GkrMimc.C32_uniEval",
    "GkrMimc.C32_uniEval_nil",
    "GkrMimc.C32_zeroAndOne"
   ],
   "note": "All tables and points (panics included for Eval and EqEval); EvalMixed for points fitting the table; Univariate.Eval and ZeroAndOne for non-empty coefficient lists (on the empty one they differ: C32_uniEval_nil)."
  },
  {
   "property": "C33",
   "status": "proved",
   "theorems": [
    "GkrMimc.C33_agree",
    "GkrMimc.C33_iff"
   ],
   "note": "All claims, round polynomials and bG: gadget satisfiable with result v iff native Verify returns (true, v)."
  },
  {
   "property": "C34",
   "status": "proved",
   "theorems": [
    "GkrMimc.C34_complete"
   ],
   "note": "All batches in 2^k chunks (k = 0 included), all core counts, the real MiMC circuit and hash."
  },
  {
   "property": "C35",
   "status": "proved",
   "theorems": [
    "GkrMimc.C35_sound"
   ],
   "note": "All witnesses: wrong outputs at the initial point imply a bad round challenge or a bad combination, per layer."
  },
  {
   "property": "C36",
   "status": "partial",
   "theorems": [
    "GkrMimc.C36_gadget_iff",
    "GkrMimc.C36_agree_partial",
    "GkrMimc.C36_negation"
   ],
   "note": "Proved: native Verify = true iff gadget satisfied or the line-99 case. The full claim is false: a well-shaped proof is accepted natively for all inputs with zero outputs, while the gadget rejects (C36_negation)."
  },
  {
   "property": "C37",
   "status": "proved",
   "theorems": [
    "GkrMimc.C37_once",
    "GkrMimc.C37_assign",
    "GkrMimc.C37_sumcheck_assign",
    "GkrMimc.C37_assign_any"
   ],
   "note": "All batches in 2^k chunks: allocated shape = shape of the native proof, Assign succeeds, every slot holds the native value; also for the input and output tables. C37_once: what holds values takes no second assignment."
  },
  {
   "property": "C38",
   "status": "proved",
   "theorems": [
    "GkrMimc.C38_no_cores",
    "GkrMimc.C38_prove",
    "GkrMimc.C38_unchanged",
    "GkrMimc.C38_again",
    "GkrMimc.C38_times",
    "GkrMimc.C38_times_ok",
    "GkrMimc.C38_verify",
    "GkrMimc.C38_sumcheck_footprint",
    "GkrMimc.C38_sumcheck_not_repeatable",
    "GkrMimc.C38_no_copy_overwrites",
    "GkrMimc.C38_layer_tables"
   ],
   "note": "At the level of memory, for every heap, aliasing of the assignment, capacity and growth policy: Prove changes no existing cell; any sequence of calls with any core counts returns one proof; the verifier then reads the old inputs and outputs. MultiThreadedProver.Prove writes only the arrays of vL, vR, eq; two concrete runs show that it is not repeatable and that LayerAsBKTNoCopy would destroy the assignment. Within one round the workers run in index order; C19 covers all schedules at the value level. C38_layer_tables: LayerAsBKTWithCopy returns new tables with the contents of the layer, LayerAsBKTNoCopy the slices of the assignment themselves."
  },
  {
   "property": "C39",
   "status": "proved",
   "theorems": [
    "GkrMimc.C39_congruent",
    "GkrMimc.C39_injective",
    "GkrMimc.C39_length",
    "GkrMimc.C39_sign",
    "GkrMimc.C39_slice_injective",
    "GkrMimc.C39_table_injective",
    "GkrMimc.C39_ints_injective",
    "GkrMimc.C39_uints_injective",
    "GkrMimc.C39_uint64",
    "GkrMimc.C39_uint64_val",
    "GkrMimc.C39_generic"
   ],
   "note": "All field elements; also the exact condition for the sign, injectivity of FrSliceToString, IntSliceToString, UintSliceToString and BookKeepingTable.String on all slices, of Uint64ToFr, and FrToGenericArray."
  },
  {
   "property": "C40",
   "status": "proved",
   "theorems": [
    "GkrMimc.C40_split_assign",
    "GkrMimc.C40_assign_split"
   ],
   "note": "All tables of m*nChunk entries and all nChunk >= 1, both directions."
  },
  {
   "property": "C41",
   "status": "partial",
   "theorems": [
    "GkrMimc.C41_own_polynomial_only",
    "GkrMimc.C41_binds_own_round_partial",
    "GkrMimc.C41_shared",
    "GkrMimc.C41_negation",
    "GkrMimc.C41_initial_point"
   ],
   "note": "Proved: the challenge of a round is the hash of that round's polynomial only. The full claim is false (C41_negation)."
  },
  {
   "property": "C42",
   "status": "proved",
   "theorems": [
    "GkrMimc.C42_append",
    "GkrMimc.C42_staticTables",
    "GkrMimc.C42_staticTablesLinCombs",
    "GkrMimc.C42_sumcheckVerify",
    "GkrMimc.C42_verify",
    "GkrMimc.C42_layout_independent"
   ],
   "note": "Memory-level model of Verify and all it calls (static tables, folds, chunked evaluation, append with any growth policy). C42_verify: no existing cell changes and the answer is that of the value-level verifier on the contents; C42_staticTables and C42_staticTablesLinCombs for the two functions named in the property."
  },
  {
   "property": "C43",
   "status": "partial",
   "theorems": [
    "GkrMimc.C43_only_two_values",
    "GkrMimc.C43_binds_partial",
    "GkrMimc.C43_single_input_partial",
    "GkrMimc.C43_honest_iff_partial",
    "GkrMimc.C43_shift",
    "GkrMimc.C43_negation"
   ],
   "note": "Proved: Verify uses the inputs only through two linear evaluations at points fixed by the proof; for honest proofs the exact set of accepted inputs (C43_honest_iff_partial); a single changed input with non-zero weight is rejected. The full claim is false: with the real circuit and hash, the honest proof of any batch of 4 instances or more is accepted for other inputs with different true outputs (C43_negation), also without the bug of line 99 (C43_only_two_values, C43_shift)."
  },
  {
   "property": "C44",
   "status": "proved",
   "theorems": [
    "GkrMimc.C44_sumcheck",
    "GkrMimc.C44_no_degree_check"
   ],
   "note": "All finite fields, gates, tables, wrong claims and adaptive provers (challenges drawn by the verifier: the set of challenge vectors that some hash function can give). The bound is sharp in the length of the polynomials, which Verify does not check (C44_no_degree_check)."
  },
  {
   "property": "C45",
   "status": "proved",
   "theorems": [
    "GkrMimc.C45_checks",
    "GkrMimc.C45_verify",
    "GkrMimc.C45_single_layer",
    "GkrMimc.C45_random_point",
    "GkrMimc.C45_mimc_coins",
    "GkrMimc.C45_mimc"
   ],
   "note": "All good circuits, instances and adaptive provers: for the checks of the specification (those of the gadget, C36_gadget_iff), for Verify when line 99 is not reached (C45_verify), without condition for one layer, for the MiMC circuit with explicit numbers, and with a random initial point for all wrong outputs. Through line 99 Verify accepts wrong outputs for every hash function (C23_forgery)."
  },
  {
   "property": "C46",
   "status": "proved",
   "theorems": [
    "GkrMimc.C46_same_values",
    "GkrMimc.C46_same_proof",
    "GkrMimc.C46_claim",
    "GkrMimc.C46_panics"
   ],
   "note": "All bN, chunk counts, core counts, schedules and hash functions; the panics for other chunk counts are C46_panics. bN is a natural number (a negative length panics in Go)."
  },
  {
   "property": "C47",
   "status": "proved",
   "theorems": [
    "GkrMimc.C47_prove",
    "GkrMimc.C47_getClaim",
    "GkrMimc.C47_labels",
    "GkrMimc.C47_complete",
    "GkrMimc.C47_initialRound",
    "GkrMimc.C47_intermediateRound",
    "GkrMimc.C47_shared_race"
   ],
   "note": "All heaps, provers, hash functions, numbers of cores and schedules of single accesses, for every instance on which the sequential workers succeed (C47_complete: every chunked instance). The labels on which the notion of race rests are proved right (C47_labels). That static tables share no array with folded tables is a hypothesis; the provers built by gkr meet it (C47_initialRound, C47_intermediateRound)."
  },
  {
   "property": "C48",
   "status": "proved",
   "theorems": [
    "GkrMimc.C48_evaluate",
    "GkrMimc.C48_assign",
    "GkrMimc.C48_layerAsBKTWithCopy",
    "GkrMimc.C48_assign_copy",
    "GkrMimc.C48_sub",
    "GkrMimc.C48_mul",
    "GkrMimc.C48_labels",
    "GkrMimc.C48_overlap_race"
   ],
   "note": "All heaps, circuits, numbers of cores and schedules of single accesses, for every input on which the sequential code succeeds. C48_assign_copy composes Assign with the copy that gkr makes of a layer. That an operand of Sub/Mul is the receiver or does not overlap it is a hypothesis; C48_overlap_race shows that it is needed. C48_labels: the labels of the accesses are right."
  },
  {
   "property": "C49",
   "status": "proved",
   "theorems": [
    "GkrMimc.C49_initial",
    "GkrMimc.C49_intermediate",
    "GkrMimc.C49_chunkedEq",
    "GkrMimc.C49_labels"
   ],
   "note": "All heaps, circuits, challenges, numbers of cores and schedules of single accesses, for every input on which the sequential code succeeds. C49_labels: the labels of the accesses are right."
  },
  {
   "property": "C50",
   "status": "proved",
   "theorems": [
    "GkrMimc.C50_prove",
    "GkrMimc.C50_assignProve",
    "GkrMimc.C50_complete",
    "GkrMimc.C50_complete_assign",
    "GkrMimc.C50_labels",
    "GkrMimc.C50_mimc"
   ],
   "note": "All heaps, circuits, challenge functions, numbers of cores and schedules of single accesses, for every input on which the sequential code succeeds and whose layers have as many tables each, of one length within a layer (true of honest assignments). C50_complete and C50_complete_assign: the proof of every schedule is accepted by Verify. C50_labels: the labels of the accesses are right. C50_mimc: the same for the circuit of CreateMimcCircuit with the real constants and challenges, from states and blocks in memory to an accepted proof."
  },
  {
   "property": "C51",
   "status": "proved",
   "theorems": [
    "GkrMimc.C51_layer_claim",
    "GkrMimc.C51_counted_output",
    "GkrMimc.C51_exact",
    "GkrMimc.C51_counted_accepted",
    "GkrMimc.C51_assign_exact",
    "GkrMimc.C51_pipeline_exact",
    "GkrMimc.C51_misread_rejected"
   ],
   "note": "All circuits, assignments of the right sizes (any contents), challenge functions and numbers of cores. C51_counted_accepted: the values that Verify accepts when gates repeat. C51_misread_rejected: an adder on which Assign misreads an input without panic and Verify rejects the proof."
  },
  {
   "property": "C52",
   "status": "partial",
   "theorems": [
    "GkrMimc.C52_honest_partial",
    "GkrMimc.C52_uniform_rejected",
    "GkrMimc.C52_negation"
   ],
   "note": "Proved: no panic, and the exact condition for the answer true (C52_honest_partial). The full claim is false (C52_negation: two adders in a layer, for every challenge function; the honest proof is rejected and the proof of the doubled outputs accepted; C52_uniform_rejected is the general form)."
  },
  {
   "property": "C53",
   "status": "partial",
   "theorems": [
    "GkrMimc.C53_binds_partial",
    "GkrMimc.C53_negation_outputs",
    "GkrMimc.C53_negation_inputs"
   ],
   "note": "Proved: given one satisfying witness, the exact set of other tables that satisfy the gadget with the same proof: the ones with the same extension at three points (C53_binds_partial). The full claim is false: with the initial point of the native verifier the first output is free (C53_negation_outputs), and for 4 instances or more the honest proof satisfies the gadget for other states, whose MiMC outputs are different (C53_negation_inputs)."
  },
  {
   "property": "C54",
   "status": "partial",
   "theorems": [
    "GkrMimc.C54_test",
    "GkrMimc.C54_complete",
    "GkrMimc.C54_sound_partial",
    "GkrMimc.C54_negation"
   ],
   "note": "Proved: the test of the repository for every batch, number of chunks and core count (C54_test); completeness for every initial point (C54_complete); outputs that differ from the MiMC outputs by the same non-zero number everywhere need an unlucky challenge (C54_sound_partial). The full claim is false: the initial point is part of the witness, so for all inputs every other table of outputs has a satisfying witness (C54_negation)."
  },
  {
   "property": "C55",
   "status": "proved",
   "theorems": [
    "GkrMimc.C55_intermediate",
    "GkrMimc.C55_initial",
    "GkrMimc.C55_boolean"
   ],
   "note": "For any points and coefficients (C55_intermediate, C55_initial) and as entries of the assignment at Boolean points (C55_boolean), which is what TestMimc asserts."
  },
  {
   "property": "C56",
   "status": "proved",
   "theorems": [
    "GkrMimc.C56_inputs",
    "GkrMimc.C56_mimc",
    "GkrMimc.C56_testMimc",
    "GkrMimc.C56_gkr",
    "GkrMimc.C56_multi"
   ],
   "note": "TestMimc for every draw (C56_testMimc) and for all sizes and inputs (C56_mimc, C56_inputs); TestGKR and TestMultiBGs for all inputs (C56_gkr, C56_multi)."
  },
  {
   "property": "C57",
   "status": "proved",
   "theorems": [
    "GkrMimc.C57_gadget_iff",
    "GkrMimc.C57_sound",
    "GkrMimc.C57_complete",
    "GkrMimc.C57_only_91",
    "GkrMimc.C57_too_few",
    "GkrMimc.C57_gadget_circuit",
    "GkrMimc.C57_mimc",
    "GkrMimc.C57_further_layers",
    "GkrMimc.C57_negation"
   ],
   "note": "Exactly what the assertions say (C57_gadget_iff), soundness (C57_sound), completeness and fit of the allocated variables (C57_complete); MiMC and every native circuit have such gadget circuits (C57_mimc, C57_gadget_circuit). Other numbers of layers: only the first 91 are read (C57_only_91, C57_further_layers, with a wrong output that is accepted in C57_negation), fewer panic (C57_too_few)."
  },
  {
   "property": "C58",
   "status": "partial",
   "theorems": [
    "GkrMimc.C58_single",
    "GkrMimc.C58_multi_partial",
    "GkrMimc.C58_race",
    "GkrMimc.C58_labels",
    "GkrMimc.C58_blocks",
    "GkrMimc.C58_panics"
   ],
   "note": "The absence of races is false for two processes or more: C58_race gives, for all parameters with enough cores, a schedule in which two goroutines are about to write _mimcProof. Everything else is proved for all schedules (C58_multi_partial, labels right by C58_labels), for the benchmark with one process (C58_single), and for the parameters that fail (C58_blocks, C58_panics). The provers of the goroutines are local computations here; all their schedules are C50."
  },
  {
   "property": "C59",
   "status": "partial",
   "theorems": [
    "GkrMimc.C59_hashes",
    "GkrMimc.C59_foldedEq",
    "GkrMimc.C59_chunked",
    "GkrMimc.C59_chunked_one",
    "GkrMimc.C59_testChunked",
    "GkrMimc.C59_multiThreaded",
    "GkrMimc.C59_benchmarkSetup",
    "GkrMimc.C59_sumcheck",
    "GkrMimc.C59_hash_circuit",
    "GkrMimc.C59_hash",
    "GkrMimc.C59_eq_circuit",
    "GkrMimc.C59_eq_partial",
    "GkrMimc.C59_eq_negation",
    "GkrMimc.C59_multilinear_circuit",
    "GkrMimc.C59_multilinear",
    "GkrMimc.C59_univariate_circuit",
    "GkrMimc.C59_univariate",
    "GkrMimc.C59_sumcheck_circuit",
    "GkrMimc.C59_sumcheck_slots",
    "GkrMimc.C59_sumcheckCircuit"
   ],
   "note": "TestEq is satisfied if there are as many pairs of points as coordinates, as in the file (C59_eq_partial); for all other sizes its witness is never complete (C59_eq_negation: Assign loops over the wrong slice). TestChunked needs two chunks or more (C59_chunked; C59_chunked_one: it panics with one). All others are proved for all draws and sizes, together with the exact meaning of the assertions (C59_*_circuit). TestMimcCircuit of snark/gkr is C54_test."
  },
  {
   "property": "C60",
   "status": "partial",
   "theorems": [
    "GkrMimc.C60_atoi",
    "GkrMimc.C60_numeral",
    "GkrMimc.C60_getters",
    "GkrMimc.C60_flags",
    "GkrMimc.C60_profileTrace",
    "GkrMimc.C60_not_started",
    "GkrMimc.C60_prover",
    "GkrMimc.C60_multi",
    "GkrMimc.C60_sumcheck",
    "GkrMimc.C60_benchmark",
    "GkrMimc.C60_benchmark_panics",
    "GkrMimc.C60_negation_files",
    "GkrMimc.C60_files_partial",
    "GkrMimc.C60_negation_timer",
    "GkrMimc.C60_blocked"
   ],
   "note": "The trace file is never closed (C60_negation_files; C60_files_partial says exactly what stays open), and two kinds of benchmarks measure more than their computations (C60_negation_timer; C60_multi and C60_sumcheck say exactly what they measure). The rest is proved: C60_atoi, C60_numeral, C60_getters, C60_flags, C60_profileTrace, C60_not_started, C60_blocked (a computation that waits for ever), C60_prover, C60_benchmark, C60_benchmark_panics."
  },
  {
   "property": "C61",
   "status": "proved",
   "theorems": [
    "GkrMimc.C61_hash",
    "GkrMimc.C61_order",
    "GkrMimc.C61_lagrange"
   ],
   "note": "The other models use the constants and hashers directly, and getLagrangePolynomial computes its entry; C61 shows that this is what init puts into the variables."
  },
  {
   "property": "C62",
   "status": "proved",
   "theorems": [
    "GkrMimc.C62_any_shape",
    "GkrMimc.C62_shape_only",
    "GkrMimc.C62_gadget_size",
    "GkrMimc.C62_gadget_system",
    "GkrMimc.C62_gadget_complete",
    "GkrMimc.C62_gadget_wrong_outputs",
    "GkrMimc.C62_direct_size",
    "GkrMimc.C62_direct_system",
    "GkrMimc.C62_break_even"
   ],
   "note": "Relative to the interface of gnark as modelled in Model/R1cs.lean: cs.Mul of two variables (constants included) makes one constraint and one wire, cs.Add/Sub/Constant none, cs.AssertIsEqual one. What gnark does after Define (flattening, optimising) is outside the model."
  },
  {
   "property": "C63",
   "status": "proved",
   "theorems": [
    "GkrMimc.C63_arith",
    "GkrMimc.C63_make",
    "GkrMimc.C63_common",
    "GkrMimc.C63_chunks_overflow",
    "GkrMimc.C63_tables",
    "GkrMimc.C63_circuit",
    "GkrMimc.C63_evaluate_wraps",
    "GkrMimc.C63_layer_wraps",
    "GkrMimc.C63_sumcheck",
    "GkrMimc.C63_chunks",
    "GkrMimc.C63_gkr",
    "GkrMimc.C63_complete",
    "GkrMimc.C63_mimc"
   ],
   "note": "The bounds are part of the statement. The largest length that make accepts is a parameter lim <= 2^61. Loops that only count entries of slices in memory, the gadgets and the hash functions have no size arithmetic that is modelled on registers. C63_chunks: InterleavedChunk and MultiThreadedProver.GetClaim."
  },
  {
   "property": "C64",
   "status": "proved",
   "theorems": [
    "GkrMimc.C64_draws",
    "GkrMimc.C64_gkr",
    "GkrMimc.C64_gkr_skipped",
    "GkrMimc.C64_gkr_env",
    "GkrMimc.C64_atoi_ignored",
    "GkrMimc.C64_hash",
    "GkrMimc.C64_hash_sizes",
    "GkrMimc.C64_fine_grained",
    "GkrMimc.C64_book_keeping"
   ],
   "note": "groth16.DummySetup and groth16.Prove are not modelled, only what Prove is given. 1<<bN is a machine integer in BenchmarkMimc; in the others sizes are unbounded (cf. C63). The dependence of the phases and the ignored errors are stated as they are (DESIGN.md, finding 17)."
  },
  {
   "property": "C65",
   "status": "proved",
   "theorems": [
    "GkrMimc.C65_gates",
    "GkrMimc.C65_layer_evaluate",
    "GkrMimc.C65_assign",
    "GkrMimc.C65_evaluateChunked",
    "GkrMimc.C65_evaluateMixedChunked",
    "GkrMimc.C65_poseidon",
    "GkrMimc.C65_poseidon_package",
    "GkrMimc.C65_linearCombination",
    "GkrMimc.C65_verify",
    "GkrMimc.C65_complete",
    "GkrMimc.C65_pipeline",
    "GkrMimc.C65_sound",
    "GkrMimc.C65_same_circuit",
    "GkrMimc.C65_stricter",
    "GkrMimc.C65_gadget",
    "GkrMimc.C65_mimc",
    "GkrMimc.C65_forgery_rejected",
    "GkrMimc.C65_count",
    "GkrMimc.C65_mimc_count"
   ],
   "note": "About repaired copies of the functions (Model/Repaired.lean), not about the code as it is; it shows that the negations of C07, C09, C12, C13, C22, C23, C24, C28, C36 and C52 have no other cause. Soundness is still relative to the initial point and to the challenges: C25, C41, C43, C53 and C54 are faults of the protocol, which these repairs do not touch."
  },
  {
   "property": "C66",
   "status": "proved",
   "theorems": [
    "GkrMimc.C66_constants",
    "GkrMimc.C66_verify",
    "GkrMimc.C66_complete",
    "GkrMimc.C66_binds",
    "GkrMimc.C66_count",
    "GkrMimc.C66_mimc_count",
    "GkrMimc.C66_gadget",
    "GkrMimc.C66_gadget_binds"
   ],
   "note": "About the repaired verifier of C65 with the initial point as an argument (Model/Repaired.lean), and about the gadget of the code with a point drawn after the outputs are fixed; not about the constants that the code uses. It gives the full claims of C25, C54 and, for outputs, C53. Challenges that do not depend on the inputs and on earlier rounds (C41, C43, C53 for inputs) are untouched."
  },
  {
   "property": "C67",
   "status": "proved",
   "theorems": [
    "GkrMimc.C67_forgetful",
    "GkrMimc.C67_verify",
    "GkrMimc.C67_sound",
    "GkrMimc.C67_complete",
    "GkrMimc.C67_round_by_round",
    "GkrMimc.C67_count",
    "GkrMimc.C67_oracle",
    "GkrMimc.C67_mimc_count",
    "GkrMimc.C67_prover"
   ],
   "note": "About the repaired verifier of C65 with point and challenges hashed from the statement and the whole transcript (Model/Transcript.lean); not about the code, whose challenges are hashes of the current message alone. It gives the full claims of C41, C43 and C53 in the random-oracle form, the statement chosen by the adversary included. The oracle is asked about structured data: that a concrete hash gets an injective encoding of it is assumed."
  },
  {
   "property": "C68",
   "status": "proved",
   "theorems": [
    "GkrMimc.C68_multi",
    "GkrMimc.C68_labels",
    "GkrMimc.C68_eq",
    "GkrMimc.C68_files",
    "GkrMimc.C68_timers"
   ],
   "note": "About repaired copies (Model/RepairedBench.lean), not about the code: they show that the faults named in C58, C59 and C60 are all that stands in the way of the full claims."
  },
  {
   "property": "C69",
   "status": "proved",
   "theorems": [
    "GkrMimc.C69_shape_size",
    "GkrMimc.C69_hashed_words",
    "GkrMimc.C69_size",
    "GkrMimc.C69_mimc_size",
    "GkrMimc.C69_mimc_shorter",
    "GkrMimc.C69_verify_asks",
    "GkrMimc.C69_prove_asks",
    "GkrMimc.C69_mimc_hashed"
   ],
   "note": "Size for circuits whose layers do not repeat gates (GoodWires), as in C22, but for one chunk too; the statements about the hash have no hypothesis on circuit, proof or inputs."
  },
  {
   "property": "C70",
   "status": "proved",
   "theorems": [
    "GkrMimc.C70_evaluate",
    "GkrMimc.C70_copy",
    "GkrMimc.C70_getClaim",
    "GkrMimc.C70_prove",
    "GkrMimc.C70_prove_outcomes",
    "GkrMimc.C70_no_result",
    "GkrMimc.C70_pipeline"
   ],
   "note": "For Prove the kind of panic is left open, as the schedule decides which worker panics first. Chunks of different dimensions are excluded by EvenChunks; where the sequential reading says deadlock see C71. C70_pipeline: with a negative number of cores the whole pipeline Assign, NewProver, Prove over shared memory panics."
  },
  {
   "property": "C71",
   "status": "proved",
   "theorems": [
    "GkrMimc.C71_evaluate",
    "GkrMimc.C71_copy",
    "GkrMimc.C71_getClaim",
    "GkrMimc.C71_prove",
    "GkrMimc.C71_prove_outcomes",
    "GkrMimc.C71_no_result",
    "GkrMimc.C71_uneven",
    "GkrMimc.C71_pipeline"
   ],
   "note": "With this the answer `.error .deadlock` of the sequential model, so far part of the trusted reading, is a theorem about the concurrent programs. EvenChunks is needed: with chunks of different dimensions some schedules of Prove return and others panic (C71_uneven). C71_pipeline: with zero cores the whole pipeline Assign, NewProver, Prove over shared memory blocks for ever, for every circuit with a layer, every input with a chunk and every memory."
  },
  {
   "property": "C72",
   "status": "proved",
   "theorems": [
    "GkrMimc.C72_sumcheck_true",
    "GkrMimc.C72_sumcheck",
    "GkrMimc.C72_prove_true",
    "GkrMimc.C72_only",
    "GkrMimc.C72_repaired",
    "GkrMimc.C72_appended",
    "GkrMimc.C72_malleable",
    "GkrMimc.C72_count",
    "GkrMimc.C72_mimc_count",
    "GkrMimc.C72_gadget",
    "GkrMimc.C72_transcript",
    "GkrMimc.C72_oracle",
    "GkrMimc.C72_mimc_oracle"
   ],
   "note": "C72_appended and C72_malleable: the verifier of the code does not look at the number of messages, so there the honest proof is not the only one. C72_repaired: with the verifier of C65, at the point of the code, an accepted proof is what Prove returns or some challenge is unlucky."
  },
  {
   "property": "C73",
   "status": "proved",
   "theorems": [
    "GkrMimc.C73_values",
    "GkrMimc.C73_proof",
    "GkrMimc.C73_verify",
    "GkrMimc.C73_assign",
    "GkrMimc.C73_mimc",
    "GkrMimc.C73_negation",
    "GkrMimc.C73_schedules",
    "GkrMimc.C73_gadget",
    "GkrMimc.C73_repaired"
   ],
   "note": "Props/Chunking.lean. C73_values: the values of every layer of a circuit evaluated as wired interleave to the same tables. C73_proof: NewProver and Prove on two chunkings of the same table (also a single chunk), with any positive numbers of cores, return the same proof. C73_verify: Verify accepts, rejects or panics alike for every proof, honest or not, and all inputs and outputs (at least two chunks). C73_assign, C73_mimc: the pipeline from the inputs, where the wires have R = 0 (C12), so for the circuit of CreateMimcCircuit with the real constants and challenges. C73_schedules (Props/ChunkingConc.lean): over shared memory, one proof for both chunkings and all schedules. The claim leaves out Assign with other wires, for which it fails (C73_negation, the index bug of C12). C73_repaired (Props/RepairedBatch.lean): with the repairs of C65 it holds for all circuits, for a single chunk too, and the answers of Verify are equal. C73_gadget (Props/ChunkingGadget.lean): Assign of the GKR test circuit fills in the same witness for both chunkings, and it satisfies all constraints."
  },
  {
   "property": "C74",
   "status": "proved",
   "theorems": [
    "GkrMimc.C74_isolated",
    "GkrMimc.C74_alone",
    "GkrMimc.C74_mimc",
    "GkrMimc.C74_negation",
    "GkrMimc.C74_repaired"
   ],
   "note": "Props/Instances.lean. C74_isolated: for every circuit (also where Assign reads the wrong right operand, C12) the values of an instance depend on its own inputs only: calls of Assign that return and agree on one instance, at whatever places, agree on all its values. C74_alone: for wires with R = 0 each instance of a batch gets what it gets as the only instance. C74_mimc: the same for the circuit of CreateMimcCircuit with the real constants. The claim leaves out C74_alone for other wires, for which it fails (C74_negation, the index bug of C12). C74_repaired (Props/RepairedBatch.lean): with the Assign of C65 it holds for all wirings."
  }
 ]
}