{"id": "C01", "title": "Integer logarithms are exact", "statement": "For every a >= 1, Log2Floor(a) is the unique k with 2^k <= a < 2^(k+1), and Log2Ceil(a) is the least k with a <= 2^k; the shift 1<<Log2Floor(a) never exceeds a, so it cannot overflow. For a <= 0 Log2Floor returns 0 and Log2Ceil returns 1.", "quantifier": "every Go int a (every integer)", "why_tests_cant": "The test checks a = 1..9; the claim is about every int, including the largest ones.", "anchors": ["common/math.go:Log2Floor", "common/math.go:Log2Ceil"]}
{"id": "C02", "title": "Chunk ranges partition the index space", "statement": "For every nCore != 0 and N >= 0, IntoChunkRanges(nCore, N) returns non-empty, in-order, contiguous ranges that cover each index of [0,N) exactly once; every range except the last has the same size, at least MinChunkSize = 4096, and for nCore >= 1 there are at most 2*nCore ranges. It panics (division by zero) exactly when nCore = 0.", "quantifier": "every integer nCore and every N >= 0", "why_tests_cant": "Tests never call it directly; off-by-one on the last chunk only shows for particular N mod chunkSize.", "anchors": ["common/chunks.go:IntoChunkRanges"]}
{"id": "C03", "title": "Evaluate computes the multilinear extension", "statement": "For every table of 2^n field elements and every point of n field elements, BookKeepingTable.Evaluate returns sum over i of Table[i] * prod_j (x_j if bit j of i (most significant first) is set, else 1-x_j). In particular at the Boolean point spelling i it returns Table[i]; Fold(r) is the partial evaluation of the first variable; and evaluating with more coordinates than variables panics.", "quantifier": "every n, every table, every point", "why_tests_cant": "Infinitely many tables and sizes; the test folds one 4-entry table.", "anchors": ["polynomial/book_keeping.go:Fold", "polynomial/book_keeping.go:Evaluate", "polynomial/book_keeping.go:EvaluateLeftAndRight", "polynomial/book_keeping.go:FunctionEvals"]}
{"id": "C04", "title": "Evaluating is pure, folding is in place", "statement": "Evaluate, EvaluateLeftAndRight and DeepCopy leave every memory cell that existed before the call unchanged (in particular the receiver's table and the coordinate slices, even when the slices share a backing array). Fold and LinearCombinationOfBookKeepingTables write only into the backing arrays of their table arguments.", "quantifier": "every memory state, every slice (offset, length, capacity), every aliasing between arguments, every append growth policy", "why_tests_cant": "Aliasing and capacity effects depend on allocation history; a unit test sees one layout.", "anchors": ["polynomial/book_keeping.go:DeepCopy", "polynomial/book_keeping.go:Evaluate", "polynomial/book_keeping.go:EvaluateLeftAndRight", "polynomial/book_keeping.go:LinearCombinationOfBookKeepingTables", "polynomial/book_keeping.go:Fold"]}
{"id": "C05", "title": "Eq polynomial and its folded table agree", "statement": "EvalEq(q,h) = prod_i (q_i h_i + (1-q_i)(1-h_i)); it is symmetric; on 0/1 points it is 1 if the points are equal and 0 otherwise. GetFoldedEqTable(q) has 2^n entries, entry i is EvalEq(q, bits of i), and Evaluate of that table at h equals EvalEq(q,h). Its entries sum to 1. EvalEq panics exactly when the second vector is shorter than the first, and ignores surplus entries of the second.", "quantifier": "every length n and all field vectors q, h", "why_tests_cant": "The test compares one 4-variable table.", "anchors": ["polynomial/eq.go:EvalEq", "polynomial/eq.go:GetFoldedEqTable"]}
{"id": "C06", "title": "Chunked eq table is the interleaved eq table", "statement": "For every q of length n, every nChunks = 2^k with k <= n and every nCore >= 1, GetChunkedEqTable(q, nChunks, nCore)[s].Table[u] = GetFoldedEqTable(q).Table[u*nChunks + s], with nChunks chunks of 2^(n-k) entries. For nChunks = 0, nChunks not a power of two or k > n it panics.", "quantifier": "every n, k, q and nCore", "why_tests_cant": "Test samples a few random indices for three shapes and one nCore.", "anchors": ["polynomial/eq.go:GetChunkedEqTable"]}
{"id": "C07", "title": "Chunked evaluation equals flat evaluation", "statement": "For every 2^k chunks of equal power-of-two size and every point, EvaluateChunked equals Evaluate of the table obtained by interleaving the chunks, and EvaluateMixedChunked equals EvaluateLeftAndRight of it, for every k >= 0.", "quantifier": "every number of chunks 2^k, chunk size 2^m, values and points", "why_tests_cant": "Tests use 2, 16 and 32 chunks only and miss the single-chunk case.", "anchors": ["polynomial/chunked.go:chunkedEvalRecombine", "polynomial/chunked.go:EvaluateChunked", "polynomial/chunked.go:EvaluateMixedChunked"]}
{"id": "C08", "title": "Interpolation inverts evaluation", "statement": "EvaluatePolynomial(c, x) = sum c_i x^i for every non-empty c (it panics on the empty slice). For 1 <= n <= 12 values, InterpolateOnRange returns the n coefficients of the unique polynomial of degree < n taking those values at 0..n-1; for n > 12 values it panics.", "quantifier": "every coefficient list, every n and all values", "why_tests_cant": "The test checks one Lagrange basis polynomial on a domain of 7.", "anchors": ["polynomial/lagrange.go:EvaluatePolynomial", "polynomial/lagrange.go:LagrangeCoefficient", "polynomial/lagrange.go:InterpolateOnRange", "polynomial/lagrange.go:GetLagrangePolynomial"]}
{"id": "C09", "title": "Table arithmetic is element-wise for every core count and aliasing", "statement": "BookKeepingTable.Add/Sub/Mul set the receiver to the element-wise sum / difference / scalar multiple, of the operand's length, whatever the receiver held before and even when receiver and operands are the same table, for every nCore >= 1; operands of different length panic; nCore = 0 panics. LinearCombinationOfBookKeepingTables returns a0*T0 + a1*T1 element-wise.", "quantifier": "all tables, sizes, nCore and aliasing patterns", "why_tests_cant": "Aliased receivers and chunk boundaries (4096) are not exercised by tests.", "anchors": ["polynomial/book_keeping.go:Add", "polynomial/book_keeping.go:Sub", "polynomial/book_keeping.go:Mul", "polynomial/book_keeping.go:LinearCombinationOfBookKeepingTables"]}
{"id": "C10", "title": "All evaluation routes of a gate agree", "statement": "For AddGate, MulGate, CopyGate and CipherGate(ark): EvalManyVL(res, vLs, vR) and EvalManyVR(res, vL, vRs) write Eval of each pair, GnarkEval computes the same function inside the constraint system, and two of these gates with equal ID compute the same function.", "quantifier": "every gate, ark, and operand list", "why_tests_cant": "Only one fixed circuit exercises batch evaluation.", "anchors": ["circuit/gates.go:Eval", "circuit/gates.go:EvalManyVL", "circuit/gates.go:EvalManyVR", "circuit/gates.go:GnarkEval", "circuit/gates.go:ID", "snark/gkr/gate.go:CipherGate"]}
{"id": "C11", "title": "Declared gate degrees are valid bounds", "statement": "For every gate, with vL (resp. vR, resp. both) replaced by an affine function of t and the rest constant, Eval is a polynomial in t of degree at most degHL (resp. degHR, degHPrime) as returned by Degrees, so degree+2 evaluations determine each round polynomial.", "quantifier": "every gate and every pair of affine functions", "why_tests_cant": "Degree bounds are about identities over the whole field; a wrong bound fails only on generic data.", "anchors": ["circuit/gates.go:Degrees", "sumcheck/prover.go:NewSingleThreadedProver", "sumcheck/par.go:NewMultiThreadedProver"]}
{"id": "C12", "title": "Layer evaluation follows the wiring", "statement": "Layer.Evaluate(inputs)[c][O*N+h] is the sum over wires with output O of Gate(inputs[c][L*N+h], inputs[c][R*N+h]), for every chunk c and instance h < N, and Assign chains it over the layers.", "quantifier": "every wiring, every number N of instances per chunk, every chunking, every input", "why_tests_cant": "Existing tests only use R = 0 or one instance per chunk.", "anchors": ["circuit/layers.go:Evaluate", "circuit/circuit.go:Assign"]}
{"id": "C13", "title": "Gate list of a layer is duplicate free", "statement": "Gates(wires) contains exactly one gate for each distinct gate ID of the wires, in order of first occurrence.", "quantifier": "every list of wires", "why_tests_cant": "Tests only use layers whose wires all have different gates.", "anchors": ["circuit/layers.go:Gates", "circuit/layers.go:NewLayer"]}
{"id": "C14", "title": "Static tables encode the wiring at q", "statement": "For every layer and q with BGOutputs coordinates, GetStaticTable(q)[i].Table[L*2^BGInputs + R] = sum over wires w with w.Gate.ID = Gates[i].ID, w.L = L, w.R = R of eq(q, bits of w.O); the tables have 4^BGInputs entries, and no wire of the layer indexes outside.", "quantifier": "every wiring and every field vector q", "why_tests_cant": "A wrong weight shows only at non-Boolean q.", "anchors": ["circuit/layers.go:GetStaticTable", "circuit/layers.go:BGInputs", "circuit/layers.go:BGOutputs"]}
{"id": "C15", "title": "Sumcheck claim of a layer equals the extension of its output", "statement": "For every layer with pairwise distinct gate IDs that evaluates its inputs as wired (C12), GetClaim of the prover built from GetStaticTable(q), the layer inputs and the eq table of q' equals the multilinear extension of the layer's output at (q,q').", "quantifier": "every such layer, input, q, q'", "why_tests_cant": "Algebraic identity over all points; tests check three points of one layer.", "anchors": ["sumcheck/evals.go:GetClaim", "gkr/prover.go:GetBookKeepingTablesForInitialRound"]}
{"id": "C16", "title": "Sumcheck is complete", "statement": "For every gate list meeting its interface contract (degrees <= 10), every tables with 2^bN eq entries, 2^(bN+bG) vL and vR entries and 4^bG static entries, Prove does not panic, Verify(GetClaim, proof, bN, bG) returns true with the prover's own qPrime, qL, qR, the returned finalClaims are the evaluations of vL at (qL,q'), vR at (qR,q'), eq at q' and each static table at (qL,qR), and Verify's finalClaim is EvaluateCombinator of them.", "quantifier": "every gate list, bN, bG, table contents and challenge function", "why_tests_cant": "Tests run two fixed instances.", "anchors": ["sumcheck/prover.go:Prove", "sumcheck/evals.go", "sumcheck/verifier.go:Verify", "circuit/gates.go:EvaluateCombinator"]}
{"id": "C17", "title": "Sumcheck verifier is sound up to bad challenges", "statement": "Verify accepts exactly when each round polynomial satisfies P_i(0)+P_i(1) = previous value, starting from the claim, with r_i = GetChallenge(P_i). If the claim differs from the true hypercube sum and Verify accepts with a finalClaim equal to the summand at the challenge point, then in some round P_i differs from the honest round polynomial yet agrees with it at r_i; for a given P_i at most max(deg P_i, degree bound of the honest polynomial) field elements can do that.", "quantifier": "every claim, every proof (also malicious), every summand of bounded degree", "why_tests_cant": "Quantifies over all adversarial proofs.", "anchors": ["sumcheck/verifier.go:Verify", "common/challenge.go:GetChallenge"]}
{"id": "C18", "title": "Multi-threaded prover equals the single-threaded prover", "statement": "For every tables split into 2^k interleaved chunks, MultiThreadedProver.GetClaim and Prove return exactly what SingleThreadedProver returns on the unsplit tables (proof, qPrime, qL, qR, finalClaims), for every nCore >= 1.", "quantifier": "every k, sizes, table contents, gates, nCore", "why_tests_cant": "Test compares one instance (bN = 8, 4 chunks).", "anchors": ["sumcheck/par.go:Prove", "sumcheck/par.go:RunForChunk", "sumcheck/par.go:ConsumeAccumulate", "sumcheck/par.go:ConsumeMergeProvers", "sumcheck/par.go:GetClaim"]}
{"id": "C19", "title": "Multi-threaded Prove terminates with a schedule-independent result", "statement": "Under every interleaving of the worker goroutines, the broadcast goroutines and the main goroutine, for every nChunks >= 1 and nCore >= 1, Prove never deadlocks, takes boundedly many steps, and ends with the same result. With nCore = 0 it deadlocks.", "quantifier": "every schedule of every number of goroutines, every number of rounds", "why_tests_cant": "The number of interleavings is unbounded; tests see a few, on one machine.", "anchors": ["sumcheck/par.go:Prove", "sumcheck/par.go:RunForChunk", "sumcheck/par.go:Broadcast", "common/semaphore.go"]}
{"id": "C20", "title": "At most nCore workers compute at a time; channels are used safely", "statement": "In every reachable state of a parallel section at most nCore goroutines are between Acquire and Release, a Release never blocks, no message is sent on a closed channel, and evalsChan / finChan / rChan sends never exceed capacity.", "quantifier": "every schedule and every nCore, nChunks", "why_tests_cant": "A violation is a rare race; tests cannot enumerate schedules.", "anchors": ["common/semaphore.go:Acquire", "common/semaphore.go:Release", "sumcheck/par.go:RunForChunk", "circuit/layers.go:Evaluate"]}
{"id": "C21", "title": "Worker-pool helpers are schedule independent", "statement": "Layer.Evaluate, LayerAsBKTWithCopy, BookKeepingTable.Sub/Mul and MultiThreadedProver.GetClaim give, for every nCore >= 1 and every schedule, the result of the sequential loop, terminate, and never send on the closed semaphore; Evaluate/LayerAsBKTWithCopy with nCore = 0 and a non-empty input deadlock.", "quantifier": "every schedule, job count and nCore", "why_tests_cant": "Schedules cannot be enumerated by tests.", "anchors": ["circuit/layers.go:Evaluate", "circuit/circuit.go:LayerAsBKTWithCopy", "polynomial/book_keeping.go:Sub", "polynomial/book_keeping.go:Mul", "sumcheck/par.go:GetClaim"]}
{"id": "C22", "title": "GKR is complete", "statement": "For every circuit whose layers fit together, whose layers have pairwise distinct gate IDs and which is evaluated as wired, every inputs split in nChunks = 2^k chunks and every nCore >= 1: Verifier.Verify(Prover.Prove(nCore), inputs, outputs) returns true without panicking.", "quantifier": "every such circuit, batch size, chunking, inputs, core count", "why_tests_cant": "Tests run three circuits on a handful of inputs.", "anchors": ["gkr/prover.go:Prove", "gkr/verifier.go:Verify", "circuit/circuit.go:Assign"]}
{"id": "C23", "title": "GKR verifier rejects inconsistent proofs", "statement": "If Verify returns true then every layer's sumcheck is accepted, every layer's final sumcheck value equals the combinator of the proof's claims, and the input claims match the inputs; consequently if the outputs' extension at the initial point is not that of the circuit on the inputs then some challenge of the proof is a root of a non-zero difference polynomial of bounded degree.", "quantifier": "every circuit, every proof (malicious too), every inputs and outputs", "why_tests_cant": "Quantifies over all adversarial proofs; the tests contain no negative case.", "anchors": ["gkr/verifier.go:Verify", "gkr/verifier.go:evaluateStaticTables", "gkr/verifier.go:evaluateStaticTablesLinCombs"]}
{"id": "C24", "title": "Verifier does not crash on untrusted proofs", "statement": "For every proof value, Verify returns true or false and does not panic; it rejects a proof whose shape (number of sumcheck proofs, rounds, claims) does not fit the circuit.", "quantifier": "every proof value", "why_tests_cant": "Malformed shapes are unbounded; tests use none.", "anchors": ["gkr/verifier.go:Verify", "sumcheck/verifier.go:Verify", "polynomial/lagrange.go:EvaluatePolynomial"]}
{"id": "C25", "title": "Verification binds every output", "statement": "If Verify accepts (proof, inputs, outputs) then changing any single output value makes it reject the same proof.", "quantifier": "every circuit, proof, inputs, outputs, changed position", "why_tests_cant": "Needs all output vectors.", "anchors": ["gkr/verifier.go:Verify", "gkr/prover.go:GetInitialQPrimeAndQ"]}
{"id": "C26", "title": "MiMC hash is Miyaguchi-Preneel over a keyed permutation", "statement": "MimcHash(m1..mk) folds s -> E_{m}(s) + s + m from 0, where E_m is 91 rounds of x -> (x + m + ark_i)^7; for every block m, MimcPermutationInPlace is a bijection of the field; MimcHash of an empty slice is 0.", "quantifier": "every message and every field element", "why_tests_cant": "Bijectivity is a statement about all 2^254 states.", "anchors": ["hash/mimc.go:MimcHash", "hash/mimc.go:MimcUpdateInplace", "hash/mimc.go:MimcPermutationInPlace", "hash/ark.go:Arks"]}
{"id": "C27", "title": "The MiMC circuit computes MiMC", "statement": "For every batch split in any number of equal chunks, feeding CreateMimcCircuit with state+block in the first half and block in the second half of each chunk, the last assignment layer holds MimcPermutation(state, block) + block for every instance, so adding the old state gives MimcUpdateInplace.", "quantifier": "every batch size, chunking and field values", "why_tests_cant": "Test checks instance 0 of one random batch.", "anchors": ["examples/mimc.go:CreateMimcCircuit", "circuit/circuit.go:Assign", "hash/mimc.go"]}
{"id": "C28", "title": "Poseidon hash depends on its whole message", "statement": "PoseidonHasher.Hash is the Miyaguchi-Preneel chaining of the Poseidon permutation over zero-padded blocks, so that changing any message element (other than appending zeros inside the last block) is not systematically ignored.", "quantifier": "every message and every t", "why_tests_cant": "The test only checks that hashing zeros does not crash.", "anchors": ["hash/poseidon.go:Hash", "hash/poseidon.go:Update"]}
{"id": "C29", "title": "GMiMC hash follows its specification", "statement": "InPlaceCircularPermutation rotates the state left by one for every length; GMimcHasher.Hash chains over blocks of t elements of the message zero-padded to a multiple of t, UpdateInplace being the Miyaguchi-Preneel step; hence messages that differ only by trailing zeros inside the last block collide, and UpdateInplace before feed-forward is a bijection of the state for every block.", "quantifier": "every message, every t >= 1, every number of rounds", "why_tests_cant": "All messages.", "anchors": ["hash/gmimc.go:Hash", "hash/gmimc.go:UpdateInplace", "hash/gmimc.go:InPlaceCircularPermutation"]}
{"id": "C30", "title": "The Poseidon mixing matrices are MDS", "statement": "GenerateMDSMatrix(t) for every t <= 100 never inverts zero and every square submatrix (any choice of rows and columns) of the generated matrix is invertible.", "quantifier": "every t <= 100 and every choice of rows and columns", "why_tests_cant": "Exponentially many submatrices.", "anchors": ["hash/poseidon.go:GenerateMDSMatrix", "hash/ark.go:xArr", "hash/ark.go:yArr"]}
{"id": "C31", "title": "In-circuit MiMC equals native MiMC", "statement": "The MimcHash gadget evaluates, on every assignment of its inputs, to the native MimcHash of the assigned values, and adds no assertion of its own.", "quantifier": "every message length and values", "why_tests_cant": "Test uses five random vectors of length 5.", "anchors": ["snark/hash/mimc.go:MimcHash", "hash/mimc.go:MimcHash"]}
{"id": "C32", "title": "In-circuit polynomial gadgets equal native ones", "statement": "MultilinearByValues.Eval equals BookKeepingTable.Evaluate, EvalMixed equals EvaluateLeftAndRight, EqEval equals EvalEq, Univariate.Eval equals EvaluatePolynomial and ZeroAndOne equals P(0)+P(1), on all assignments.", "quantifier": "all sizes and all assignments", "why_tests_cant": "Infinite domain; tests sample.", "anchors": ["snark/polynomial/multilinear.go", "snark/polynomial/eq.go", "snark/polynomial/univariate.go"]}
{"id": "C33", "title": "In-circuit sumcheck verifier equals the native one", "statement": "For every proof with non-empty round polynomials and at least 2*bG rounds, the assertions made by the AssertValid gadget are all satisfied iff the native Verify returns true, and then both produce the same challenges and the same final claim.", "quantifier": "every claim and every proof of that shape", "why_tests_cant": "All proofs, including malicious.", "anchors": ["snark/sumcheck/sumcheck.go:AssertValid", "sumcheck/verifier.go:Verify"]}
{"id": "C34", "title": "In-circuit GKR verifier is complete for MiMC", "statement": "For every batch of 2^bN MiMC instances and every chunking, the proof made by the native prover, assigned into the gadget together with the interleaved inputs and outputs, satisfies all the assertions of the GKR AssertValid gadget.", "quantifier": "every bN, chunking, batch values", "why_tests_cant": "Test solves one instance bN = 2.", "anchors": ["snark/gkr/proof.go:AssertValid", "snark/gkr/mimc.go", "gkr/prover.go:Prove"]}
{"id": "C35", "title": "In-circuit GKR verifier is sound up to bad challenges", "statement": "If all assertions of the GKR gadget for MiMC hold and the output table's extension at the initial point differs from that of the true MiMC outputs of the input table, then some challenge of the proof is a root of a non-zero difference polynomial.", "quantifier": "every witness (malicious too)", "why_tests_cant": "Quantifies over all witnesses.", "anchors": ["snark/gkr/proof.go:AssertValid", "snark/gkr/circuit.go:Combine", "snark/gkr/circuit.go:CombineWithLinearComb"]}
{"id": "C36", "title": "Native and in-circuit GKR verifiers agree", "statement": "On every well-shaped MiMC proof, the native Verify returns true iff the gadget's assertions hold for the same initial point, inputs and outputs.", "quantifier": "every well-shaped proof, inputs, outputs", "why_tests_cant": "All proofs.", "anchors": ["gkr/verifier.go:Verify", "snark/gkr/proof.go:AssertValid"]}
{"id": "C37", "title": "Honest proofs fit the allocated gadget", "statement": "For every bN and chunking, the proof produced for the MiMC circuit has exactly the shape that AllocateProof allocates, so Assign never panics, and each gadget slot receives the corresponding native value.", "quantifier": "every bN, chunking and inputs", "why_tests_cant": "Only bN = 2 tested.", "anchors": ["snark/gkr/proof.go:AllocateProof", "snark/gkr/proof.go:Assign", "snark/sumcheck/sumcheck.go:AllocateProof", "snark/sumcheck/sumcheck.go:Assign", "snark/polynomial/univariate.go:Assign"]}
{"id": "C38", "title": "GKR proving is repeatable", "statement": "gkr.Prover.Prove leaves the assignment unchanged, so calling it again (with any core count) returns the same proof, and the inputs/outputs slices handed to the verifier are still the honest ones. (MultiThreadedProver.Prove itself consumes its tables: it is not repeatable.)", "quantifier": "every circuit, assignment, sequence of Prove calls and core counts", "why_tests_cant": "Hidden aliasing; tests call Prove once.", "anchors": ["gkr/prover.go:Prove", "circuit/circuit.go:LayerAsBKTWithCopy", "circuit/circuit.go:LayerAsBKTNoCopy", "sumcheck/par.go:RunForChunk"]}
{"id": "C39", "title": "Pretty-printed field elements denote the element", "statement": "PrettyStringFr(x), read as an optionally signed decimal integer, is congruent to x modulo the field order, and is never longer than the plain decimal string plus the sign; distinct elements print differently. The slice printers (FrSliceToString, IntSliceToString, UintSliceToString, BookKeepingTable.String) also print distinct slices differently; Uint64ToFr is injective and gives the element the integer denotes; FrToGenericArray keeps length, order and values.", "quantifier": "every field element, every 64-bit integer, every slice", "why_tests_cant": "2^254 elements.", "anchors": ["common/common.go:PrettyStringFr", "common/common.go:UintSliceToString", "common/common.go:IntSliceToString", "common/common.go:FrToGenericArray", "common/common.go:Uint64ToFr", "polynomial/book_keeping.go:String"]}
{"id": "C40", "title": "Interleaved chunking round-trips", "statement": "Splitting a table of nChunk*m entries with InterleavedChunk for on = 0..nChunk-1 and storing the chunks with AssignFromChunkedBKT gives back the table; conversely InterleavedChunk recovers each chunk.", "quantifier": "every nChunk >= 1, m and values", "why_tests_cant": "All sizes.", "anchors": ["polynomial/book_keeping.go:InterleavedChunk", "snark/polynomial/multilinear.go:AssignFromChunkedBKT"]}
{"id": "C41", "title": "Challenges bind the whole transcript", "statement": "The challenge used in a sumcheck round depends on the claim and on all earlier messages, so two runs with different claims or different earlier round polynomials never share a challenge by construction.", "quantifier": "every pair of transcripts", "why_tests_cant": "About all transcripts.", "anchors": ["common/challenge.go:GetChallenge", "sumcheck/verifier.go:Verify", "gkr/prover.go:GetInitialQPrimeAndQ"]}
{"id": "C42", "title": "Verifier results do not depend on slice capacities", "statement": "The static-table evaluations in Verify use append(nextQL, nextQR...); for every capacity/growth policy of append, the coordinates evaluated are nextQL followed by nextQR and no live slice (qL, qR, qPrime, challenges, proof) is modified.", "quantifier": "every capacity and growth policy", "why_tests_cant": "Capacities are chosen by the runtime allocator.", "anchors": ["gkr/verifier.go:evaluateStaticTables", "gkr/verifier.go:evaluateStaticTablesLinCombs", "sumcheck/verifier.go:Verify"]}
{"id": "C43", "title": "An accepted proof binds the inputs", "statement": "A proof accepted by Verify for some inputs and outputs is rejected for the same outputs and any other inputs; in particular no other batch of inputs with different true outputs is accepted with the same proof.", "quantifier": "every circuit, proof, hash function and pair of inputs", "why_tests_cant": "About all pairs of inputs; the code only checks two evaluations of the inputs, at points fixed by the proof.", "anchors": ["gkr/verifier.go:Verify", "polynomial/chunked.go:EvaluateMixedChunked", "common/challenge.go:GetChallenge"]}
{"id": "C44", "title": "Soundness error of sumcheck verification", "statement": "For a wrong claim and any adaptive prover whose round polynomials have at most D+1 coefficients (D bounding the degrees of the summand), at most n*D*|F|^(n-1) of the |F|^n challenge vectors of the n rounds make sumcheck Verify accept with a final claim equal to the summand at the challenge point.", "quantifier": "every field, claim, tables, gates and adaptive prover", "why_tests_cant": "Counts over all challenge vectors of a 254-bit field, for all provers.", "anchors": ["sumcheck/verifier.go:Verify", "common/challenge.go:GetChallenge"]}
{"id": "C45", "title": "Soundness error of the GKR checks", "statement": "For a circuit, inputs, a wrong claim about the outputs and any adaptive prover whose round polynomials have at most D+2 coefficients (D bounding the gate degrees), at most N*(D+1)*|F|^(N-1) of the |F|^N vectors of all N challenges make all the checks of GKR verification pass; with a random initial point the same holds for all wrong outputs, up to its number of coordinates.", "quantifier": "every circuit, number of instances, inputs, outputs and adaptive prover", "why_tests_cant": "Counts over all challenge vectors, for all provers.", "anchors": ["gkr/verifier.go:Verify", "snark/gkr/proof.go:AssertValid", "gkr/prover.go:GetInitialQPrimeAndQ"]}
{"id": "C46", "title": "The test provers hold the same instance", "statement": "For every bN and every number 2^k of chunks with k <= bN, InitializeMultiThreadedProver(bN, 2^k) holds the tables of InitializeProverForTests(bN) interleaved, with the same gates and static tables; both give the same claim and proof for every number of cores and every schedule, Verify accepts it, and the claim is the extension at (2,...,2) of the outputs of the layer described in the comments. Any other number of chunks panics.", "quantifier": "every bN, number of chunks, number of cores, schedule and hash function", "why_tests_cant": "The tests run a few sizes and compare only the proofs.", "anchors": ["sumcheck/testing.go:InitializeMultiThreadedProver", "sumcheck/testing.go:InitializeProverForTests"]}
{"id": "C47", "title": "The sumcheck goroutines share memory without data races", "statement": "When the tables that MultiThreadedProver.Prove folds are in pairwise different arrays and the static tables in others, no schedule of Prove in which every access to a cell is a step of its own has two conflicting accesses enabled at once; every schedule ends without panic or deadlock with the proof of the workers run one after the other and changes no existing array but those of vL, vR and eq. GetClaim is race-free and writes to no existing array whatever its tables share. The provers that gkr builds meet the hypothesis whatever the assignment shares. With a table shared by two chunks a race is reachable.", "quantifier": "every heap, prover, hash function, number of cores and schedule of single memory accesses", "why_tests_cant": "A race detector sees only the schedules that happen; the number of interleavings of single accesses is astronomical.", "anchors": ["sumcheck/par.go:Prove", "sumcheck/par.go:GetClaim", "sumcheck/par.go:RunForChunk", "gkr/prover.go:InitialRoundSumcheckProver", "gkr/prover.go:IntermediateRoundsSumcheckProver"]}
{"id": "C48", "title": "The pools of the circuit and of the tables share memory without data races", "statement": "Layer.Evaluate, Circuit.Assign, LayerAsBKTWithCopy, BookKeepingTable.Sub and Mul with nCore >= 1: no schedule in which every load, store and allocation of a cell (slice headers included) is a step of its own has two conflicting accesses enabled at once; every schedule ends, without panic or deadlock, with the tables that the sequential code computes. Evaluate, Assign and the copy write to no existing cell and the copied tables are in new, pairwise different arrays; Sub and Mul write only the header of the receiver and, if its capacity suffices, its first n cells. An operand of Sub or Mul may be the receiver or be disjoint from it; if it overlaps it otherwise, a race is reachable.", "quantifier": "every heap, aliasing of the inputs, circuit, table length, number of cores and schedule of single memory accesses", "why_tests_cant": "A race detector sees only the schedules that happen, and only the aliasing that the test sets up.", "anchors": ["circuit/layers.go:Evaluate", "circuit/circuit.go:Assign", "circuit/circuit.go:LayerAsBKTWithCopy", "polynomial/book_keeping.go:Sub", "polynomial/book_keeping.go:Mul"]}
{"id": "C49", "title": "The tables of every round of the GKR prover are prepared without data races", "statement": "GetBookKeepingTablesForInitialRound, GetBookKeepingTablesForIntermediateRound and GetChunkedEqTable with nCore >= 1: no schedule in which every load, store and allocation of a cell (slice headers included) is a step of its own has two conflicting accesses enabled at once; every schedule ends, without panic or deadlock, and the tables vL, vR, eq and statics hold what the sequential code computes. The in-place operations (Fold of the static tables, Mul and Sub on the chunks of eq, the linear combination of two static tables) write to no cell that existed before, so the assignment is unchanged, and all the tables are in new, pairwise different arrays, which is what the sumcheck prover needs (C47).", "quantifier": "every heap, circuit, assignment, challenges, number of chunks, number of cores and schedule of single memory accesses", "why_tests_cant": "A race detector sees only the schedules that happen; a table that shares memory with the assignment spoils a later layer only.", "anchors": ["gkr/prover.go:GetBookKeepingTablesForInitialRound", "gkr/prover.go:GetBookKeepingTablesForIntermediateRound", "polynomial/eq.go:GetChunkedEqTable", "polynomial/eq.go:GetFoldedEqTable", "circuit/layers.go:GetStaticTable", "polynomial/book_keeping.go:LinearCombinationOfBookKeepingTables", "polynomial/book_keeping.go:Fold"]}
{"id": "C50", "title": "The whole GKR prover under all schedules", "statement": "gkr.Prover.Prove with nCore >= 1, as one concurrent program in which every load, store and allocation of a cell is a step of its own and in which goroutines of one round may still run during the next ones: no schedule has two conflicting accesses enabled at once, panics, deadlocks or runs for ever; no send blocks; no cell that existed before changes; and the proof is the one that the sequential code computes. The same for Assign, NewProver and Prove one after the other. For every good circuit and every batch in at least two chunks, the proof that all the schedules give is accepted by Verify.", "quantifier": "every heap, circuit, assignment (with as many tables in every layer, of one length within a layer), challenge function, number of cores and schedule of single memory accesses", "why_tests_cant": "A test runs one schedule per execution. That a worker of one round is still running in a later round happens rarely and depends on the machine.", "anchors": ["gkr/prover.go:Prove", "gkr/prover.go:NewProver", "sumcheck/par.go:Prove", "sumcheck/par.go:RunForChunk", "circuit/circuit.go:Assign"]}
{"id": "C51", "title": "What Verify answers on the proof of Prove, for any assignment", "statement": "For every circuit of lawful gates of degree at most 10 whose layers fit together (gates may repeat within a layer), and for any tables of the right sizes in 2^k chunks, k >= 1, whatever values they hold: NewProver and Prove do not panic, and Verify, given the first and the last table, does not panic and answers true exactly when, in every layer, the claim made about the outputs (their extension at the initial point, or the combination of their extensions at the two points of the layer above) is what the gates of the layer give on its inputs, every gate being applied to the inputs of every wire that has its ID. Hence the pipeline Assign, NewProver, Prove, Verify on every circuit: Assign panics exactly if some right index, multiplied by the number of instances in a chunk, is out of range; else the answer is true exactly if the misread wires and the counted wires give the same claims.", "quantifier": "every circuit, assignment of the right sizes, number of chunks and instances, challenge function and number of cores", "why_tests_cant": "The tests of the repository only use circuits with distinct gates in a layer and one instance per chunk or right index 0, and only assignments computed by Assign.", "anchors": ["gkr/verifier.go:Verify", "gkr/prover.go:Prove", "circuit/layers.go:Evaluate", "circuit/layers.go:Gates", "circuit/circuit.go:Assign"]}
{"id": "C52", "title": "Completeness when a layer uses a gate more than once", "statement": "For every circuit of lawful gates of degree at most 10, also when several wires of a layer use the same gate, Verify accepts the proof that Prove makes from the true values of the circuit.", "quantifier": "every circuit, batch of inputs in at least two chunks, challenge function and number of cores", "why_tests_cant": "The tests of the repository only use circuits in which the gates of a layer are distinct.", "anchors": ["gkr/verifier.go:Verify", "gkr/prover.go:Prove", "circuit/layers.go:Gates", "circuit/layers.go:GetStaticTable"]}
{"id": "C53", "title": "A witness of the GKR gadget binds its input and output tables", "statement": "A proof that satisfies all the assertions of the GKR gadget with some tables of inputs and outputs does not satisfy them with other tables; in particular not with other inputs and the same outputs, when the MiMC outputs of the other inputs are different.", "quantifier": "every number of instances 2^bN, every proof, initial point and pair of input and output tables", "why_tests_cant": "About all pairs of tables for every proof; the test solves the constraint system for one honest witness, so it never tries a second table with the same proof.", "anchors": ["snark/gkr/proof.go:AssertValid", "snark/polynomial/multilinear.go:Eval", "gkr/prover.go:GetInitialQPrimeAndQ"]}
{"id": "C54", "title": "The circuit that uses the GKR gadget proves the MiMC outputs", "statement": "GKRMimcTestCircuit, the circuit in which the repository uses the gadget, can be allocated and assigned for every batch and is then satisfied; and in every witness that satisfies it, up to unlucky challenges, the outputs are the MiMC outputs of the inputs.", "quantifier": "every number of instances and chunks, all inputs, every witness (proof, initial point, tables)", "why_tests_cant": "The test solves the circuit for one honest witness with the initial point of the native verifier; soundness is about all witnesses, with any initial point, which is a variable of the witness too.", "anchors": ["snark/gkr/mimc_test.go:Define", "snark/gkr/mimc_test.go:Assign", "snark/gkr/mimc_test.go:AllocateGKRMimcTestCircuit", "snark/gkr/proof.go:AssertValid"]}
{"id": "C55", "title": "The sumcheck provers of the GKR rounds claim the layer values", "statement": "In an honest run the prover that IntermediateRoundsSumcheckProver sets up for a layer, for any points and coefficients, claims lambdaL times the multilinear extension of the values of the next layer at (qL, q') plus lambdaR times the extension at (qR, q'); the prover of InitialRoundSumcheckProver claims the extension of the outputs at (q, q'). At Boolean points with coefficients 1 and 0 the claim is a single entry of the assignment.", "quantifier": "every circuit in the normal form, every number of chunks and instances, all inputs, all points, all coefficients, every core count", "why_tests_cant": "TestMimc compares two claims with the values for one circuit, at one point, with one coefficient equal to 1 and the other 0; a wrong coefficient, a table of the wrong side or a wrong layer shows at other points only.", "anchors": ["gkr/prover.go:InitialRoundSumcheckProver", "gkr/prover.go:IntermediateRoundsSumcheckProver", "gkr/prover.go:GetBookKeepingTablesForInitialRound", "gkr/prover.go:GetBookKeepingTablesForIntermediateRound", "sumcheck/par.go:GetClaim"]}
{"id": "C56", "title": "The end-to-end tests succeed for every random draw and all inputs", "statement": "TestMimc does not panic, all six pairs that it compares are equal and the verifier accepts, whatever the random generator draws, and in the same way for every number of chunks and instances; TestGKR and TestMultiBGs find the expected assignment and an accepted proof for all inputs.", "quantifier": "every sequence of random draws; every number of chunks 2^k with k >= 1; every number of instances (one per chunk for the two circuits with a right input other than 0); all inputs; every challenge function for TestGKR and TestMultiBGs", "why_tests_cant": "A run of a test is one draw with fixed sizes; that it cannot fail for another draw, and that it is not flaky, is about all of them.", "anchors": ["examples/mimc_test.go:TestMimc", "examples/mimc_test.go:randomInputs", "gkr/gkr_test.go:TestGKR", "gkr/gkr_test.go:TestMultiBGs", "common/common.go:RandomFrArray"]}
{"id": "C57", "title": "The GKR gadget is a GKR verifier for every circuit of exactly 91 layers, and only for those", "statement": "For every native circuit of 91 layers and every gadget circuit that stands for it (each gate gadget computes the gate of a group of wires, each static table generator the folded table of this group) the assertions of AssertValid hold iff all the checks of a GKR verifier for the native circuit hold; honest proofs satisfy them and fit the allocated variables, and a witness with wrong outputs needs an unlucky challenge. The constant nLayers decides which layers count: with less than 91 layers AssertValid panics, and of a longer circuit (or proof) it reads the first 91 layers only, so that the honest proof of these layers passes as a proof about the whole circuit.", "quantifier": "all circuits, gadget circuits that stand for them, witnesses, tables, initial points, numbers of instances", "why_tests_cant": "The only circuit of the tests is the one of MiMC; nothing runs the gadget on another circuit, and no test compares its assertions with the wiring.", "anchors": ["snark/gkr/proof.go:AssertValid", "snark/gkr/proof.go:AllocateProof", "snark/gkr/circuit.go:Combine", "snark/gkr/circuit.go:CombineWithLinearComb", "snark/gkr/mimc.go:CreateMimcCircuit"]}
{"id": "C58", "title": "The benchmarks of the MiMC prover: every run leaves a valid proof; with several processes they write it without synchronisation", "statement": "For all random draws, sizes, core counts and numbers of rounds, benchmarkMIMCCircuit ends without panic with a proof of the last draw that the verifier (two chunks or more) and the gadget accept. benchmarkMIMCGKRProverMultiProcess with at least as many cores as processes: under all schedules of its goroutines no panic, no deadlock, boundedly many steps, the caller returns after all the goroutines, and _mimcProof holds a valid proof of the last round; no data race. (False for two processes or more: they write _mimcProof without synchronisation.) With fewer cores than processes it blocks under all schedules, with fewer chunks or fewer hashes than processes it panics.", "quantifier": "all draws, sizes, core counts, numbers of processes and of rounds, all schedules", "why_tests_cant": "A benchmark checks nothing, a race is visible in rare schedules only, and the parameters come from the environment.", "anchors": ["examples/mimc_test.go:benchmarkMIMCCircuit", "examples/mimc_test.go:benchmarkMIMCGKRProverMultiProcess", "examples/mimc_test.go:randomInputs", "common/math.go:Log2Ceil"]}
{"id": "C59", "title": "The unit tests of the packages succeed for every random draw and every size; the assertions of the test circuits say what they should", "statement": "For every random draw: TestGetFoldedEqTable for all points; TestChunked for all sizes with two chunks or more (with one chunk it panics); TestHashes for all messages, with the values that the seven hashes give; TestMultiThreaded, TestBenchmarkSetup, TestSumcheck for all sizes; the circuits of the snark tests of hash, multilinear, univariate, Eq and sumcheck get all their variables assigned and are satisfied for all sizes. (False for TestEq if the number of tests differs from the number of coordinates.) And the assertions of each circuit hold exactly if the expected values are the right ones (hash of the row, Eq of the two points, extension of the table, value of the polynomial, points of the native sumcheck verifier).", "quantifier": "all draws, points, tables and sizes; all witnesses of the test circuits", "why_tests_cant": "The tests are run with one size and one seed; whether they are able to reject a wrong value is not tested at all.", "anchors": ["hash/hash_test.go:TestHashes", "polynomial/eq_test.go:TestGetFoldedEqTable", "polynomial/chunk_test.go:TestChunked", "sumcheck/par_test.go:TestMultiThreaded", "sumcheck/prover_test.go:TestSumcheck", "snark/hash/mimc_test.go:TestMimc", "snark/polynomial/eq_test.go:TestEq", "snark/polynomial/multilinear_test.go:TestMultilinear", "snark/polynomial/univariate_test.go:TestUnivariate", "snark/sumcheck/sumcheck_test.go:TestSumcheckCircuit"]}
{"id": "C60", "title": "The frame of the benchmarks: environment variables, timer, trace and profile", "statement": "GetBN, GetNChunks and GetNProcesses return v exactly if their own variable is set to a decimal numeral of v in the range of int, and otherwise panic with a message that names the variable; the flags are set exactly by \"1\". ProfileTrace calls its function exactly once if the recorders can be started and never otherwise; it ends as the function ends, with timer and recorders on during the call and stopped in reverse order afterwards, also after a panic; all files that were opened are closed. (False: the trace file never is.) BenchmarkMimcGKRProver, for every environment, measures exactly the computation of the proofs and leaves a valid one, or panics with the right reason; the other benchmarks measure their computations only. (False: the multi-process one measures the creation of the trace file, those of the sumcheck provers the first set-up.)", "quantifier": "all environments, strings, functions (returning, panicking or blocking), states of the process, numbers of rounds", "why_tests_cant": "Nothing tests the frame; a set-up that is measured once only shifts an average, and a file that stays open is noticed only after many rounds.", "anchors": ["common/env.go:GetBN", "common/env.go:GetNChunks", "common/env.go:GetNProcesses", "common/env.go:GetProfiled", "common/env.go:GetTraced", "common/profiling.go:ProfileTrace", "examples/mimc_test.go:BenchmarkMimcGKRProver", "sumcheck/prover_test.go:benchmarkFullSumcheckProver"]}
{"id": "C61", "title": "The initialisation of the packages", "statement": "init of package hash does not panic and leaves in the package variables exactly the literal constants and the hashers built from them, whatever the variables held before, so running it again changes nothing; the order of its three calls matters (initPoseidon before initArk panics). init of package polynomial does not panic, and GetLagrangePolynomial(n) reads from its table exactly the coefficients of the Lagrange polynomials for n <= 12 and panics for all larger n.", "quantifier": "all states of the package variables, all domain sizes, all fields", "why_tests_cant": "init runs once before any test; its preconditions and the dependence on the order are never exercised.", "anchors": ["hash/hash.go:init", "hash/ark.go:initArk", "hash/poseidon.go:initPoseidon", "hash/gmimc.go:initGMimc", "polynomial/lagrange.go:init", "polynomial/lagrange.go:initLagrangePolynomials"]}
{"id": "C62", "title": "The constraint systems that the gadget circuits compile to", "statement": "Compiling the circuit with the GKR gadget (GKRMimcTestCircuit) gives a system that depends on the numbers of variables only; it accepts exactly the witnesses for which all assertions of Define hold, its multiplications determine every internal wire uniquely, and compiling panics exactly when running on values of that shape panics. For 2^bN hashes the allocated circuit compiles to exactly 3*2^bN + 299208*bN + 466268 multiplications and 91*(bN+3)+2 assertions over 3*2^bN + 820*bN + 1274 variables, and the honest prover's witness is accepted; so are, for all inputs, witnesses with wrong outputs (see C54). The circuit that hashes n messages of k words directly compiles to 364*k multiplications and one assertion per message and accepts exactly the MiMC hashes; the GKR circuit has fewer constraints exactly from bN = 14 on.", "quantifier": "all witnesses, all shapes of the variables, all bN, all inputs, chunk and core counts", "why_tests_cant": "The tests solve one system of one size with one honest witness; that no other witness is accepted, that internal wires are not free, and the sizes for all bN are statements about all assignments.", "anchors": ["snark/gkr/mimc_test.go:Define", "snark/gkr/proof.go:AssertValid", "snark/gkr/circuit.go:Combine", "snark/gkr/circuit.go:CombineWithLinearComb", "snark/sumcheck/sumcheck.go:AssertValid", "snark/polynomial/multilinear.go:Fold", "snark/polynomial/multilinear.go:EvalMixed", "snark/polynomial/univariate.go:Eval", "snark/polynomial/eq.go:EqEval", "snark/hash/mimc.go:MimcHash", "snark/hash/mimc_test.go:Define"]}
{"id": "C63", "title": "Go's int has 64 bits: where the size and index computations agree with unbounded integers", "statement": "Sizes, indices, shifts and loop bounds are computed in 64-bit two's complement registers. Log2Floor and Log2Ceil are right for every int; IntoChunkRanges is right up to 2^62-4096 items and every core count, and loses the last item for 2^63-1 items on two cores. The eq tables, chunked evaluations, static tables, layer evaluation, both sumcheck provers, the sumcheck verifier, the GKR prover and the GKR verifier give the same results, panics included, as over unbounded integers whenever the lengths of the slices are at most 2^61 and the products that the code computes fit. The whole MiMC pipeline accepts on 64 bits for up to 2^58 instances (if a slice of eight times that length can be made). Beyond the bounds they differ: with a wire whose right input is 1 and 2^32 instances the index w.R*N*N of Evaluate wraps to 0, and the evaluation that would panic returns values computed from the wrong input; a wire with output 2^63-1 gives a layer with two outputs.", "quantifier": "all register contents, all slices within the stated lengths, all circuits, core counts, proofs (honest or not), hash functions", "why_tests_cant": "Overflow needs tables of 2^32 entries and more; tests run on at most 2^14 or so.", "anchors": ["common/math.go:Log2Ceil", "common/math.go:Log2Floor", "common/chunks.go:IntoChunkRanges", "polynomial/eq.go:GetFoldedEqTable", "polynomial/eq.go:GetChunkedEqTable", "polynomial/chunked.go:EvaluateChunked", "circuit/layers.go:NewLayer", "circuit/layers.go:Evaluate", "sumcheck/par.go:Prove", "sumcheck/verifier.go:Verify", "gkr/prover.go:Prove", "gkr/verifier.go:Verify"]}
{"id": "C64", "title": "The benchmarks of the gadgets and of single steps measure what they are about", "statement": "BenchmarkMimcCircuit, when BN_GKR and NCHUNKS_GKR are numerals of m+k and 2^k and each of its first three phases runs at least once, returns, reports for every call of a phase exactly its computations, and gives groth16.Prove each time the compiled system and a complete witness that the system accepts, with the drawn inputs and their MiMC values. The phases depend on each other although each can be left out on the command line: without the assignment the GKR prover panics, without the proof the assignment of the witness panics, without the witness groth16.Prove gets an empty one and its error is ignored. A missing, malformed or negative environment value and a zero chunk count panic. BenchmarkMimc of the hash gadget does the same for 2^bN messages, bN <= 62, but ignores the error of Atoi: a missing value is taken as 0, a value out of range as the nearest int; 63 and negative values panic, from 64 on the circuit is empty. The fine-grained sumcheck benchmark panics unless b.N = 1, and its phases compute the values of the three sums at 0,1,2,...; BenchmarkFolding and BenchmarkEvals compute i+5m and m for tables 0..2m-1. Every random entry is a draw of its own.", "quantifier": "every environment, draw, core count >= 1, sequence of b.N chosen by the testing package, every bN", "why_tests_cant": "Benchmarks check nothing; they are run with a few environments and their results are dropped.", "anchors": ["snark/gkr/mimc_test.go:BenchmarkMimcCircuit", "snark/hash/mimc_test.go:BenchmarkMimc", "sumcheck/prover_test.go:benchmarkFineGrainedProver", "polynomial/book_keeping_test.go:BenchmarkFolding", "polynomial/book_keeping_test.go:BenchmarkEvals", "common/common.go:RandomFrDoubleSlice"]}
{"id": "C65", "title": "The lines named in DESIGN.md are what falsifies the properties: with them repaired, the full claims hold", "statement": "Let Gates record the IDs it has seen, Evaluate read inps[wRN+h], chunkedEvalRecombine return its input when there is one chunk, Poseidon's Update write its result back, the linear combination fill a new table, and Verify check the shape of the proof and return false on a failed intermediate check; everything else stays as it is. Then: Gates lists each ID once; a layer and a circuit are evaluated as wired, for every wiring; chunked evaluation is the extension of the interleaved table for every number 2^k of chunks, k >= 0; Verify never panics, on any proof, and accepts exactly the proofs of the right shape that pass all checks; the honest proof of every circuit, with repeated gates and one chunk allowed, is accepted; an accepted proof of outputs that are wrong at the initial point needs an unlucky challenge, and at most N(D+1)|F|^(N-1) of the |F|^N challenge vectors accept against any adaptive prover; for MiMC the verifier and the gadget agree on every proof of the right shape; the forged proof of C23 is rejected; Poseidon is the Miyaguchi-Preneel chaining of its permutation; the linear combination is right for overlapping tables. On circuits without repeated gates and two chunks or more, the repairs only reject more.", "quantifier": "all wirings, gates with lawful degrees, inputs, chunk counts, proofs, provers, hash functions, messages, heaps", "why_tests_cant": "A test shows that a bug is gone on one input, not that no other cause remains.", "anchors": ["circuit/layers.go:Gates", "circuit/layers.go:Evaluate", "polynomial/chunked.go:chunkedEvalRecombine", "gkr/verifier.go:Verify", "hash/poseidon.go:Update", "polynomial/book_keeping.go:LinearCombinationOfBookKeepingTables"]}
{"id": "C66", "title": "An initial point drawn after the outputs are fixed is what binding of the outputs lacks", "statement": "Take the repaired verifier of C65 and let the initial point (q, q') be given to the prover and to Verify instead of being the constants 1, 2, 3, …. Then: at the constants they are the functions of C65 and of the code; at every point Verify returns on every proof and accepts exactly the proofs of the right shape that pass all checks; the honest proof at every point is accepted; two different tables of outputs are accepted with a common proof at no more than n|F|^(n-1) of the |F|^n points; for all inputs, all wrong outputs and every prover that knows the point and adapts to the challenges, at most (n + N(D+1))|F|^(n+N-1) of the |F|^(n+N) choices of point and challenges are accepted, with the numbers of the MiMC circuit filled in. For the gadget with its own hash: for all wrong outputs, at all but bN·r^(bN-1) points every satisfying witness has an unlucky challenge; at all but as many points no proof satisfies it with two different tables of outputs.", "quantifier": "all wirings, inputs, outputs, chunk counts, points, proofs, provers, hash functions", "why_tests_cant": "The claim counts the points and challenges against every prover; a test tries one prover at one point.", "anchors": ["gkr/verifier.go:Verify", "gkr/prover.go:Prove", "gkr/prover.go:GetInitialQPrimeAndQ", "snark/gkr/proof.go:AssertValid"]}
{"id": "C67", "title": "Challenges hashed from the statement and the whole transcript bind inputs and outputs", "statement": "Take the repaired verifier of C65 and let the initial point and every challenge be the hash of the inputs, the outputs, everything said before and the current message, instead of constants and of the current message alone. Then: with a hash that looks at the message only it is the verifier of C66; it returns on every proof and accepts exactly the proofs of the right shape whose transcript leads through the stages of the protocol to acceptance; for all inputs, whatever the hash, some proof of the circuit's outputs is accepted, and a prover given as a program (the provers of the source with these challenges) finds one from the values of the repaired Assign, without panic; an accepted proof of wrong outputs contains a challenge that leads from a doomed stage to one that is not; from a doomed stage, whatever the message, at most D+1 challenges do; for every adversary that asks a random oracle Q questions adaptively and then chooses inputs, outputs and proof, of the |F|^(Q+N) answers at most (Q+N)(D+1)|F|^(Q+N-1) make the verifier accept outputs that are not those of the circuit on these inputs, N being the number of the verifier's own questions, with the numbers of the MiMC circuit filled in.", "quantifier": "all wirings, inputs, outputs, chunk counts, proofs, hash functions, adversaries, numbers of oracle questions", "why_tests_cant": "The claim counts the answers of an oracle against every adaptive adversary, who also chooses the statement; a test runs one prover with one hash.", "anchors": ["gkr/verifier.go:Verify", "gkr/prover.go:GetInitialQPrimeAndQ", "sumcheck/verifier.go:Verify", "common/challenge.go:GetChallenge", "gkr/prover.go:Prove"]}
{"id": "C68", "title": "The claims about tests and benchmarks hold of the repaired functions", "statement": "Repair the three faults that falsify C58, C59 and C60: each process of the multi-process benchmark stores its proof in its own entry of a slice, Assign of the eq test ranges over the coordinates, ProfileTrace closes the trace file and stops the timer before it starts the recorders. Then: the multi-process benchmark is free of races, deadlocks and panics under all schedules for every number of processes, and entry j holds a proof the verifier accepts for what process j drew in the last round; the eq test passes for every draw, every number of tests and every number of coordinates; ProfileTrace leaves no file open however its function ends and whether or not the recorders start; the benchmarks measure exactly the computations and leave no file open.", "quantifier": "all schedules, numbers of processes, rounds, draws, numbers of tests and coordinates, functions under benchmark, states of the process", "why_tests_cant": "Races depend on the schedule, leaked files and measured set-up do not show in any result, and the test itself is the object.", "anchors": ["examples/mimc_test.go:benchmarkMIMCGKRProverMultiProcess", "snark/polynomial/eq_test.go:Assign", "common/profiling.go:ProfileTrace", "sumcheck/prover_test.go:benchmarkFullSumcheckProver"]}
{"id": "C69", "title": "The size of a proof, and what prover and verifier ask the hash", "statement": "A proof that Prove makes has, for each layer with 2^bG inputs, bG*(dL+2) + bG*(dR+2) + bN*(d'+2) + 2 field elements, where dL, dR, d' are the largest degrees of its gates; for MiMC that is 91*(9*bN+14), which is less than the inputs and outputs together exactly from bN = 12 on. The answer of Verify, panics included, depends on the hash only at the round polynomials and at the pairs of claims about the layers other than the inputs, for every circuit, proof, inputs and outputs; Prove returns the same proof for every hash that agrees on these messages of its proof. They contain every element of the proof but the two claims about the inputs once; for MiMC these are fewer words than there are hashes in the statement exactly from bN = 14 on.", "quantifier": "all circuits, proofs, inputs, outputs, hash functions, numbers of instances, chunks and cores", "why_tests_cant": "A test runs one hash function and one size; that other values of the hash do not matter, and the size for every circuit, are statements about all of them.", "anchors": ["gkr/prover.go:Prove", "gkr/verifier.go:Verify", "sumcheck/prover.go:Prove", "sumcheck/par.go:Prove", "sumcheck/verifier.go:Verify", "common/challenge.go:GetChallenge"]}
{"id": "C70", "title": "A panic ends the process under every schedule", "statement": "When the computation of one chunk of Layer.Evaluate or MultiThreadedProver.GetClaim panics, when LayerAsBKTWithCopy panics, or when MultiThreadedProver.Prove panics anywhere, in a worker or in the caller (chunks with the same dimensions), then under every schedule the process ends with a panic within a number of steps that does not depend on the schedule: until then somebody can always go on, so nothing hangs while the others wait for the message of the dead worker, and the caller never returns a result.", "quantifier": "all schedules, inputs, layers, provers, hash functions, chunk and core counts, negative core counts included", "why_tests_cant": "A test that panics runs one schedule. That no other schedule hangs or returns before the panic happens needs all of them.", "anchors": ["circuit/layers.go:Evaluate", "circuit/circuit.go:LayerAsBKTWithCopy", "sumcheck/par.go:GetClaim", "sumcheck/par.go:Prove", "sumcheck/par.go:RunForChunk", "common/semaphore.go:NewSemaphore"]}
{"id": "C71", "title": "Where the sequential reading says deadlock, no schedule returns", "statement": "With no cores, Layer.Evaluate, LayerAsBKTWithCopy, MultiThreadedProver.GetClaim and MultiThreadedProver.Prove never return on a non-empty input, also when chunks would panic. The same holds for the whole pipeline Assign, NewProver, Prove. When main and workers of Prove count different numbers of rounds (chunks of equal size that is no power of two, e.g. three chunks of five), Prove never returns: every schedule ends, within a number of steps that does not depend on it, with everybody blocked or with a panic. So for every prover with chunks of the same dimensions and every number of cores exactly one of three things happens under all schedules, and the sequential reading says which: the result, a panic, or no return. The condition on the chunks is needed: with chunks of different dimensions some schedules return and others panic.", "quantifier": "all schedules, inputs, layers, provers with chunks of the same dimensions, hash functions, chunk and core counts", "why_tests_cant": "A test that hangs shows one schedule and no more than that it has not returned yet. That no schedule returns is a statement about all of them.", "anchors": ["circuit/layers.go:Evaluate", "circuit/circuit.go:LayerAsBKTWithCopy", "sumcheck/par.go:GetClaim", "sumcheck/par.go:Prove", "sumcheck/par.go:RunForChunk", "common/semaphore.go:NewSemaphore", "circuit/circuit.go:Assign"]}
{"id": "C72", "title": "All messages of the prover say the truth, and up to unlucky challenges its proof is the only one", "statement": "The round polynomials sent by the sumcheck prover, and by Prove at every layer, are the partial sums of the layer's summand with the earlier challenges put in, and the two claims of every layer are the extensions of its values at the points of the layer. Conversely a proof accepted by the repaired verifier (C65), for whatever outputs and at whatever initial point, is exactly the proof that Prove returns for that point, or some challenge is unlucky; the same holds for a witness of the GKR gadget that fits the allocated slots, and for a sumcheck proof. However a prover adapts to the challenges, at most N(D+1)|F|^(N-1) of the |F|^N challenge vectors give an accepted proof other than Prove's. With challenges that depend on the whole transcript (C67), an adversary who asks a random oracle Q questions and then chooses inputs, outputs and proof gets something accepted that is not the circuit's outputs with the prover's own proof for at most (Q+N)(D+1)|F|^(Q+N-1) of the |F|^(Q+N) answers. The verifier of the code does not have this property: it accepts whatever is appended to an accepted proof.", "quantifier": "all circuits (MiMC included), inputs, claimed outputs, initial points, hash functions, proofs, adaptive provers, adversaries with oracle access, chunk and core counts", "why_tests_cant": "Uniqueness is about all other proofs. Tests compare the verdict on an honest proof, not the single messages with what they should be, and cannot range over the proofs of arbitrary provers.", "anchors": ["gkr/verifier.go:Verify", "gkr/prover.go:Prove", "sumcheck/verifier.go:Verify", "sumcheck/prover.go:Prove", "snark/gkr/proof.go:AssertValid"]}
{"id": "C73", "title": "The proof and the verdict do not depend on the chunking", "statement": "A table of inputs can be cut into any power of two of chunks. For two chunkings of the same table (with any positive numbers of cores), and values that follow the wiring: the values of every layer are chunkings of the same table; NewProver and Prove return the same proof, also for a single chunk; and Verify, given two or more chunks in each case, accepts, rejects or panics alike, for every proof, honest or not, and whatever outputs are claimed. For circuits whose wires all have R = 0, the MiMC circuit among them, Assign followed by NewProver and Prove gives the same proof for all chunkings, under all schedules over shared memory. For other wires Assign gives outputs that depend on the chunking (C12). With NewCircuit, Assign and Verify repaired (C65) all of this holds for every circuit, repeated gates, other wires and a single chunk included.", "quantifier": "all circuits (MiMC included), inputs, claimed outputs, proofs, hash functions, pairs of chunkings, core counts, schedules", "why_tests_cant": "Tests run a fixed chunk size for each circuit and never compare the proofs of two chunkings; for chosen sizes they could not cover all pairs of chunkings and all proofs.", "anchors": ["gkr/prover.go:Prove", "gkr/prover.go:NewProver", "gkr/verifier.go:Verify", "circuit/circuit.go:Assign", "sumcheck/par.go:Prove"]}
{"id": "C74", "title": "The instances of a batch do not interact", "statement": "If two calls of Assign on the same circuit return, have the same number of instances per chunk, and agree on the inputs of one instance (at possibly different places in possibly different chunks), then they agree on all values of that instance in all layers, whatever the other instances, the numbers of chunks and of cores. For circuits whose wires all have R = 0, the MiMC circuit among them, the values are moreover those of Assign on that instance alone. For other wires the second part fails (C12): the operand that is read depends on the size of the batch, although it still belongs to the same instance. With the repaired Assign (C65) it holds for all wirings.", "quantifier": "all circuits, inputs, batch sizes (not only powers of two), positions of the instance, core counts", "why_tests_cant": "A test fixes the other instances of the batch; that none of them matters is a statement about all their values. The tests of the repository use one circuit and never vary a batch around a fixed instance.", "anchors": ["circuit/layers.go:Evaluate", "circuit/circuit.go:Assign", "examples/mimc.go:CreateMimcCircuit"]}
