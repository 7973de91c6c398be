{"id": "C01", "title": "Deferred-inversion arithmetic means field arithmetic", "statement": "For Assigned<F> values, evaluate() commutes with negation, addition, subtraction, multiplication, doubling, squaring, cubing and invert (with 1/0 = 0), == holds exactly when the evaluated field elements are equal, and is_zero_vartime holds exactly when the evaluated element is zero, including for rationals with zero denominators.", "quantifier": "all pairs of Assigned values over any field (zero, trivial and rational, with any numerator and denominator)", "why_tests_cant": "the interesting cases are combinations of zero numerators/denominators nested inside arbitrary expressions; the proptest samples a few operation lists", "anchors": ["halo2_proofs/src/plonk/assigned.rs: Assigned, Add, Mul, Sub, Neg, PartialEq, invert, evaluate, is_zero_vartime"]}
{"id": "C02", "title": "Batched inversion of assigned columns is pointwise evaluation", "statement": "batch_invert_assigned on any list of columns of Assigned values returns columns of the same shape whose cells are the evaluated field elements, whichever cells are trivial, zero or rational and however many there are.", "quantifier": "every number of columns, column length and mix of trivial/zero/rational cells", "why_tests_cant": "depends on a shared running product across all columns and on skipping the trivial denominators in step; a test fixes one layout", "anchors": ["halo2_proofs/src/poly.rs: batch_invert_assigned, Polynomial::invert", "halo2_proofs/src/plonk/assigned.rs: numerator, denominator"]}
{"id": "C03", "title": "FFT computes the discrete Fourier transform for every size and thread count", "statement": "best_fft(a, omega, log_n) leaves in position i the value sum_j a_j*omega^(i*j), for every power-of-two size, for field elements as well as for group elements, and the serial and recursive (parallel) branches agree; it panics when the length is not 2^log_n.", "quantifier": "all log_n, all inputs, every omega with omega^(2^log_n)=1 and omega^(2^(log_n-1)) = -1, every thread count", "why_tests_cant": "only particular sizes/thread counts are run; the branch taken depends on the machine", "anchors": ["halo2_proofs/src/arithmetic.rs: best_fft, recursive_butterfly_arithmetic, log2_floor"]}
{"id": "C04", "title": "Basis changes of the evaluation domain are exact inverses", "statement": "lagrange_to_coeff returns the coefficients of the unique polynomial of degree < n with the given evaluations on the domain; coeff_to_extended returns its evaluations on the zeta-coset of the extended domain; extended_to_coeff undoes it (up to zero padding and truncation to n*(j-1) coefficients); length mismatches panic.", "quantifier": "all k, j, all polynomials, any field with the required 2-adic root of unity and cube root of unity zeta", "why_tests_cant": "tests pick one domain; index mod 3 coset scaling and truncation boundaries vary with size", "anchors": ["halo2_proofs/src/poly/domain.rs: EvaluationDomain::new, lagrange_to_coeff, coeff_to_extended, extended_to_coeff, distribute_powers_zeta, ifft"]}
{"id": "C05", "title": "Multi-exponentiation equals the naive sum", "statement": "best_multiexp(coeffs, bases) returns sum_i coeffs_i * bases_i for any number of terms, any window size the length selects, any thread count and any 256-bit canonical scalars; small_multiexp returns the same for equal lengths; best_multiexp panics exactly when the lengths differ, small_multiexp never checks them (extra bases are ignored).", "quantifier": "all lists of scalars and bases, all thread counts, all window widths from the selection rule", "why_tests_cant": "windows straddling byte boundaries, the final partial window, bucket summation and per-thread splitting depend on sizes no test enumerates", "anchors": ["halo2_proofs/src/arithmetic.rs: best_multiexp, small_multiexp, Buckets::sum, get_at, Bucket"]}
{"id": "C06", "title": "Kate division is exact division by X - b", "statement": "kate_division(a, b) returns q with a(X) = q(X)(X-b) + a(b) and one coefficient fewer than a; empty input panics (index underflow).", "quantifier": "all coefficient lists of length >= 1 and all b", "why_tests_cant": "tests use a single polynomial", "anchors": ["halo2_proofs/src/arithmetic.rs: kate_division"]}
{"id": "C07", "title": "Lagrange interpolation returns the interpolating polynomial", "statement": "lagrange_interpolate(points, evals) returns exactly n coefficients of the unique polynomial of degree < n taking the given values at the n distinct points; for n = 1 the constant.", "quantifier": "all n >= 1, all lists of distinct points, all evaluations", "why_tests_cant": "tests sample random points for fixed n", "anchors": ["halo2_proofs/src/arithmetic.rs: lagrange_interpolate"]}
{"id": "C08", "title": "parallelize visits every element exactly once with its true index", "statement": "parallelize(v, f) calls f on disjoint contiguous pieces covering v, passing each piece's true start index, for any thread count, so an index-dependent elementwise f behaves as in a sequential loop; on an empty slice it panics.", "quantifier": "every slice length, every thread count", "why_tests_cant": "the chunking rule has a special case that depends on the machine's thread count", "anchors": ["halo2_proofs/src/arithmetic.rs: parallelize"]}
{"id": "C09", "title": "Chunked rotation agrees with whole-polynomial rotation", "statement": "Concatenating get_chunk_of_rotated(rotation, size, i) over all i yields exactly the rotated polynomial (value at index i is the original at i + rotation mod n; scaled by the extension factor in the extended domain), for every chunk size and every rotation with |rotation| <= n; larger rotations panic in both.", "quantifier": "all polynomial lengths, chunk sizes, chunk indices (including the short last chunk) and rotations", "why_tests_cant": "three-way wraparound logic per chunk; tests compare a handful of sizes", "anchors": ["halo2_proofs/src/poly.rs: rotate, get_chunk_of_rotated, get_chunk_of_rotated_helper", "halo2_proofs/src/poly/domain.rs: rotate_extended, get_chunk_of_rotated_extended"]}
{"id": "C10", "title": "Expression evaluator is independent of chunking and thread count", "statement": "Evaluating a polynomial AST in the Lagrange or extended basis returns at every index the value obtained by evaluating the expression pointwise with rotations, whatever the number of threads. In the coefficient basis (where products cannot be formed) it returns the coefficients of the expression, or panics, and it panics exactly if the AST contains a registered polynomial, or a linear term while the polynomials have at most four coefficients per thread.", "quantifier": "all ASTs, all registered polynomials, all lengths and thread counts", "why_tests_cant": "the chunk boundaries depend on the number of threads; the regression test covers one pattern", "anchors": ["halo2_proofs/src/poly/evaluator.rs: Evaluator::evaluate, get_chunk_params, BasisOps impls"]}
{"id": "C11", "title": "Quotient polynomial: division by the vanishing polynomial and splitting into pieces", "statement": "Dividing the extended evaluations of a polynomial that vanishes on the domain by the vanishing polynomial and converting to coefficients yields h with h(X)(X^n - 1) equal to it; splitting h into n-sized pieces and recombining them with powers of x^n gives h(x).", "quantifier": "all constraint polynomials of degree below the extended domain bound, all n, j, all evaluation points x", "why_tests_cant": "needs the algebraic identity for every polynomial and domain", "anchors": ["halo2_proofs/src/poly/domain.rs: divide_by_vanishing_poly, extended_to_coeff", "halo2_proofs/src/plonk/vanishing/prover.rs: construct, evaluate", "halo2_proofs/src/plonk/vanishing/verifier.rs: verify"]}
{"id": "C12", "title": "Verifier's Lagrange evaluations equal the prover's polynomials", "statement": "l_i_range(x, x^n, rotations) returns the Lagrange basis polynomials of the indexed rows evaluated at x for every x outside the domain; hence the verifier's l_0, l_last and l_blind equal the evaluations at x of the proving key's polynomials of the same names.", "quantifier": "all n, all numbers of blinding factors smaller than n, all x outside the domain", "why_tests_cant": "an off-by-one between keygen and the verifier would have to be seen for every blinding-factor count", "anchors": ["halo2_proofs/src/poly/domain.rs: l_i_range, rotate_omega", "halo2_proofs/src/plonk/keygen.rs: keygen_pk", "halo2_proofs/src/plonk/verifier.rs: verify_proof"]}
{"id": "C13", "title": "Copy constraints build exactly the requested equivalence", "statement": "After any sequence of copy(left,right) calls the assembled mapping is a permutation of the cells whose cycles are exactly the classes of the equivalence generated by the successful copies; a call with a column outside the permutation or a row out of range returns an error and changes nothing.", "quantifier": "all sequences of copy calls on any grid of columns and rows", "why_tests_cant": "merging cycles with union-by-size has aliasing and self-merge cases; soundness of equality constraints depends on every history", "anchors": ["halo2_proofs/src/plonk/permutation/keygen.rs: Assembly::new, Assembly::copy"]}
{"id": "C14", "title": "Permutation argument accepts satisfied copies and only those", "statement": "If every cell equals the cell it maps to then the grand-product columns computed by the prover satisfy all permutation constraints on every row (for challenges that hit no zero denominator), for any number of column sets; conversely, if for given column values some product columns satisfy the constraints, then the copies hold except for at most a bounded number of challenge pairs.", "quantifier": "all column counts, chunk lengths, assignments, challenges and blinding values", "why_tests_cant": "soundness is a statement about all challenges and all malicious product columns", "anchors": ["halo2_proofs/src/plonk/permutation/prover.rs: commit, construct", "halo2_proofs/src/plonk/permutation/verifier.rs: expressions"]}
{"id": "C15", "title": "Lookup permutation construction", "statement": "permute_expression_pair succeeds exactly when every input value in the usable rows occurs in the usable table rows; then the permuted columns are rearrangements of the input and table on usable rows, every row has permuted input equal to the permuted table entry or to the previous permuted input (the first row equal to the table entry), and none of its internal assertions can fail.", "quantifier": "all inputs and tables of every length, all blinding rows", "why_tests_cant": "multiset bookkeeping with repeated values; tests cover a few tables", "anchors": ["halo2_proofs/src/plonk/lookup/prover.rs: permute_expression_pair"]}
{"id": "C16", "title": "Lookup argument accepts membership and only membership", "statement": "If permute_expression_pair succeeds, the product column computed by the prover satisfies all five lookup constraints for every challenge with no zero denominator (all but at most u values of beta and u of gamma, u the usable rows); conversely any columns satisfying the constraints force every (theta-compressed) input on a usable row to be a (theta-compressed) table value, except for a bounded number of (beta,gamma) challenges.", "quantifier": "all inputs/tables, all malicious permuted columns and products, all challenges", "why_tests_cant": "quantifies over adversarial witnesses and challenges", "anchors": ["halo2_proofs/src/plonk/lookup/prover.rs: commit_product, construct", "halo2_proofs/src/plonk/lookup/verifier.rs: expressions"]}
{"id": "C17", "title": "Selector compression preserves the circuit", "statement": "compress_selectors assigns to each selector an expression over new fixed columns that is non-zero exactly on the rows where the selector was enabled, so each gate guarded by a simple selector is satisfied on a row after compression iff it was before; two selectors sharing a column are never enabled on the same row; the degree of each constraint stays within the maximum degree.", "quantifier": "all sets of selectors with any degrees and activation patterns, any maximum degree", "why_tests_cant": "the greedy packing explores exponentially many activation patterns; proptest uses small ones", "anchors": ["halo2_proofs/src/plonk/circuit/compress_selectors.rs: process", "halo2_proofs/src/plonk/circuit.rs: compress_selectors, degree"]}
{"id": "C18", "title": "V1 floor planner never overlaps regions", "statement": "For every list of region shapes the V1 planner gives each region a start row such that no two regions occupy the same (column,row), results are returned in region order, internal assertions never fail, and constants are placed only in rows of constants columns not used by any region.", "quantifier": "all lists of region shapes (columns, selectors, heights), any number of constants", "why_tests_cant": "first-fit with slack recursion over interval sets; sound layout needed for all shapes", "anchors": ["halo2_proofs/src/circuit/floor_planner/v1/strategy.rs: slot_in_biggest_advice_first, slot_in, first_fit_region, Allocations", "halo2_proofs/src/circuit/floor_planner/v1.rs: V1::synthesize"]}
{"id": "C19", "title": "Single-pass layouter never overlaps regions and places every constant", "statement": "For any sequence of assign_region calls, regions laid out by SimpleFloorPlanner never share a (column,row); each requested constant is assigned to its own fixed cell and constrained equal to the requesting cell; with constants requested but no constants column the call fails with NotEnoughColumnsForConstants.", "quantifier": "all sequences of regions and constants", "why_tests_cant": "history-dependent next-free-row bookkeeping", "anchors": ["halo2_proofs/src/circuit/floor_planner/single_pass.rs: SingleChipLayouter::assign_region"]}
{"id": "C20", "title": "Lookup tables are fully defined", "statement": "For a closure that returns the errors of its calls, if assign_table succeeds, all columns of the table have the same assigned length with no gaps, shorter than the usable rows, every usable row beyond it holds the column's first (default) value, and no column is used by two tables; otherwise an error is returned (reuse, uneven lengths, gaps, reassigned default, no room).", "quantifier": "all sequences of assign_cell calls and tables", "why_tests_cant": "a gap would silently add a zero row to the table; needs all call sequences", "anchors": ["halo2_proofs/src/circuit/table_layouter.rs: SimpleTableLayouter, compute_table_lengths", "halo2_proofs/src/circuit/floor_planner/single_pass.rs: assign_table"]}
{"id": "C21", "title": "Values never leak between known and unknown", "statement": "Value combinators (map, and_then, zip, arithmetic, transposition, collection) return a known result exactly when all their inputs are known, and then the plain result; assign returns Error::Synthesis exactly on unknown values.", "quantifier": "all values, functions and collections", "why_tests_cant": "witness-independence of keygen relies on this for every circuit", "anchors": ["halo2_proofs/src/circuit/value.rs: Value"]}
{"id": "C22", "title": "MSM accumulators are linear", "statement": "For any sequence of append_term, add_constant_term, add_to_g_scalars, add_to_w_scalar, add_to_u_scalar, scale and add_msm operations, eval() is true exactly when the formal linear combination described by the operations is the identity; appending identity points has no effect; no internal assertion fails for points of one curve.", "quantifier": "all operation sequences over any prime-order curve group in affine form (x,y)/(x,-y)", "why_tests_cant": "terms with equal x-coordinates are merged with signs depending on history", "anchors": ["halo2_proofs/src/poly/commitment/msm.rs: MSM"]}
{"id": "C23", "title": "Batch verification accepts exactly when the random combination vanishes and never rejects valid batches", "statement": "If verify_proof accepts every proof of a batch on its own, BatchVerifier::finalize returns true, whatever random scalars are drawn and however the fold/reduce is scheduled. If verify_proof rejects a proof before the final check, finalize returns false for all scalars and schedules. If verify_proof does not accept some proof of the batch, then for every schedule at most a fraction m/|F| of the choices of the m scalars drawn makes finalize return true.", "quantifier": "all batches, all reduction trees/schedules, all random scalars", "why_tests_cant": "schedules of the parallel reduction are nondeterministic", "anchors": ["halo2_proofs/src/plonk/verifier/batch.rs: BatchVerifier::finalize", "halo2_proofs/src/multicore.rs: TryFoldAndReduce"]}
{"id": "C24", "title": "Inner-product argument: honest openings verify", "statement": "For every polynomial, blind and point, the messages produced by the commitment prover make the verifier's final multiscalar check evaluate to the identity for all challenges (with non-zero round challenges); compute_s and compute_b agree: <s(u), (1,x,x^2,...)> = compute_b(x,u), and use_challenges/use_g are consistent.", "quantifier": "all k >= 1, polynomials, blinds, evaluation points and challenges", "why_tests_cant": "an algebraic identity over all sizes and challenges", "anchors": ["halo2_proofs/src/poly/commitment/prover.rs: create_proof", "halo2_proofs/src/poly/commitment/verifier.rs: verify_proof, compute_s, compute_b, Guard"]}
{"id": "C25", "title": "Multipoint opening: grouping and honest openings verify", "statement": "construct_intermediate_sets groups each commitment with exactly the set of points it is queried at and with its evaluations in matching order, fails exactly when some (commitment, point) is queried twice, and prover and verifier group identically; the honest prover's combined polynomial opens to the value the verifier computes.", "quantifier": "all query lists, all challenges", "why_tests_cant": "ordering conventions between prover and verifier over arbitrary query patterns", "anchors": ["halo2_proofs/src/poly/multiopen.rs: construct_intermediate_sets", "halo2_proofs/src/poly/multiopen/prover.rs: create_proof", "halo2_proofs/src/poly/multiopen/verifier.rs: verify_proof"]}
{"id": "C26", "title": "Prover and verifier transcripts agree, and absorb unambiguously", "statement": "If the verifier replays the reads corresponding to the prover's writes, it receives the same points and scalars and squeezes the same challenges; two different sequences of absorbed messages feed different byte strings to the hash; reading past the end or non-canonical data is an error.", "quantifier": "all message sequences", "why_tests_cant": "injectivity over all histories cannot be tested", "anchors": ["halo2_proofs/src/transcript.rs: Blake2bWrite, Blake2bRead, Transcript"]}
{"id": "C27", "title": "Commitment parameters serialise faithfully and both bases commit alike", "statement": "Params::read(Params::write(p)) returns p; commit_lagrange of evaluations equals commit of the corresponding coefficients with the same blind.", "quantifier": "all k and generators, all polynomials and blinds", "why_tests_cant": "relies on an FFT over group elements for every size", "anchors": ["halo2_proofs/src/poly/commitment.rs: Params::new, write, read, commit, commit_lagrange"]}
{"id": "C28", "title": "MockProver acceptance implies the constraints hold for every blinding", "statement": "If MockProver::verify returns Ok then for every choice of values in the blinded rows all gates vanish on all rows, every lookup input on usable rows is in the table, and all copy constraints hold.", "quantifier": "all circuits (gates, lookups, copies), assignments and blinding values", "why_tests_cant": "poison propagation must be sound for every expression shape", "anchors": ["halo2_proofs/src/dev.rs: MockProver::verify, Value", "halo2_proofs/src/dev/util.rs: load"]}
{"id": "C29", "title": "MockProver's lookup check is membership", "statement": "The sorted-merge lookup check reports a usable row exactly when its input tuple does not occur among the usable table rows, despite dropping fill rows.", "quantifier": "all inputs and tables", "why_tests_cant": "merge of two sorted streams with an optimisation for the fill row", "anchors": ["halo2_proofs/src/dev.rs: verify (lookup_errors)"]}
{"id": "C30", "title": "Assignments never reach the blinding rows", "statement": "Key generation (selectors, fixed cells, copies, fills, instance queries), the prover (advice cells, instance queries) and the mock prover (all of these) accept a call only for rows below n - (blinding_factors + 1); otherwise they return NotEnoughRowsAvailable and leave the state unchanged. Calls a backend does not record are accepted without effect. After any sequence of calls the recorded state is the last write to each usable cell and the remaining rows are untouched; in the committed advice columns those rows hold exactly the random values.", "quantifier": "all operation sequences and row numbers", "why_tests_cant": "needs every history", "anchors": ["halo2_proofs/src/plonk/keygen.rs: Assembly", "halo2_proofs/src/plonk/prover.rs: WitnessCollection", "halo2_proofs/src/dev.rs: MockProver"]}
{"id": "C31", "title": "Query registration is stable and duplicate-free", "statement": "Through any sequence of column allocations and queries, each (column, rotation) gets exactly one query index, re-querying returns the same index, earlier indices never change, and blinding_factors exceeds the number of distinct rotations of every advice column.", "quantifier": "all sequences of ConstraintSystem operations", "why_tests_cant": "history-dependent", "anchors": ["halo2_proofs/src/plonk/circuit.rs: query_fixed_index, query_advice_index, query_instance_index, blinding_factors, minimum_rows"]}
{"id": "C32", "title": "Constraint degrees are bounded by cs.degree()", "statement": "Every gate, permutation and lookup constraint polynomial the prover builds has degree at most (cs.degree()) times n-1, so the quotient fits in the pieces the verifier reads.", "quantifier": "all constraint systems and all column polynomials", "why_tests_cant": "depends on the composition of required degrees for all circuits", "anchors": ["halo2_proofs/src/plonk/circuit.rs: degree, Expression::degree", "halo2_proofs/src/plonk/permutation.rs: required_degree", "halo2_proofs/src/plonk/lookup.rs: required_degree"]}
{"id": "C33", "title": "Predicted proof size against the bytes written", "statement": "CircuitCost::proof_size never predicts fewer bytes than create_proof writes, and predicts exactly that number for every circuit with a lookup. For a circuit without lookups it exceeds it by exactly 32 bytes for each of the two sets of rotations {-1,0} (and {0,1}, if no column is in the permutation either) at which nothing is opened. Proving one more circuit costs what marginal_proof_size says.", "quantifier": "all circuits, field and group encodings of 32 bytes, and positive numbers of circuits, whenever proving succeeds, no challenge is zero and the rotations used are distinct modulo the number of rows", "why_tests_cant": "the estimate is computed by separate code over all circuit shapes", "anchors": ["halo2_proofs/src/dev/cost.rs: CircuitCost::measure, proof_size, marginal_proof_size", "halo2_proofs/src/plonk/prover.rs: create_proof"]}
{"id": "C34", "title": "Field-utility helpers mean what they say", "statement": "range_check(x, r) is zero iff x is one of 0..r-1; bool_check iff x is 0 or 1; ternary selects; bitrange_subset(x, a..b) is floor(x / 2^a) mod 2^(b-a) and panics iff b exceeds the bit length; lebs2ip and i2lebsp are mutually inverse; decompose_word returns base-2^w digits whose weighted sum is the low bits of the word.", "quantifier": "all field elements, ranges, bit lengths and window sizes", "why_tests_cant": "integer identities over a 255-bit domain", "anchors": ["halo2_gadgets/src/utilities.rs: range_check, bool_check, ternary, bitrange_subset, decompose_word, lebs2ip, i2lebsp"]}
{"id": "C35", "title": "Running-sum decomposition is sound and complete", "statement": "If the range-check gates hold along a running sum then z_0 equals the base-2^K sum of digits plus 2^(KW) z_W; in strict mode z_0 is an integer below 2^(KW); conversely the honest assignment satisfies all gates, and strict mode exactly when the value fits.", "quantifier": "all fields, window sizes, numbers of windows and witnesses", "why_tests_cant": "soundness quantifies over malicious witnesses", "anchors": ["halo2_gadgets/src/utilities/decompose_running_sum.rs: configure, decompose", "halo2_gadgets/src/utilities/lookup_range_check.rs: range_check"]}
{"id": "C36", "title": "Lookup range checks constrain to the stated number of bits", "statement": "short range checks accept exactly words below 2^s; the 4/5-bit tagged variant accepts exactly words below 2^4 or 2^5; running-sum lookups constrain as in the decomposition property.", "quantifier": "all words, all K and s, all witness columns", "why_tests_cant": "soundness against all field elements", "anchors": ["halo2_gadgets/src/utilities/lookup_range_check.rs: short_range_check, configure, configure_with_tag, load"]}
{"id": "C37", "title": "Conditional swap and mux", "statement": "Any assignment satisfying the gate has a boolean flag and outputs (b,a) if it is 1 and (a,b) if it is 0; mux returns left when choice = 0 and right when 1; the honest assignment satisfies the gate.", "quantifier": "all field values", "why_tests_cant": "soundness against all witnesses", "anchors": ["halo2_gadgets/src/utilities/cond_swap.rs: configure, swap, mux"]}
{"id": "C38", "title": "Witnessed points are on the curve", "statement": "The point gate is satisfied exactly by curve points and (0,0); the non-identity gate exactly by curve points.", "quantifier": "all coordinates in any field where b is not such that x=0 or y=0 lies on the curve", "why_tests_cant": "all field elements", "anchors": ["halo2_gadgets/src/ecc/chip/witness_point.rs: create_gate"]}
{"id": "C39", "title": "Complete addition gate is sound and complete", "statement": "For points P, Q of the curve (identity encoded as (0,0)), the gate's constraints hold for some auxiliary values exactly when the output encodes P + Q, and the chip's assignment satisfies them.", "quantifier": "all pairs of points including doubling, inverses and identities; all auxiliary witnesses", "why_tests_cant": "case analysis over all points and malicious auxiliary values", "anchors": ["halo2_gadgets/src/ecc/chip/add.rs: create_gate, assign_region"]}
{"id": "C40", "title": "Incomplete addition gate is sound and complete outside its exceptional cases", "statement": "For distinct x-coordinates the gate holds exactly when the output is P + Q; assign_region errors exactly on the exceptional cases when values are known.", "quantifier": "all points", "why_tests_cant": "all field elements", "anchors": ["halo2_gadgets/src/ecc/chip/add_incomplete.rs: create_gate, assign_region"]}
{"id": "C41", "title": "Variable-base multiplication returns the multiple of the given base", "statement": "Any assignment satisfying the constraints (gates and copies) of the variable-base multiplication region yields the result [alpha]P for the base point P passed in, where alpha is the scalar cell.", "quantifier": "all bases, scalars and malicious witnesses", "why_tests_cant": "soundness against all witnesses", "anchors": ["halo2_gadgets/src/ecc/chip/mul.rs: assign, create_gate", "halo2_gadgets/src/ecc/chip/mul/incomplete.rs", "halo2_gadgets/src/ecc/chip/mul/complete.rs", "halo2_gadgets/src/ecc/chip/mul/overflow.rs"]}
{"id": "C42", "title": "Poseidon permutation chip computes the reference permutation", "statement": "Any assignment satisfying the full-round and partial-round gates maps the input state to the reference permutation of it (with mds_inv the inverse of mds), and the chip's assignment satisfies the gates.", "quantifier": "all widths, round numbers, constants, states and witnesses", "why_tests_cant": "soundness against all witnesses and the two-rounds-per-row encoding", "anchors": ["halo2_gadgets/src/poseidon/pow5.rs: configure, full_round, partial_round, permute", "halo2_poseidon/src/lib.rs: permute"]}
{"id": "C43", "title": "Poseidon sponge and constant-length hash follow the sponge specification", "statement": "Absorbing any message and squeezing any number of elements returns what the block-wise sponge specification says; constant-length hashing pads with zeros to a multiple of the rate, starts from capacity L*2^64, and the circuit sponge makes the same sequence of permutation calls.", "quantifier": "all message lengths and numbers of squeezed elements", "why_tests_cant": "the lazy buffer has boundary cases at each multiple of the rate", "anchors": ["halo2_poseidon/src/lib.rs: Sponge, Hash, ConstantLength, poseidon_sponge", "halo2_gadgets/src/poseidon.rs: Sponge, Hash"]}
{"id": "C44", "title": "Generated MDS matrix and its inverse", "statement": "When generate_mds returns, mds[i][j](x_i+y_j)=1 and mds * mds_inv = identity, for any width.", "quantifier": "all widths and all distinct x's and y's with non-zero sums", "why_tests_cant": "the test checks one 3x3 matrix", "anchors": ["halo2_poseidon/src/mds.rs: generate_mds"]}
{"id": "C45", "title": "Grain generator matches the bitwise LFSR", "statement": "The byte-at-a-time implementation outputs the same self-shrunk bit stream as the bit-at-a-time LFSR b[i+80] = b[i+62]^b[i+51]^b[i+38]^b[i+23]^b[i+13]^b[i] after discarding 160 bits, and next_field_element returns a canonical element.", "quantifier": "all parameters and stream positions", "why_tests_cant": "state rotation bookkeeping holds for every position", "anchors": ["halo2_poseidon/src/grain.rs: Grain"]}
{"id": "C46", "title": "Verifier checks exactly the prover's constraint", "statement": "For an honest prover whose assignment satisfies all gates, permutation and lookup constraints, the verifier's expected h evaluation equals the evaluation of the recombined quotient at x for every x outside the domain and every challenge y.", "quantifier": "all circuits, assignments and challenges", "why_tests_cant": "composition over all sizes", "anchors": ["halo2_proofs/src/plonk/verifier.rs: verify_proof", "halo2_proofs/src/plonk/vanishing/verifier.rs: verify", "halo2_proofs/src/plonk/vanishing/prover.rs"]}
{"id": "C47", "title": "Expressions evaluate and rewrite consistently", "statement": "Expression::degree bounds the polynomial degree; operators build what they denote and panic exactly on misuse of simple selectors; gates built with with_selector vanish wherever the selector is zero.", "quantifier": "all expressions", "why_tests_cant": "structural induction over all expressions", "anchors": ["halo2_proofs/src/plonk/circuit.rs: Expression, Constraints"]}
{"id": "C48", "title": "Instance and row checks of the proving API", "statement": "create_proof and verify_proof reject (InvalidInstances / InstanceTooLarge) exactly when the number of instance columns is wrong or a column has more values than usable rows, with the same rule on both sides.", "quantifier": "all instance lists", "why_tests_cant": "all lengths", "anchors": ["halo2_proofs/src/plonk/prover.rs: create_proof", "halo2_proofs/src/plonk/verifier.rs: verify_proof"]}
{"id": "C49", "title": "Honest proofs verify", "statement": "For keys generated from one circuit and columns that satisfy it, whenever create_proof returns a proof and no challenge takes an exceptional value (a vanishing denominator of the permutation or lookup argument, x in the domain, x_3 a rotation of x), verify_proof accepts the bytes of the proof, whatever bytes follow, and consumes exactly the proof.", "quantifier": "all circuits, witnesses, instances, numbers of proofs, random draws, thread counts and hash functions", "why_tests_cant": "tests run a few circuits with a few random draws; completeness is over all circuits and randomness", "anchors": ["halo2_proofs/src/plonk/prover.rs: create_proof", "halo2_proofs/src/plonk/verifier.rs: verify_proof", "halo2_proofs/src/plonk/keygen.rs: keygen_vk, keygen_pk"]}
{"id": "C50", "title": "Violated constraints are caught", "statement": "If the columns committed for one of the circuits violate a gate on some row, a requested copy, or a lookup, then whatever the prover commits to afterwards (each message chosen knowing all earlier challenges), the verifier's check of the quotient evaluation fails for all but a bounded number of values of each challenge: theta at most (width-1)*u, beta (m+2)*u, gamma (2m+2)*u, y circuits*expressions-1, x below n*(pieces+1), where u is the number of usable rows and m the number of equality-enabled columns. Over a finite field at most the sum of these bounds times |F|^4 of the |F|^5 challenge tuples are accepted.", "quantifier": "all circuits, all violating assignments, all adaptive provers", "why_tests_cant": "tests try a few wrong witnesses through the honest prover; soundness is about every prover and every challenge", "anchors": ["halo2_proofs/src/plonk/verifier.rs: verify_proof", "halo2_proofs/src/plonk/vanishing/verifier.rs: verify", "halo2_proofs/src/plonk/permutation/verifier.rs: expressions", "halo2_proofs/src/plonk/lookup/verifier.rs: expressions"]}
{"id": "C51", "title": "A wrong opening is accepted only through a bad challenge or a discrete logarithm relation", "statement": "If the combination of generators that a prover gives for a commitment is a polynomial that does not take the claimed value at the point, then commitment::verify_proof followed by use_challenges and eval accepts only if one of the challenges falls in a set fixed before it was drawn (one value of xi, one of z, two of each round challenge, depending on the bytes hashed so far only), or the accumulated check is itself a non-trivial relation between the generators.", "quantifier": "all parameters, commitments, points, values, proofs, hash functions and provers who give a representation of every point they send", "why_tests_cant": "a test tries a few wrong proofs; soundness is about every proof", "anchors": ["halo2_proofs/src/poly/commitment/verifier.rs: verify_proof, Guard::use_challenges, compute_b, compute_s", "halo2_proofs/src/poly/commitment/msm.rs"]}
{"id": "C52", "title": "A wrong evaluation in a multipoint opening needs a bad challenge or a discrete logarithm relation", "statement": "Take any list of queries (commitment, point, claimed value), each commitment being a point or a sum with a representation over the generators. If one claimed value is not the value of the represented polynomial at its point, then multiopen::verify_proof followed by use_challenges and eval accepts only if one of the challenges falls in a set fixed before it was drawn (fewer than q values of x_1 and x_2, fewer than n+q of x_3, at most q of x_4, one of xi and z, two of each round challenge, for q queries), or the accumulated check is a non-trivial relation between the generators.", "quantifier": "all parameters, query lists, proofs, hash functions and provers who give a representation of every point they send", "why_tests_cant": "a test tries a few wrong proofs; soundness is about every proof", "anchors": ["halo2_proofs/src/poly/multiopen/verifier.rs: verify_proof", "halo2_proofs/src/poly/multiopen.rs: construct_intermediate_sets", "halo2_proofs/src/poly/commitment/verifier.rs: verify_proof"]}
{"id": "C53", "title": "An accepted proof needs a satisfying witness, a bad challenge or a discrete logarithm relation", "statement": "Take any circuit, any public instance and any proof accepted by verify_proof with the single strategy. Then one of the challenges fell in a set of bounded size fixed before it was drawn (depending only on the bytes hashed so far), or the prover's representations of the points give a non-trivial relation between the generators, or the advice columns the prover committed to, with the given instance columns, satisfy every gate on every row, every copy and every lookup.", "quantifier": "all circuits, instances, proofs, hash functions and provers who give a representation over the generators of every point they send", "why_tests_cant": "a test tries a few forged proofs; soundness is about every proof and every prover", "anchors": ["halo2_proofs/src/plonk/verifier.rs: verify_proof", "halo2_proofs/src/plonk/verifier/*: SingleVerifier", "halo2_proofs/src/poly/multiopen/verifier.rs: verify_proof", "halo2_proofs/src/poly/commitment/verifier.rs: verify_proof"]}
{"id": "C54", "title": "What the mock prover accepts can be proved and verified", "statement": "Configure a circuit through the API, generate keys from a synthesis without witness, and let MockProver::run followed by verify accept the same circuit for each of several instances. Then a proof that create_proof finishes from the same syntheses and instances is accepted by verify_proof, which reads exactly the proof, provided no challenge is exceptional (no denominator of the permutation and lookup arguments vanishes, x is not in the domain, x_3 is no rotation of x). Selector compression, batch inversion of fixed and advice cells, blinding rows and padding of instances do not change the meaning of the circuit.", "quantifier": "all constraint systems, syntheses, instances, randomness and numbers of circuits per proof", "why_tests_cant": "tests compare the two provers on a few circuits; the mock prover is what circuit authors rely on instead of real proofs", "anchors": ["halo2_proofs/src/dev.rs: MockProver::run, MockProver::verify", "halo2_proofs/src/plonk/keygen.rs: keygen_vk, keygen_pk", "halo2_proofs/src/plonk/prover.rs: create_proof", "halo2_proofs/src/plonk/verifier.rs: verify_proof"]}
{"id": "C55", "title": "An accepted proof satisfies the circuit as the user configured it", "statement": "With keys generated from a synthesis, an accepted proof implies that a challenge fell in a set of bounded size fixed before it was drawn, or that the prover's representations give a relation between the generators, or that for every instance the committed advice columns satisfy the gates and lookups as written by the user (with selectors, before compression) and the copies, the fixed cells being the last values assigned and the selectors those enabled during key generation.", "quantifier": "all constraint systems built through the API, syntheses, instances, proofs, hash functions and algebraic provers", "why_tests_cant": "soundness is about every proof; the constraint system checked is not the one written, selectors having been merged into fixed columns", "anchors": ["halo2_proofs/src/plonk/keygen.rs: keygen_vk, keygen_pk", "halo2_proofs/src/plonk/circuit.rs: compress_selectors", "halo2_proofs/src/plonk/verifier.rs: verify_proof"]}
{"id": "C56", "title": "When key generation fails", "statement": "keygen_vk followed by keygen_pk for a circuit configured through the API succeeds if and only if the scalar field has roots of unity for the extended domain of the circuit's degree, there are at least minimum_rows rows, and synthesis enables no selector that does not exist; there is no other error or panic.", "quantifier": "all constraint systems built through the API, all parameters and all sequences of calls made by synthesis", "why_tests_cant": "absence of panics in selector compression, permutation building and domain conversions is about all circuits", "anchors": ["halo2_proofs/src/plonk/keygen.rs: keygen_vk, keygen_pk", "halo2_proofs/src/poly/domain.rs: EvaluationDomain::new"]}
{"id": "C57", "title": "The mock prover reports cells a gate queries but its region leaves unassigned", "statement": "If MockProver::verify accepts, then for every region, every selector enabled inside it on a usable row, every gate that queries that selector and every cell the gate queries: an advice or fixed cell was assigned by a call made inside that same region (at the row shifted by the rotation, modulo the number of rows), and an instance cell lies within the instance values supplied.", "quantifier": "all constraint systems, all sequences of synthesis calls, all regions, gates and queries", "why_tests_cant": "it relates the bookkeeping over any sequence of calls to the failures reported; a test shows one forgotten cell", "anchors": ["halo2_proofs/src/dev.rs: MockProver::verify (selector_errors), enter_region, exit_region, enable_selector, assign_advice, assign_fixed"]}
{"id": "C58", "title": "Sinsemilla: the constraints of hash_to_point force the hash of the message pieces, up to one exceptional case", "statement": "If an assignment meets all gates, copies, constants and lookups of a circuit containing `SinsemillaChip::hash_to_point` (or the variant with a private starting point), then every message piece holds a number of exactly the declared number of K-bit words, every returned running sum consists of the numbers made of the remaining words, and the returned point is the Sinsemilla hash (incomplete additions, in order of the pieces and words) of these words from Q, unless at some word the accumulator is equal to the generator about to be added. Conversely, whenever the hash of the witnessed pieces is defined, synthesis succeeds and the honest assignment meets all constraints and returns the hash. In the one excluded case synthesis raises no error and the result is not determined by the constraints.", "quantifier": "for all messages (any number and length of pieces), starting points, generator tables with K >= 5, configurations (public or private start, base or tagged lookup table) and all assignments, honest or not", "why_tests_cant": "A test runs the honest assignment on some messages; soundness quantifies over all dishonest assignments, and the exceptional cases of incomplete addition are not hit by any feasible test on Pallas.", "anchors": ["halo2_gadgets/src/sinsemilla/chip/hash_to_point.rs:23-487", "halo2_gadgets/src/sinsemilla/chip.rs:85-293", "halo2_gadgets/src/sinsemilla/chip/generator_table.rs:28-80"]}
{"id": "C59", "title": "What the gadgets assume about the Pasta fields and curves is true", "statement": "The moduli of Pallas and Vesta are prime; both fields have roots of unity of order 2^32 and cube roots of unity; neither curve y^2 = x^3 + 5 has a point with a zero coordinate, so (0, 0) is free to stand for the identity as the ECC chip does; Pallas has exactly q = 2^254 + T_Q points, where T_Q is the constant of the ECC chip and q is the prime modulus of Vesta, and Vesta has exactly p points. Hence variable-base multiplication on Pallas is complete for every scalar and every base other than the identity, with no further hypothesis.", "quantifier": "for all points of both curves, all scalars", "why_tests_cant": "The facts are about all 2^254 points and all elements of the fields; tests can only try some.", "anchors": ["halo2_gadgets/src/ecc/chip/constants.rs:29-31", "halo2_gadgets/src/ecc/chip.rs:31-45", "halo2_gadgets/src/ecc/chip/witness_point.rs", "halo2_proofs/src/poly/domain.rs:40-140", "book/src/design/gadgets/ecc/var-base-scalar-mul.md"]}
{"id": "C60", "title": "A Merkle path proven with the Merkle chip leads from the leaf to the root", "statement": "`MerklePath::calculate_root` and `hash_layer`: whatever a prover assigns, if the constraints and lookups of the Merkle chips hold in the regions laid out, the output cell of each layer holds MerkleCRH(l, left, right) for 255-bit encodings of the contents of the two node cells (a collision of the Sinsemilla generators excepted), each layer's inputs are the previous node and some sibling in one of the two orders, and so there are siblings and position bits, as many as in the path, leading from the leaf cell to the root cell. Conversely, for nodes whose hashes are defined, the layout never fails, returns the root of the given path at the given position, assigns no cell twice, and its witnesses meet all constraints and lookups of all chips the layers are spread over. Two openings of a root at the same position have the same leaf and siblings unless the messages hashed in the same layer of the two openings are different and collide.", "quantifier": "for all leaves, paths of any length up to 64, positions, numbers of chips, generators, starting points, region numbers, surrounding circuits and assignments", "why_tests_cant": "tests run MockProver on a few random paths with honest witnesses; soundness ranges over all assignments of a 254-bit field", "anchors": ["halo2_gadgets/src/sinsemilla/merkle.rs", "halo2_gadgets/src/sinsemilla/merkle/chip.rs", "halo2_gadgets/src/sinsemilla.rs"]}
{"id": "C61", "title": "Fixed-base multiplication by a full-width scalar returns the multiple of the scalar the windows spell", "statement": "`FixedPoint::mul` with a `ScalarFixed` (`EccChip::mul_fixed`): for a base whose tables are as documented, whatever a prover assigns, if the constraints of the regions laid out hold then the 85 window cells hold 3-bit words and the result cells hold the multiple of the base by the number the words spell. Conversely, for every scalar the layout succeeds, assigns no cell two values, its witnesses meet the constraints, the words are those of the scalar and the result is [scalar] base, including the scalar 0.", "quantifier": "for all bases with valid tables whose order exceeds 2*8^84, scalars, column arrangements allowed by the configuration, region numbers and assignments", "why_tests_cant": "tests multiply a few scalars honestly with MockProver; soundness ranges over all assignments and completeness over all 2^255 scalars", "anchors": ["halo2_gadgets/src/ecc/chip/mul_fixed.rs", "halo2_gadgets/src/ecc/chip/mul_fixed/full_width.rs"]}
{"id": "C62", "title": "Fixed-base multiplication by a short signed scalar", "statement": "`FixedPointShort::mul` (`mul_fixed_short`): whatever a prover assigns, if the constraints hold then the magnitude cell holds a number m below 2^64, the sign cell holds 1 or -1, and the result cells hold [m] base or -[m] base accordingly. Conversely, for every magnitude of 64 bits and sign of 1 or -1 the layout succeeds without conflicts and meets the constraints.", "quantifier": "for all bases with valid tables, magnitude and sign cells, column arrangements allowed by the configuration, region numbers and assignments", "why_tests_cant": "tests try a handful of magnitudes and signs, and a few invalid ones", "anchors": ["halo2_gadgets/src/ecc/chip/mul_fixed.rs", "halo2_gadgets/src/ecc/chip/mul_fixed/short.rs"]}
{"id": "C63", "title": "Fixed-base multiplication by a base field element uses its canonical representative", "statement": "`FixedPointBaseField::mul` (`mul_fixed_base_field_elem`): whatever a prover assigns, if the constraints and range-check lookups hold then the result cells hold [n] base for n the representative of the scalar cell in [0, p): no other decomposition of the element modulo p passes. Conversely, for every element of the field the layout succeeds without conflicts and meets the constraints and lookups.", "quantifier": "for all elements of the field, bases with valid tables, configurations, region numbers, surrounding circuits and assignments", "why_tests_cant": "tests try a few edge cases of the canonicity check; the claim is over all 2^254 elements and all assignments", "anchors": ["halo2_gadgets/src/ecc/chip/mul_fixed.rs", "halo2_gadgets/src/ecc/chip/mul_fixed/base_field_elem.rs"]}
{"id": "C64", "title": "Conditional negation of a point", "statement": "`mul_sign` (`assign_scalar_sign`): whatever a prover assigns, if the constraints hold and the input cells hold P then the sign cell holds 1 or -1 and the result cells hold P or -P accordingly; every sign of 1 or -1 and every point, the identity included, is accepted.", "quantifier": "for all points, signs, region numbers and assignments", "why_tests_cant": "tests use a few points", "anchors": ["halo2_gadgets/src/ecc/chip/mul_fixed/short.rs"]}
{"id": "C65", "title": "The tables computed for a fixed base are the ones the circuit needs", "statement": "`find_zs_and_us` and `compute_lagrange_coeffs`: if the former finds values for a base of the given order, then for every window w and 3-bit word k the coefficients of the window interpolate the x-coordinate of [(k+2) 8^w] B (with the offset taken back in the last window), z + y is the square of the u returned, and z - y is not a square, so that the constraints of fixed-base multiplication determine the point; `compute_lagrange_coeffs` does not panic as long as no entry of the window table is the identity.", "quantifier": "for all bases, orders and numbers of windows", "why_tests_cant": "tests check the tables of one base", "anchors": ["halo2_gadgets/src/ecc/chip/constants.rs"]}
{"id": "C66", "title": "A Sinsemilla commitment is the hash of the message plus the blinding multiple", "statement": "`CommitDomain::commit` and `short_commit`: whatever a prover assigns, if the constraints and lookups hold in the regions laid out, every message piece is below 2^(K * words), the cells of the scalar's windows hold 85 digits below 8, and the output is SinsemillaHashToPoint(words in the piece cells) + [scalar in the window cells] R (its x-coordinate for the short form), the case of the accumulator meeting a generator excepted. Conversely, for every scalar and every message whose hash is defined, the layout succeeds, assigns no cell twice, returns that commitment and its witnesses satisfy all constraints and lookups.", "quantifier": "for all messages, scalars, generators, domains, column arrangements, surrounding circuits and assignments", "why_tests_cant": "tests compare one or two honest commitments with the primitive; soundness ranges over all assignments", "anchors": ["halo2_gadgets/src/sinsemilla.rs", "halo2_gadgets/src/ecc/chip.rs"]}
{"id": "C67", "title": "Two openings of a Sinsemilla commitment or Merkle root reveal a relation between the generators", "statement": "If two assignments satisfy the constraints of `commit` (or `short_commit`) with messages of the same shape and hold the same commitment in the output cells, then the message cells are equal and the scalars in the window cells agree modulo the group order; or an explicitly given linear combination of Q, R and the 2^K generators, computed from the contents of these cells and not trivial modulo the group order, is the identity. The same for two openings of a Merkle root at one position. The exceptional case of C58 is such a relation, too.", "quantifier": "for all messages of fewer words than the bits of the group order, scalars, circuits and assignments", "why_tests_cant": "binding is a statement about all pairs of openings, none of which a test could find", "anchors": ["halo2_gadgets/src/sinsemilla.rs", "halo2_gadgets/src/sinsemilla/merkle.rs"]}
{"id": "C68", "title": "A message made from bits spells these bits", "statement": "`Message::from_bitstring` succeeds exactly if K is positive and below the number of bits of the field, the length of the string is a multiple of K and there are fewer than MAX_WORDS words; the pieces it returns are in fresh regions, each fits the field, and their K-bit words, concatenated, are the words of the string, which determine it.", "quantifier": "for all bit strings, word sizes, limits and fields", "why_tests_cant": "tests use random strings of a few lengths; the chunking has boundary cases at multiples of the capacity and at MAX_WORDS", "anchors": ["halo2_gadgets/src/sinsemilla.rs", "halo2_gadgets/src/sinsemilla/message.rs"]}
{"id": "C69", "title": "The SHA-256 lookup table and small gates mean exactly what they should", "statement": "The rows loaded into the spread table are exactly (tag, x, spread of x) for the 16-bit numbers x, the range check on a tag holds exactly if x has the number of bits it stands for, and the two- and three-bit gates hold exactly if the dense cell is a number of two (three) bits and the other cell its spread form.", "quantifier": "for every field of more than 72 bits and all cell values", "why_tests_cant": "the values are field elements: tests assign honest ones, and the 65536 rows are generated incrementally; that no other field element passes is a statement about all of them", "anchors": ["halo2_gadgets/src/sha256/table16/spread_table.rs", "halo2_gadgets/src/sha256/table16/gates.rs", "halo2_gadgets/src/sha256/table16/util.rs"]}
{"id": "C70", "title": "The function blocks of the SHA-256 chip are sound", "statement": "In every satisfying assignment, a decomposition of A..H leaves a 32-bit word in the halves together with its spread form, the blocks for the two upper sigmas, the two parts of Ch, and Maj return these functions of the words in their inputs, and the message schedule blocks for W_1..W_13 and W_49..W_61 return the lower sigmas of the word in their cell; for W_14..W_48 this holds if the two one-bit pieces are bits, which the constraints do not enforce: they accept the word 2^18 with both lower sigmas equal to 0.", "quantifier": "for every field of more than 72 bits, all rounds, all rows and all satisfying assignments", "why_tests_cant": "tests only run the honest prover; soundness quantifies over all assignments", "anchors": ["halo2_gadgets/src/sha256/table16/compression/compression_gates.rs", "halo2_gadgets/src/sha256/table16/compression/compression_util.rs", "halo2_gadgets/src/sha256/table16/message_schedule/schedule_gates.rs", "halo2_gadgets/src/sha256/table16/message_schedule/subregion1.rs", "halo2_gadgets/src/sha256/table16/message_schedule/subregion2.rs", "halo2_gadgets/src/sha256/table16/message_schedule/subregion3.rs"]}
{"id": "C71", "title": "The SHA-256 message schedule is complete", "statement": "For every block of sixteen 32-bit words the schedule is assigned without failing, the sixty-four words it returns, and the values of the pairs of halves it returns, are the message schedule of FIPS 180-4, and the assignment made satisfies all gates, equality constraints and lookups.", "quantifier": "for every field of more than 72 bits, every block and every region", "why_tests_cant": "tests run one block; every word of every block must fit the spread table and the carries the gates", "anchors": ["halo2_gadgets/src/sha256/table16/message_schedule.rs", "halo2_gadgets/src/sha256/table16/message_schedule/schedule_util.rs", "halo2_gadgets/src/sha256/table16/message_schedule/subregion1.rs", "halo2_gadgets/src/sha256/table16/message_schedule/subregion2.rs", "halo2_gadgets/src/sha256/table16/message_schedule/subregion3.rs"]}
{"id": "C72", "title": "The SHA-256 message schedule does not constrain its words", "statement": "For every block and any sixty-four 32-bit words whatsoever, there is an assignment satisfying every gate, equality constraint and lookup of the schedule, in which the cells returned for the words, and for their halves, contain these words instead of the schedule of the block. (The recurrence is checked on a cell that is not copied to the word used afterwards.)", "quantifier": "for every field of more than 72 bits, every block, every sequence of sixty-four words and every region", "why_tests_cant": "tests only run the honest prover; this is a statement about dishonest assignments", "anchors": ["halo2_gadgets/src/sha256/table16/message_schedule.rs", "halo2_gadgets/src/sha256/table16/message_schedule/subregion2.rs", "halo2_gadgets/src/sha256/table16/message_schedule/subregion3.rs"]}
{"id": "C73", "title": "SHA-256 of full blocks: what the chip computes", "statement": "For every message made of one or more full 16-word blocks, hashing it succeeds, the witness it computes satisfies every gate, equality constraint and lookup, and the eight words returned (and the cells holding them) are the working variables of FIPS 180-4 after the 64 rounds of every block in turn, with the schedule of FIPS 180-4 and its round constants and initial hash value (the constants in the code are the first 32 bits of the fractional parts of the cube and square roots of the first primes). The additions that end a block in FIPS 180-4 are not done: for one block, no word of the result ever equals the word of the FIPS 180-4 hash value after this block.", "quantifier": "for every field of more than 72 bits, every number of blocks, every message and every first region", "why_tests_cant": "all messages and all lengths; the tests compare one digest with the value obtained without the final additions", "anchors": ["halo2_gadgets/src/sha256.rs", "halo2_gadgets/src/sha256/table16.rs", "halo2_gadgets/src/sha256/table16/compression.rs"]}
{"id": "C74", "title": "SHA-256: the digest is not constrained, and incremental hashing and padding fail", "statement": "(a) For every message of one or more full blocks and any eight 32-bit words, some assignment satisfies every gate, equality constraint and lookup of the hash, has the computed witness in all regions except the rounds of the last block and the digest, and has these eight words in the cells of the digest. (b) Giving a message in two updates, each completing a block, fails. (c) Hashing a message whose length is not a multiple of 16 words fails when the witness is computed, since the words that complete the block are unknown; no padding of FIPS 180-4 is added. (d) The hash of no words is the initial hash value.", "quantifier": "for every field of more than 72 bits, every message, every eight words, every split and every length", "why_tests_cant": "(a) is about dishonest assignments, which tests do not enumerate; (b)-(d) are about all lengths and splits", "anchors": ["halo2_gadgets/src/sha256.rs", "halo2_gadgets/src/sha256/table16/compression.rs", "halo2_gadgets/src/sha256/table16/compression/compression_util.rs", "halo2_gadgets/src/sha256/table16/compression/subregion_digest.rs", "halo2_gadgets/src/sha256/table16/compression/subregion_initial.rs"]}
{"id": "C75", "title": "The random rows of a column make its opened values independent of the witness", "statement": "If the last m rows of a column are drawn at random then, at any at most m points outside the evaluation domain, every list of values of the column's polynomial is reached by the same number of choices of the random rows, and by at least one, whatever the other rows contain.", "quantifier": "for every finite field, domain size, number of random rows, set of points outside the domain, contents of the other rows and list of values", "why_tests_cant": "equality of counts over all choices of randomness and over all witnesses", "anchors": ["halo2_proofs/src/plonk/prover.rs", "halo2_proofs/src/plonk/circuit.rs", "halo2_proofs/src/poly/domain.rs"]}
{"id": "C76", "title": "An opening proof reveals only commitments and evaluations", "statement": "Take any successful run of the opening of one polynomial, or of the multipoint opening of several. Unless its challenges are exceptional (the challenge combining with the random polynomial is 0, the round challenges are one list determined by the point, or the multipoint challenge x3 is a queried point), every other choice of polynomials and blinding factors with the same commitments, the same values at the queried points and, for the multipoint opening, the same combined values at x3 has random choices with which the prover writes the same bytes and ends in the same transcript state.", "quantifier": "for every field, group generated by the blinding generator, hash function, number of rounds, list of queries, polynomials and randomness", "why_tests_cant": "quantifies over all other polynomials and asserts the existence of randomness; a test can only see that two proofs differ", "anchors": ["halo2_proofs/src/poly/commitment/prover.rs", "halo2_proofs/src/poly/multiopen/prover.rs"]}
{"id": "C77", "title": "A proof does not reveal which witness made it", "statement": "Take two assignments satisfying the same circuits with the same instance columns, and any successful run of the prover on the first. Unless the challenges of that run are exceptional (the evaluation point x or the multipoint challenge x3 is in the domain, x3^n = x^n, the challenge of the opening's random polynomial is 0, the round challenges are one list determined by x3, or a factor of a grand product vanishes), there are random choices with which the prover, run on the second assignment, writes the same proof, byte for byte, and ends in the same transcript state.", "quantifier": "for every field, group generated by the blinding generator, hash function, constraint system with the blinding rows the configuration reserves, number of proofs, pair of satisfying assignments, randomness and transcript state", "why_tests_cant": "quantifies over all pairs of witnesses and asserts the existence of randomness reproducing a given proof; a test can only see that two proofs differ or verify", "anchors": ["halo2_proofs/src/plonk/prover.rs", "halo2_proofs/src/plonk/lookup/prover.rs", "halo2_proofs/src/plonk/permutation/prover.rs", "halo2_proofs/src/plonk/vanishing/prover.rs", "halo2_proofs/src/plonk/circuit.rs"]}
{"id": "C78", "title": "The Poseidon instance P128Pow5T3 is the generated one, a permutation, and usable in the chip", "statement": "Over both Pasta base fields, the round constants, matrix and inverse matrix written in the source for P128Pow5T3 are exactly what generate_constants computes (Grain generator from the published parameters, first matrix); the permutation is a bijection on triples of field elements; and the instance meets everything the Poseidon chip asks of a specification, so that for every valid column configuration and every message the chip's output cell is forced to be the hash.", "quantifier": "for every state of three elements, every message, every column configuration of the chip and every satisfying assignment; the constants are a closed statement about all 192 constants and both matrices", "why_tests_cant": "bijectivity and the constraints' strength quantify over the whole field; the comparison of the constants is closed, and is done here against the proved generator instead of against the code's own", "anchors": ["halo2_poseidon/src/p128pow5t3.rs", "halo2_poseidon/src/fp.rs", "halo2_poseidon/src/fq.rs", "halo2_poseidon/src/lib.rs"]}
{"id": "C79", "title": "Circuits built from the elliptic curve API compute what their calls say", "statement": "For any sequence of calls of the elliptic curve API (Point, NonIdentityPoint, X, ScalarVar, ScalarFixed, ScalarFixedShort, FixedPoint and its variants) on one EccChip configured by EccChip::configure from ten distinct advice columns, eight distinct Lagrange columns and one more fixed column: every assignment that satisfies the gates, copies and range lookups of the laid out circuit holds, behind every handle that the calls returned, the point or scalar which the same sequence of group operations yields on some choice of the witnessed inputs, unless it holds equal points as the operands of an incomplete addition; and if the group operations are defined on the honest inputs (no witnessed identity where it is excluded, no equal or opposite operands of incomplete additions, equal operands of constrain_equal, signs 1 or -1, magnitudes below 2^64) the circuit can be laid out and the honest assignment satisfies it and holds their results.", "quantifier": "for every list of calls of any length, all constants and witnesses, every choice of columns and selectors, every assignment of the circuit", "why_tests_cant": "quantifies over all circuits that can be built with the API and over all (adversarial) assignments; interference between the chips that share the ten advice columns and between regions cannot be excluded by running examples", "anchors": ["halo2_gadgets/src/ecc.rs", "halo2_gadgets/src/ecc/chip.rs"]}
{"id": "C80", "title": "What the regions of a circuit ask for is what the laid-out circuit enforces", "statement": "Take the calls a circuit makes on its regions (enable a selector, assign advice or fixed cells, copy, constrain to a constant or to the instance), lay them out with either floor planner, and pass the resulting calls to the backend, with a constraint system whose gates and lookups are those of the gadgets, tables loaded with theirs, and all rows within the usable ones. If columns of the proof system meet every gate on every row, every lookup and every copy constraint of the backend, then the cells of the regions, read through the start rows, satisfy in each region every gate enabled there, every lookup, every equality, constant and fixed value, and the cells constrained to the instance have its values. Conversely, if the cells of the regions satisfy all of this, the columns holding the witness meet the whole circuit: regions do not disturb each other.", "quantifier": "for every number and shape of regions, every order of calls, every column assignment, both floor planners", "why_tests_cant": "a misplacement shows only for particular shapes of regions and only if the missing or spurious constraint is exercised by an adversarial assignment; tests run honest witnesses of a few circuits", "anchors": ["halo2_proofs/src/circuit.rs", "halo2_proofs/src/circuit/layouter.rs", "halo2_proofs/src/circuit/floor_planner/single_pass.rs", "halo2_proofs/src/circuit/floor_planner/v1.rs", "halo2_proofs/src/circuit/floor_planner/v1/strategy.rs", "halo2_proofs/src/plonk/keygen.rs", "halo2_proofs/src/plonk/circuit.rs"]}
{"id": "C81", "title": "An accepted proof of a circuit made of gadgets proves what the gadgets mean", "statement": "For keys generated from a circuit laid out by either floor planner: whenever verify_proof accepts a proof for some instances, then except for challenges in sets of bounded size fixed before each challenge, and unless a named relation between the generators has been found, the columns committed to satisfy in every region of the circuit everything the gadgets ask for, with the instance values in the cells constrained to the instance; for a circuit built from the elliptic curve API this says that every handle denotes the point or scalar its calls compute from some witnesses. In the other direction, if the prover executes the circuit with a witness for which the gadgets are complete, an honest proof is accepted.", "quantifier": "for every circuit, list of instances, proof string, hash, algebraic prover; for every honest execution and prover randomness with no exceptional challenge", "why_tests_cant": "soundness quantifies over all malicious proofs; the statement spans gadgets, layouter, key generation, prover and verifier, which tests only exercise on honest runs of fixed circuits", "anchors": ["halo2_proofs/src/plonk/verifier.rs", "halo2_proofs/src/plonk/prover.rs", "halo2_proofs/src/plonk/keygen.rs", "halo2_proofs/src/circuit/floor_planner/v1.rs", "halo2_proofs/src/circuit/floor_planner/single_pass.rs", "halo2_gadgets/src/ecc.rs"]}
{"id": "C82", "title": "The layout of a circuit does not depend on its witness", "statement": "Two executions of Circuit::synthesize that make the same calls of assign_region with the same calls in each region, except that the values passed to assign_advice differ, are laid out in the same way by SimpleFloorPlanner and by V1: both fail with the same error, or both give every region the same start row and make the same calls on the Assignment in the same order (selectors, fixed cells with the same values, copies, constants in the same cells, advice cells at the same places), the values of advice cells aside. In particular key generation, which has no witnesses, and the prover describe the same circuit.", "quantifier": "for all lists of regions, all calls in them, all constants columns and all pairs of witnesses", "why_tests_cant": "Keys are generated once and used for every witness; a test tries a few witnesses of a few circuits.", "anchors": ["halo2_proofs/src/circuit/floor_planner/single_pass.rs:81-148", "halo2_proofs/src/circuit/floor_planner/v1.rs:59-140", "halo2_proofs/src/circuit/floor_planner/v1/strategy.rs", "halo2_proofs/src/circuit/layouter.rs:116-140"]}
{"id": "C83", "title": "The Poseidon preimage circuit proves knowledge of a preimage, from synthesize to verify_proof", "statement": "For the circuit of halo2_gadgets/benches/poseidon.rs (message of RATE words witnessed in the first columns of the state, hashed with Hash::<ConstantLength>, the digest constrained to the first cell of the instance): synthesis and key generation succeed whatever the message is; if messages have given hashes, a proof made by create_proof for those hashes as instances is accepted by verify_proof unless a challenge is exceptional; and if verify_proof accepts a proof for some hashes, then unless a challenge is bad or a relation between generators is known, every one of the hashes is the Poseidon hash of the message words the proof commits to, which are in the first row of the message columns.", "quantifier": "for all widths and specifications with an invertible MDS matrix, even numbers of rounds and x^5 as S-box, all messages, all numbers of rows above a bound, all parameters, all random choices of the prover and all proofs", "why_tests_cant": "A test proves and verifies a few messages; it cannot show that no accepted proof exists for a digest without its preimage, nor that keys made without a witness fit every message.", "anchors": ["halo2_gadgets/benches/poseidon.rs:24-108", "halo2_gadgets/src/poseidon.rs:120-290", "halo2_gadgets/src/poseidon/pow5.rs:55-330", "halo2_proofs/src/circuit/floor_planner/single_pass.rs:81-148", "halo2_proofs/src/plonk/keygen.rs:190-320", "halo2_proofs/src/plonk/prover.rs:35-730", "halo2_proofs/src/plonk/verifier.rs:95-360"]}
{"id": "C84", "title": "create_proof does not panic on a circuit that breaks gates or copies, and its only failures are transcript and opening errors", "statement": "If the keys were generated for the circuit, the columns have the right lengths, the instances fit in the usable rows, as many instances as circuits are given and every lookup holds, then create_proof, from any transcript and with any randomness, returns a proof or an error of the transcript or of the opening argument: it never panics and never returns another error, whether or not the gates and the equality constraints hold. The hash to the field is assumed never to give zero, since the rounds of the opening argument invert their challenges.", "quantifier": "for all constraint systems and fixed columns accepted by key generation, all witnesses whose lookups hold, all numbers of circuits, all random choices of the prover, all transcript states and all transcript hashes that do not give zero", "why_tests_cant": "The prover has many unwraps, assertions and index accesses on lengths, degrees and divisions; a test exercises them on a few circuits with satisfied constraints, not on every circuit and on every unsatisfied one.", "anchors": ["halo2_proofs/src/plonk/prover.rs:35-730", "halo2_proofs/src/plonk/permutation/prover.rs:48-330", "halo2_proofs/src/plonk/lookup/prover.rs:60-600", "halo2_proofs/src/plonk/vanishing/prover.rs:37-185", "halo2_proofs/src/poly/multiopen/prover.rs:24-128", "halo2_proofs/src/poly/commitment/prover.rs:26-160"]}
{"id": "C85", "title": "The tutorial circuit proves knowledge of a and b with c = constant·a²·b²", "statement": "For the circuit of the simple example, with any constant, any circuit size of at least 2^4 rows and any parameters: key generation succeeds whatever private inputs are given, an honest proof for the public input constant·a²·b², if the prover finishes one and no challenge is exceptional, is accepted, and an accepted proof, unless a challenge was bad or a relation between the generators has been found, commits to an a and a b such that the public input is constant·a²·b². The mock prover accepts the circuit with given private inputs only for that public input.", "quantifier": "for all fields of characteristic above 3, all constants, private and public inputs, all numbers of instances, all k of at least 4 that the curve allows, all parameters, random choices, proofs and transcript hashes", "why_tests_cant": "The example runs the mock prover on three numbers and one wrong public input; it never makes or checks a proof, and no run shows that there is no proof of a wrong public input.", "anchors": ["halo2_proofs/examples/simple-example.rs:76-124", "halo2_proofs/examples/simple-example.rs:151-231", "halo2_proofs/examples/simple-example.rs:256-338"]}
{"id": "C86", "title": "A circuit the mock prover accepts meets the specification of its gadgets on the values it assigns", "statement": "If MockProver::verify accepts a circuit with given instances, the values the circuit assigned meet every gate, equality, constant, fixed value and lookup that its regions ask for, as the gadgets see them, and the cells constrained to the instance have the instance's values. In particular the mock prover accepts the Poseidon circuit of the benchmarks only with the hash of the circuit's message as public input, and the tutorial circuit only with constant·a²·b².", "quantifier": "for all constraint systems, circuits laid out by either floor planner, witnesses, instances and numbers of rows up to 2^64", "why_tests_cant": "Users take a passing mock prover run as evidence that the gadgets computed the right values; that no run accepts a wrong value is a statement on all witnesses and instances, through layout, selectors and the mock prover's own checks.", "anchors": ["halo2_proofs/src/dev.rs:485-904", "halo2_proofs/src/circuit/floor_planner/single_pass.rs:1-378", "halo2_proofs/src/circuit/floor_planner/v1.rs:1-500", "halo2_gadgets/benches/poseidon.rs:62-150", "halo2_proofs/examples/simple-example.rs:305-338"]}
{"id": "C87", "title": "Every failure the mock prover reports is genuine", "statement": "If MockProver::verify rejects, it reports at least one failure and each names something really wrong, whatever values end up in the rows a circuit may not use: an unsatisfied constraint does not vanish on its row; a poisoned constraint reads a row the circuit may not use, and no factor switched off by a selector hides it; a reported lookup row has an input that is not in the table, or reads such a row; a permutation failure names a cell that the circuit asked (directly or through other copies) to equal another cell with a different value, or of which only one was assigned; an unassigned cell is queried by a gate enabled inside a region that does not assign it. In particular a satisfied circuit is never reported for an unsatisfied constraint, a value missing from a table, or two assigned cells that differ.", "quantifier": "for all constraint systems, sequences of synthesis calls, instances, blinding values, and numbers of rows 2^k up to 2^64", "why_tests_cant": "Tests of the mock prover exhibit some failures on some circuits; that no run ever blames a correct constraint is a statement on all circuits, through selector compression, poison propagation, the sorted lookup merge and the permutation's cycles.", "anchors": ["halo2_proofs/src/dev.rs:576-904", "halo2_proofs/src/dev.rs:312-483", "halo2_proofs/src/plonk/circuit/compress_selectors.rs:51-233", "halo2_proofs/src/plonk/permutation/keygen.rs:1-110"]}
{"id": "C88", "title": "The mock prover always returns a verdict", "statement": "After any run of synthesis calls that itself did not panic, MockProver::run finishes and MockProver::verify returns, with acceptance or a list of failures, for every witness and instance: no index out of bounds, no unwrap of a missing value, no negative row. This needs columns of this constraint system, rotations of at most the number of rows in absolute value, a cell assigned in every region where a selector enables a gate that queries cells, and constraints that can vanish on the rows where they read cells of the rows a circuit may not use. Without the third a region that only enables a selector makes verify panic; without the last, formatting a poisoned cell does.", "quantifier": "for all constraint systems, sequences of synthesis calls, instances, gate cell lists and numbers of rows 2^k", "why_tests_cant": "The checks index vectors by query, rotation and permutation cycle; that no reachable combination panics is a statement on all circuits and runs.", "anchors": ["halo2_proofs/src/dev.rs:485-560", "halo2_proofs/src/dev.rs:576-904", "halo2_proofs/src/dev/util.rs:60-161"]}
{"id": "C89", "title": "The mock prover accepts exactly the satisfied circuits", "statement": "For a circuit that leaves nothing unassigned, MockProver::verify accepts if and only if every constraint vanishes on every row, every lookup input on a usable row is in its table, and the two cells of every copy are equal. Nothing is left unassigned if every cell queried by a gate enabled in a region is assigned in that region (or is an instance value supplied by the caller), the two cells of a copy are both assigned or both not, and every constraint or lookup input that reads a row the circuit may not use has a factor that selectors switch off there. Conversely, in every circuit that is accepted, each cell queried by a gate enabled in a region is assigned in that region or supplied as an instance value.", "quantifier": "for all constraint systems, sequences of synthesis calls, witnesses, instances, blinding values, and numbers of rows 2^k up to 2^64", "why_tests_cant": "A test shows acceptance of one circuit and rejection of one mutation; that acceptance and satisfaction coincide is a statement on all circuits and witnesses, through selector compression, poison, the lookup merge, the permutation and the bookkeeping of regions.", "anchors": ["halo2_proofs/src/dev.rs:576-904", "halo2_proofs/src/dev.rs:312-566", "halo2_proofs/src/dev/util.rs:75-161", "halo2_proofs/src/plonk/circuit/compress_selectors.rs:51-233"]}
{"id": "C90", "title": "The mock prover follows every circuit that opens and closes its regions in turn, and decides the tutorial circuit for all numbers", "statement": "MockProver::run, given enough rows and instance columns of the right number and length, follows the calls of a circuit to the end without a panic if and only if regions are entered only outside a region and exited only inside one, and every selector enabled on a usable row exists and is enabled inside a region; no other call panics, whatever column, row or value it names. A circuit that in addition is satisfied, assigns what its enabled gates query and does not expose rows it may not use is run and accepted. For the circuit of the tutorial (examples/simple-example.rs), for all numbers constant, a and b and every k from 4 to 64, run and verify succeed if and only if the public input is constant * a^2 * b^2, and with any other public input they return a non-empty list of failures.", "quantifier": "for all constraint systems, sequences of synthesis calls, instances and numbers of rows; for the tutorial circuit, for all field elements and all k from 4 to 64", "why_tests_cant": "The example checks one triple of numbers with the right public input and with its successor; that every other triple and public input is decided rightly, and that no sequence of calls panics except those named, is a statement on unboundedly many runs.", "anchors": ["halo2_proofs/src/dev.rs:312-566", "halo2_proofs/src/dev.rs:576-904", "halo2_proofs/examples/simple-example.rs:226-340", "halo2_proofs/src/circuit/floor_planner/single_pass.rs:74-145"]}
