# Design of the halo2 model

The code in /repo (zcash/halo2: `halo2_proofs`, `halo2_gadgets`, `halo2_poseidon`) is
modelled as total Lean 4 functions under `lean/Verif/`.  Nothing of /repo is run; each
definition cites the file and lines it models.

## Conventions

* A field of the code is an arbitrary Lean `Field F` (with `DecidableEq` or `LinearOrder`
  where the code compares); a field whose bits are used is `ZMod p`.  Facts about the concrete
  Pasta fields are explicit hypotheses.  `Verif/Pasta` proves them for the two Pasta fields and
  curves (primality, two-adic roots, zeta, group orders, no point with a zero coordinate).
* A curve group used only through its group law is an `AddCommGroup` with a `Module F`
  structure; in the gadgets it is Mathlib's group of the curve `y^2 = x^3 + b`.
* A Rust panic (assert, unwrap, index, underflow) is an explicit `none`/`Except.error`
  value in the model, never a default value.
* A loop is a fold or structural recursion; a loop without a syntactic bound takes `fuel`,
  and a theorem shows that enough fuel exists.  Mutation returns the new value.
* Thread counts are parameters; a parallel iterator is modelled by the pieces it hands out,
  and a parallel reduction by an arbitrary reduction tree.
* Random values (blinding rows, challenges) are universally quantified parameters.
* Machine integers are `Nat`/`Int`; where overflow is reachable it is recorded in Findings.

Layout: each area `Foo` has `Verif/Foo/Model.lean` (definitions with citations), helper
files, and `Verif/Foo/Props.lean` or the files named below (the property theorems, a small
specification, and non-vacuity examples).

## How gadgets are modelled (`Verif/Region`)

A chip is a program in the monad `M C S F`: it numbers regions and records the operations
`advice`, `fixed`, `enable`, `equal` and `const`, with cells (region, column, row offset).
`none` is a panic or an error.  The witness is always known; a theorem about soundness speaks
about *any* grid of cell values satisfying the recorded gates, copies and constants
(`Sat gates G ops`, `SatLookup`), whatever the recorded advice values.  Completeness says that
the program runs, that no cell is assigned two values (`Consistent`), and that every grid
holding the recorded values (`Honest`) is satisfying.  Gates are evaluated at the rows where
their selector is enabled by the recorded operations, in the region of that row.
Positions of regions, which are the floor planner's business, are left out; that is sound for
these chips as their gates query only cells of their own region (C18, C19 prove that regions do
not overlap; `PartOf` and `Local` prove that a chip writes into its own regions only).

## Soundness of the proof system (`Verif/Sound`, `Verif/Link`)

The verifier is run by `Game` against a prover that chooses everything read from the proof.
Provers are algebraic: with every point they give its coefficients over the public generators.
The bad challenge sets are functions of the transcript so far, their sizes are bounded, and
they are fixed before the hash function is quantified.  A theorem says: if the proof is
accepted, then the claim holds, or some squeezed challenge fell in its bad set, or a
non-trivial relation between the generators is exhibited.  No probability measure is used.

## Plan per property

| id | area | what is modelled | how it is proved |
|----|------|------------------|------------------|
| C01 | Assigned | `Assigned` with all operators | case analysis and field identities; homomorphism to `evaluate` |
| C02 | Assigned | shared running-product batch inversion with skipped denominators | induction on the flattened list, refinement to `map evaluate` |
| C03 | Fft | bit reversal, iterative and recursive butterflies over a module | induction on log_n, bit-reversal permutation lemma |
| C04 | Domain | `EvaluationDomain` conversions | from C03 with the inverse root, coset scaling |
| C05 | Multiexp | `get_at`, buckets, segment loops | digit decomposition; summation by parts by induction |
| C06 | PolyArith | `kate_division` fold | induction on coefficients; `Polynomial` identity |
| C07 | PolyArith | `lagrange_interpolate` loops | invariant: product of linear factors; uniqueness by root count |
| C08 | Multicore | chunking rule of `parallelize`, parallel reductions | list lemmas, induction over reduction trees |
| C09 | Rotation | `rotate_*`, three-case chunk helper | index arithmetic by cases |
| C10 | Evaluator | `Ast`, chunk evaluation | structural induction on the AST per index |
| C11 | Domain, Vanishing | division by t, splitting into pieces | periodicity of the vanishing polynomial on the coset; chunk sums |
| C12 | Domain, Vanishing | `l_i_range`, keygen's l_0/l_last/l_blind | closed form of the Lagrange basis |
| C13 | Copy | `Assembly::copy` | invariant: labels are classes, mapping is one cycle per class; induction over calls |
| C14 | Permutation | grand product columns, expressions | telescoping product; soundness by root counting |
| C15 | LookupPerm | `permute_expression_pair` | multiset invariants over the loops |
| C16 | Lookup | product column and five expressions | telescoping; soundness by root counting |
| C17 | Selectors | `compress_selectors::process` and replacement | invariants over the greedy loop; products of roots |
| C18 | Floor | V1 planner, strategy.rs | invariant: allocations disjoint; first fit is exact |
| C19 | Floor | single-pass layouter | invariant over the regions |
| C20 | Table | table layouter | invariant over assign_cell calls |
| C21 | Value | `Value` | case analysis |
| C22 | Msm | MSM | refinement to a formal linear combination |
| C23 | Batch | batch verifier over reduction trees | induction over trees; root counting for soundness |
| C24 | Ipa | IPA prover and verifier over a module | induction over rounds |
| C25 | Multiopen | query grouping; multiopen prover and verifier | induction over the query list; algebra |
| C26 | Transcript | byte streams absorbed, written and read | prefix-freeness, replay by induction |
| C27 | Commitment | Params encoding; Lagrange commitments | round trip; linearity of the FFT over the group |
| C28 | Mock | MockProver gate, lookup, copy checks with poison | abstract interpretation, induction on expressions |
| C29 | Mock | sorted merge of the lookup check | induction on the merge |
| C30 | Rows | the three `Assignment` back ends | invariant over operation sequences |
| C31 | Cs | ConstraintSystem query registration | invariant over operation sequences |
| C32 | Plonk | degree accounting | degree bounds by structural induction |
| C33 | Cost | bytes written by create_proof against `CircuitCost` | counting along the prover |
| C34 | Utilities | utilities.rs | bit lists and products |
| C35 | RunningSum | gates and assignment | induction on windows |
| C36 | LookupRange | lookup range checks, both variants | from C34, C35 |
| C37 | CondSwap | swap and mux chips | case analysis |
| C38-C40 | Ecc | witness point, complete and incomplete addition | field identities, Mathlib's group law |
| C41 | Mul | variable-base multiplication, all four stages | induction over rows; **partial**, see Findings |
| C42 | Poseidon, Pow5 | primitive permutation and Pow5 chip | matrix inverse, induction over rounds |
| C43 | Poseidon, Pow5 | sponge state machines, primitive and gadget | refinement to a block specification, simulation |
| C44 | Mds | Cauchy matrix, inverse, search for distinct elements | Lagrange interpolation |
| C45 | Grain | LFSR, self-shrinking iterator, field elements | stream refinement, termination |
| C46 | Plonk | vanishing argument end to end | composition of C11, C12, C14, C16 |
| C47 | Expr | `Expression` | structural induction |
| C48 | Protocol | instance checks | decision logic along prover and verifier |
| C49 | Protocol | create_proof and verify_proof with transcript, commitments, openings | simulation of the prover's run by the verifier's |
| C50 | Plonk | verifier expressions against arbitrary columns | root counting, challenge by challenge |
| C51 | Sound | opening verifier against algebraic provers | induction over rounds, bad set per round |
| C52 | Sound | multiopen verifier against algebraic provers | quotients by sets of points, then C51 |
| C53 | Sound | whole verifier against algebraic provers | composition of C50, C52 |
| C54 | Link | synthesis calls, keygen, mock prover, prover, verifier | composition of C28, C17, C30, C49 |
| C55 | Link | as C54, from the verifier to the configured circuit | composition of C53, C17 |
| C56 | Link | error cases of key generation | case analysis over the calls |
| C57 | Mock | region bookkeeping and unassigned-cell report | invariant over calls |
| C58 | Sinsemilla | message pieces, hash_to_point, table | induction over the words; counterexample for the exceptional case |
| C59 | Pasta | moduli, curves, generators, constants | Pratt certificates, kernel computation with verified arithmetic |
| C60 | Merkle | hash_layer, path computation, both chips | composition of C36, C37, C58 |
| C61-C64 | MulFixed | full-width, short, base-field multiplication, mul_sign | invariant over windows; instances for the generator of Pallas |
| C65 | MulFixed | window tables, Lagrange coefficients, search for z and u | interpolation; success for the generator of Pallas |
| C66 | Commit | Sinsemilla `commit`, `short_commit` | composition of C57, C61 and complete addition |
| C67 | Commit | commitments and Merkle roots | hashes as linear combinations; the relation is computed from the openings |
| C68 | Commit | `from_bitstring` of messages and pieces | induction on the string |
| C69 | Sha256 | the spread table, range checks and interpolation gates | the table by induction on its rows, the gates by their roots |
| C70 | Sha256 | the blocks of the chip, against FIPS 180-4 on 32-bit vectors | gates as identities of numbers below 2^72, spread sums bit by bit |
| C71 | Sha256 | the message schedule, complete | an explicit assignment as a function of the words; induction over the words |
| C72 | Sha256 | the message schedule, negative result | the same assignment for any words satisfies all constraints |
| C73 | Sha256 | the whole hash of full blocks | explicit assignment; induction over rounds and blocks; the constants as roots of the primes, by kernel computation |
| C74 | Sha256 | the digest, `update`, `finalize`, negative results | the assignment of any last words satisfies all constraints; the states that compression returns |
| C75 | Hiding | columns with random last rows, `Domain` | `Z·interpolate` with `Z` the vanishing polynomial of the other rows; translation gives equal counts |
| C76 | Hiding | `Ipa.createProof`, `Multiopen.createProof` | run splitting; induction over the rounds, blinding factors by surjectivity of `r ↦ [r]w`, the random polynomial absorbs the difference |
| C77 | Hiding | `Protocol.createProof` (all of `create_proof`, `lookup/prover.rs`, `permutation/prover.rs`, `vanishing/prover.rs`) | two runs in lockstep: each step of the second is steered by the blinding rows to the same evaluations (interpolation) and by the blinding factors to the same commitments; the quotient evaluation then agrees by the vanishing identity; `multiopen_hiding` for the end; a run over F_97 as a case |
| C78 | P128 | `generateConstants`, `fp`, `fq` (`lib.rs` 63-91, `p128pow5t3.rs`, `fp.rs`, `fq.rs`) | simulation of the Grain model by an 80-bit number, kernel computation of the 192 constants and the Cauchy matrix; S-box inverted by an exponent modulo p-1; composition of bijective rounds; `hash_ok` for the chip |
| C79 | EccApi | `configure`, `gates`, `call`, `run` (`ecc.rs`, `ecc/chip.rs` 254-613) | locality of every chip's record to its own regions; selectors used by each call are its own, so the gates of the whole chip reduce to those of one sub-chip (`lift_*`); induction on the list of calls with `Agrees` (soundness) and `Matches`/`Done` (completeness); `Example.lean` for Pallas |
| C80 | Layout | relation between a run of gadgets (`Region.Op`), the closures of its regions (`Floor.ROp`), the planner's calls (`Floor.COp`) and the backend's (`Rows.Op`) (`layouter.rs`, `single_pass.rs`, `v1.rs`) | `v1_laid`, `single_laid`: the planners place each region at its start row, constants in cells of their own; non-overlap of regions gives that a selector is enabled on a row of the table exactly by the region there; `Laid.sound`, `Laid.complete`; `exists_configured`: gates and lookups built from queries by ring operations are those of a reachable constraint system, and `ecc_poly`: the gates of the elliptic curve chip are such |
| C81 | EndToEnd | C55, C54, C80 and C79 put together | composition; `toyRun_verifies` runs a circuit of two regions through planner, key generation, prover and verifier over F_97; `EccExample.exists_ecc` builds the constraint system, the run, the layout and the keys of a program of the elliptic curve API over Pallas |
| C82 | Floor, EndToEnd | both planners on two lists of regions that differ in witnesses; the Poseidon gadget on two messages | erasing the witnesses commutes with shapes, allocation and placement (`single_erase`, `v1_erase`); a relational program logic for layout programs (`Alike`) |
| C83 | EndToEnd (Preimage) | the circuit of benches/poseidon.rs for any width: columns, regions, layout, keys, prover, verifier | composition of C21, C80, C81, C82; the gates are polynomials in queries, the regions are well-formed (`Makes`) and independent of the message (`Alike`), the first region starts on row 0 |
| C84 | Plonk (Total), Multiopen (Total), Protocol (Total), EndToEnd (Ends) | create_proof with all its stages, as in C49 | a program logic for the writer (`Io`, `Ends`): every step returns or fails with a transcript error, stage by stage; the loops with transcript operations follow the pure loops (`mapSW`), which `stages_total` shows to succeed; points opened have equal n-th powers, so a set has at most n of them |
| C85 | EndToEnd (Simple) | examples/simple-example.rs: configure, synthesize, main | configure, synthesize and the planner evaluated for symbolic numbers (`configure_eq`, `execute_eq`), then the theorems of C28, C80 and C81 |
| C86 | EndToEnd (Mock) | C28 and C80 put together | calls other than entering and leaving regions decide the columns (`findSome?_body`); then the layout theorems; cases: the tutorial circuit and the Poseidon circuit of C83 |
| C87 | Mock (Reject) | `verify` and its four checks, as in C28 and C57 | membership in the error lists traced back; compression replaces each selector by an expression that vanishes where it is off (`compress_replaces`), so poison comes from unusable rows that no disabled selector hides (`CellsOk.exposed`); cycles of the mapping are classes of requested copies (C13); the regions recorded are those of the calls (`run_recorded`) |
| C88 | Mock (Total) | the end of `MockProver::run` and `verify` | every query, permutation column and recorded cell lies in a full grid (`Readable`); expressions evaluate by induction (`eval_some`); regions with cells have rows (`run_rows`); `cell_values` meets no poisoned cell on a constraint that does not vanish (`cellValues_some`) |
| C89 | Mock (Total) | as C87 and C88 | C88 gives a verdict; every failure C87 allows contradicts satisfaction or a hypothesis on unassigned cells; the converse is C28 |
| C90 | Mock (Runs), EndToEnd (SimpleMock) | as C30 and C88; the tutorial circuit as C85, its regions written out (`wholeCalls`) | induction on the calls with the shape of the selectors kept; the other calls keep it (`Keeps`). The tutorial circuit: C85 gives satisfaction for the product, C89 acceptance, C88 a verdict, C86 the converse |

## Findings

Statements marked (proved) have a theorem in the library.

* **Variable-base multiplication does not multiply the given base.**  The base coordinates on
  the incomplete-addition rows are assigned but never copied from the base cells
  (mul/incomplete.rs 309-310).  `Mul.mul_unsound` and `Pasta.pallas_mul_unsound` exhibit a
  satisfying assignment whose result is another multiple (proved).  Hence C41 is partial: what
  the constraints do enforce is `Mul.assign_sound_partial`.
* **Sinsemilla**: the constraints rule out every exceptional case of incomplete addition but one:
  accumulator equal to the generator of the next word.  There the hash is undetermined
  (`Sinsemilla.Example.collision_unsound`, proved), contrary to the comment in merkle/chip.rs
  262-266.  `Message::from` asserts `< MAX_WORDS` where `from_bitstring` allows `<=`.
* **CircuitCost** always counts the point sets {0,1}, {-1,0}, {0}: proof sizes are overestimated
  for circuits without lookups (proved).
* **Evaluator**: `Coeff::linear_term` panics on chunk 0 when chunks have one element; a leaf in the
  coefficient basis panics; evaluation panics if no polynomial is registered (proved).
* `construct_intermediate_sets` refuses any repeated (commitment, point) (proved); rotations equal
  modulo n therefore make proving fail.  Equality of prover query pointers ignores the blind.
* Keygen's `assign_advice` and the prover's `enable_selector`, `assign_fixed`, `copy`,
  `fill_from_row` do no row checks; a call a back end ignores has no effect (proved, C30).
* An unknown value is reported before a missing column in every back end's cell assignment.
* Tables: one as long as the usable rows is refused; a closure ignoring `OverwriteDefault` yields
  an inconsistent table (both proved).
* V1 planner: a circuit whose regions use no row has no room for a constant (proved).  `Ord` of
  `AllocatedRegion` compares the start only, which is harmless.
* Selector compression needs a characteristic above the combination length.  The domain is built
  from the degree before compression, `cs_degree` from the one after.
* `l_i_range` returns zeros at a point of the domain (proved).  Repeated interpolation points do not
  panic in `lagrange_interpolate` (proved).
* Panics on some challenges: `(xn - 1).invert().unwrap()`, `(x_3 - point).invert().unwrap()`,
  `u_j.invert().unwrap()`.  These challenges are excluded by explicit hypotheses.
* Permutation and lookup arguments are not perfectly complete (zero denominators).
* Gates must hold on all n rows, blinding rows included.
* Small inputs: `compute_s` asserts a non-empty list (proved); `parallelize` panics on an empty slice;
  `kate_division` underflows on an empty list (proved); `EvaluationDomain::new` underflows for j = 0;
  multiopen `create_proof` with no query panics; `Params::read` shifts by an untrusted k.
* `best_multiexp` truncates the number of bases to u32; `small_multiexp` does not compare lengths.
* `rotate_extended` multiplies in i32; `rotate` panics when the rotation exceeds the length.
* A failed `common_point` leaves its prefix byte absorbed.
* An identity commitment of an earlier instance is reported before `InstanceTooLarge` of a later one.
* MockProver: `r.rows.unwrap()` (dev.rs 632) can panic; padding of instance columns is a known zero
  where keygen and prover return `BoundsFailure`; a gate rotation below -n panics while lookups wrap.
* The verifier computes `params.n - (blinding factors + 1)` unchecked and never compares `params.n`
  with the domain; `keygen_pk` does not check that its verifying key belongs to the circuit.
* `Expression`'s variants are public, so the panics of the operators on simple selectors can be
  bypassed.
* `range_check(word, 0)` accepts zero (proved).  `decompose` needs exactly ceil(bits/K) windows
  (proved).
* Poseidon: `ConstantLength<0>` panics (proved); the chip hard-codes x^5; the primitive truncates when
  round constants are missing where the chip panics; odd numbers of full rounds lose a round in the
  primitive.
* Incomplete addition of equal points leaves the result unconstrained (proved).
* Merkle: `hash_layer` with a layer of 2^10 or more is unsatisfiable; encodings of the children may be
  non-canonical (documented by the protocol).
* Fixed-base multiplication: `configure` does not assert that the output columns of the two additions
  coincide (only `EccChip` does that); scalars witnessed earlier hit `todo!`.
* `Message::from_bitstring` allows `MAX_WORDS` words, `Message::from` only fewer: a message of exactly
  `MAX_WORDS` words panics (proved, C68).
* SHA-256: in `W_14..W_48` the one-bit pieces are not range-checked, and the gates accept a word with
  wrong lower sigmas (proved, C70).
* SHA-256: the recurrence of `W_16..W_63` is checked on a cell that is not copied to the word used
  afterwards, so any words satisfy the constraints of the schedule (proved, C72).
* SHA-256: the carries of `s_h_prime`, `s_a_new` and `s_e_new` are unconstrained field elements, the round
  constants and the initial value are only witnessed, and the state is witnessed again between blocks and
  after the last round without a copy.  Any eight words are an acceptable digest (proved, C74).
* SHA-256: the working variables are not added to the previous hash value at the end of a block, so the
  result is never the hash value of FIPS 180-4 (proved for one block, C73).
* SHA-256: an `update` that completes a block fails if an earlier one has completed a block; a message
  that is not of full blocks has no hash, since the padding words are unknown values; `length` is never
  used (proved, C74).
* `MockProver` compares `CellValue`s in its permutation check, so a copy between a cell that was never
  assigned and a cell assigned zero is reported, although the circuit is satisfied (proved, C87, `exZero`).
* `MockProver::verify` panics (`unreachable!` in dev/util.rs 126) instead of reporting a constraint that
  does not vanish on a row where a factor of zero hides a poisoned cell, as in `0 * a + 1` on a blinding row
  (example beside C88).

## What is modelled and what is not

Modelled, function by function (files of /repo):

* `halo2_proofs/src`: `arithmetic.rs`, `multicore.rs`, `poly.rs`, `poly/{domain,evaluator,commitment,
  multiopen}.rs` and the files below them, `transcript.rs`, `plonk/{assigned,circuit,keygen,prover,
  verifier}.rs`, `plonk/circuit/compress_selectors.rs`, `plonk/{lookup,permutation,vanishing}/*.rs`,
  `plonk/verifier/batch.rs`, `circuit/value.rs`, `circuit/table_layouter.rs`,
  `circuit/floor_planner/**`, `circuit/layouter.rs` (region shapes), `dev.rs` (run, verify),
  `dev/cost.rs` (proof size).
* `halo2_poseidon/src`: `lib.rs`, `grain.rs`, `mds.rs`.
* `halo2_gadgets/src`: `utilities.rs`, `utilities/*.rs`, `ecc/chip/*.rs` and below (witness point,
  additions, variable-base and fixed-base multiplication, table constants), `poseidon.rs`,
  `poseidon/pow5.rs`, `sinsemilla/chip/*.rs`, `sinsemilla/message.rs`, `sinsemilla/merkle.rs`,
  `sinsemilla/merkle/chip.rs`,
  `sinsemilla.rs` (messages from bits, hash and commitment domains),
  `sha256.rs`, `sha256/table16.rs` and `sha256/table16/**`.

Not modelled: the identity that the `X` type and `PointInstructions` associated types are those of the chip (Rust traits are instantiated at `EccChip`); names and annotations; the verifying key's hash
(`transcript_repr` is a parameter); serialisation of keys (there is none in this version);
`dev/{tfp,graph,gates,metadata,util}.rs` and the rendering of failures; memory and time; concurrency
beyond the pieces handed to threads.

## Trusted base

* Lean 4.33.0's kernel.  Every theorem depends on at most the axioms `propext`, `Classical.choice`
  and `Quot.sound`; no axioms are added, and there is no `sorry`, `native_decide` or `bv_decide`.
  Closed computations use `decide +kernel`, that is, reduction by the kernel (with its built-in
  arithmetic on natural numbers).
* The faithfulness of the model to the Rust source, by citation.  `seeded/LOG.jsonl` records the
  edits of the model tried against the theorems.
* External crates are not modelled beyond their documented contracts: `ff`/`group` field and
  curve arithmetic, `pasta_curves` (its moduli, coefficients and generators are written out in
  `Verif/Pasta`), `rayon`/`maybe-rayon`, `blake2b_simd` (a function of the absorbed byte string),
  `BTreeMap`/`HashMap` (finite maps), sorting.
