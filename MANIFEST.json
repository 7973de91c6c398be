{
 "claims": [
  {
   "property": "C01",
   "status": "proved",
   "theorems": [
    "Verif.Assigned.evaluate_eq",
    "Verif.Assigned.evaluate_neg",
    "Verif.Assigned.evaluate_add",
    "Verif.Assigned.evaluate_sub",
    "Verif.Assigned.evaluate_addF",
    "Verif.Assigned.evaluate_subF",
    "Verif.Assigned.evaluate_mul",
    "Verif.Assigned.evaluate_mulF",
    "Verif.Assigned.evaluate_double",
    "Verif.Assigned.evaluate_square",
    "Verif.Assigned.evaluate_cube",
    "Verif.Assigned.evaluate_invert",
    "Verif.Assigned.isZeroVartime_iff",
    "Verif.Assigned.beq_iff"
   ],
   "note": ""
  },
  {
   "property": "C02",
   "status": "proved",
   "theorems": [
    "Verif.Assigned.batchInvert_eq",
    "Verif.Assigned.unflatten_flatten",
    "Verif.Assigned.batchInvertAssigned_eq"
   ],
   "note": ""
  },
  {
   "property": "C03",
   "status": "proved",
   "theorems": [
    "Verif.Fft.log2Floor_spec",
    "Verif.Fft.bestFft_eq_dft",
    "Verif.Fft.bestFft_eq_dft_of_half",
    "Verif.Fft.bestFft_panics",
    "Verif.Fft.bestFft_threads"
   ],
   "note": ""
  },
  {
   "property": "C04",
   "status": "proved",
   "theorems": [
    "Verif.Domain.new_spec",
    "Verif.Domain.lagrangeToCoeff_spec",
    "Verif.Domain.coeffToExtended_spec",
    "Verif.Domain.extendedToCoeff_spec",
    "Verif.Domain.extendedToCoeff_evals",
    "Verif.Domain.extendedToCoeff_coeffToExtended"
   ],
   "note": ""
  },
  {
   "property": "C05",
   "status": "proved",
   "theorems": [
    "Verif.Multiexp.bestMultiexp_eq",
    "Verif.Multiexp.bestMultiexp_total",
    "Verif.Multiexp.window_ok",
    "Verif.Multiexp.bestMultiexp_field",
    "Verif.Multiexp.smallMultiexp_eq",
    "Verif.Multiexp.smallMultiexp_short"
   ],
   "note": ""
  },
  {
   "property": "C06",
   "status": "proved",
   "theorems": [
    "Verif.PolyArith.evalPolynomial_eq",
    "Verif.PolyArith.computeInnerProduct_eq",
    "Verif.PolyArith.kateDivision_spec",
    "Verif.PolyArith.kateDivision_panics"
   ],
   "note": ""
  },
  {
   "property": "C07",
   "status": "proved",
   "theorems": [
    "Verif.PolyArith.lagrangeInterpolate_spec",
    "Verif.PolyArith.lagrangeInterpolate_panics",
    "Verif.PolyArith.lagrangeInterpolate_repeated_point"
   ],
   "note": ""
  },
  {
   "property": "C08",
   "status": "proved",
   "theorems": [
    "Verif.Multicore.chunks_flatten",
    "Verif.Multicore.chunks_length_le",
    "Verif.Multicore.parallelize_eq_mapIdx",
    "Verif.Multicore.parallelize_pieces",
    "Verif.Multicore.parallelize_empty",
    "Verif.Multicore.Reduces.eq_sum",
    "Verif.Multicore.Reduces.exists"
   ],
   "note": ""
  },
  {
   "property": "C09",
   "status": "proved",
   "theorems": [
    "Verif.Rotation.rotate_spec",
    "Verif.Rotation.rotateExtended_spec",
    "Verif.Rotation.chunkHelper_eq",
    "Verif.Rotation.chunkOfRotated_eq",
    "Verif.Rotation.chunkOfRotatedExtended_eq",
    "Verif.Rotation.chunkOfRotated_concat"
   ],
   "note": "i32 overflow of the extended rotation amount is not modelled"
  },
  {
   "property": "C10",
   "status": "proved",
   "theorems": [
    "Verif.Evaluator.evaluate_lagrange",
    "Verif.Evaluator.evaluate_extended",
    "Verif.Evaluator.evaluate_threads",
    "Verif.Evaluator.evaluate_coeff",
    "Verif.Evaluator.evaluate_coeff_panics",
    "Verif.Evaluator.evaluate_coeff_linear_panics",
    "Verif.Evaluator.evaluate_coeff_leaf_panics",
    "Verif.Evaluator.denote_neg",
    "Verif.Evaluator.denote_sub",
    "Verif.Evaluator.leavesOk_sub"
   ],
   "note": "In the coefficient basis a linear term panics when chunks have one element, a defect of linear_term: evaluate_coeff and evaluate_coeff_panics together say exactly when evaluation succeeds. All registered polynomials have the length of the basis, and at least one is registered (otherwise evaluate panics)."
  },
  {
   "property": "C11",
   "status": "proved",
   "theorems": [
    "Verif.Domain.divideByVanishingPoly_spec",
    "Verif.Vanishing.construct_spec",
    "Verif.Vanishing.recombine_spec",
    "Verif.Vanishing.expectedHEval_spec",
    "Verif.Vanishing.hCommitment_spec",
    "Verif.Vanishing.recombineBlind_spec"
   ],
   "note": ""
  },
  {
   "property": "C12",
   "status": "proved",
   "theorems": [
    "Verif.Domain.lIRange_spec",
    "Verif.Domain.lIRange_in_domain",
    "Verif.Domain.exists_lagrangeBasis",
    "Verif.Vanishing.keygen_l_spec",
    "Verif.Vanishing.verifierL_spec"
   ],
   "note": ""
  },
  {
   "property": "C13",
   "status": "proved",
   "theorems": [
    "Verif.Copy.run_spec",
    "Verif.Copy.copy_spec",
    "Verif.Copy.copy_result"
   ],
   "note": "Assembly of plonk/permutation/keygen.rs for every list of calls; the relabelling loop is shown to end."
  },
  {
   "property": "C14",
   "status": "proved",
   "theorems": [
    "Verif.Permutation.commit_satisfies",
    "Verif.Permutation.soundness",
    "Verif.Permutation.soundness_count",
    "Verif.Permutation.expressions_eq_construct",
    "Verif.Permutation.satisfied_iff",
    "Verif.Permutation.permPolys_row"
   ],
   "note": "Completeness for challenges with no zero numerator term on usable cells (these are the same terms as the denominators when the copies hold); soundness by root counting for arbitrary product columns; prover expressions and verifier expressions agree at every point."
  },
  {
   "property": "C15",
   "status": "proved",
   "theorems": [
    "Verif.LookupPerm.permute_spec",
    "Verif.LookupPerm.permute_ok_iff"
   ],
   "note": "u32 counts, hence fewer than 2^32 usable rows; columns of n rows."
  },
  {
   "property": "C16",
   "status": "proved",
   "theorems": [
    "Verif.Lookup.commit_satisfies",
    "Verif.Lookup.soundness",
    "Verif.Lookup.soundness_count",
    "Verif.Lookup.compress_sound",
    "Verif.Lookup.compress_complete",
    "Verif.Lookup.satisfied_iff",
    "Verif.Lookup.expressions_eq_construct",
    "Verif.Lookup.compressAst_eval",
    "Verif.Lookup.commitProduct_eq"
   ],
   "note": "Row constraints are the verifier's own expressions. Completeness holds outside at most u values of beta and of gamma (zero denominators are left zero by batch_invert). Soundness: for any permuted columns, at most 4u|F| challenge pairs let some product column pass. Prover polynomials equal verifier expressions at every point."
  },
  {
   "property": "C17",
   "status": "proved",
   "theorems": [
    "Verif.Selectors.compress_spec",
    "Verif.Selectors.process_spec",
    "Verif.Selectors.replace_eq",
    "Verif.Selectors.root_expr",
    "Verif.Selectors.selectorDegrees_spec"
   ],
   "note": "Hypotheses: constraint system reached through the ConstraintSystem API, gates written with the checked operators (public enum variants bypass the checks), each selector index has one simple/complex flag, and the field characteristic exceeds the degree (the code compares against integers 1..degree)."
  },
  {
   "property": "C18",
   "status": "proved",
   "theorems": [
    "Verif.Floor.firstFit_ok",
    "Verif.Floor.slotIn_ok",
    "Verif.Floor.slotInBiggestAdviceFirst_ok",
    "Verif.Floor.v1_no_overlap",
    "Verif.Floor.v1_regions",
    "Verif.Floor.v1_constants",
    "Verif.Floor.v1_result",
    "Verif.Floor.mem_constantPositions",
    "Verif.Floor.constantPositions_nodup"
   ],
   "note": "V1 planner: first fit returns the least row where a region fits and its assertions hold; planning never panics; start rows in region order; assigned cells of different regions and constants are distinct; NotEnoughColumnsForConstants exactly when the free cells of the constants columns in the used rows are too few. Closures are the sequence of their calls, the same in both passes."
  },
  {
   "property": "C19",
   "status": "proved",
   "theorems": [
    "Verif.Floor.single_no_overlap",
    "Verif.Floor.single_regions",
    "Verif.Floor.single_constants",
    "Verif.Floor.single_result"
   ],
   "note": "Single-pass planner, any sequence of regions."
  },
  {
   "property": "C20",
   "status": "proved",
   "theorems": [
    "Verif.Table.assignTable_ok",
    "Verif.Table.assignTable_full",
    "Verif.Table.assignTables_ok",
    "Verif.Table.ignored_overwrite"
   ],
   "note": "For closures that propagate errors; a closure that ignores OverwriteDefault gets an inconsistent table (proved), and a table as long as the usable rows is refused (proved)."
  },
  {
   "property": "C21",
   "status": "proved",
   "theorems": [
    "Verif.Value.holds_or_missing",
    "Verif.Value.not_both",
    "Verif.Value.assign_ok",
    "Verif.Value.assign_err",
    "Verif.Value.map_holds",
    "Verif.Value.andThen_holds",
    "Verif.Value.zip_holds",
    "Verif.Value.unzip_holds",
    "Verif.Value.unzip_missing",
    "Verif.Value.transposeArray_holds",
    "Verif.Value.transposeArray_missing",
    "Verif.Value.transposeVec_panics",
    "Verif.Value.transposeVec_spec",
    "Verif.Value.collect_holds",
    "Verif.Value.neg_holds",
    "Verif.Value.add_holds",
    "Verif.Value.sub_holds",
    "Verif.Value.mul_holds",
    "Verif.Value.assertIfKnown_panics",
    "Verif.Value.errorIfKnownAnd_err",
    "Verif.Value.evaluate_addA",
    "Verif.Value.evaluate_subA",
    "Verif.Value.evaluate_mulA",
    "Verif.Value.evaluate_intoField",
    "Verif.Value.evaluate_cubeA",
    "Verif.Value.evaluate_invertA"
   ],
   "note": ""
  },
  {
   "property": "C22",
   "status": "proved",
   "theorems": [
    "Verif.Msm.msm_linear",
    "Verif.Msm.append_identity",
    "Verif.Msm.addToGScalars_panics",
    "Verif.Msm.multiexp_refines",
    "Verif.Msm.weierstrass_valid"
   ],
   "note": "Coordinates of curve points (pasta_curves) are a parameter with four stated laws, which are proved for every short Weierstrass curve (weierstrass_valid)."
  },
  {
   "property": "C23",
   "status": "proved",
   "theorems": [
    "Verif.Batch.batch_accepts",
    "Verif.Batch.batch_rejects",
    "Verif.Batch.batch_sound",
    "Verif.Batch.finalize_total"
   ],
   "note": ""
  },
  {
   "property": "C24",
   "status": "proved",
   "theorems": [
    "Verif.Ipa.opening_verifies",
    "Verif.Ipa.createProof_fails",
    "Verif.Ipa.useG_eq_useChallenges",
    "Verif.Ipa.computeS_dot_powers"
   ],
   "note": "Honest proofs verify whatever the randomness whenever the prover returns Ok; the prover can only fail on an identity point or a zero round challenge. The two ways of finishing (use_challenges and use_g) agree."
  },
  {
   "property": "C25",
   "status": "proved",
   "theorems": [
    "Verif.Multiopen.construct_spec",
    "Verif.Multiopen.sets_congr",
    "Verif.Multiopen.multiopen_verifies"
   ],
   "note": "Grouping is exact and fails exactly on a repeated (commitment, point); prover and verifier group identically; an honest opening verifies unless x3 is one of the points (there the verifier panics). Pointers are identifiers with a map to contents; a blind is found through the pointer."
  },
  {
   "property": "C26",
   "status": "proved",
   "theorems": [
    "Verif.Transcript.replay",
    "Verif.Transcript.absorbed_eq",
    "Verif.Transcript.absorb_injective",
    "Verif.Transcript.challenge_eq",
    "Verif.Transcript.readScalar_iff",
    "Verif.Transcript.readPoint_iff"
   ],
   "note": "BLAKE2b and the encodings of points and scalars (dependencies) are parameters: encodings canonical and of fixed length. The state left by a failed call is not modelled."
  },
  {
   "property": "C27",
   "status": "proved",
   "theorems": [
    "Verif.Commitment.read_write",
    "Verif.Commitment.write_read",
    "Verif.Commitment.new_eq",
    "Verif.Commitment.new_sized",
    "Verif.Commitment.commitLagrange_eq",
    "Verif.Commitment.commitLagrange_evals"
   ],
   "note": "The hash to the curve is a parameter. Encodings of points canonical and of fixed length."
  },
  {
   "property": "C28",
   "status": "proved",
   "theorems": [
    "Verif.Mock.mock_accepts",
    "Verif.Mock.ex_satisfied"
   ],
   "note": "The mock prover's cells, poison, gate, lookup and permutation checks after any sequence of assignment calls and selector compression. Failure locations and names left out. Needs n a power of two, at most 2^64, for rotations in lookups."
  },
  {
   "property": "C29",
   "status": "proved",
   "theorems": [
    "Verif.Mock.lookupCheck_spec",
    "Verif.Mock.lookupRows_spec",
    "Verif.Mock.mergeLoop_spec"
   ],
   "note": ""
  },
  {
   "property": "C30",
   "status": "proved",
   "theorems": [
    "Verif.Rows.keygen_rows",
    "Verif.Rows.keygen_run",
    "Verif.Rows.keygen_untouched",
    "Verif.Rows.witness_rows",
    "Verif.Rows.witness_run",
    "Verif.Rows.witness_finish",
    "Verif.Rows.mock_rows",
    "Verif.Rows.mock_run",
    "Verif.Rows.mock_untouched"
   ],
   "note": "Key generation does not check advice rows and the prover checks only advice and instance queries: a call a backend does not record is accepted without effect (part of the theorems)."
  },
  {
   "property": "C31",
   "status": "proved",
   "theorems": [
    "Verif.Cs.query_stable",
    "Verif.Cs.requery_same",
    "Verif.Cs.blindingFactors_spec",
    "Verif.Cs.numAdviceQueries_spec",
    "Verif.Cs.permutation_queried",
    "Verif.Cs.reach_queries",
    "Verif.Cs.reach_inv"
   ],
   "note": ""
  },
  {
   "property": "C32",
   "status": "proved",
   "theorems": [
    "Verif.Plonk.expressions_degree",
    "Verif.Plonk.permutation_degree",
    "Verif.Plonk.lookup_degree",
    "Verif.Plonk.quotient_fits"
   ],
   "note": "Degrees of the polynomials denoted by the prover's expression trees, columns of degree at most n-1."
  },
  {
   "property": "C33",
   "status": "proved",
   "theorems": [
    "Verif.Cost.proof_size",
    "Verif.Cost.proof_size_exact",
    "Verif.Cost.marginal_proof_size",
    "Verif.Cost.plain_size",
    "Verif.Cost.ex_size"
   ],
   "note": "Plain equality is false for circuits without lookups (plain_size): measure always counts the point sets {0,1} and {-1,0}. proof_size gives the exact difference for every circuit; proof_size_exact equality whenever there is a lookup. Hypotheses: proving succeeds, no zero challenge, rotations distinct modulo n (otherwise two sets coincide as points)."
  },
  {
   "property": "C34",
   "status": "proved",
   "theorems": [
    "Verif.Utilities.rangeCheck_iff",
    "Verif.Utilities.boolCheck_iff",
    "Verif.Utilities.ternary_one",
    "Verif.Utilities.ternary_zero",
    "Verif.Utilities.bitrangeSubset_eq",
    "Verif.Utilities.bitrangeSubset_panics",
    "Verif.Utilities.decomposeWord_eq",
    "Verif.Utilities.decomposeWord_sum",
    "Verif.Utilities.decomposeWord_panics",
    "Verif.Utilities.lebs2ip_eq",
    "Verif.Utilities.lebs2ip_i2lebsp",
    "Verif.Utilities.i2lebsp_lebs2ip"
   ],
   "note": "range_check needs range >= 1: with range 0 the expression is the word itself and still vanishes at 0 (rangeCheck_zero). Field elements are ZMod p, bit lengths are parameters."
  },
  {
   "property": "C35",
   "status": "proved",
   "theorems": [
    "Verif.RunningSum.decompose_sound",
    "Verif.RunningSum.decompose_succeeds",
    "Verif.RunningSum.decompose_complete",
    "Verif.RunningSum.copyDecompose_sound",
    "Verif.RunningSum.witnessDecompose_sound"
   ],
   "note": "Layout succeeds only when the number of windows is exactly the one needed for the word. Strict mode accepts honest values below 2^(word bits), and proves values below 2^(K W)."
  },
  {
   "property": "C36",
   "status": "proved",
   "theorems": [
    "Verif.LookupRange.shortRangeCheck_sound",
    "Verif.LookupRange.shortRangeCheck_complete",
    "Verif.LookupRange.copyShortCheck_spec",
    "Verif.LookupRange.witnessShortCheck_spec",
    "Verif.LookupRange.rangeCheck_sound",
    "Verif.LookupRange.rangeCheck_complete",
    "Verif.LookupRange.copyCheck_spec"
   ],
   "note": "Short checks need 2^(2K) <= p (K = 10 for the Pasta fields); tags need p > 5."
  },
  {
   "property": "C37",
   "status": "proved",
   "theorems": [
    "Verif.CondSwap.swap_sound",
    "Verif.CondSwap.swap_complete",
    "Verif.CondSwap.mux_sound",
    "Verif.CondSwap.mux_complete",
    "Verif.CondSwap.mux_rejects",
    "Verif.CondSwap.muxOnPoints_sound"
   ],
   "note": ""
  },
  {
   "property": "C38",
   "status": "proved",
   "theorems": [
    "Verif.Ecc.WitnessPoint.gate_point",
    "Verif.Ecc.WitnessPoint.gate_nonId",
    "Verif.Ecc.WitnessPoint.point_spec",
    "Verif.Ecc.WitnessPoint.constantPoint_sound",
    "Verif.Ecc.WitnessPoint.pointNonId_spec"
   ],
   "note": "Over any field of characteristic not 2 or 3 where b is not a square and -b not a cube (explicit hypothesis Good)."
  },
  {
   "property": "C39",
   "status": "proved",
   "theorems": [
    "Verif.Ecc.Add.polys_sound",
    "Verif.Ecc.Add.polys_complete",
    "Verif.Ecc.Add.gate_iff",
    "Verif.Ecc.Add.sound",
    "Verif.Ecc.Add.complete"
   ],
   "note": "Group law is Mathlib's; all cases including identities, doubling and opposite points."
  },
  {
   "property": "C40",
   "status": "proved",
   "theorems": [
    "Verif.Ecc.AddIncomplete.gate_iff",
    "Verif.Ecc.AddIncomplete.fails_iff",
    "Verif.Ecc.AddIncomplete.sound",
    "Verif.Ecc.AddIncomplete.complete",
    "Verif.Ecc.AddIncomplete.gate_double",
    "Verif.Ecc.AddIncomplete.gate_opposite"
   ],
   "note": "gate_double records that for equal inputs the gate leaves the output unconstrained."
  },
  {
   "property": "C41",
   "status": "partial",
   "theorems": [
    "Verif.Mul.assign_sound_partial",
    "Verif.Mul.assign_complete",
    "Verif.Mul.assign_honest_exists",
    "Verif.Mul.mul_unsound",
    "Verif.Pasta.pallas_mul_unsound"
   ],
   "note": "The full statement is false of the code: the base coordinates on the incomplete-addition rows are assigned (mul/incomplete.rs 309-310) and tied to each other by the q_mul_2 gate, but never copied from the base cells. mul_unsound proves that for every scalar and every base other than the identity the honest layout has a satisfying assignment with a wrong result (run the incomplete rows on -P). assign_sound_partial proves the statement for assignments where these cells hold the base; missing is exactly that hypothesis, which a copy constraint would supply. assign_complete and assign_honest_exists give completeness. Hypotheses on the curve (no point with a zero coordinate, the group order) are explicit."
  },
  {
   "property": "C42",
   "status": "proved",
   "theorems": [
    "Verif.Pow5.permute_ok",
    "Verif.Pow5.fullGate_iff",
    "Verif.Pow5.partialGate_iff",
    "Verif.Pow5.fullRound_ok",
    "Verif.Pow5.partialRound_ok",
    "Verif.Pow5.toy_good",
    "Verif.Poseidon.permute_eq"
   ],
   "note": "For specifications whose S-box is x^5 (the chip hard-codes it), with even round numbers (asserted by configure), enough round constants and mds * mds_inv = 1. permute_ok: soundness for every satisfying assignment, completeness of the computed witnesses, and consistency of the layout."
  },
  {
   "property": "C43",
   "status": "proved",
   "theorems": [
    "Verif.Poseidon.run_eq",
    "Verif.Poseidon.hash_eq",
    "Verif.Poseidon.permute_eq",
    "Verif.Pow5.run_sim",
    "Verif.Pow5.hash_sim",
    "Verif.Pow5.hash_ok"
   ],
   "note": "The empty message panics (hash_eq). The circuit sponge and hash simulate the primitive ones, for the computed witnesses and for every satisfying assignment."
  },
  {
   "property": "C44",
   "status": "proved",
   "theorems": [
    "Verif.Mds.generateMds_spec",
    "Verif.Mds.search_exact",
    "Verif.Mds.isUnique_iff",
    "Verif.Mds.build_succeeds"
   ],
   "note": "Any field and any width; the field elements drawn are arbitrary."
  },
  {
   "property": "C45",
   "status": "proved",
   "theorems": [
    "Verif.Grain.grain_spec",
    "Verif.Grain.initState_eq",
    "Verif.Grain.next_spec",
    "Verif.Grain.nextFieldElement_some",
    "Verif.Grain.nextFieldElement_ok",
    "Verif.Grain.withoutRejection_spec",
    "Verif.Grain.toNat_eq"
   ],
   "note": "next_spec also proves that the self-shrinking iterator always terminates."
  },
  {
   "property": "C46",
   "status": "proved",
   "theorems": [
    "Verif.Plonk.verifier_checks_prover"
   ],
   "note": "Constraint part of create_proof and verify_proof (proof contents as polynomials; commitments and transcript are not part of this theorem). Hypotheses: blinding factors leave a usable row, fewer than 2^32 rows, no zero denominator for the given challenges, a circuit with lookups has at least one column (the evaluator panics otherwise), every query refers to an existing column with |rotation| at most n."
  },
  {
   "property": "C47",
   "status": "proved",
   "theorems": [
    "Verif.Expr.evaluate_ring",
    "Verif.Expr.evaluate_map",
    "Verif.Expr.value_eval",
    "Verif.Expr.degree_bound",
    "Verif.Expr.degree_exact",
    "Verif.Expr.add_spec",
    "Verif.Expr.sub_spec",
    "Verif.Expr.mul_spec",
    "Verif.Expr.neg_scale_spec",
    "Verif.Expr.square_spec",
    "Verif.Expr.extractSimple_spec",
    "Verif.Expr.built_spec",
    "Verif.Expr.built_extract",
    "Verif.Expr.withSelector_spec"
   ],
   "note": ""
  },
  {
   "property": "C48",
   "status": "proved",
   "theorems": [
    "Verif.Protocol.verify_instances",
    "Verif.Protocol.prove_instances"
   ],
   "note": "Exact for the verifier. On the prover's side the instances are hashed one after the other, so an identity commitment of an earlier instance can be reported (as a transcript error) before InstanceTooLarge."
  },
  {
   "property": "C49",
   "status": "proved",
   "theorems": [
    "Verif.Protocol.honest_proof_verifies",
    "Verif.Protocol.setup_of_new"
   ],
   "note": "Synthesis is not part of this model: the advice columns after synthesis are an input. Exceptional challenges are excluded by an explicit hypothesis (Lucky) on the challenges actually squeezed; for an exceptional x or x3 the code panics. Encodings and the hash are parameters."
  },
  {
   "property": "C50",
   "status": "proved",
   "theorems": [
    "Verif.Plonk.soundness",
    "Verif.Plonk.soundness_count",
    "Verif.Plonk.xy_sound",
    "Verif.Plonk.rows_sound"
   ],
   "note": "Soundness of the constraint part against committed polynomials: evaluations are those of the committed polynomials (binding of the commitments and correctness of the opening argument are not part of it). Hypotheses on delta (order coprime to n, at least the number of columns) are those of the Pasta constants."
  },
  {
   "property": "C51",
   "status": "proved",
   "theorems": [
    "Verif.Sound.opening_sound",
    "Verif.Sound.Doomed.bad",
    "Verif.Sound.Logged.unique",
    "Verif.Sound.forged_accepted"
   ],
   "note": "Algebraic provers: every point read comes with a representation over the generators, odd under negation, chosen adaptively but once per point (two representations of one point are a relation already). The bad sets are quantified before the hash function and depend on the log of what was read and squeezed before."
  },
  {
   "property": "C52",
   "status": "proved",
   "theorems": [
    "Verif.Sound.multiopen_sound",
    "Verif.Sound.multiopen_doomed",
    "Verif.Sound.forgedMulti_accepted"
   ],
   "note": "Same conventions as C51. The queries may share commitments and points in any way; a repeated (commitment, point) pair is refused by the verifier."
  },
  {
   "property": "C53",
   "status": "proved",
   "theorems": [
    "Verif.Sound.proof_sound",
    "Verif.Sound.core_sound",
    "Verif.Sound.dishonest_relation",
    "Verif.Sound.forgedRun_eq"
   ],
   "note": "Combines C50, C51 and C52 over the whole verifier, several circuit instances per proof included. Algebraic provers as in C51; verifying key commitments (fixed, permutation) and instance commitments are public, a prover whose representation of one of them differs from the public one has given a relation."
  },
  {
   "property": "C54",
   "status": "proved",
   "theorems": [
    "Verif.Link.mock_accepted_verifies",
    "Verif.Link.sat_of_mock",
    "Verif.Link.assemble_spec",
    "Verif.Link.linkRun_verifies"
   ],
   "note": "Combines C28, C17, C30 and C49. The circuit's executions are the lists of calls they make; key generation and proving must make the same selector, fixed, copy and fill calls (SameCircuit). transcript_repr, a hash of the verifying key, is a parameter."
  },
  {
   "property": "C55",
   "status": "proved",
   "theorems": [
    "Verif.Link.accepted_proof_meets",
    "Verif.Link.assemble_spec"
   ],
   "note": "Combines C53 and C17. Algebraic provers as in C51; transcript_repr is a parameter."
  },
  {
   "property": "C56",
   "status": "proved",
   "theorems": [
    "Verif.Link.keygen_total",
    "Verif.Link.assemble_total"
   ],
   "note": "Errors returned by the circuit's own synthesize are not part of the calls; Configured states what the caller respects (columns of this constraint system, rotations within the number of rows, characteristic above the degree)."
  },
  {
   "property": "C57",
   "status": "proved",
   "theorems": [
    "Verif.Mock.mock_cells_assigned"
   ],
   "note": "The gate's queried selectors and cells (recorded by create_gate through VirtualCells) are given as a list; the layout of the region is any sequence of calls between enter_region and exit_region. An assignment attempt that fails for an unknown value or missing column counts as an assignment, as in the code."
  },
  {
   "property": "C58",
   "status": "proved",
   "theorems": [
    "Verif.Sinsemilla.hashToPoint_sound",
    "Verif.Sinsemilla.hashToPointPrivate_sound",
    "Verif.Sinsemilla.Hashes.value",
    "Verif.Sinsemilla.hashToPoint_complete",
    "Verif.Sinsemilla.hashToPointPrivate_complete",
    "Verif.Sinsemilla.Example.hash_example",
    "Verif.Sinsemilla.Example.collision_unsound"
   ],
   "note": "Generators are a parameter; the region is modelled with the gates, copies, constants and the lookup of the chip. The exceptional case accumulator = generator is kept as an explicit alternative in the conclusion, and Example.collision_unsound shows that it cannot be removed."
  },
  {
   "property": "C59",
   "status": "proved",
   "theorems": [
    "Verif.Pasta.pallas_prime",
    "Verif.Pasta.vesta_prime",
    "Verif.Pasta.pallas_good",
    "Verif.Pasta.vesta_good",
    "Verif.Pasta.pallas_card",
    "Verif.Pasta.vesta_card",
    "Verif.Pasta.pallas_order",
    "Verif.Pasta.vesta_order",
    "Verif.Pasta.pallasConsts_valid",
    "Verif.Pasta.vestaConsts_valid",
    "Verif.Pasta.order_eq",
    "Verif.Pasta.order_prime",
    "Verif.Pasta.pallas_mul_complete"
   ],
   "note": "Primality by Pratt certificates, the order from a point of order q, the bound 2p and the absence of 2-torsion; all checked by the kernel. The two moduli are those of the book; the crate pasta_curves is not part of the repository."
  },
  {
   "property": "C60",
   "status": "proved",
   "theorems": [
    "Verif.Merkle.hashLayer_sound",
    "Verif.Merkle.calculateRoot_sound",
    "Verif.Merkle.hashLayer_complete",
    "Verif.Merkle.calculateRoot_complete",
    "Verif.Merkle.calculateRoot_satisfiable",
    "Verif.Merkle.crh_binding",
    "Verif.Merkle.root_binding",
    "Verif.Merkle.pallas_root_sound",
    "Verif.Merkle.pallas_path_exists",
    "Verif.Commit.root_relation"
   ],
   "note": "Encodings of nodes may be non-canonical, as the protocol specification allows; a Sinsemilla collision (accumulator equal to a generator) is excepted, see C58. Binding names the colliding messages, which are those hashed in the same layer. pallas_path_exists meets the hypotheses for every path."
  },
  {
   "property": "C61",
   "status": "proved",
   "theorems": [
    "Verif.MulFixed.FullWidth.assign_sound",
    "Verif.MulFixed.FullWidth.assign_complete",
    "Verif.MulFixed.Example.pallas_full"
   ],
   "note": "The tables are taken to be as FixedPoint documents them (C65); scalars witnessed beforehand hit todo! in the code."
  },
  {
   "property": "C62",
   "status": "proved",
   "theorems": [
    "Verif.MulFixed.Short.assign_sound",
    "Verif.MulFixed.Short.assign_complete",
    "Verif.MulFixed.Example.pallas_short"
   ],
   "note": ""
  },
  {
   "property": "C63",
   "status": "proved",
   "theorems": [
    "Verif.MulFixed.BaseFieldElem.assign_sound",
    "Verif.MulFixed.BaseFieldElem.assign_complete",
    "Verif.MulFixed.Example.pallas_field"
   ],
   "note": "For p = 2^254 + t_P as in the code."
  },
  {
   "property": "C64",
   "status": "proved",
   "theorems": [
    "Verif.MulFixed.Short.assignScalarSign_sound",
    "Verif.MulFixed.Short.assignScalarSign_complete"
   ],
   "note": ""
  },
  {
   "property": "C65",
   "status": "proved",
   "theorems": [
    "Verif.MulFixed.computed_valid",
    "Verif.MulFixed.computeLagrangeCoeffs_spec",
    "Verif.MulFixed.computeLagrangeCoeffs_succeeds",
    "Verif.MulFixed.computeWindowTable_spec",
    "Verif.MulFixed.findZAndUs_spec",
    "Verif.MulFixed.findZsAndUs_succeeds",
    "Verif.MulFixed.Example.tables"
   ],
   "note": "The search for z is bounded by a limit argument in the model, as in the code."
  },
  {
   "property": "C66",
   "status": "proved",
   "theorems": [
    "Verif.Commit.commit_sound",
    "Verif.Commit.shortCommit_sound",
    "Verif.Commit.commit_complete",
    "Verif.Commit.shortCommit_complete",
    "Verif.Commit.Example.pallas_commit"
   ],
   "note": "The accumulator of the hash meeting a generator is excepted, see C58; C67 shows it reveals a relation."
  },
  {
   "property": "C67",
   "status": "proved",
   "theorems": [
    "Verif.Commit.commit_relation",
    "Verif.Commit.shortCommit_relation",
    "Verif.Commit.collides_relation",
    "Verif.Commit.commit_binding",
    "Verif.Commit.shortCommit_binding",
    "Verif.Commit.breaks_relation",
    "Verif.Commit.root_relation",
    "Verif.Commit.Satisfies.opens"
   ],
   "note": "The relation is named explicitly (combine, meet), because some relation always exists in a group of prime order."
  },
  {
   "property": "C68",
   "status": "proved",
   "theorems": [
    "Verif.Commit.messageFromBitstring_iff",
    "Verif.Commit.messageFromBitstring_spec",
    "Verif.Commit.wordsOf_flatten"
   ],
   "note": ""
  },
  {
   "property": "C69",
   "status": "proved",
   "theorems": [
    "Verif.Sha256.mem_table",
    "Verif.Sha256.rangeCheck_zero",
    "Verif.Sha256.tag_bound",
    "Verif.Sha256.twoBit_zero",
    "Verif.Sha256.threeBit_zero",
    "Verif.Sha256.genState_eq",
    "Verif.Sha256.big_pallas"
   ],
   "note": "big_pallas shows the Pallas base field is large enough."
  },
  {
   "property": "C70",
   "status": "proved",
   "theorems": [
    "Verif.Sha256.decomposeA_sound",
    "Verif.Sha256.decomposeE_sound",
    "Verif.Sha256.decomposeBC_sound",
    "Verif.Sha256.decomposeFG_sound",
    "Verif.Sha256.upperSigma0_sound",
    "Verif.Sha256.upperSigma1_sound",
    "Verif.Sha256.ch_sound",
    "Verif.Sha256.chNeg_sound",
    "Verif.Sha256.maj_sound",
    "Verif.Sha256.subregion1Word_sound",
    "Verif.Sha256.subregion3Word_sound",
    "Verif.Sha256.subregion2Word_sound",
    "Verif.Sha256.lsv2_unsound",
    "Verif.Sha256.big_pallas"
   ],
   "note": "For W_14..W_48 under the hypothesis that two pieces are bits; lsv2_unsound shows it is needed."
  },
  {
   "property": "C71",
   "status": "proved",
   "theorems": [
    "Verif.Sha256.process_complete",
    "Verif.Sha256.wSeq_rec",
    "Verif.Sha256.schedG_mem",
    "Verif.Sha256.big_pallas"
   ],
   "note": ""
  },
  {
   "property": "C72",
   "status": "proved",
   "theorems": [
    "Verif.Sha256.process_free",
    "Verif.Sha256.big_pallas"
   ],
   "note": "A negative result: the recurrence is not enforced on the words used by the compression."
  },
  {
   "property": "C73",
   "status": "proved",
   "theorems": [
    "Verif.Sha256.sha256_complete",
    "Verif.Sha256.sha256_not_fips",
    "Verif.Sha256.chip_constants",
    "Verif.Sha256.constants_unique",
    "Verif.Sha256.blkOf_chain",
    "Verif.Sha256.big_pallas"
   ],
   "note": ""
  },
  {
   "property": "C74",
   "status": "proved",
   "theorems": [
    "Verif.Sha256.sha256_free",
    "Verif.Sha256.update_twice_fails",
    "Verif.Sha256.sha256_partial_fails",
    "Verif.Sha256.sha256_empty",
    "Verif.Sha256.big_pallas"
   ],
   "note": "A negative result: carries are unconstrained and the last words of a block are witnessed again without a copy."
  },
  {
   "property": "C75",
   "status": "proved",
   "theorems": [
    "Verif.Hiding.evaluations_uniform",
    "Verif.Hiding.blind_free",
    "Verif.Hiding.blind_shift"
   ],
   "note": ""
  },
  {
   "property": "C76",
   "status": "proved",
   "theorems": [
    "Verif.Hiding.ipa_hiding",
    "Verif.Hiding.multiopen_hiding"
   ],
   "note": "Perfect hiding in the form of equal transcripts: an existence statement for every good run, not a statement on distributions."
  },
  {
   "property": "C77",
   "status": "proved",
   "theorems": [
    "Verif.Hiding.proof_hides_witness",
    "Verif.Hiding.exRun\u2082_hides"
   ],
   "note": "Witness indistinguishability as equality of the sets of possible proofs for good challenges: an existence statement for every good run, not a statement on distributions. Nonvanishing of the grand product factors of the second assignment is assumed for every randomness of its blinding rows, since only usable rows occur in it."
  },
  {
   "property": "C78",
   "status": "proved",
   "theorems": [
    "Verif.P128.fp_generated",
    "Verif.P128.fq_generated",
    "Verif.P128.fp_permute_bijective",
    "Verif.P128.fq_permute_bijective",
    "Verif.P128.permute_bijective",
    "Verif.P128.fp_good",
    "Verif.P128.fq_good"
   ],
   "note": "The generator is run by the kernel on an 80-bit number, proved to simulate the Grain model. Vectors of test_vectors.rs are examples."
  },
  {
   "property": "C79",
   "status": "proved",
   "theorems": [
    "Verif.EccApi.circuit_sound",
    "Verif.EccApi.circuit_sound_fixed",
    "Verif.EccApi.circuit_complete",
    "Verif.EccApi.HSteps.steps",
    "Verif.EccApi.pallas_curve",
    "Verif.EccApi.commitment_complete",
    "Verif.EccApi.commitment_sound",
    "Verif.EccApi.mixed_complete",
    "Verif.EccApi.addIncomplete_free"
   ],
   "note": "circuit_sound is for the code as it is and circuits without variable-base multiplication; since NonIdentityPoint::mul as it is is not sound (mul_unsound, C41), circuits with it are covered by circuit_sound_fixed, for mul with the missing constraint. circuit_complete is for the code as it is. addIncomplete_free shows that the exceptional case is real."
  },
  {
   "property": "C80",
   "status": "proved",
   "theorems": [
    "Verif.Layout.v1_sound",
    "Verif.Layout.single_sound",
    "Verif.Layout.v1_complete",
    "Verif.Layout.single_complete",
    "Verif.Layout.split_describes",
    "Verif.Layout.exists_witness",
    "Verif.Layout.exists_configured",
    "Verif.Layout.ecc_poly",
    "Verif.EndToEnd.toy_circuit",
    "Verif.EndToEnd.toy_meets"
   ],
   "note": "That the backend receives the planner's calls is the relation Lays, that the constraint system is the gadgets' is Implements; both are shown for a concrete circuit in EndToEnd/Example.lean. exists_configured shows that gates and lookups made of queries by ring operations always have such a constraint system."
  },
  {
   "property": "C81",
   "status": "proved",
   "theorems": [
    "Verif.EndToEnd.accepted_circuit",
    "Verif.EndToEnd.honest_circuit",
    "Verif.EndToEnd.accepted_ecc",
    "Verif.EndToEnd.ecc_execution",
    "Verif.EndToEnd.toyRun_verifies",
    "Verif.EndToEnd.exists_execution",
    "Verif.EndToEnd.EccExample.exists_ecc"
   ],
   "note": "Soundness in the algebraic group model as for C55. The expression trees of the chip's gates are a hypothesis (Implements) of accepted_ecc; exists_ecc meets all its hypotheses with a program over Pallas and all gates of the chip."
  },
  {
   "property": "C82",
   "status": "proved",
   "theorems": [
    "Verif.Floor.single_same",
    "Verif.Floor.v1_same",
    "Verif.Floor.single_erase",
    "Verif.Floor.v1_erase",
    "Verif.EndToEnd.alike_hash"
   ],
   "note": "The planners are proved for every circuit; alike_hash shows that the calls of the Poseidon gadget depend on the message in the values of witnesses only."
  },
  {
   "property": "C83",
   "status": "proved",
   "theorems": [
    "Verif.EndToEnd.Preimage.preimage",
    "Verif.EndToEnd.Preimage.synthesize_ok",
    "Verif.EndToEnd.Preimage.synthesize_alike",
    "Verif.EndToEnd.Preimage.exists_circuit",
    "Verif.EndToEnd.Preimage.exists_preimage_fp"
   ],
   "note": "The constraint system is one with the gates of the chip and equality enabled on all columns; configure enables it on fewer. That the prover finishes is a hypothesis of the completeness part, as in C81."
  },
  {
   "property": "C84",
   "status": "proved",
   "theorems": [
    "Verif.Protocol.createProof_fails",
    "Verif.Protocol.exBroken_fails",
    "Verif.Protocol.exBroken_run",
    "Verif.Plonk.stages_total",
    "Verif.Multiopen.createProof_io",
    "Verif.Ipa.createProof_io",
    "Verif.EndToEnd.honest_circuit_ends",
    "Verif.EndToEnd.Simple.ends"
   ],
   "note": "The hypothesis that no challenge is zero is on the hash-to-field function, not on one run, as in C24. exBroken_run is a run of the example. honest_circuit_ends is the property for executed circuits with their keys, Simple.ends for the tutorial circuit."
  },
  {
   "property": "C85",
   "status": "proved",
   "theorems": [
    "Verif.EndToEnd.Simple.simple",
    "Verif.EndToEnd.Simple.mock_means",
    "Verif.EndToEnd.Simple.configure_eq",
    "Verif.EndToEnd.Simple.execute_eq"
   ],
   "note": "The circuit of examples/simple-example.rs with its exact constraint system and the single pass planner. The prover half assumes no exceptional challenge, the verifier half excepts bad challenges and found relations, as in C81."
  },
  {
   "property": "C86",
   "status": "proved",
   "theorems": [
    "Verif.EndToEnd.mock_circuit",
    "Verif.EndToEnd.Preimage.mock_means",
    "Verif.EndToEnd.Simple.mock_means"
   ],
   "note": "For circuits laid out by either planner, whose gadgets and backend calls are related as in C81. Soundness of acceptance only: the mock prover also rejects cells that are not assigned."
  },
  {
   "property": "C87",
   "status": "proved",
   "theorems": [
    "Verif.Mock.mock_rejects",
    "Verif.Mock.mock_incomplete",
    "Verif.Mock.ex_rejects",
    "Verif.Mock.exZero_rejected",
    "Verif.Mock.exZero_satisfied"
   ],
   "note": "Model and hypotheses of C28. Names and locations inside failures are left out; a failure carries the indices that identify it. exZero is a satisfied circuit that is reported: a copy between an unassigned cell and a zero."
  },
  {
   "property": "C88",
   "status": "proved",
   "theorems": [
    "Verif.Mock.mock_returns",
    "Verif.Mock.ex_returns"
   ],
   "note": "Hypotheses on the configuration as in C29 (Link.Configured); the example beside the theorem is a region that only enables a selector, for which verify panics."
  },
  {
   "property": "C89",
   "status": "proved",
   "theorems": [
    "Verif.Mock.mock_complete",
    "Verif.Mock.mock_decides",
    "Verif.Mock.mock_supplied",
    "Verif.Mock.ex_decides"
   ],
   "note": "Model of C28, C57 and C88. Satisfaction is that of C28 (Satisfied), stated on the calls and not on the prover's state; it does not depend on the blinding values for such circuits."
  },
  {
   "property": "C90",
   "status": "proved",
   "theorems": [
    "Verif.Mock.mock_runs",
    "Verif.Mock.mock_starts",
    "Verif.Mock.mock_ok",
    "Verif.Mock.mock_verdict",
    "Verif.EndToEnd.Simple.mock_product",
    "Verif.EndToEnd.Simple.mock_other"
   ],
   "note": "Model of C28, C30 and C88. For the tutorial circuit the calls are those the model of the layouter makes (Simple.execute, C85); where regions are entered and exited is written out in wholeCalls, and the recorded queried cells of its gate in mainInfos."
  }
 ]
}