'GkrMimc.C01_log2_exact' depends on axioms: [propext, Classical.choice, Quot.sound]
'GkrMimc.C01_log2_nonpos' depends on axioms: [propext, Quot.sound]
'GkrMimc.C02_sizes' depends on axioms: [propext, Classical.choice, Quot.sound]
'GkrMimc.C02_negative' depends on axioms: [propext, Classical.choice, Quot.sound]
'GkrMimc.C02_chunk_ranges' depends on axioms: [propext, Classical.choice, Quot.sound]
'GkrMimc.C02_chunk_ranges_panic' depends on axioms: [propext, Classical.choice, Quot.sound]
'GkrMimc.C03_evaluate_is_mle' depends on axioms: [propext, Classical.choice, Quot.sound]
'GkrMimc.C03_evaluate_boolean' depends on axioms: [propext, Classical.choice, Quot.sound]
'GkrMimc.C03_fold_partial_eval' depends on axioms: [propext, Classical.choice, Quot.sound]
'GkrMimc.C03_evaluate_too_many' depends on axioms: [propext, Classical.choice, Quot.sound]
'GkrMimc.C03_evaluate_too_few' depends on axioms: [propext, Classical.choice, Quot.sound]
'GkrMimc.C04_deepCopy' depends on axioms: [propext, Quot.sound]
'GkrMimc.C04_evaluate' depends on axioms: [propext, Classical.choice, Quot.sound]
'GkrMimc.C04_evaluateLeftAndRight' depends on axioms: [propext, Classical.choice, Quot.sound]
'GkrMimc.C04_fold' depends on axioms: [propext, Classical.choice, Quot.sound]
'GkrMimc.C04_linearCombination' depends on axioms: [propext, Classical.choice, Quot.sound]
'GkrMimc.C05_evalEq' depends on axioms: [propext, Classical.choice, Quot.sound]
'GkrMimc.C05_evalEq_symm' depends on axioms: [propext, Quot.sound]
'GkrMimc.C05_evalEq_boolean' depends on axioms: [propext, Quot.sound]
'GkrMimc.C05_foldedEqTable' depends on axioms: [propext, Classical.choice, Quot.sound]
'GkrMimc.C06_chunkedEqTable' depends on axioms: [propext, Classical.choice, Quot.sound]
'GkrMimc.C06_chunkedEqTable_panics' depends on axioms: [propext, Classical.choice, Quot.sound]
'GkrMimc.C07_evaluateChunked_partial' depends on axioms: [propext, Classical.choice, Quot.sound]
'GkrMimc.C07_evaluateMixedChunked_partial' depends on axioms: [propext, Classical.choice, Quot.sound]
'GkrMimc.C07_single_chunk_panics' depends on axioms: [propext, Classical.choice, Quot.sound]
'GkrMimc.C07_single_chunk_mixed_panics' depends on axioms: [propext, Classical.choice, Quot.sound]
'GkrMimc.C07_negation' depends on axioms: [propext, Classical.choice, Quot.sound]
'GkrMimc.C08_evaluatePolynomial' depends on axioms: [propext, Classical.choice, Quot.sound]
'GkrMimc.C08_evaluatePolynomial_empty' depends on axioms: [propext, Quot.sound]
'GkrMimc.C08_interpolateOnRange' depends on axioms: [propext, Classical.choice, Quot.sound]
'GkrMimc.C08_interpolateOnRange_panics' depends on axioms: [propext, Classical.choice, Quot.sound]
'GkrMimc.C08_interpolateOnRange_fr' depends on axioms: [propext, Classical.choice, Quot.sound]
'GkrMimc.C09_add' depends on axioms: [propext, Classical.choice, Quot.sound]
'GkrMimc.C09_sub' depends on axioms: [propext, Classical.choice, Quot.sound]
'GkrMimc.C09_mul' depends on axioms: [propext, Classical.choice, Quot.sound]
'GkrMimc.C09_length' depends on axioms: [propext, Classical.choice, Quot.sound]
'GkrMimc.C09_no_core' depends on axioms: [propext, Quot.sound]
'GkrMimc.C09_linearCombination_partial' depends on axioms: [propext, Classical.choice, Quot.sound]
'GkrMimc.C09_linearCombination_negation' depends on axioms: [propext, Classical.choice, Quot.sound]
'GkrMimc.C10_batch_routes' depends on axioms: [propext, Classical.choice, Quot.sound]
'GkrMimc.C10_functions' depends on axioms: [propext, Quot.sound]
'GkrMimc.C10_equal_id' depends on axioms: [propext, Classical.choice, Quot.sound]
'GkrMimc.C10_snark_gates' depends on axioms: [propext, Quot.sound]
'GkrMimc.C11_degrees' depends on axioms: [propext, Classical.choice, Quot.sound]
'GkrMimc.C11_degrees_tight' depends on axioms: [propext, Classical.choice, Quot.sound]
'GkrMimc.C12_layer_evaluate_partial' depends on axioms: [propext, Classical.choice, Quot.sound]
'GkrMimc.C12_assign_partial' depends on axioms: [propext, Classical.choice, Quot.sound]
'GkrMimc.C12_negation' depends on axioms: [propext, Classical.choice, Quot.sound]
'GkrMimc.C12_negation_panic' depends on axioms: [propext, Classical.choice, Quot.sound]
'GkrMimc.C12_evaluate_exact' depends on axioms: [propext, Classical.choice, Quot.sound]
'GkrMimc.C13_gates_distinct_partial' depends on axioms: [propext, Quot.sound]
'GkrMimc.C13_gates_iff' depends on axioms: [propext, Classical.choice, Quot.sound]
'GkrMimc.C13_gates_always' depends on axioms: [propext, Quot.sound]
'GkrMimc.C13_negation' depends on axioms: [propext, Classical.choice, Quot.sound]
'GkrMimc.C14_static_tables' depends on axioms: [propext, Classical.choice, Quot.sound]
'GkrMimc.C14_wires_in_range' depends on axioms: [propext, Classical.choice, Quot.sound]
'GkrMimc.C15_layer_claim' depends on axioms: [propext, Classical.choice, Quot.sound]
'GkrMimc.C15_layer_claim_evaluated' depends on axioms: [propext, Classical.choice, Quot.sound]
'GkrMimc.C15_needs_distinct_ids' depends on axioms: [propext, Classical.choice, Quot.sound]
'GkrMimc.C16_complete' depends on axioms: [propext, Classical.choice, Quot.sound]
'GkrMimc.C16_no_gates_panics' depends on axioms: [propext, Classical.choice, Quot.sound]
'GkrMimc.C17_accepts_iff' depends on axioms: [propext, Classical.choice, Quot.sound]
'GkrMimc.C17_rejects' depends on axioms: [propext, Classical.choice, Quot.sound]
'GkrMimc.C17_sound' depends on axioms: [propext, Classical.choice, Quot.sound]
'GkrMimc.C17_few_bad_challenges' depends on axioms: [propext, Classical.choice, Quot.sound]
'GkrMimc.C18_prove' depends on axioms: [propext, Classical.choice, Quot.sound]
'GkrMimc.C18_getClaim' depends on axioms: [propext, Classical.choice, Quot.sound]
'GkrMimc.C18_complete' depends on axioms: [propext, Classical.choice, Quot.sound]
'GkrMimc.C19_prove' depends on axioms: [propext, Classical.choice, Quot.sound]
'GkrMimc.C19_complete' depends on axioms: [propext, Classical.choice, Quot.sound]
'GkrMimc.C19_deadlock' depends on axioms: [propext, Classical.choice, Quot.sound]
'GkrMimc.C20_holds' does not depend on any axioms
'GkrMimc.C20_evaluate_attained' depends on axioms: [propext, Classical.choice, Quot.sound]
'GkrMimc.C20_getClaim_attained' depends on axioms: [propext, Classical.choice, Quot.sound]
'GkrMimc.C20_prove' depends on axioms: [propext, Classical.choice, Quot.sound]
'GkrMimc.C20_getClaim' depends on axioms: [propext, Classical.choice, Quot.sound]
'GkrMimc.C20_evaluate' depends on axioms: [propext, Classical.choice, Quot.sound]
'GkrMimc.C20_layerAsBKTWithCopy' depends on axioms: [propext, Classical.choice, Quot.sound]
'GkrMimc.C20_chunked_loop' depends on axioms: [propext, Classical.choice, Quot.sound]
'GkrMimc.C20_prove_attained' depends on axioms: [propext, Classical.choice, Quot.sound]
'GkrMimc.C20_layerAsBKTWithCopy_attained' depends on axioms: [propext, Classical.choice, Quot.sound]
'GkrMimc.C20_chunked_loop_attained' depends on axioms: [propext, Classical.choice, Quot.sound]
'GkrMimc.C21_evaluate' depends on axioms: [propext, Classical.choice, Quot.sound]
'GkrMimc.C21_evaluate_deadlock' depends on axioms: [propext, Classical.choice, Quot.sound]
'GkrMimc.C21_layerAsBKTWithCopy' depends on axioms: [propext, Classical.choice, Quot.sound]
'GkrMimc.C21_layerAsBKTWithCopy_deadlock' depends on axioms: [propext, Classical.choice, Quot.sound]
'GkrMimc.C21_chunked_loop' depends on axioms: [propext, Classical.choice, Quot.sound]
'GkrMimc.C21_sub' depends on axioms: [propext, Classical.choice, Quot.sound]
'GkrMimc.C21_mul' depends on axioms: [propext, Classical.choice, Quot.sound]
'GkrMimc.C21_getClaim' depends on axioms: [propext, Classical.choice, Quot.sound]
'GkrMimc.C21_getClaim_deadlock' depends on axioms: [propext, Classical.choice, Quot.sound]
'GkrMimc.C22_complete_partial' depends on axioms: [propext, Classical.choice, Quot.sound]
'GkrMimc.C22_complete_assign_partial' depends on axioms: [propext, Classical.choice, Quot.sound]
'GkrMimc.C22_single_chunk_panics' depends on axioms: [propext, Classical.choice, Quot.sound]
'GkrMimc.C22_negation' depends on axioms: [propext, Classical.choice, Quot.sound]
'GkrMimc.C22_mimc_partial' depends on axioms: [propext, Classical.choice, Quot.sound]
'GkrMimc.C23_forgery_any' depends on axioms: [propext, Classical.choice, Quot.sound]
'GkrMimc.C23_any_outputs' depends on axioms: [propext, Classical.choice, Quot.sound]
'GkrMimc.C23_transplant' depends on axioms: [propext, Classical.choice, Quot.sound]
'GkrMimc.C23_all_outputs' depends on axioms: [propext, Classical.choice, Quot.sound]
'GkrMimc.C23_accepts_iff' depends on axioms: [propext, Classical.choice, Quot.sound]
'GkrMimc.C23_accept_partial' depends on axioms: [propext, Classical.choice, Quot.sound]
'GkrMimc.C23_sound_partial' depends on axioms: [propext, Classical.choice, Quot.sound]
'GkrMimc.C23_unlucky_round' depends on axioms: [propext, Classical.choice, Quot.sound]
'GkrMimc.C23_unlucky_combination' depends on axioms: [propext, Classical.choice, Quot.sound]
'GkrMimc.C23_forgery' depends on axioms: [propext, Classical.choice, Quot.sound]
'GkrMimc.C23_negation' depends on axioms: [propext, Classical.choice, Quot.sound]
'GkrMimc.C23_outputs_wrong' depends on axioms: [propext, Classical.choice, Quot.sound]
'GkrMimc.C24_panics_iff' depends on axioms: [propext, Classical.choice, Quot.sound]
'GkrMimc.C24_total_partial' depends on axioms: [propext, Classical.choice, Quot.sound]
'GkrMimc.C24_negation_empty' depends on axioms: [propext, Classical.choice, Quot.sound]
'GkrMimc.C24_negation_empty_round' depends on axioms: [propext, Quot.sound]
'GkrMimc.C24_negation_junk' depends on axioms: [propext, Classical.choice, Quot.sound]
'GkrMimc.C25_only_initial_value' depends on axioms: [propext, Classical.choice, Quot.sound]
'GkrMimc.C25_binds_partial' depends on axioms: [propext, Classical.choice, Quot.sound]
'GkrMimc.C25_single_output_partial' depends on axioms: [propext, Classical.choice, Quot.sound]
'GkrMimc.C25_mimc_weights' depends on axioms: [propext, Classical.choice, Quot.sound]
'GkrMimc.C25_negation' depends on axioms: [propext, Classical.choice, Quot.sound]
'GkrMimc.C26_hash' depends on axioms: [propext, Classical.choice, Quot.sound]
'GkrMimc.C26_permutation' depends on axioms: [propext, Classical.choice, Quot.sound]
'GkrMimc.C26_update' depends on axioms: [propext, Classical.choice, Quot.sound]
'GkrMimc.C26_empty' depends on axioms: [propext, Classical.choice, Quot.sound]
'GkrMimc.C26_chain' depends on axioms: [propext, Classical.choice, Quot.sound]
'GkrMimc.C27_circuit' depends on axioms: [propext, Classical.choice, Quot.sound]
'GkrMimc.C27_update' depends on axioms: [propext, Classical.choice, Quot.sound]
'GkrMimc.C28_update_partial' depends on axioms: [propext, Classical.choice, Quot.sound]
'GkrMimc.C28_heads_partial' depends on axioms: [propext, Classical.choice, Quot.sound]
'GkrMimc.C28_negation' depends on axioms: [propext, Classical.choice, Quot.sound]
'GkrMimc.C28_collision' depends on axioms: [propext, Classical.choice, Quot.sound]
'GkrMimc.C28_permutation_partial' depends on axioms: [propext, Classical.choice, Quot.sound]
'GkrMimc.C28_package_partial' depends on axioms: [propext, Classical.choice, Quot.sound]
'GkrMimc.C29_rotate' depends on axioms: [propext, Classical.choice, Quot.sound]
'GkrMimc.C29_update' depends on axioms: [propext, Classical.choice, Quot.sound]
'GkrMimc.C29_hash' depends on axioms: [propext, Classical.choice, Quot.sound]
'GkrMimc.C29_bijective' depends on axioms: [propext, Classical.choice, Quot.sound]
'GkrMimc.C29_padding_collides' depends on axioms: [propext, Classical.choice, Quot.sound]
'GkrMimc.C29_package' depends on axioms: [propext, Classical.choice, Quot.sound]
'GkrMimc.C30_mds' depends on axioms: [propext, Classical.choice, Quot.sound]
'GkrMimc.C31_computes' depends on axioms: [propext, Quot.sound]
'GkrMimc.C31_mimc' depends on axioms: [propext, Classical.choice, Quot.sound]
'GkrMimc.C32_eval' depends on axioms: [propext, Quot.sound]
'GkrMimc.C32_evalMixed' depends on axioms: [propext, Classical.choice, Quot.sound]
'GkrMimc.C32_eqEval' depends on axioms: [propext, Quot.sound]
'GkrMimc.C32_uniEval' depends on axioms: [propext, Classical.choice, Quot.sound]
'GkrMimc.C32_uniEval_nil' depends on axioms: [propext, Classical.choice, Quot.sound]
'GkrMimc.C32_zeroAndOne' depends on axioms: [propext, Classical.choice, Quot.sound]
'GkrMimc.C33_agree' depends on axioms: [propext, Classical.choice, Quot.sound]
'GkrMimc.C33_iff' depends on axioms: [propext, Classical.choice, Quot.sound]
'GkrMimc.C34_complete' depends on axioms: [propext, Classical.choice, Quot.sound]
'GkrMimc.C35_sound' depends on axioms: [propext, Classical.choice, Quot.sound]
'GkrMimc.C36_gadget_iff' depends on axioms: [propext, Classical.choice, Quot.sound]
'GkrMimc.C36_agree_partial' depends on axioms: [propext, Classical.choice, Quot.sound]
'GkrMimc.C36_negation' depends on axioms: [propext, Classical.choice, Quot.sound]
'GkrMimc.C37_once' depends on axioms: [propext, Classical.choice, Quot.sound]
'GkrMimc.C37_assign' depends on axioms: [propext, Classical.choice, Quot.sound]
'GkrMimc.C37_sumcheck_assign' depends on axioms: [propext, Classical.choice, Quot.sound]
'GkrMimc.C37_assign_any' depends on axioms: [propext, Quot.sound]
'GkrMimc.C38_no_cores' depends on axioms: [propext, Classical.choice, Quot.sound]
'GkrMimc.C38_prove' depends on axioms: [propext, Classical.choice, Quot.sound]
'GkrMimc.C38_unchanged' depends on axioms: [propext, Classical.choice, Quot.sound]
'GkrMimc.C38_again' depends on axioms: [propext, Classical.choice, Quot.sound]
'GkrMimc.C38_times' depends on axioms: [propext, Classical.choice, Quot.sound]
'GkrMimc.C38_times_ok' depends on axioms: [propext, Classical.choice, Quot.sound]
'GkrMimc.C38_verify' depends on axioms: [propext, Classical.choice, Quot.sound]
'GkrMimc.C38_sumcheck_footprint' depends on axioms: [propext, Classical.choice, Quot.sound]
'GkrMimc.C38_sumcheck_not_repeatable' depends on axioms: [propext, Classical.choice, Quot.sound]
'GkrMimc.C38_no_copy_overwrites' depends on axioms: [propext, Classical.choice, Quot.sound]
'GkrMimc.C38_layer_tables' depends on axioms: [propext, Quot.sound]
'GkrMimc.C39_congruent' depends on axioms: [propext, Classical.choice, Quot.sound]
'GkrMimc.C39_injective' depends on axioms: [propext, Classical.choice, Quot.sound]
'GkrMimc.C39_length' depends on axioms: [propext, Classical.choice, Quot.sound]
'GkrMimc.C39_sign' depends on axioms: [propext, Classical.choice, Quot.sound]
'GkrMimc.C39_slice_injective' depends on axioms: [propext, Classical.choice, Quot.sound]
'GkrMimc.C39_table_injective' depends on axioms: [propext, Classical.choice, Quot.sound]
'GkrMimc.C39_ints_injective' depends on axioms: [propext, Classical.choice, Quot.sound]
'GkrMimc.C39_uints_injective' depends on axioms: [propext, Classical.choice, Quot.sound]
'GkrMimc.C39_uint64' depends on axioms: [propext, Classical.choice, Quot.sound]
'GkrMimc.C39_uint64_val' depends on axioms: [propext, Classical.choice, Quot.sound]
'GkrMimc.C39_generic' depends on axioms: [propext, Quot.sound]
'GkrMimc.C40_split_assign' depends on axioms: [propext, Classical.choice, Quot.sound]
'GkrMimc.C40_assign_split' depends on axioms: [propext, Classical.choice, Quot.sound]
'GkrMimc.C41_own_polynomial_only' depends on axioms: [propext, Classical.choice, Quot.sound]
'GkrMimc.C41_binds_own_round_partial' depends on axioms: [propext, Classical.choice, Quot.sound]
'GkrMimc.C41_shared' depends on axioms: [propext, Classical.choice, Quot.sound]
'GkrMimc.C41_negation' depends on axioms: [propext, Classical.choice, Quot.sound]
'GkrMimc.C41_initial_point' depends on axioms: [propext, Quot.sound]
'GkrMimc.C42_append' depends on axioms: [propext, Classical.choice, Quot.sound]
'GkrMimc.C42_staticTables' depends on axioms: [propext, Classical.choice, Quot.sound]
'GkrMimc.C42_staticTablesLinCombs' depends on axioms: [propext, Classical.choice, Quot.sound]
'GkrMimc.C42_sumcheckVerify' depends on axioms: [propext, Classical.choice, Quot.sound]
'GkrMimc.C42_verify' depends on axioms: [propext, Classical.choice, Quot.sound]
'GkrMimc.C42_layout_independent' depends on axioms: [propext, Classical.choice, Quot.sound]
'GkrMimc.C43_only_two_values' depends on axioms: [propext, Classical.choice, Quot.sound]
'GkrMimc.C43_binds_partial' depends on axioms: [propext, Classical.choice, Quot.sound]
'GkrMimc.C43_single_input_partial' depends on axioms: [propext, Classical.choice, Quot.sound]
'GkrMimc.C43_honest_iff_partial' depends on axioms: [propext, Classical.choice, Quot.sound]
'GkrMimc.C43_shift' depends on axioms: [propext, Classical.choice, Quot.sound]
'GkrMimc.C43_negation' depends on axioms: [propext, Classical.choice, Quot.sound]
'GkrMimc.C44_sumcheck' depends on axioms: [propext, Classical.choice, Quot.sound]
'GkrMimc.C44_no_degree_check' depends on axioms: [propext, Classical.choice, Quot.sound]
'GkrMimc.C45_checks' depends on axioms: [propext, Classical.choice, Quot.sound]
'GkrMimc.C45_verify' depends on axioms: [propext, Classical.choice, Quot.sound]
'GkrMimc.C45_single_layer' depends on axioms: [propext, Classical.choice, Quot.sound]
'GkrMimc.C45_random_point' depends on axioms: [propext, Classical.choice, Quot.sound]
'GkrMimc.C45_mimc_coins' depends on axioms: [propext, Classical.choice, Quot.sound]
'GkrMimc.C45_mimc' depends on axioms: [propext, Classical.choice, Quot.sound]
'GkrMimc.C46_same_values' depends on axioms: [propext, Classical.choice, Quot.sound]
'GkrMimc.C46_same_proof' depends on axioms: [propext, Classical.choice, Quot.sound]
'GkrMimc.C46_claim' depends on axioms: [propext, Classical.choice, Quot.sound]
'GkrMimc.C46_panics' depends on axioms: [propext, Classical.choice, Quot.sound]
'GkrMimc.C47_prove' depends on axioms: [propext, Classical.choice, Quot.sound]
'GkrMimc.C47_getClaim' depends on axioms: [propext, Classical.choice, Quot.sound]
'GkrMimc.C47_labels' depends on axioms: [propext, Classical.choice, Quot.sound]
'GkrMimc.C47_complete' depends on axioms: [propext, Classical.choice, Quot.sound]
'GkrMimc.C47_initialRound' depends on axioms: [propext, Classical.choice, Quot.sound]
'GkrMimc.C47_intermediateRound' depends on axioms: [propext, Classical.choice, Quot.sound]
'GkrMimc.C47_shared_race' depends on axioms: [propext, Classical.choice, Quot.sound]
'GkrMimc.C48_evaluate' depends on axioms: [propext, Classical.choice, Quot.sound]
'GkrMimc.C48_assign' depends on axioms: [propext, Classical.choice, Quot.sound]
'GkrMimc.C48_layerAsBKTWithCopy' depends on axioms: [propext, Classical.choice, Quot.sound]
'GkrMimc.C48_assign_copy' depends on axioms: [propext, Classical.choice, Quot.sound]
'GkrMimc.C48_sub' depends on axioms: [propext, Classical.choice, Quot.sound]
'GkrMimc.C48_mul' depends on axioms: [propext, Classical.choice, Quot.sound]
'GkrMimc.C48_labels' depends on axioms: [propext, Quot.sound]
'GkrMimc.C48_overlap_race' depends on axioms: [propext, Classical.choice, Quot.sound]
'GkrMimc.C49_initial' depends on axioms: [propext, Classical.choice, Quot.sound]
'GkrMimc.C49_intermediate' depends on axioms: [propext, Classical.choice, Quot.sound]
'GkrMimc.C49_chunkedEq' depends on axioms: [propext, Classical.choice, Quot.sound]
'GkrMimc.C49_labels' depends on axioms: [propext, Quot.sound]
'GkrMimc.C50_prove' depends on axioms: [propext, Classical.choice, Quot.sound]
'GkrMimc.C50_assignProve' depends on axioms: [propext, Classical.choice, Quot.sound]
'GkrMimc.C50_complete' depends on axioms: [propext, Classical.choice, Quot.sound]
'GkrMimc.C50_complete_assign' depends on axioms: [propext, Classical.choice, Quot.sound]
'GkrMimc.C50_labels' depends on axioms: [propext, Classical.choice, Quot.sound]
'GkrMimc.C50_mimc' depends on axioms: [propext, Classical.choice, Quot.sound]
'GkrMimc.C51_layer_claim' depends on axioms: [propext, Classical.choice, Quot.sound]
'GkrMimc.C51_counted_output' depends on axioms: [propext, Classical.choice, Quot.sound]
'GkrMimc.C51_exact' depends on axioms: [propext, Classical.choice, Quot.sound]
'GkrMimc.C51_counted_accepted' depends on axioms: [propext, Classical.choice, Quot.sound]
'GkrMimc.C51_assign_exact' depends on axioms: [propext, Classical.choice, Quot.sound]
'GkrMimc.C51_pipeline_exact' depends on axioms: [propext, Classical.choice, Quot.sound]
'GkrMimc.C51_misread_rejected' depends on axioms: [propext, Classical.choice, Quot.sound]
'GkrMimc.C52_honest_partial' depends on axioms: [propext, Classical.choice, Quot.sound]
'GkrMimc.C52_uniform_rejected' depends on axioms: [propext, Classical.choice, Quot.sound]
'GkrMimc.C52_negation' depends on axioms: [propext, Classical.choice, Quot.sound]
'GkrMimc.C53_binds_partial' depends on axioms: [propext, Classical.choice, Quot.sound]
'GkrMimc.C53_negation_outputs' depends on axioms: [propext, Classical.choice, Quot.sound]
'GkrMimc.C53_negation_inputs' depends on axioms: [propext, Classical.choice, Quot.sound]
'GkrMimc.C54_test' depends on axioms: [propext, Classical.choice, Quot.sound]
'GkrMimc.C54_complete' depends on axioms: [propext, Classical.choice, Quot.sound]
'GkrMimc.C54_sound_partial' depends on axioms: [propext, Classical.choice, Quot.sound]
'GkrMimc.C54_negation' depends on axioms: [propext, Classical.choice, Quot.sound]
'GkrMimc.C55_intermediate' depends on axioms: [propext, Classical.choice, Quot.sound]
'GkrMimc.C55_initial' depends on axioms: [propext, Classical.choice, Quot.sound]
'GkrMimc.C55_boolean' depends on axioms: [propext, Classical.choice, Quot.sound]
'GkrMimc.C56_inputs' depends on axioms: [propext, Classical.choice, Quot.sound]
'GkrMimc.C56_mimc' depends on axioms: [propext, Classical.choice, Quot.sound]
'GkrMimc.C56_testMimc' depends on axioms: [propext, Classical.choice, Quot.sound]
'GkrMimc.C56_gkr' depends on axioms: [propext, Classical.choice, Quot.sound]
'GkrMimc.C56_multi' depends on axioms: [propext, Classical.choice, Quot.sound]
'GkrMimc.C57_gadget_iff' depends on axioms: [propext, Classical.choice, Quot.sound]
'GkrMimc.C57_sound' depends on axioms: [propext, Classical.choice, Quot.sound]
'GkrMimc.C57_complete' depends on axioms: [propext, Classical.choice, Quot.sound]
'GkrMimc.C57_only_91' depends on axioms: [propext, Classical.choice, Quot.sound]
'GkrMimc.C57_too_few' depends on axioms: [propext, Classical.choice, Quot.sound]
'GkrMimc.C57_gadget_circuit' depends on axioms: [propext, Classical.choice, Quot.sound]
'GkrMimc.C57_mimc' depends on axioms: [propext, Classical.choice, Quot.sound]
'GkrMimc.C57_further_layers' depends on axioms: [propext, Classical.choice, Quot.sound]
'GkrMimc.C57_negation' depends on axioms: [propext, Classical.choice, Quot.sound]
'GkrMimc.C58_single' depends on axioms: [propext, Classical.choice, Quot.sound]
'GkrMimc.C58_multi_partial' depends on axioms: [propext, Classical.choice, Quot.sound]
'GkrMimc.C58_race' depends on axioms: [propext, Classical.choice, Quot.sound]
'GkrMimc.C58_labels' depends on axioms: [propext]
'GkrMimc.C58_blocks' depends on axioms: [propext, Classical.choice, Quot.sound]
'GkrMimc.C58_panics' depends on axioms: [propext, Classical.choice, Quot.sound]
'GkrMimc.C59_hashes' depends on axioms: [propext, Classical.choice, Quot.sound]
'GkrMimc.C59_foldedEq' depends on axioms: [propext, Classical.choice, Quot.sound]
'GkrMimc.C59_chunked' depends on axioms: [propext, Classical.choice, Quot.sound]
'GkrMimc.C59_chunked_one' depends on axioms: [propext, Classical.choice, Quot.sound]
'GkrMimc.C59_testChunked' depends on axioms: [propext, Classical.choice, Quot.sound]
'GkrMimc.C59_multiThreaded' depends on axioms: [propext, Classical.choice, Quot.sound]
'GkrMimc.C59_benchmarkSetup' depends on axioms: [propext, Classical.choice, Quot.sound]
'GkrMimc.C59_sumcheck' depends on axioms: [propext, Classical.choice, Quot.sound]
'GkrMimc.C59_hash_circuit' depends on axioms: [propext, Classical.choice, Quot.sound]
'GkrMimc.C59_hash' depends on axioms: [propext, Classical.choice, Quot.sound]
'GkrMimc.C59_eq_circuit' depends on axioms: [propext, Quot.sound]
'GkrMimc.C59_eq_partial' depends on axioms: [propext, Quot.sound]
'GkrMimc.C59_eq_negation' depends on axioms: [propext, Classical.choice, Quot.sound]
'GkrMimc.C59_multilinear_circuit' depends on axioms: [propext, Classical.choice, Quot.sound]
'GkrMimc.C59_multilinear' depends on axioms: [propext, Classical.choice, Quot.sound]
'GkrMimc.C59_univariate_circuit' depends on axioms: [propext, Classical.choice, Quot.sound]
'GkrMimc.C59_univariate' depends on axioms: [propext, Classical.choice, Quot.sound]
'GkrMimc.C59_sumcheck_circuit' depends on axioms: [propext, Classical.choice, Quot.sound]
'GkrMimc.C59_sumcheck_slots' depends on axioms: [propext, Quot.sound]
'GkrMimc.C59_sumcheckCircuit' depends on axioms: [propext, Classical.choice, Quot.sound]
'GkrMimc.C60_atoi' depends on axioms: [propext, Classical.choice, Quot.sound]
'GkrMimc.C60_numeral' depends on axioms: [propext, Classical.choice, Quot.sound]
'GkrMimc.C60_getters' depends on axioms: [propext, Classical.choice, Quot.sound]
'GkrMimc.C60_flags' depends on axioms: [propext]
'GkrMimc.C60_profileTrace' depends on axioms: [propext, Classical.choice, Quot.sound]
'GkrMimc.C60_not_started' depends on axioms: [propext]
'GkrMimc.C60_prover' depends on axioms: [propext, Classical.choice, Quot.sound]
'GkrMimc.C60_multi' depends on axioms: [propext, Classical.choice, Quot.sound]
'GkrMimc.C60_sumcheck' depends on axioms: [propext, Classical.choice, Quot.sound]
'GkrMimc.C60_benchmark' depends on axioms: [propext, Classical.choice, Quot.sound]
'GkrMimc.C60_benchmark_panics' depends on axioms: [propext, Classical.choice, Quot.sound]
'GkrMimc.C60_negation_files' depends on axioms: [propext, Classical.choice, Quot.sound]
'GkrMimc.C60_files_partial' depends on axioms: [propext, Classical.choice, Quot.sound]
'GkrMimc.C60_negation_timer' depends on axioms: [propext, Classical.choice, Quot.sound]
'GkrMimc.C60_blocked' depends on axioms: [propext, Classical.choice, Quot.sound]
'GkrMimc.C61_hash' depends on axioms: [propext, Classical.choice, Quot.sound]
'GkrMimc.C61_order' depends on axioms: [propext, Classical.choice, Quot.sound]
'GkrMimc.C61_lagrange' depends on axioms: [propext, Classical.choice, Quot.sound]
'GkrMimc.C62_any_shape' depends on axioms: [propext, Classical.choice, Quot.sound]
'GkrMimc.C62_shape_only' depends on axioms: [propext, Quot.sound]
'GkrMimc.C62_gadget_size' depends on axioms: [propext, Classical.choice, Quot.sound]
'GkrMimc.C62_gadget_system' depends on axioms: [propext, Classical.choice, Quot.sound]
'GkrMimc.C62_gadget_complete' depends on axioms: [propext, Classical.choice, Quot.sound]
'GkrMimc.C62_gadget_wrong_outputs' depends on axioms: [propext, Classical.choice, Quot.sound]
'GkrMimc.C62_direct_size' depends on axioms: [propext, Classical.choice, Quot.sound]
'GkrMimc.C62_direct_system' depends on axioms: [propext, Classical.choice, Quot.sound]
'GkrMimc.C62_break_even' depends on axioms: [propext, Classical.choice, Quot.sound]
'GkrMimc.C63_arith' depends on axioms: [propext, Classical.choice, Quot.sound]
'GkrMimc.C63_make' depends on axioms: [propext, Classical.choice, Quot.sound]
'GkrMimc.C63_common' depends on axioms: [propext, Classical.choice, Quot.sound]
'GkrMimc.C63_chunks_overflow' depends on axioms: [propext]
'GkrMimc.C63_tables' depends on axioms: [propext, Classical.choice, Quot.sound]
'GkrMimc.C63_circuit' depends on axioms: [propext, Classical.choice, Quot.sound]
'GkrMimc.C63_evaluate_wraps' depends on axioms: [propext, Classical.choice, Quot.sound]
'GkrMimc.C63_layer_wraps' depends on axioms: [propext, Quot.sound]
'GkrMimc.C63_sumcheck' depends on axioms: [propext, Classical.choice, Quot.sound]
'GkrMimc.C63_chunks' depends on axioms: [propext, Classical.choice, Quot.sound]
'GkrMimc.C63_gkr' depends on axioms: [propext, Classical.choice, Quot.sound]
'GkrMimc.C63_complete' depends on axioms: [propext, Classical.choice, Quot.sound]
'GkrMimc.C63_mimc' depends on axioms: [propext, Classical.choice, Quot.sound]
'GkrMimc.C64_draws' depends on axioms: [propext, Quot.sound]
'GkrMimc.C64_gkr' depends on axioms: [propext, Classical.choice, Quot.sound]
'GkrMimc.C64_gkr_skipped' depends on axioms: [propext, Classical.choice, Quot.sound]
'GkrMimc.C64_gkr_env' depends on axioms: [propext, Classical.choice, Quot.sound]
'GkrMimc.C64_atoi_ignored' depends on axioms: [propext, Classical.choice, Quot.sound]
'GkrMimc.C64_hash' depends on axioms: [propext, Classical.choice, Quot.sound]
'GkrMimc.C64_hash_sizes' depends on axioms: [propext, Classical.choice, Quot.sound]
'GkrMimc.C64_fine_grained' depends on axioms: [propext, Classical.choice, Quot.sound]
'GkrMimc.C64_book_keeping' depends on axioms: [propext, Quot.sound]
'GkrMimc.C65_gates' depends on axioms: [propext, Quot.sound]
'GkrMimc.C65_layer_evaluate' depends on axioms: [propext, Classical.choice, Quot.sound]
'GkrMimc.C65_assign' depends on axioms: [propext, Classical.choice, Quot.sound]
'GkrMimc.C65_evaluateChunked' depends on axioms: [propext, Classical.choice, Quot.sound]
'GkrMimc.C65_evaluateMixedChunked' depends on axioms: [propext, Classical.choice, Quot.sound]
'GkrMimc.C65_poseidon' depends on axioms: [propext, Classical.choice, Quot.sound]
'GkrMimc.C65_poseidon_package' depends on axioms: [propext, Classical.choice, Quot.sound]
'GkrMimc.C65_linearCombination' depends on axioms: [propext, Classical.choice, Quot.sound]
'GkrMimc.C65_verify' depends on axioms: [propext, Classical.choice, Quot.sound]
'GkrMimc.C65_complete' depends on axioms: [propext, Classical.choice, Quot.sound]
'GkrMimc.C65_pipeline' depends on axioms: [propext, Classical.choice, Quot.sound]
'GkrMimc.C65_sound' depends on axioms: [propext, Classical.choice, Quot.sound]
'GkrMimc.C65_same_circuit' depends on axioms: [propext, Classical.choice, Quot.sound]
'GkrMimc.C65_stricter' depends on axioms: [propext, Classical.choice, Quot.sound]
'GkrMimc.C65_gadget' depends on axioms: [propext, Classical.choice, Quot.sound]
'GkrMimc.C65_mimc' depends on axioms: [propext, Classical.choice, Quot.sound]
'GkrMimc.C65_forgery_rejected' depends on axioms: [propext, Classical.choice, Quot.sound]
'GkrMimc.C65_count' depends on axioms: [propext, Classical.choice, Quot.sound]
'GkrMimc.C65_mimc_count' depends on axioms: [propext, Classical.choice, Quot.sound]
'GkrMimc.C66_constants' depends on axioms: [propext, Classical.choice, Quot.sound]
'GkrMimc.C66_verify' depends on axioms: [propext, Classical.choice, Quot.sound]
'GkrMimc.C66_complete' depends on axioms: [propext, Classical.choice, Quot.sound]
'GkrMimc.C66_binds' depends on axioms: [propext, Classical.choice, Quot.sound]
'GkrMimc.C66_count' depends on axioms: [propext, Classical.choice, Quot.sound]
'GkrMimc.C66_mimc_count' depends on axioms: [propext, Classical.choice, Quot.sound]
'GkrMimc.C66_gadget' depends on axioms: [propext, Classical.choice, Quot.sound]
'GkrMimc.C66_gadget_binds' depends on axioms: [propext, Classical.choice, Quot.sound]
'GkrMimc.C67_forgetful' depends on axioms: [propext, Quot.sound]
'GkrMimc.C67_verify' depends on axioms: [propext, Classical.choice, Quot.sound]
'GkrMimc.C67_sound' depends on axioms: [propext, Classical.choice, Quot.sound]
'GkrMimc.C67_complete' depends on axioms: [propext, Classical.choice, Quot.sound]
'GkrMimc.C67_round_by_round' depends on axioms: [propext, Classical.choice, Quot.sound]
'GkrMimc.C67_count' depends on axioms: [propext, Classical.choice, Quot.sound]
'GkrMimc.C67_oracle' depends on axioms: [propext, Classical.choice, Quot.sound]
'GkrMimc.C67_mimc_count' depends on axioms: [propext, Classical.choice, Quot.sound]
'GkrMimc.C67_prover' depends on axioms: [propext, Classical.choice, Quot.sound]
'GkrMimc.C68_multi' depends on axioms: [propext, Classical.choice, Quot.sound]
'GkrMimc.C68_labels' depends on axioms: [propext]
'GkrMimc.C68_eq' depends on axioms: [propext, Quot.sound]
'GkrMimc.C68_files' depends on axioms: [propext, Classical.choice, Quot.sound]
'GkrMimc.C68_timers' depends on axioms: [propext, Classical.choice, Quot.sound]
'GkrMimc.C69_shape_size' depends on axioms: [propext, Quot.sound]
'GkrMimc.C69_hashed_words' depends on axioms: [propext, Quot.sound]
'GkrMimc.C69_size' depends on axioms: [propext, Classical.choice, Quot.sound]
'GkrMimc.C69_mimc_size' depends on axioms: [propext, Classical.choice, Quot.sound]
'GkrMimc.C69_mimc_shorter' depends on axioms: [propext, Classical.choice, Quot.sound]
'GkrMimc.C69_verify_asks' depends on axioms: [propext, Quot.sound]
'GkrMimc.C69_prove_asks' depends on axioms: [propext, Classical.choice, Quot.sound]
'GkrMimc.C69_mimc_hashed' depends on axioms: [propext, Classical.choice, Quot.sound]
'GkrMimc.C70_evaluate' depends on axioms: [propext, Classical.choice, Quot.sound]
'GkrMimc.C70_copy' depends on axioms: [propext, Classical.choice, Quot.sound]
'GkrMimc.C70_getClaim' depends on axioms: [propext, Classical.choice, Quot.sound]
'GkrMimc.C70_prove' depends on axioms: [propext, Classical.choice, Quot.sound]
'GkrMimc.C70_prove_outcomes' depends on axioms: [propext, Classical.choice, Quot.sound]
'GkrMimc.C70_no_result' does not depend on any axioms
'GkrMimc.C70_pipeline' depends on axioms: [propext, Classical.choice, Quot.sound]
'GkrMimc.C71_evaluate' depends on axioms: [propext, Classical.choice, Quot.sound]
'GkrMimc.C71_copy' depends on axioms: [propext, Classical.choice, Quot.sound]
'GkrMimc.C71_getClaim' depends on axioms: [propext, Classical.choice, Quot.sound]
'GkrMimc.C71_prove' depends on axioms: [propext, Classical.choice, Quot.sound]
'GkrMimc.C71_prove_outcomes' depends on axioms: [propext, Classical.choice, Quot.sound]
'GkrMimc.C71_no_result' depends on axioms: [propext, Classical.choice, Quot.sound]
'GkrMimc.C71_uneven' depends on axioms: [propext, Classical.choice, Quot.sound]
'GkrMimc.C71_pipeline' depends on axioms: [propext, Classical.choice, Quot.sound]
'GkrMimc.C72_sumcheck_true' depends on axioms: [propext, Classical.choice, Quot.sound]
'GkrMimc.C72_sumcheck' depends on axioms: [propext, Classical.choice, Quot.sound]
'GkrMimc.C72_prove_true' depends on axioms: [propext, Classical.choice, Quot.sound]
'GkrMimc.C72_only' depends on axioms: [propext, Classical.choice, Quot.sound]
'GkrMimc.C72_repaired' depends on axioms: [propext, Classical.choice, Quot.sound]
'GkrMimc.C72_appended' depends on axioms: [propext, Quot.sound]
'GkrMimc.C72_malleable' depends on axioms: [propext, Classical.choice, Quot.sound]
'GkrMimc.C72_count' depends on axioms: [propext, Classical.choice, Quot.sound]
'GkrMimc.C72_mimc_count' depends on axioms: [propext, Classical.choice, Quot.sound]
'GkrMimc.C72_gadget' depends on axioms: [propext, Classical.choice, Quot.sound]
'GkrMimc.C72_transcript' depends on axioms: [propext, Classical.choice, Quot.sound]
'GkrMimc.C72_oracle' depends on axioms: [propext, Classical.choice, Quot.sound]
'GkrMimc.C72_mimc_oracle' depends on axioms: [propext, Classical.choice, Quot.sound]
'GkrMimc.C73_values' depends on axioms: [propext, Classical.choice, Quot.sound]
'GkrMimc.C73_proof' depends on axioms: [propext, Classical.choice, Quot.sound]
'GkrMimc.C73_verify' depends on axioms: [propext, Classical.choice, Quot.sound]
'GkrMimc.C73_assign' depends on axioms: [propext, Classical.choice, Quot.sound]
'GkrMimc.C73_mimc' depends on axioms: [propext, Classical.choice, Quot.sound]
'GkrMimc.C73_negation' depends on axioms: [propext, Classical.choice, Quot.sound]
'GkrMimc.C73_schedules' depends on axioms: [propext, Classical.choice, Quot.sound]
'GkrMimc.C73_gadget' depends on axioms: [propext, Classical.choice, Quot.sound]
'GkrMimc.C73_repaired' depends on axioms: [propext, Classical.choice, Quot.sound]
'GkrMimc.C74_isolated' depends on axioms: [propext, Classical.choice, Quot.sound]
'GkrMimc.C74_alone' depends on axioms: [propext, Classical.choice, Quot.sound]
'GkrMimc.C74_mimc' depends on axioms: [propext, Classical.choice, Quot.sound]
'GkrMimc.C74_negation' depends on axioms: [propext, Classical.choice, Quot.sound]
'GkrMimc.C74_repaired' depends on axioms: [propext, Classical.choice, Quot.sound]
