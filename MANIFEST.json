{"claims": [
 {"property": "C01", "status": "proved", "theorems": ["CTL.C01_contract_dense", "CTL.C01_contract_bonds", "CTL.C01_bond_order", "CTL.C01_wrong_orientation_raises"], "note": ""},
 {"property": "C02", "status": "partial", "theorems": ["CTL.C02_contract_diagonal_shared", "CTL.C02_outer_diagonal_partial", "CTL.C02_same_as_dense_partial", "CTL.C02_outer_two_diagonals", "CTL.C02_explicit_bonds_dense_diag_raises", "CTL.C02_outer_two_diagonals_wrong", "CTL.C02_scalar_diagonal_raises", "CTL.C02_outer_dtype_loss"], "note": "Contraction over shared bonds is proved in full; outer products with a diagonal operand only where the code does not fail or return the wrong array. The remaining cases are false of the code and proved as counterexamples."},
 {"property": "C03", "status": "proved", "theorems": ["CTL.C03_search_sequence", "CTL.C03_contract_bruteForce", "CTL.C03_contract_capping", "CTL.C03_contract_greedy", "CTL.C03_outgoing_bond_raises", "CTL.C03_any_valid_sequence", "CTL.C03_bond_list_exists", "CTL.C03_sequences_agree", "CTL.C03_valid_length", "CTL.C03_zero_dimension_raises"], "note": "In-place execution (inplace=True) on dense tensors, and on diagonal ones when every step is one contractTwoTensors gets right; bond dimensions >= 1. Over a bond of dimension 0 the code raises ZeroDivisionError (C03_zero_dimension_raises)."},
 {"property": "C04", "status": "proved", "theorems": ["CTL.C04_bruteForce_valid", "CTL.C04_capping_valid", "CTL.C04_each_tensor_once", "CTL.C04_bruteForce_returns", "CTL.C04_steps_not_ordered", "CTL.C04_no_tensors"], "note": "Whenever a search returns, for every input. That brute force returns needs a defined dimension of diagonal results when typicalDim is None. The docstring's a < b is false (C04_steps_not_ordered)."},
 {"property": "C05", "status": "proved", "theorems": ["CTL.C05_bruteForce_optimal", "CTL.C05_bruteForce_optimal_typical", "CTL.C05_closed_diagonal_raises", "CTL.C05_diagonal_outer_cost_depends_on_order"], "note": "With typicalDim None, for graphs where the dimension of a diagonal result is defined (DiagDims); outside of that the search raises or its cost depends on the order (C05_closed_diagonal_raises, C05_diagonal_outer_cost_depends_on_order). No self loops."},
 {"property": "C06", "status": "proved", "theorems": ["CTL.C06_capping_optimal", "CTL.C06_capping_terminates", "CTL.C06_capping_diverges", "CTL.C06_disconnected_diagonals_diverge", "CTL.C06_scalar_raises", "CTL.C06_zero_cost_diverges"], "note": "No self loops; dimensions >= 1; with typicalDim None every tensor has a leg. The search diverges if no allowed tree exists, or at cost 0 (theorems)."},
 {"property": "C07", "status": "proved", "theorems": ["CTL.C07_greedy_valid", "CTL.C07_greedy_disconnected", "CTL.C07_greedy_choice"], "note": "No self loops; legs of a diagonal tensor have one dimension."},
 {"property": "C08", "status": "proved", "theorems": ["CTL.C08_predicted_eq_incurred", "CTL.C08_incurred_cost"], "note": "Dense tensors, typicalDim=None, networks whose bonds stay inside the list (other networks make the graph construction raise KeyError: C03_outgoing_bond_raises)."},
 {"property": "C09", "status": "proved", "theorems": ["CTL.C09_split_complete", "CTL.C09_split_sound", "CTL.C09_lowbitI"], "note": ""},
 {"property": "C10", "status": "proved", "theorems": ["CTL.C10_bonds_symmetric", "CTL.C10_bond_of_leg", "CTL.C10_makeLink", "CTL.C10_makeLink_labels", "CTL.C10_relink_breaks", "CTL.C10_makeLink_means", "CTL.C10_makeLink_no_tensor", "CTL.C10_makeLink_unknown"], "note": "The claim about relinking is the theorem C10_relink_breaks."},
 {"property": "C11", "status": "proved", "theorems": ["CTL.C11_shareBonds"], "note": ""},
 {"property": "C12", "status": "partial", "theorems": ["CTL.C12_copyTensorList_partial", "CTL.C12_scalar_diagonal_raises", "CTL.C12_repeated_tensor", "CTL.C12_contract_copied"], "note": "Proved for dense, diagonal and shape-only tensors, any linking, bonds leaving the list included, linkOutgoingBonds=False. False of the code for a DiagonalTensor without legs: copy raises IndexError (C12_scalar_diagonal_raises). When a tensor occurs twice in the list only its last copy is linked (C12_repeated_tensor). Arrays are values in the model; generateData always copies."},
 {"property": "C13", "status": "proved", "theorems": ["CTL.C13_accepts", "CTL.C13_data", "CTL.C13_labels", "CTL.C13_legs", "CTL.C13_good", "CTL.C13_newTensor", "CTL.C13_like_labels"], "note": "Random data is a parameter (rand). An integer shape is refused (C13_accepts). The unknown dimension of a TensorLike is stored as 0."},
 {"property": "C14", "status": "partial", "theorems": ["CTL.C14_partial", "CTL.C14_unequal_raises", "CTL.C14_unequal_shape_raises", "CTL.C14_product_length_wrong", "CTL.C14_extra_axes_wrong", "CTL.C14_scalar_shape_wrong", "CTL.C14_claim_false", "CTL.C14_newDiagonal", "CTL.C14_labels", "CTL.C14_shape_ignored_wrong", "CTL.C14_accepts"], "note": "Proved for data with one axis per leg, for a vector of the common dimension, and without data. False of the code for other accepted data: C14_product_length_wrong, C14_extra_axes_wrong, C14_scalar_shape_wrong, C14_shape_ignored_wrong, C14_claim_false."},
 {"property": "C15", "status": "proved", "theorems": ["CTL.C15_moveLegsToFront", "CTL.C15_moveLabelsToFront", "CTL.C15_moveLabelsToFront_missing", "CTL.C15_reArrange", "CTL.C15_toTensor", "CTL.C15_moveLegsToFront_own_list_wrong"], "note": "For an argument list other than the tensor's own leg list object; passing that object corrupts the tensor (C15_moveLegsToFront_own_list_wrong)."},
 {"property": "C16", "status": "proved", "theorems": ["CTL.C16_toMatrix_both", "CTL.C16_toMatrix_rows", "CTL.C16_toMatrix_cols", "CTL.C16_toMatrix_not_partition", "CTL.C16_toMatrix_diagonal"], "note": ""},
 {"property": "C17", "status": "proved", "theorems": ["CTL.C17_outProduct", "CTL.C17_empty_rest_raises", "CTL.C17_outProduct_labels"], "note": "A remaining leg of dimension 0 makes the call raise (C17_empty_rest_raises)."},
 {"property": "C18", "status": "proved", "theorems": ["CTL.C18_mergeLink", "CTL.C18_mergeLink_few"], "note": "For dense tensors (DiagonalTensor.outProduct raises) whose unmerged legs have positive dimension; with fewer than two bonds C18_mergeLink_few."},
 {"property": "C19", "status": "proved", "theorems": ["CTL.C19_addTensorTag", "CTL.C19_round_trip", "CTL.C19_removeTensorTag", "CTL.C19_dash_in_tag"], "note": ""},
 {"property": "C20", "status": "proved", "theorems": ["CTL.C20_round_trip", "CTL.C20_unambiguous", "CTL.C20_misread", "CTL.C20_unmatched"], "note": ""},
 {"property": "C21", "status": "partial", "theorems": ["CTL.C21_indexOfLabel_forward", "CTL.C21_indexOfLabel_backward", "CTL.C21_indexOfLabel_none", "CTL.C21_getLeg", "CTL.C21_getLabelIndices_pair", "CTL.C21_renameLabel", "CTL.C21_renameLabels_partial", "CTL.C21_renameLabels_length", "CTL.C21_renameLabels_swap_lost"], "note": "Lookup and renameLabel are proved in full. renameLabels is a simultaneous renaming only when new and old labels do not overlap; C21_renameLabels_swap_lost shows the full claim is false."},
 {"property": "C22", "status": "partial", "theorems": ["CTL.C22_sumOutLeg_dense", "CTL.C22_sumOutLeg_dense_weights", "CTL.C22_sumOutLeg_diagonal", "CTL.C22_sumOutLeg_foreign", "CTL.C22_sumOutLegByLabel", "CTL.C22_sumOutLegByLabel_list", "CTL.C22_list_drops_weights"], "note": "sumOutLeg is proved in full, dense and diagonal. The claim about a list of labels with weights is false of the code: C22_list_drops_weights."},
 {"property": "C23", "status": "proved", "theorems": ["CTL.C23_contract", "CTL.C23_same_on_every_call", "CTL.C23_added_tensor_wrong"], "note": "Dense inputs with at least one leg, different labels and no dimension 0; each link joins two different tensors; the names list is not shared with another network; typicalDim not 0 unless realCost. The random data of the constructor and the search rounds are parameters. C23_added_tensor_wrong: a tensor added after the first contraction is silently left out."},
 {"property": "C24", "status": "proved", "theorems": ["CTL.C24_locked_raises", "CTL.C24_unlocked_adds", "CTL.C24_gets_locked", "CTL.C24_locked_until_unlock", "CTL.C24_shared_default_wrong"], "note": "For a network whose list of names is not shared with another one. FiniteTensorNetwork() without argument shares one default list between all networks, so a locked network can still change through another: C24_shared_default_wrong."},
 {"property": "C25", "status": "proved", "theorems": ["CTL.C25_contains", "CTL.C25_newString", "CTL.C25_newString_given", "CTL.C25_add_remove", "CTL.C25_newString_terminates", "CTL.C25_removal_exhausts", "CTL.C25_removal_exhausts_reachable"], "note": ""},
 {"property": "C26", "status": "proved", "theorems": ["CTL.C26_exactZ", "CTL.C26_network", "CTL.C26_contracts_to_exactZ", "CTL.C26_isolated_raises", "CTL.C26_self_loop_wrong"], "note": "Over the real numbers, with exact sqrt/cosh/sinh/exp. The enumeration equals the partition function for every history of addEdge/getEdges and all couplings (C26_exactZ); the network is built, closed and dense and its network sum is the partition function (C26_network); every valid contraction sequence yields the scalar exactZ (C26_contracts_to_exactZ). Excluded cases behave as stated: an isolated vertex raises ValueError (C26_isolated_raises), a self loop leaves a free leg (C26_self_loop_wrong). Negative couplings give NaN in NumPy and are outside the hypotheses."},
 {"property": "C27", "status": "proved", "theorems": ["CTL.C27_squareLatticePBC", "CTL.C27_squareLatticeFBC", "CTL.C27_sites", "CTL.C27_doubleSquareLatticeFBC", "CTL.C27_completeGraph"], "note": ""},
 {"property": "C28", "status": "proved", "theorems": ["CTL.C28_getEdges", "CTL.C28_addEdge_bounds", "CTL.C28_degree", "CTL.C28_degree_sum", "CTL.C28_incident", "CTL.C28_free_edge_stale"], "note": "C28_free_edge_stale: TensorGraph.addFreeEdge, which is not part of the claim, does leave a stale edge list."},
 {"property": "C29", "status": "proved", "theorems": ["CTL.C29_divideIntoKParts", "CTL.C29_myComb", "CTL.C29_calculateDivisionTimes", "CTL.C29_weights_sum"], "note": ""},
 {"property": "C30", "status": "proved", "theorems": ["CTL.C30_intToDBaseTuple", "CTL.C30_intToDBaseTuple_roundtrip", "CTL.C30_intToDBaseTuple_zero_base", "CTL.C30_intToBitList", "CTL.C30_safeMod", "CTL.C30_getIndexDict", "CTL.C30_getIndexDict_duplicate_labels"], "note": ""},
 {"property": "C31", "status": "proved", "theorems": ["CTL.C31_getZ", "CTL.C31_getZ_one", "CTL.C31_steps", "CTL.C31_zero_raises", "CTL.C31_zero_depends_on_history"], "note": "Tensors are values and the FTN contractions, truncation, norm, log and exp are parameters. For L = 0 the answer does depend on the history (C31_zero_depends_on_history)."},
 {"property": "C32", "status": "proved", "theorems": ["CTL.C32_hotrg", "CTL.C32_quadratic", "CTL.C32_square", "CTL.C32_square_two_tensors_raises", "CTL.C32_triangle_wrong"], "note": "For HOTRG and SquareTRG; numbers are real, norms and traces positive along the way, errors non-negative. SquareTRG with two tensors raises (C32_square_two_tensors_raises); TriangleTRG, outside of the claim, divides by the wrong number of sites (C32_triangle_wrong)."},
 {"property": "C33", "status": "proved", "theorems": ["CTL.C33_swap", "CTL.C33_moveTensor", "CTL.C33_moveTo", "CTL.C33_moveTensor_invalid", "CTL.C33_swap_invalid", "CTL.C33_makeAdjacent"], "note": "On chains (dense, no two outer legs linked), chi >= 0, any exact decomposition. moveTo is characterised by C33_moveTo."},
 {"property": "C34", "status": "partial", "theorems": ["CTL.C34_explicit_partial", "CTL.C34_none_wrong", "CTL.C34_returns", "CTL.C34_none_example", "CTL.C34_default_chi_unusable"], "note": "The claim about chi=None is false of the code: getChi takes the minimum starting from -1, so the result is always -1 (C34_none_wrong, C34_none_example) and the chain then refuses every swap (C34_default_chi_unusable). The part about an explicit chi is proved, for chi >= -1."},
 {"property": "C35", "status": "proved", "theorems": ["CTL.C35_binarySearch_bracket", "CTL.C35_binarySearch_threshold", "CTL.C35_binarySearch_eps_nonpos", "CTL.C35_getCutoff"], "note": ""},
 {"property": "C36", "status": "partial", "theorems": ["CTL.C36_cost", "CTL.C36_shape", "CTL.C36_contract", "CTL.C36_contract_dense", "CTL.C36_leg_order_wrong", "CTL.C36_scalar_diagonal_wrong", "CTL.C36_mixed_raises", "CTL.C36_decompose_mixed_raises", "CTL.C36_sequence", "CTL.C36_reorder", "CTL.C36_outProduct", "CTL.C36_outProduct_empty_wrong", "CTL.C36_sum_partial", "CTL.C36_sum_wrong", "CTL.C36_sum_weights_wrong"], "note": "Costs and levels agree exactly (C36_cost). Whenever a real contraction succeeds, the shape-only one succeeds with the same store, legs, dimensions and class (C36_contract), through whole valid sequences and their total cost (C36_sequence); reordering (C36_reorder) and fusing (C36_outProduct) agree. Missing because the code disagrees, each with a theorem: the order of legs differs for diagonal x dense (C36_leg_order_wrong), a scalar diagonal raises only for real tensors (C36_scalar_diagonal_wrong), fusing next to a leg of dimension 0 raises only for real tensors (C36_outProduct_empty_wrong), and summing any leg but the first of a dense TensorLike raises (C36_sum_wrong)."},
 {"property": "C37", "status": "proved", "theorems": ["CTL.C37_listDifference", "CTL.C37_listDifference_nodup", "CTL.C37_deleteAllInUsed", "CTL.C37_compareLists", "CTL.C37_commonElements", "CTL.C37_commonElements_not_once", "CTL.C37_listSymmetricDifference", "CTL.C37_generateIndices", "CTL.C37_generateIndices_injective", "CTL.C37_pairIterator_mem", "CTL.C37_pairIterator_length", "CTL.C37_pairIterator_nodup", "CTL.C37_checkAllEqual", "CTL.C37_mapToDict_stores_whole_list"], "note": "commonElements_not_once and mapToDict_stores_whole_list record behaviour that differs from the docstrings."},
 {"property": "C38", "status": "partial", "theorems": ["CTL.C38_makeLink_single", "CTL.C38_makeLink_list", "CTL.C38_makeLink_wrong", "CTL.C38_moveLegsToFront_failure", "CTL.C38_moveLegsToFront_partial", "CTL.C38_moveLegsToFront_wrong", "CTL.C38_outProduct_wrong", "CTL.C38_addTensorTag_partial", "CTL.C38_addTensorTag_wrong"], "note": "False of the code in general (counterexamples are theorems); the partial theorems give the exact state left behind."},
 {"property": "C39", "status": "proved", "theorems": ["CTL.C39_schmidt_three", "CTL.C39_svd_kept", "CTL.C39_svd_exact", "CTL.C39_svd_error", "CTL.C39_svd_errorValue", "CTL.C39_schmidt", "CTL.C39_schmidt_error", "CTL.C39_schmidt_full", "CTL.C39_merge", "CTL.C39_merge_error"], "note": "numpy.linalg.svd and sqrt are parameters assumed exact (ExactLinAlg; unitary where the error is stated). SchimdtDecomposition with the square roots shared; dense tensors."},
 {"property": "C40", "status": "proved", "theorems": ["CTL.C40_trace_dense", "CTL.C40_trace_diagonal", "CTL.C40_trace_diagonal_expand", "CTL.C40_trace_not_square"], "note": ""},
 {"property": "C41", "status": "proved", "theorems": ["CTL.C41_swap", "CTL.C41_moveTensor", "CTL.C41_makeAdjacent"], "note": "numpy.linalg.svd and sqrt are parameters assumed exact; the numerical rank is assumed to be the number of non-zero values (RankRevealing)."},
 {"property": "C42", "status": "proved", "theorems": ["CTL.C42_even", "CTL.C42_odd"], "note": "Homogeneity of the truncation holds for an SVD that keeps the same number of values at every scale."},
 {"property": "C43", "status": "proved", "theorems": ["CTL.C43_least_error", "CTL.C43_negative_error_wrong", "CTL.C43_replay"], "note": "Without the sign condition false: C43_negative_error_wrong."},
 {"property": "C44", "status": "proved", "theorems": ["CTL.C44_weights", "CTL.C44_order", "CTL.C44_moments", "CTL.C44_progress", "CTL.C44_padding_raises"], "note": "Orders up to the number of given impurities; more raise (C44_padding_raises). Axis order of the tensors (reArrange) is not modelled."},
 {"property": "C45", "status": "proved", "theorems": ["CTL.C45_real_dims", "CTL.C45_policy", "CTL.C45_second_call", "CTL.C45_lost_axis_unnoticed"], "note": ""},
 {"property": "C46", "status": "proved", "theorems": ["CTL.C46_canonicalize", "CTL.C46_state_kept", "CTL.C46_index", "CTL.C46_checkCanonical", "CTL.C46_canonicalize_then_check", "CTL.C46_check_refused", "CTL.C46_forgotten"], "note": ""},
 {"property": "C47", "status": "proved", "theorems": ["CTL.C47_create", "CTL.C47_create_refused", "CTL.C47_create_small", "CTL.C47_new_iff", "CTL.C47_new", "CTL.C47_accepted_chain", "CTL.C47_single", "CTL.C47_ring_accepted"], "note": ""},
 {"property": "C48", "status": "proved", "theorems": ["CTL.C48_doubleMerge", "CTL.C48_mergeMPS", "CTL.C48_mergeMPS_refused", "CTL.C48_contractMPS", "CTL.C48_contractMPS_refused", "CTL.C48_contractWithMPS", "CTL.C48_contractWithMPS_unlinked", "CTL.C48_contractWithMPS_scalar"], "note": ""},
 {"property": "C49", "status": "proved", "theorems": ["CTL.C49_triangle", "CTL.C49_square", "CTL.C49_squareOut", "CTL.C49_hEdgeExtend", "CTL.C49_vEdgeExtend", "CTL.C49_cornerExtend", "CTL.C49_hEdgeBuild", "CTL.C49_vEdgeBuild", "CTL.C49_evenZ", "CTL.C49_odd", "CTL.C49_horizontalL", "CTL.C49_horizontalR", "CTL.C49_verticalU", "CTL.C49_verticalD", "CTL.C49_hotrgH", "CTL.C49_hotrgV", "CTL.C49_evenbly", "CTL.C49_evenZ_same", "CTL.C49_odd_number", "CTL.C49_triangle_dict", "CTL.C49_square_dict", "CTL.C49_directions", "CTL.C49_selfTrace", "CTL.C49_triangleTrace", "CTL.C49_squareTrace"], "note": ""},
 {"property": "C50", "status": "proved", "theorems": ["CTL.C50_solveEnv", "CTL.C50_solveEnv_error", "CTL.C50_solveEnv_zero", "CTL.C50_solveEnv_silent", "CTL.C50_new", "CTL.C50_directed", "CTL.C50_iterate", "CTL.C50_run", "CTL.C50_impurity", "CTL.C50_exact", "CTL.C50_exact_errors", "CTL.C50_logZ", "CTL.C50_makeSquareTensor", "CTL.C50_makeSquareTensor_refused", "CTL.C50_makeTriangleTensor", "CTL.C50_makeTriangleTensor_refused", "CTL.C50_makeSquareOutTensor", "CTL.C50_makeSquareOutTensor_refused", "CTL.C50_exact_unlimited", "CTL.C50_exact_first", "CTL.C50_error_zero_but_truncated", "CTL.C50_norms", "CTL.C50_logZ_positive"], "note": ""},
 {"property": "C51", "status": "proved", "theorems": ["CTL.C51_measure", "CTL.C51_square", "CTL.C51_square_refused", "CTL.C51_plaquette", "CTL.C51_diamond", "CTL.C51_weights", "CTL.C51_weights_refused", "CTL.C51_torus", "CTL.C51_expectation", "CTL.C51_measured", "CTL.C51_count", "CTL.C51_HOTRG", "CTL.C51_exactM", "CTL.C51_exactM_negative", "CTL.C51_exactM_zero"], "note": ""},
 {"property": "C52", "status": "proved", "theorems": ["CTL.C52_new", "CTL.C52_new_two", "CTL.C52_iterate", "CTL.C52_run", "CTL.C52_exact", "CTL.C52_exact_size", "CTL.C52_exact_errors", "CTL.C52_logZ", "CTL.C52_norms", "CTL.C52_logZ_positive"], "note": ""},
 {"property": "C53", "status": "proved", "theorems": ["CTL.C53_new", "CTL.C53_iterate", "CTL.C53_run", "CTL.C53_exact", "CTL.C53_exact_size", "CTL.C53_exact_errors", "CTL.C53_lattice", "CTL.C53_logZ", "CTL.C53_logZ_wrong"], "note": ""},
 {"property": "C54", "status": "proved", "theorems": ["CTL.C54_contract", "CTL.C54_pieces_diverge", "CTL.C54_stored_sequence_wrong"], "note": ""},
 {"property": "C55", "status": "proved", "theorems": ["CTL.C55_ising_weights", "CTL.C55_ising", "CTL.C55_site", "CTL.C55_new", "CTL.C55_iterate", "CTL.C55_runs", "CTL.C55_exact", "CTL.C55_exact_positive", "CTL.C55_symmetric", "CTL.C55_unequal"], "note": ""},
 {"property": "C56", "status": "proved", "theorems": ["CTL.C56_norms", "CTL.C56_positive", "CTL.C56_ising_exact", "CTL.C56_rg", "CTL.C56_iterate", "CTL.C56_padded", "CTL.C56_measured", "CTL.C56_average", "CTL.C56_untruncated", "CTL.C56_ising"], "note": ""},
 {"property": "C57", "status": "proved", "theorems": ["CTL.C57_read", "CTL.C57_refused", "CTL.C57_malformed", "CTL.C57_empty", "CTL.C57_graph"], "note": ""},
 {"property": "C58", "status": "proved", "theorems": ["CTL.C58_copy", "CTL.C58_random", "CTL.C58_refused", "CTL.C58_unit"], "note": ""},
 {"property": "C59", "status": "proved", "theorems": ["CTL.C59_taken_over", "CTL.C59_network", "CTL.C59_again", "CTL.C59_mps", "CTL.C59_mps_refused"], "note": ""},
 {"property": "C60", "status": "proved", "theorems": ["CTL.C60_svd", "CTL.C60_svd_full"], "note": ""},
 {"property": "C61", "status": "partial", "theorems": ["CTL.C61_without_search_raises", "CTL.C61_cost_partial", "CTL.C61_after_exception", "CTL.C61_not_exact_cost", "CTL.C61_network", "CTL.C61_parallel_bonds_lost"], "note": "False of the code on graphs not searched before, after failed searches, for searches with a typical dimension and for parallel bonds (each a theorem); C61_cost_partial gives the answer for all other histories, C61_network the graph for all networks."},
 {"property": "C62", "status": "proved", "theorems": ["CTL.C62_sequence", "CTL.C62_contractTensorList", "CTL.C62_again"], "note": ""},
 {"property": "C63", "status": "proved", "theorems": ["CTL.C63_shapeOfLabels", "CTL.C63_shapeOfLabels_dims", "CTL.C63_missing_label_wrong", "CTL.C63_labelsInTensor", "CTL.C63_bondDimension", "CTL.C63_totalSize", "CTL.C63_tensorDict"], "note": ""},
 {"property": "C64", "status": "proved", "theorems": ["CTL.C64_identityError", "CTL.C64_identityError_rank", "CTL.C64_checkIdentity", "CTL.C64_projectorError", "CTL.C64_products", "CTL.C64_symmetricError", "CTL.C64_diagError", "CTL.C64_not_square", "CTL.C64_matDiffError", "CTL.C64_row_wrong", "CTL.C64_getDiffError_number", "CTL.C64_getDiffError_wrong", "CTL.C64_normalizeInfinity", "CTL.C64_isIsometry", "CTL.C64_isometry_iff", "CTL.C64_checkCanonical", "CTL.C64_canonicalize_then_check"], "note": ""},
 {"property": "C65", "status": "proved", "theorems": ["CTL.C65_tupleRemoveByIndex", "CTL.C65_tupleRemoveByIndex_negative", "CTL.C65_spinChainProductSum", "CTL.C65_getValidValues", "CTL.C65_getCombineSet", "CTL.C65_partialInverse", "CTL.C65_oppositeDirection", "CTL.C65_oppositeDirection_twice", "CTL.C65_identicalTensorDict", "CTL.C65_tupleSwap", "CTL.C65_combineName", "CTL.C65_floatEqual", "CTL.C65_floatRelativeEqual", "CTL.C65_floatRelativeEqual_wrong", "CTL.C65_floatArrayEqual", "CTL.C65_inRangeFunc", "CTL.C65_triangleWeight_wrong", "CTL.C65_triangleWeight", "CTL.C65_priorDataType", "CTL.C65_priorDataType_comm", "CTL.C65_priorDataType_wrong", "CTL.C65_getNewString", "CTL.C65_getNewString_terminates", "CTL.C65_indexTupleToStr", "CTL.C65_indexTupleToStr_wrong", "CTL.C65_ndEye", "CTL.C65_ndEye_wrong", "CTL.C65_sumOnAxis", "CTL.C65_sumOnAxis_weighted", "CTL.C65_sumOnAxis_many", "CTL.C65_toVector"], "note": ""},
 {"property": "C66", "status": "proved", "theorems": ["CTL.C66_qxA", "CTL.C66_tnrC", "CTL.C66_tnrCC", "CTL.C66_sCEnvS", "CTL.C66_sCEnvS_comment", "CTL.C66_sCEnvS_deviates", "CTL.C66_qEnv", "CTL.C66_q", "CTL.C66_start", "CTL.C66_update", "CTL.C66_update_error", "CTL.C66_spErr"], "note": ""},
 {"property": "C67", "status": "proved", "theorems": ["CTL.C67_start", "CTL.C67_first_rounds", "CTL.C67_step", "CTL.C67_rounds", "CTL.C67_rescale"], "note": ""},
 {"property": "C68", "status": "proved", "theorems": ["CTL.C68_start", "CTL.C68_update", "CTL.C68_y"], "note": ""},
 {"property": "C69", "status": "proved", "theorems": ["CTL.C69_v", "CTL.C69_w"], "note": ""},
 {"property": "C70", "status": "proved", "theorems": ["CTL.C70_norm", "CTL.C70_site"], "note": ""}
]}
