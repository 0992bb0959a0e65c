c("C01","proved",["C01_factor_init_reads_cpt","C01_value_indices"],"Exact rationals; index bijection for every shape.")
c("C02","proved",["C02_multiply_pointwise"],"Every hash order, either operand larger; includes absence of exceptions.")
c("C03","proved",["C03_multiply_comm","C03_multiply_assoc"],"Equality as functions on the same scope set; exact arithmetic.")
c("C04","proved",["C04_sumout_marginalises"],"")
c("C05","proved",["C05_maxout_maximises","C05_negative_tables_fail"],"Stated for non-negative tables, as the property says; the second theorem shows the restriction is needed.")
c("C06","proved",["C06_reduce_restricts"],"Includes termination of the while loop.")
c("C07","proved",["C07_sumover","C07_sumover_eq_sumout_rest"],"")
c("C08","proved",["C08_sumout_order","C08_reduce_order"],"")
c("C09","proved",["C09_normalize","C09_normalize_scalar","C09_no_first_variable"],"Which stride-one variable is used depends on hash order if cardinality-1 variables tie; the theorem holds for whichever is picked.")
c("C10","proved",["C10_histories","C10_step"],"Histories over a pool of factors; a right operand damaged by multiply (C11) counts as consumed.")
c("C11","partial",["C11_false","C11_right_operand_intact_partial","C11_exact_effect_partial"],"The property is false of the code (C11_false: KeyError on the untouched operand). Proved: intact when the right scope is not larger; exact description of the change otherwise.")
c("C12","proved",["C12_sum_product_eliminate"],"Every hash order; any factorization whose factors are well formed.")
c("C13","proved",["C13_ties","C13_marginal_exact","C13_rounding","C13_order_independent"],"No legality hypothesis: a returned value implies the query was legal. Exact arithmetic before np.round.")
c("C14","partial",["C14_false","C14_no_evidence_partial","C51_sum_is_evidence_prob"],"False with evidence (C14_false). Proved without evidence for normalised acyclic networks; with evidence the entries sum to P(evidence), see C51.")
c("C15","partial",["C15_false","C52_answered_iff"],"False of the code: consolidate() reads an undefined global. The exact set of answered queries is C52.")
c("C16","proved",["C16_map_is_most_probable","C16_illegal_evidence_raises","C16_target"],"Non-negative tables (probabilities).")
c("C17","proved",["C17_map_prob"],"Stated for calls that return, as the property says; when they return is C53.")
c("C51","proved",["C51_sum_is_evidence_prob"],"")
c("C52","proved",["C52_answered_iff","C52_root_evidence_never_answered"],"")
c("C53","proved",["C53_map_prob_answered_iff"],"")
c("C18","proved",["C18_cpt_indices","C18_complete_configuration"],"")
c("C19","proved",["C19_stride_agrees"],"")
c("C20","proved",["C20_counts"],"")
c("C21","proved",["C21_moral_graph"],"")
c("C23","proved",["C23_set_structure"],"")
c("C25","partial",["C25_false","C25_exact_partial"],"False of the code: set + set raises TypeError for every non-empty comparison over equal node sets; exact behaviour proved.")
c("C26","proved",["C26_topsort_all_nodes","C26_topsort_root","C26_topsort_general","C26_topsort_terminates"],"")
c("C27","partial",["C27_false","C27_topological_forest_partial","C27_postorder_forest_partial"],"False in general (C27_false: breadth-first order); proved for forests. What does hold for every graph is C54.")
c("C28","proved",["C28_would_cause_cycle","C28_addition_iff_reach","C28_reverse_absent_raises"],"nx.find_cycle by contract (Spec.FindsCycles); an executable reference meets the contract.")
c("C29","proved",["C29_mst_spanning_tree","C29_mst_is_prim"],"")
c("C54","proved",["C54_some_parent_precedes"],"")
c("C55","partial",["C55_false","C55_windows_partial","C55_no_parents_partial"],"False of the code: the windows overlap. Exact behaviour proved; the property holds for tables with one row.")
c("C56","proved",["C56_unknown_value_is_last"],"")
c("C58","proved",["C58_cpt_str_idx"],"")
c("C59","proved",["C59_adj_list"],"")
c("C22","partial",["HNet.C22_histories_partial","HNet.C22_exceptions_partial","HNet.C22_constructed_partial","HNet.C22_reverse_arc_breaks","HNet.C22_false"],"False with reverse_arc (on every network with an arc: C22_reverse_arc_breaks) and with new nodes (C57, C60). Proved for all histories of add_edge/remove_edge between existing nodes, with the exact arc set.")
c("C24","partial",["HNet.C24_copy_raises","HNet.C24_copy_equal","HNet.C24_original_edits_invisible","HNet.C24_copy_edits_invisible_partial","HNet.C24_independent_partial","HNet.C24_false"],"Equality proved in general. Independence proved for every interleaving in which new nodes are only made while the other side holds no default list of add_node; false without that proviso (C24_false).")
c("C57","proved",["HNet.C57_add_edge_unknown_source"],"")
c("C60","proved",["HNet.C60_shared_default_parents"],"")
c("C30", "proved", ["C30_hc_dag"], "mutual_information is an arbitrary oracle; nx.find_cycle by its contract")
c("C31", "partial", ["C31_restriction_partial", "C31_passes_partial", "C31_false"], "true without debug; with debug=True reversals leave the restriction list (C31_false)")
c("C32", "partial", ["C32_moves_made_partial", "C32_false"], "additions and deletions always performed; reversals only with debug=True (C32_false)")
c("C33", "partial", ["C33_no_undo_partial", "C33_restriction_partial", "C33_false"], "true for k >= 5, window 5, additions and deletions; false for small k (IndexError) and for reversals")
c("C34", "partial", ["C34_dag_if_returns_partial", "C34_false"], "acyclic whenever it returns; may never return, and random additions ignore the restriction (C34_false)")
c("C61", "proved", ["C61_reversal_freezes"], "")
c("C62", "proved", ["C62_local_optimum"], "score difference = the one the code computes")
c("C63", "proved", ["C63_tabu_window"], "")
c("C64", "proved", ["C64_no_restart_is_hc"], "")
c("C35", "partial", ["C35_counts_partial", "C35_false"],
  "True when every node stands in the node list at the position of its column (e.g. nodes=range(n)); false for other orders such as the topological order [1, 0] of the arc 1 -> 0 (C35_false). The exact behaviour for every order is C65.")
c("C36", "partial", ["C36_mle_partial", "C36_bayes_partial", "C36_false"],
  "bayes_estimator: proved for every positive equivalent sample size. mle_estimator: each block sums to one within card*5e-6+1e-7 or is all zero (parent configuration never observed, C36_false).")
c("C65", "proved", ["C65_counts_by_position"], "")
c("C66", "proved", ["C66_ties","C66_mle_probabilities", "C66_parent_order_needed"], "The second theorem shows the parent-order hypothesis cannot be dropped.")
c("C67", "proved", ["C67_bayes_probabilities"], "")
c("C37","proved",["C37_relative_frequencies","C37_counts"],"for every sequence of uniform numbers; the tables may be off one by numpy's tolerance")
c("C38","proved",["C38_random_sample","C38_forward_sample","C38_unbiased"],"probability = Lebesgue measure on the cube of uniform random numbers; also expectation of the estimate = exact marginal")
c("C39","proved",["C39_evidence","C39_weighted_counts","C39_expected_weight"],"nan results (total weight zero) are modelled as an error")
c("C40","partial",["C40_false","C40_partial"],"false of the code: sweeps 0..burn are dropped but the divisor is n-burn; exact behaviour in C68")
c("C68","proved",["C68_gibbs_counts","C68_gibbs_sum","C68_gibbs_zero"],"")
c("C69","proved",["C69_gibbs_is_forward"],"")
c("C70","proved",["C70_forward_keyError"],"")
c("C71","proved",["C71_random_is_forward"],"")
c("C72","proved",["C72_lw_without_evidence"],"")
c("C73","proved",["C73_unnormalised_error","C73_learned_example"],"")
c("C41","proved",["C41_missing_extra","C41_metric"],"Finite-cardinality statements over arc sets; Struct asks nothing about values and tables, so it covers structure-only networks.")
c("C42","partial",["C42_false","C42_count_iff_none_reversed_partial"],"False of the code: line 91 tests `rv in y.parents(rv)`. Exact behaviour is C75; the count is right iff no arc is reversed.")
c("C43","proved",["HNet.C43_missing","C43_markov_blanket","C43_symmetric"],"Heap-level model: also proves no list of any network object is changed.")
c("C74","proved",["C74_missing_edges","C74_keyError"],"")
c("C75","proved",["C75_always_zero","C75_hamming"],"")
c("C76","proved",["C76_set_structure_general"],"")
c("C47","proved",["C47_resolve_undirected"],"Independence tests are arbitrary oracles.")
c("C77","proved",["C77_resolve_exact","C77_full_set_untested"],"")
c("C48","partial",["C48_false","C48_gs_blanket_partial"],"False of the code: the shrink loop never updates S. Exact behaviour is C78.")
c("C78","proved",["C78_gs_blanket","C78_gs_growing"],"")
c("C79","proved",["C79_gs_dependent_empty"],"")
c("C80","partial",["C80_false","C80_orient_MB_partial"],"False of the code in three ways (both directions kept, both lost, ValueError). Proved: it only ever removes arcs.")
c("C49","proved",["C49_pc_skeleton"],"")
c("C81","proved",["C81_pc_no_marginal","C81_collider"],"")
c("C82","proved",["C82_pc_edgeless"],"")
c("C83","partial",["C83_false","C83_pc_nodes_partial"],"False of the code: exact tests of a 4-variable chain give a 2-cycle and no node.")
c("C50","proved",["C50_chow_liu_tree"],"The weights are an argument; chow_liu itself raises TypeError when it computes them (mi_test has no chi2_test argument).")
c("C84","partial",["C84_false","C84_chow_liu_heaviest_partial"],"False of the code: a pair seen before either end is in the tree is never revisited.")
c("C44","proved",["C44_bn_roundtrip"],"JSON at token level; names are strings, values strings or numbers.")
c("C85","proved",["C85_int_names"],"")
c("C86","proved",["C86_crash"],"Crash points are between JSON tokens.")
c("C45","partial",["C45_false","C45_numeric_partial","C45_strings_partial"],"False of the code for string arrays: codes are stored back in the fixed-width string array and cut (exact behaviour: C87).")
c("C87","proved",["C87_replace_strings"],"")
c("C46","partial",["C46_false","C46_discretize_partial"],"False of the code: unselected columns are truncated to integers. Exact behaviour: C88.")
c("C88","proved",["C88_discretize_exact","C88_bins_by_column"],"Exact rational arithmetic instead of floats.")
c("C89","proved",["Indep.C89_symmetric"],"")
c("C90","proved",["Indep.C90_mi_value"],"Real arithmetic instead of floats.")
c("C91","partial",["Indep.C91_false","Indep.C91_independent_partial"],"False of the code with three or more degrees of freedom. Exact values: C92.")
c("C92","proved",["Indep.C92_independent_pvalue","Indep.exNine_spec"],"")
c("C93","partial",["Indep.C93_false","Indep.C93_range_partial"],"False of the code with one degree of freedom (inf) and none (nan); proved for two or more, any number of conditioning columns.")
c("C94","proved",["Indep.C94_second_conditioner_ignored"],"")
c("C95","partial",["Indep.C95_false","Indep.C95_join_injective_partial"],"False of the code for codes of different lengths; proved for codes below 10.")
c("C96","proved",["Indep.C96_are_independent"],"")
c("C97","proved",["Indep.C97_conditional_zero"],"")
c("C98","proved",["Indep.C98_first_parent_only","Indep.C98_first_parent_only_coded"],"")
c("C99","proved",["Indep.C99_first_parent_score"],"")
c("C100","proved",["C100_one_parent"],"")
c("C101","proved",["C101_always_a_tree","C101_independent_tree"],"")
c("C102","partial",["Bif.C102_read_bif_partial","Bif.C102_false","Bif.C102_example"],"false of the code when cardinalities differ (C103) or a name contains 'variable' (C104)")
c("C103","proved",["Bif.C103_rows_cut","Bif.C103_value_error","Bif.C103_example","Bif.C103_value_error_example"],"")
c("C104","proved",["Bif.C104_spurious_node","Bif.C104_example"],"")
c("C105","proved",["Bif.C105_cut_in_table","Bif.C105_cut_between","Bif.C105_example"],"")
c("C106","proved",["Bif.C106_read_mat","Bif.C106_example"],"")
c("C107","proved",["Bif.C107_read_bn","Bif.C107_example"],"")
c("C108","proved",["Bif.C108_labels_ignored","Bif.C108_example"],"")
c("C109","proved",["Chordal.C109_make_chordal","Chordal.C109_supplied_graph","Chordal.C109_example"],"nx.is_chordal is a parameter, assumed sound")
c("C110","proved",["Chordal.C110_isolated_lost","Chordal.C109_example"],"")
c("C111","proved",["Clq.C111_minimum_spanning_tree","Clq.C111_example"],"")
c("C112","proved",["Clq.C112_junction_tree","Clq.C112_example","Clq.listCliques_ok"],"nx.is_chordal is assumed sound, nx.chordal_graph_cliques to list the maximal cliques")
c("C113","proved",["Clq.C113_assignment","Clq.C112_example"],"")
c("C114","partial",["Clq.C114_single_partial","Clq.C114_false","Clq.C114_wrong_marginal"],"false of the code as soon as a clique has two CPTs (C115)")
c("C115","proved",["Clq.C115_potentials","Clq.C115_some_squared","Clq.C112_example"],"")
c("C116","proved",["Clq.C116_uninitialised","Clq.C116_message","Clq.C116_missing","Clq.exT_canSend"],"")
c("C117","partial",["Clq.C117_sender_partial","Clq.C117_false"],"false of the code when a variable is summed out (C118)")
c("C118","proved",["Clq.C118_sender_damaged","Clq.C117_false"],"")
c("C119","proved",["Clq.C119_upward_pass","Clq.C119_clique_tree","Clq.C119_example","Clq.C114_wrong_marginal"],"")
c("C120","proved",["Clq.C120_parents","Clq.C120_clique_tree"],"")
c("C121","proved",["C121_iamb_growing","C121_example"],"")
c("C122","partial",["C122_iamb_strongest_partial","C122_false"],"false of the code: it appends the loop variable, not the maximum (C121)")
c("C123","proved",["C123_iamb_shrinking"],"")
c("C124","partial",["C124_iamb_shrink_sublist_partial","C124_false"],"false of the code: are_independent is reversed, and the list is changed while iterated (C123)")
c("C125","partial",["C125_gs2_orients_partial","C125_false"],"false of the code: an edge can keep both directions or lose both (C126)")
c("C126","proved",["C126_gs2_exact","path4_ok"],"")
c("C127","proved",["C127_iamb_exact","C127_iamb_total","C127_two_columns"],"")
c("C128","partial",["C128_iamb_nodes_partial","C128_false"],"false of the code: 2-cycles and networks without nodes")
c("C129","proved",["C129_fast_iamb_never"],"")
c("C130","proved",["C130_iamb_feature"],"")
c("C131","proved",["C131_naive_structure","C131_bad_target","nbBin_ok"],"")
c("C132","partial",["C132_naive_frequencies_partial","C132_false"],"false of the code: the estimators read a node's values from the column at its position, and the target is moved to position 0 (C133)")
c("C133","proved",["C133_naive_tables"],"")
c("C134","proved",["BayesNet.C134_ilp_feasible"],"The program is built by the modelled code; feasibility is defined in Spec/Ilp.")
c("C135","proved",["BayesNet.C135_ilp_map","BayesNet.C135_solver_exists"],"The solver (pulp/CBC) is a parameter assumed to return an optimum; entries must be positive (-log 0 is inf).")
c("C136","partial",["BayesNet.C136_ilp_map_partial","BayesNet.C136_false"],"False in general: evidence is ignored and weights are rounded to 3 decimals. Proved: without evidence, a maximum by a factor above exp(n/1000) is printed.")
c("C137", "proved", ["Indep.C137_entropy_one", "Indep.C137_entropy_two"], "")
c("C138", "partial", ["Indep.C138_entropy_three_partial", "Indep.C138_false"], "holds when every column has codes 1, 2, ...; C138_false: codes 0/1 give 0 although H(X|Y,Z) = log 2 (the largest code is used as the number of bins).")
c("C139", "proved", ["Indep.C139_entropy_zero"], "")
c("C140", "partial", ["Indep.C140_mi_from_en_partial", "Indep.C140_false"], "holds on three columns with codes 1, 2, ...; C140_false: every two-column data set with two or more rows raises ValueError.")
c("C141", "proved", ["Indep.C141_two_columns", "Indep.C141_ignores_second"], "")
c("C142", "proved", ["BayesNet.C142_log_likelihood", "BayesNet.C142_no_rows", "BayesNet.C142_order"], "")
c("C143", "partial", ["BayesNet.C143_entrywise_partial", "BayesNet.C143_false"], "False for every number of rows: no data enter the score. Proved only for entrywise comparable tables.")
c("C144", "proved", ["BayesNet.C144_uniform_best"], "")
c("C145", "partial", ["BayesNet.C145_bic_partial", "BayesNet.C145_false"], "The code takes the logarithm of the number of arcs, so the documented penalty holds only when that equals nrow; false for every nrow >= 2.")
c("C146", "proved", ["BayesNet.C146_penalties"], "")
c("C147", "partial", ["BayesNet.C147_few_rows_partial", "BayesNet.C147_false"], "Holds for nrow <= 2; false from 9 rows on already for two coins.")
c("C148", "proved", ["BayesNet.C148_irrelevant_parent", "BayesNet.C148_rewarded"], "")
c("C149", "proved", ["Indep.C149_single_target"], "")
c("C150", "proved", ["Indep.C150_fitness"], "")
c("C151", "partial", ["Indep.C151_zero_partial", "Indep.C151_false"], "Holds for binary variables with empty blankets; with two degrees of freedom the fitness of an exact blanket is at least 1 per outsider, with three or more and no dependence it raises ZeroDivisionError.")
c("C152", "proved", ["Factor.C152_log_roundtrip", "Factor.C152_idempotent"], "")
c("C153", "partial", ["Factor.C153_positive_partial", "Factor.C153_false"], "Entries of at least 6e-6 stay positive; every entry up to 4e-6 comes back as 0.")
c("C154", "proved", ["Factor.C154_max_in_log_space"], "")
c("C155", "proved", ["EmpDist.C155_joint_mass"], "")
c("C156", "proved", ["EmpDist.C156_exact","EmpDist.C156_no_query_returns"], "")
c("C157","proved",["C157_constructor_identity","C157_ready_for_edits"],"object identity of the constructor; Callers = the caller's lists exist and are not add_node's default lists")
c("C158","partial",["C158_independent_partial","C158_false"],"false of the code (C158_false): the children lists are shared; proved: node list, parents, tables (and values when no value dictionary is shared) are independent")
c("C159","proved",["C159_shared_children"],"exact behaviour of the shared edge dictionary")
c("C160","proved",["Indep.C160_conditional_mi_value"],"")
c("C161","proved",["Indep.C161_conditionally_independent_pvalue"],"")
c("C162","proved",["C162_scope_size","C162_by_var"],"")
c("C163","proved",["C163_node_idx","C163_value_idx"],"")
c("C164","proved",["C164_unique_bins"],"")
c("C165","proved",["C165_gs_feature","C165_chow_liu","C165_consolidate","C165_mi_test","C165_gibbs_no_values"],"")
c("C166","proved",["C166_exact_case","C166_binary_rounding","C166_marginal_rounded","C166_absolute_error","C166_double","C166_zero"],"Standard model of floating point (relative error u, no over/underflow); the exact model is the case rnd = id.")
c("C167","proved",["C167_map_rounded","C167_clear_winner"],"Standard model of floating point.")
c("C168","proved",["C168_map_prob_rounded","C168_answered_iff"],"Standard model of floating point; the final round(x, 5) exact.")
c("C169","proved",["C169_sumout_head","C169_reduce_head","C169_head_kept","C169_parents","C169_maxout_stale"],"HeadAfter (in the same file) is the specification of the head after removing a variable.")
c("C170","proved",["C170_unknown_variable"],"")
c("C171","proved",["C171_mean_variance","C171_concentration"],"Spec/Random states what is assumed of the random-number source; uniforms_exist shows such a source exists.")
c("C172","proved",["C172_forward_converges"],"")
c("C173","proved",["C173_lw_converges"],"")
c("C174","proved",["C174_gibbs_converges"],"")
c("C175","partial",["ParamDist.C175_false","ParamDist.C175_formulas_partial","ParamDist.C175_minkowski_false","ParamDist.C175_minkowski_partial","ParamDist.C175_kl_partial","ParamDist.C175_hellinger_partial"],"False of the code: every call raises. Proved: the counterexample; that the formulas of euclidean and manhattan are one function and a metric; that minkowski with p = 1 is another function and with p = 2 the Euclidean distance; Gibbs inequality for the formula of kl_divergence; range, symmetry and extreme values of the formula of hellinger.")
c("C176","proved",["ParamDist.C176_broadcast","ParamDist.C176_as_shipped","ParamDist.C176_name_restored","ParamDist.C176_shapes"],"")
c("C177","proved",["Clq.C177_as_shipped","Clq.C177_import_restored","Clq.C177_no_cliques"],"")
c("C178","partial",["Clq.C178_false","Clq.C178_import_restored"],"False of the code: every call raises NameError; with the import restored the three tables for a fork are not even proportional to the marginals. What it computes instead: C177.")
c("C179","proved",["C179_gs_blanket","C179_gs_returns_iff"],"")
c("C180","proved",["C180_skeleton"],"")
c("C181","partial",["C181_false_chain","C181_false_arc","C181_gs_diverges","C181_gs_skeleton_partial"],"False of the code: for the chain 0->1->2 gs never returns, for a single arc it returns a network without nodes. Proved: a general criterion for non-termination, and that the undirected graph is right before orientation.")
c("C182","proved",["C182_iamb_blanket"],"")
c("C183","partial",["C183_false","C183_skipped","C183_pc_keeps_partial"],"False of the code: marginal independence is never tested and pairs are skipped. Proved: no true edge is dropped.")
c("C184","proved",["C184_history","C184_start"],"")
c("C185","partial",["C185_false","C185_refresh_partial","C185_refresh_subset"],"False of the code for objects built for some of the nodes: refresh() builds the factors of all nodes. Proved for objects built for the whole network, and what refresh() does in general.")
c("C186","partial",["C186_false","C186_failed_call_partial"],"False of the code: a reduction that raises has already recorded the value in map_assignment. Proved: nothing else changes, and a failed / or // changes nothing.")
c("C187","proved",["C187_marginal_map","C187_sum_after_max"],"")
c("C188","proved",["C188_mle_recovers"],"")
c("C189","proved",["C189_bayes_recovers"],"")
c("C190","partial",["C190_false","C190_uniform_partial"],"False of the code: the default prior weight grows with the data, so a coin with P = 1/4 is learned as 3/8 from any number of rows. Proved for entries that are uniform.")
c("C191","proved",["C191_default_prior_limit"],"")
c("C192","proved",["C192_mi_consistent","C192_entropy_consistent"],"")
c("C193","proved",["C193_dependence_detected"],"")
c("C194","proved",["C194_marginal_robust","C194_map_robust"],"")
c("C195","proved",["C195_learn_then_infer"],"")
c("C196","proved",["Broken.C196_mle_fast","Broken.C196_bayes_scores","Broken.C196_mmpc","Broken.C196_lambda_iamb","Broken.C196_predict"],"")
c("C197","proved",["C197_separated_independent","C197_irrelevant_evidence"],"d-separation by active paths (Spec/DSep) of sets of nodes implies independence (Spec/CondIndep); answers of marginalVE, both queries assumed to return (C52 says exactly when they do); example: the W-shaped network exW, where both do")
c("C198","proved",["C198_blanket_shields"],"heap model of markov_blanket (C43) combined with d-separation soundness")
c("C199","proved",["C199_true_tests_perfect","C199_gs_blanket","C199_gs_skeleton"],"faithfulness is a hypothesis (exNet_faithful shows a network that meets it); tests are arbitrary functions that agree with the true independences. Whether the loop returns is C181")
c("C200","proved",["C200_only_ancestors_matter","C200_same_graph"],"the networks may differ arbitrarily outside the ancestors")
c("C201","proved",["HNet.C201_unknown","HNet.C201_half_done"],"")
c("C202","proved",["C202_sepset"],"")
c("C203","proved",["C203_conditional_mi_consistent"],"the limit is the conditional mutual information with the smoothing constants of the code (nodeCMI, Spec/CondRecover)")
c("C204","partial",["C204_false","C204_dependence_partial"],"false of the code: conditionally independent nodes are reported dependent on all large samples")
c("C205","proved",["C205_conditional_test_always_rejects","C205_general","C205_every_conditional_test_rejects"],"")
c("C206","proved",["C206_pc_learns_nothing"],"numbers are exact reals, as in C91-C97")
c("C207","partial",["C207_false","C207_gs_superset_partial"],"false of the code: gs finds all other nodes, iamb half of them (C208, C209), pc no edges (C206)")
c("C208","proved",["C208_gs_blanket_everything","C208_gs_learns_nothing"],"")
c("C209","proved",["C209_iamb_half","C209_three_nodes"],"the three-node result assumes that sets of small integers are iterated in increasing order, as in CPython")
c("C210","proved",["C210_searches_return","C210_no_rows"],"hc_rr itself: C33/C64 family; here only that its prelude never fails")
c("C211","proved",["C211_no_rows"],"")
c("C212","proved",["C212_metric_ignored"],"")
c("C213","proved",["C213_mdbn"],"")
c("C214","partial",["C214_false","C214_greedy_partial"],"false of the code: two independent coins get an arc; holds when the network's arcs happen to be the greedy ones (C216)")
c("C215","proved",["C215_tree_in_the_long_run","C215_nonvacuous"],"")
c("C216","proved",["C216_greedy_tree","C216_greedy_in_the_long_run","C216_two_nodes","C216_nonvacuous","C216_data_nonvacuous"],"")
c("C217","proved",["C217_mle_other_structure"],"")
c("C218","proved",["C218_extra_arcs"],"")
c("C219","proved",["C219_naive_bayes_in_the_long_run"],"the alignment of values with columns is needed because of C132")
c("C220","proved",["C220_mle_rows_needed"],"")
c("C221","proved",["C221_inference_rows_needed"],"")
c("C222","proved",["C222_bayes_rows_needed"],"")
c("C223","proved",["C223_naive_bayes_rows_needed"],"the alignment of values with columns is needed because of C132")
c("C224","proved",["C224_lw_samples_needed"],"")
c("C225","proved",["C225_gibbs_sweeps_needed"],"")
c("C226","proved",["Obj.C226_as_values","Obj.C226_marginal_exact","Obj.C226_map_exact"],"object-level model in Model/FactorObjects.lean; the state left by a call that raises is not modelled")
c("C227","proved",["Obj.C227_undisturbed"],"")
c("C228","proved",["Obj.C228_interleaved"],"the value-level histories are those of C184-C186")
c("C229","partial",["Obj.C229_false","Obj.C229_others_partial"],"false of the code: all four operators change f (exact behaviour: C230); objects sharing nothing with the operands are unchanged")
c("C230","proved",["Obj.C230_operators_mutate"],"")
c("C231","proved",["C231_reloaded_answers"],"")
c("C232","partial",["C232_false","C232_forest_partial"],"false of the code: the reloaded order may put a node before its parent (exact behaviour: C233); holds when no node has two parents")
c("C233","proved",["C233_reloaded_sampling"],"")
c("C234","proved",["Chordal.C234_fill_in","Chordal.C234_supplied"],"")
c("C235","proved",["C235_total_probability","C235_exchange"],"exact arithmetic")
c("C236","proved",["C236_more_evidence"],"exact arithmetic")
c("C237","partial",["C237_fits_iff_partial","C237_false"],"false of the code: add_edge and remove_edge leave the table of the child as it was; the tables fit afterwards exactly if the parent has a single value")
c("C238","proved",["C238_wrong_length","C238_after_edit"],"")
c("C239","proved",["C239_extra_entries","C239_after_remove_edge"],"exact arithmetic")
c("C240","proved",["C240_too_short","C240_after_add_edge"],"")
c("C241","proved",["C241_share"],"")
c("C242","proved",["C242_new_factor","C242_chordal"],"")
c("C243","proved",["C243_too_short","C243_after_add_edge"],"")
c("C244","proved",["C244_marginal","C244_map","C244_map_prob"],"")
c("C245","proved",["C245_rows","C245_expected"],"")
c("C246","proved",["C246_tests","C246_estimators","C246_learners","C246_prep"],"")
c("C247","proved",["C247_max_likelihood"],"")
c("C248","proved",["C248_rare"],"")
c("C249","proved",["C249_wiped","C249_useless","C249_not_a_column"],"")
c("C250","proved",["C250_too_few_columns","C250_then_stuck"],"For bayes_estimator the state is that of its two preparing loops; the in-place counting that follows is not reached in this case.")
c("C251","proved",["C251_old_parameters","C251_recovers","C251_all_nodes_needed"],"")
c("C252","proved",["C252_whole_family","C252_given_parents","C252_root_evidence"],"")
c("C253","proved",["C253_lw_table_row"],"")
c("C254","proved",["C254_at_least_star"],"chow_liu itself raises TypeError at its first call of mi_test (C50); the statement is about the selection given the weights.")
c("C255","proved",["C255_parameters","C255_copy","C255_exact"],"")
c("C256","partial",["C256_false","C256_found_partial"],"False of the code: a lookup with an equal network that is another object raises TypeError, because __eq__ raises (C25). Proved: the very object is found while its nodes and children are unchanged. Exact behaviour: C257.")
c("C257","proved",["C257_lookup","C257_store","C257_edited_lost"],"")
c("C258","proved",["C258_mle_nearest"],"In exact arithmetic; hypotheses are those of C66.")
c("C259","proved",["C259_mle","C259_counts","C259_bayes"],"")
c("C260","proved",["C260_mle","C260_bayes"],"")
c("C261","partial",["Indep.C261_false","Indep.C261_entropy_false","Indep.C261_coded_partial"],"False of the code: codes with gaps are merged by the equal-width bins (0, 1, 10 in three bins), so dependent columns get mutual information 0, and the entropy of a column can be nan. Proved for codes without gaps, in any order. Exact behaviour: C262.")
c("C262","proved",["Indep.C262_bins","Indep.C262_affine"],"Real arithmetic instead of floats.")
c("C263","proved",["C263_information","C263_searches","C263_scale"],"Exact arithmetic instead of floats (scores are rounded to four digits as in the code).")
c("C264","proved",["C264_extra_entries","C264_after_remove_edge"],"Exact arithmetic instead of floats.")
c("C265","proved",["C265_outcome","C265_recovers","C265_idempotent","C265_zero_prior"],"C265_outcome and C265_idempotent ask that no node is listed twice; C265_zero_prior is the concrete state after a ZeroDivisionError.")
c("C266","proved",["C266_relative_frequencies","C266_prior_is_rows"],"Exact arithmetic before the rounding.")
c("C267","proved",["C267_shrinks","C267_between"],"Exact arithmetic before the rounding.")
c("C268","partial",["C268_others_kept_partial","C268_false","C268_false_table"],"False of the code: a finished mle_estimator drops the other nodes (C268_false, exactly: C269), and tables of nodes with an unlisted parent, or not listed at the position of their column, are wrong (C268_false_table). Proved: bayes_estimator, and mle_estimator when it raises or counts, leave the other nodes alone.")
c("C269","proved",["C269_dropped","C269_useless"],"")
c("C270","proved",["C270_closed_list","C270_example"],"The positive side of C268; by simulation with the network restricted to the list.")
c("C271","proved",["C271_counts","C271_tables","C271_example"],"As C270; what happens to the other nodes is C269.")
c("C272","proved",["C272_mle","C272_bayes","C272_example"],"No assumption that positions match columns.")
c("C273","proved",["C273_mle_rounded","C273_double","C273_example"],"The hypotheses are those of C66. No over- or underflow.")
c("C274","proved",["C274_bayes_rounded","C274_double","C274_example"],"The hypotheses are those of C67. No over- or underflow; the equivalent sample size is itself a float.")
c("C275","proved",["C275_bayes_rounded_sums","C275_example"],"The floating point counterpart of C36 for bayes_estimator.")
c("C276","proved",["C276_mle_rounded_sums","C276_example"],"The floating point counterpart of C36 for mle_estimator; an unobserved parent assignment gives zeros, as in exact arithmetic.")
