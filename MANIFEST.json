{
 "claims": [
  {
   "property": "C01",
   "status": "proved",
   "theorems": [
    "PyBN.C01_factor_init_reads_cpt",
    "PyBN.C01_value_indices"
   ],
   "note": "Exact rationals; index bijection for every shape."
  },
  {
   "property": "C02",
   "status": "proved",
   "theorems": [
    "PyBN.C02_multiply_pointwise"
   ],
   "note": "Every hash order, either operand larger; includes absence of exceptions."
  },
  {
   "property": "C03",
   "status": "proved",
   "theorems": [
    "PyBN.C03_multiply_comm",
    "PyBN.C03_multiply_assoc"
   ],
   "note": "Equality as functions on the same scope set; exact arithmetic."
  },
  {
   "property": "C04",
   "status": "proved",
   "theorems": [
    "PyBN.C04_sumout_marginalises"
   ],
   "note": ""
  },
  {
   "property": "C05",
   "status": "proved",
   "theorems": [
    "PyBN.C05_maxout_maximises",
    "PyBN.C05_negative_tables_fail"
   ],
   "note": "Stated for non-negative tables, as the property says; the second theorem shows the restriction is needed."
  },
  {
   "property": "C06",
   "status": "proved",
   "theorems": [
    "PyBN.C06_reduce_restricts"
   ],
   "note": "Includes termination of the while loop."
  },
  {
   "property": "C07",
   "status": "proved",
   "theorems": [
    "PyBN.C07_sumover",
    "PyBN.C07_sumover_eq_sumout_rest"
   ],
   "note": ""
  },
  {
   "property": "C08",
   "status": "proved",
   "theorems": [
    "PyBN.C08_sumout_order",
    "PyBN.C08_reduce_order"
   ],
   "note": ""
  },
  {
   "property": "C09",
   "status": "proved",
   "theorems": [
    "PyBN.C09_normalize",
    "PyBN.C09_normalize_scalar",
    "PyBN.C09_no_first_variable"
   ],
   "note": "Which stride-one variable is used depends on hash order if cardinality-1 variables tie; the theorem holds for whichever is picked."
  },
  {
   "property": "C10",
   "status": "proved",
   "theorems": [
    "PyBN.C10_histories",
    "PyBN.C10_step"
   ],
   "note": "Histories over a pool of factors; a right operand damaged by multiply (C11) counts as consumed."
  },
  {
   "property": "C11",
   "status": "partial",
   "theorems": [
    "PyBN.C11_false",
    "PyBN.C11_right_operand_intact_partial",
    "PyBN.C11_exact_effect_partial"
   ],
   "note": "The property is false of the code (C11_false: KeyError on the untouched operand). Proved: intact when the right scope is not larger; exact description of the change otherwise."
  },
  {
   "property": "C12",
   "status": "proved",
   "theorems": [
    "PyBN.C12_sum_product_eliminate"
   ],
   "note": "Every hash order; any factorization whose factors are well formed."
  },
  {
   "property": "C13",
   "status": "proved",
   "theorems": [
    "PyBN.C13_ties",
    "PyBN.C13_marginal_exact",
    "PyBN.C13_rounding",
    "PyBN.C13_order_independent"
   ],
   "note": "No legality hypothesis: a returned value implies the query was legal. Exact arithmetic before np.round."
  },
  {
   "property": "C14",
   "status": "partial",
   "theorems": [
    "PyBN.C14_false",
    "PyBN.C14_no_evidence_partial",
    "PyBN.C51_sum_is_evidence_prob"
   ],
   "note": "False with evidence (C14_false). Proved without evidence for normalised acyclic networks; with evidence the entries sum to P(evidence), see C51."
  },
  {
   "property": "C15",
   "status": "partial",
   "theorems": [
    "PyBN.C15_false",
    "PyBN.C52_answered_iff"
   ],
   "note": "False of the code: consolidate() reads an undefined global. The exact set of answered queries is C52."
  },
  {
   "property": "C16",
   "status": "proved",
   "theorems": [
    "PyBN.C16_map_is_most_probable",
    "PyBN.C16_illegal_evidence_raises",
    "PyBN.C16_target"
   ],
   "note": "Non-negative tables (probabilities)."
  },
  {
   "property": "C17",
   "status": "proved",
   "theorems": [
    "PyBN.C17_map_prob"
   ],
   "note": "Stated for calls that return, as the property says; when they return is C53."
  },
  {
   "property": "C51",
   "status": "proved",
   "theorems": [
    "PyBN.C51_sum_is_evidence_prob"
   ],
   "note": ""
  },
  {
   "property": "C52",
   "status": "proved",
   "theorems": [
    "PyBN.C52_answered_iff",
    "PyBN.C52_root_evidence_never_answered"
   ],
   "note": ""
  },
  {
   "property": "C53",
   "status": "proved",
   "theorems": [
    "PyBN.C53_map_prob_answered_iff"
   ],
   "note": ""
  },
  {
   "property": "C18",
   "status": "proved",
   "theorems": [
    "PyBN.C18_cpt_indices",
    "PyBN.C18_complete_configuration"
   ],
   "note": ""
  },
  {
   "property": "C19",
   "status": "proved",
   "theorems": [
    "PyBN.C19_stride_agrees"
   ],
   "note": ""
  },
  {
   "property": "C20",
   "status": "proved",
   "theorems": [
    "PyBN.C20_counts"
   ],
   "note": ""
  },
  {
   "property": "C21",
   "status": "proved",
   "theorems": [
    "PyBN.C21_moral_graph"
   ],
   "note": ""
  },
  {
   "property": "C23",
   "status": "proved",
   "theorems": [
    "PyBN.C23_set_structure"
   ],
   "note": ""
  },
  {
   "property": "C25",
   "status": "partial",
   "theorems": [
    "PyBN.C25_false",
    "PyBN.C25_exact_partial"
   ],
   "note": "False of the code: set + set raises TypeError for every non-empty comparison over equal node sets; exact behaviour proved."
  },
  {
   "property": "C26",
   "status": "proved",
   "theorems": [
    "PyBN.C26_topsort_all_nodes",
    "PyBN.C26_topsort_root",
    "PyBN.C26_topsort_general",
    "PyBN.C26_topsort_terminates"
   ],
   "note": ""
  },
  {
   "property": "C27",
   "status": "partial",
   "theorems": [
    "PyBN.C27_false",
    "PyBN.C27_topological_forest_partial",
    "PyBN.C27_postorder_forest_partial"
   ],
   "note": "False in general (C27_false: breadth-first order); proved for forests. What does hold for every graph is C54."
  },
  {
   "property": "C28",
   "status": "proved",
   "theorems": [
    "PyBN.C28_would_cause_cycle",
    "PyBN.C28_addition_iff_reach",
    "PyBN.C28_reverse_absent_raises"
   ],
   "note": "nx.find_cycle by contract (Spec.FindsCycles); an executable reference meets the contract."
  },
  {
   "property": "C29",
   "status": "proved",
   "theorems": [
    "PyBN.C29_mst_spanning_tree",
    "PyBN.C29_mst_is_prim"
   ],
   "note": ""
  },
  {
   "property": "C54",
   "status": "proved",
   "theorems": [
    "PyBN.C54_some_parent_precedes"
   ],
   "note": ""
  },
  {
   "property": "C55",
   "status": "partial",
   "theorems": [
    "PyBN.C55_false",
    "PyBN.C55_windows_partial",
    "PyBN.C55_no_parents_partial"
   ],
   "note": "False of the code: the windows overlap. Exact behaviour proved; the property holds for tables with one row."
  },
  {
   "property": "C56",
   "status": "proved",
   "theorems": [
    "PyBN.C56_unknown_value_is_last"
   ],
   "note": ""
  },
  {
   "property": "C58",
   "status": "proved",
   "theorems": [
    "PyBN.C58_cpt_str_idx"
   ],
   "note": ""
  },
  {
   "property": "C59",
   "status": "proved",
   "theorems": [
    "PyBN.C59_adj_list"
   ],
   "note": ""
  },
  {
   "property": "C22",
   "status": "partial",
   "theorems": [
    "PyBN.HNet.C22_histories_partial",
    "PyBN.HNet.C22_exceptions_partial",
    "PyBN.HNet.C22_constructed_partial",
    "PyBN.HNet.C22_reverse_arc_breaks",
    "PyBN.HNet.C22_false"
   ],
   "note": "False with reverse_arc (on every network with an arc: C22_reverse_arc_breaks) and with new nodes (C57, C60). Proved for all histories of add_edge/remove_edge between existing nodes, with the exact arc set."
  },
  {
   "property": "C24",
   "status": "partial",
   "theorems": [
    "PyBN.HNet.C24_copy_raises",
    "PyBN.HNet.C24_copy_equal",
    "PyBN.HNet.C24_original_edits_invisible",
    "PyBN.HNet.C24_copy_edits_invisible_partial",
    "PyBN.HNet.C24_independent_partial",
    "PyBN.HNet.C24_false"
   ],
   "note": "Equality proved in general. Independence proved for every interleaving in which new nodes are only made while the other side holds no default list of add_node; false without that proviso (C24_false)."
  },
  {
   "property": "C57",
   "status": "proved",
   "theorems": [
    "PyBN.HNet.C57_add_edge_unknown_source"
   ],
   "note": ""
  },
  {
   "property": "C60",
   "status": "proved",
   "theorems": [
    "PyBN.HNet.C60_shared_default_parents"
   ],
   "note": ""
  },
  {
   "property": "C30",
   "status": "proved",
   "theorems": [
    "PyBN.C30_hc_dag"
   ],
   "note": "mutual_information is an arbitrary oracle; nx.find_cycle by its contract"
  },
  {
   "property": "C31",
   "status": "partial",
   "theorems": [
    "PyBN.C31_restriction_partial",
    "PyBN.C31_passes_partial",
    "PyBN.C31_false"
   ],
   "note": "true without debug; with debug=True reversals leave the restriction list (C31_false)"
  },
  {
   "property": "C32",
   "status": "partial",
   "theorems": [
    "PyBN.C32_moves_made_partial",
    "PyBN.C32_false"
   ],
   "note": "additions and deletions always performed; reversals only with debug=True (C32_false)"
  },
  {
   "property": "C33",
   "status": "partial",
   "theorems": [
    "PyBN.C33_no_undo_partial",
    "PyBN.C33_restriction_partial",
    "PyBN.C33_false"
   ],
   "note": "true for k >= 5, window 5, additions and deletions; false for small k (IndexError) and for reversals"
  },
  {
   "property": "C34",
   "status": "partial",
   "theorems": [
    "PyBN.C34_dag_if_returns_partial",
    "PyBN.C34_false"
   ],
   "note": "acyclic whenever it returns; may never return, and random additions ignore the restriction (C34_false)"
  },
  {
   "property": "C61",
   "status": "proved",
   "theorems": [
    "PyBN.C61_reversal_freezes"
   ],
   "note": ""
  },
  {
   "property": "C62",
   "status": "proved",
   "theorems": [
    "PyBN.C62_local_optimum"
   ],
   "note": "score difference = the one the code computes"
  },
  {
   "property": "C63",
   "status": "proved",
   "theorems": [
    "PyBN.C63_tabu_window"
   ],
   "note": ""
  },
  {
   "property": "C64",
   "status": "proved",
   "theorems": [
    "PyBN.C64_no_restart_is_hc"
   ],
   "note": ""
  },
  {
   "property": "C35",
   "status": "partial",
   "theorems": [
    "PyBN.C35_counts_partial",
    "PyBN.C35_false"
   ],
   "note": "True when every node stands in the node list at the position of its column (e.g. nodes=range(n)); false for other orders such as the topological order [1, 0] of the arc 1 -> 0 (C35_false). The exact behaviour for every order is C65."
  },
  {
   "property": "C36",
   "status": "partial",
   "theorems": [
    "PyBN.C36_mle_partial",
    "PyBN.C36_bayes_partial",
    "PyBN.C36_false"
   ],
   "note": "bayes_estimator: proved for every positive equivalent sample size. mle_estimator: each block sums to one within card*5e-6+1e-7 or is all zero (parent configuration never observed, C36_false)."
  },
  {
   "property": "C65",
   "status": "proved",
   "theorems": [
    "PyBN.C65_counts_by_position"
   ],
   "note": ""
  },
  {
   "property": "C66",
   "status": "proved",
   "theorems": [
    "PyBN.C66_ties",
    "PyBN.C66_mle_probabilities",
    "PyBN.C66_parent_order_needed"
   ],
   "note": "The second theorem shows the parent-order hypothesis cannot be dropped."
  },
  {
   "property": "C67",
   "status": "proved",
   "theorems": [
    "PyBN.C67_bayes_probabilities"
   ],
   "note": ""
  },
  {
   "property": "C37",
   "status": "proved",
   "theorems": [
    "PyBN.C37_relative_frequencies",
    "PyBN.C37_counts"
   ],
   "note": "for every sequence of uniform numbers; the tables may be off one by numpy's tolerance"
  },
  {
   "property": "C38",
   "status": "proved",
   "theorems": [
    "PyBN.C38_random_sample",
    "PyBN.C38_forward_sample",
    "PyBN.C38_unbiased"
   ],
   "note": "probability = Lebesgue measure on the cube of uniform random numbers; also expectation of the estimate = exact marginal"
  },
  {
   "property": "C39",
   "status": "proved",
   "theorems": [
    "PyBN.C39_evidence",
    "PyBN.C39_weighted_counts",
    "PyBN.C39_expected_weight"
   ],
   "note": "nan results (total weight zero) are modelled as an error"
  },
  {
   "property": "C40",
   "status": "partial",
   "theorems": [
    "PyBN.C40_false",
    "PyBN.C40_partial"
   ],
   "note": "false of the code: sweeps 0..burn are dropped but the divisor is n-burn; exact behaviour in C68"
  },
  {
   "property": "C68",
   "status": "proved",
   "theorems": [
    "PyBN.C68_gibbs_counts",
    "PyBN.C68_gibbs_sum",
    "PyBN.C68_gibbs_zero"
   ],
   "note": ""
  },
  {
   "property": "C69",
   "status": "proved",
   "theorems": [
    "PyBN.C69_gibbs_is_forward"
   ],
   "note": ""
  },
  {
   "property": "C70",
   "status": "proved",
   "theorems": [
    "PyBN.C70_forward_keyError"
   ],
   "note": ""
  },
  {
   "property": "C71",
   "status": "proved",
   "theorems": [
    "PyBN.C71_random_is_forward"
   ],
   "note": ""
  },
  {
   "property": "C72",
   "status": "proved",
   "theorems": [
    "PyBN.C72_lw_without_evidence"
   ],
   "note": ""
  },
  {
   "property": "C73",
   "status": "proved",
   "theorems": [
    "PyBN.C73_unnormalised_error",
    "PyBN.C73_learned_example"
   ],
   "note": ""
  },
  {
   "property": "C41",
   "status": "proved",
   "theorems": [
    "PyBN.C41_missing_extra",
    "PyBN.C41_metric"
   ],
   "note": "Finite-cardinality statements over arc sets; Struct asks nothing about values and tables, so it covers structure-only networks."
  },
  {
   "property": "C42",
   "status": "partial",
   "theorems": [
    "PyBN.C42_false",
    "PyBN.C42_count_iff_none_reversed_partial"
   ],
   "note": "False of the code: line 91 tests `rv in y.parents(rv)`. Exact behaviour is C75; the count is right iff no arc is reversed."
  },
  {
   "property": "C43",
   "status": "proved",
   "theorems": [
    "PyBN.HNet.C43_missing",
    "PyBN.C43_markov_blanket",
    "PyBN.C43_symmetric"
   ],
   "note": "Heap-level model: also proves no list of any network object is changed."
  },
  {
   "property": "C74",
   "status": "proved",
   "theorems": [
    "PyBN.C74_missing_edges",
    "PyBN.C74_keyError"
   ],
   "note": ""
  },
  {
   "property": "C75",
   "status": "proved",
   "theorems": [
    "PyBN.C75_always_zero",
    "PyBN.C75_hamming"
   ],
   "note": ""
  },
  {
   "property": "C76",
   "status": "proved",
   "theorems": [
    "PyBN.C76_set_structure_general"
   ],
   "note": ""
  },
  {
   "property": "C47",
   "status": "proved",
   "theorems": [
    "PyBN.C47_resolve_undirected"
   ],
   "note": "Independence tests are arbitrary oracles."
  },
  {
   "property": "C77",
   "status": "proved",
   "theorems": [
    "PyBN.C77_resolve_exact",
    "PyBN.C77_full_set_untested"
   ],
   "note": ""
  },
  {
   "property": "C48",
   "status": "partial",
   "theorems": [
    "PyBN.C48_false",
    "PyBN.C48_gs_blanket_partial"
   ],
   "note": "False of the code: the shrink loop never updates S. Exact behaviour is C78."
  },
  {
   "property": "C78",
   "status": "proved",
   "theorems": [
    "PyBN.C78_gs_blanket",
    "PyBN.C78_gs_growing"
   ],
   "note": ""
  },
  {
   "property": "C79",
   "status": "proved",
   "theorems": [
    "PyBN.C79_gs_dependent_empty"
   ],
   "note": ""
  },
  {
   "property": "C80",
   "status": "partial",
   "theorems": [
    "PyBN.C80_false",
    "PyBN.C80_orient_MB_partial"
   ],
   "note": "False of the code in three ways (both directions kept, both lost, ValueError). Proved: it only ever removes arcs."
  },
  {
   "property": "C49",
   "status": "proved",
   "theorems": [
    "PyBN.C49_pc_skeleton"
   ],
   "note": ""
  },
  {
   "property": "C81",
   "status": "proved",
   "theorems": [
    "PyBN.C81_pc_no_marginal",
    "PyBN.C81_collider"
   ],
   "note": ""
  },
  {
   "property": "C82",
   "status": "proved",
   "theorems": [
    "PyBN.C82_pc_edgeless"
   ],
   "note": ""
  },
  {
   "property": "C83",
   "status": "partial",
   "theorems": [
    "PyBN.C83_false",
    "PyBN.C83_pc_nodes_partial"
   ],
   "note": "False of the code: exact tests of a 4-variable chain give a 2-cycle and no node."
  },
  {
   "property": "C50",
   "status": "proved",
   "theorems": [
    "PyBN.C50_chow_liu_tree"
   ],
   "note": "The weights are an argument; chow_liu itself raises TypeError when it computes them (mi_test has no chi2_test argument)."
  },
  {
   "property": "C84",
   "status": "partial",
   "theorems": [
    "PyBN.C84_false",
    "PyBN.C84_chow_liu_heaviest_partial"
   ],
   "note": "False of the code: a pair seen before either end is in the tree is never revisited."
  },
  {
   "property": "C44",
   "status": "proved",
   "theorems": [
    "PyBN.C44_bn_roundtrip"
   ],
   "note": "JSON at token level; names are strings, values strings or numbers."
  },
  {
   "property": "C85",
   "status": "proved",
   "theorems": [
    "PyBN.C85_int_names"
   ],
   "note": ""
  },
  {
   "property": "C86",
   "status": "proved",
   "theorems": [
    "PyBN.C86_crash"
   ],
   "note": "Crash points are between JSON tokens."
  },
  {
   "property": "C45",
   "status": "partial",
   "theorems": [
    "PyBN.C45_false",
    "PyBN.C45_numeric_partial",
    "PyBN.C45_strings_partial"
   ],
   "note": "False of the code for string arrays: codes are stored back in the fixed-width string array and cut (exact behaviour: C87)."
  },
  {
   "property": "C87",
   "status": "proved",
   "theorems": [
    "PyBN.C87_replace_strings"
   ],
   "note": ""
  },
  {
   "property": "C46",
   "status": "partial",
   "theorems": [
    "PyBN.C46_false",
    "PyBN.C46_discretize_partial"
   ],
   "note": "False of the code: unselected columns are truncated to integers. Exact behaviour: C88."
  },
  {
   "property": "C88",
   "status": "proved",
   "theorems": [
    "PyBN.C88_discretize_exact",
    "PyBN.C88_bins_by_column"
   ],
   "note": "Exact rational arithmetic instead of floats."
  },
  {
   "property": "C89",
   "status": "proved",
   "theorems": [
    "PyBN.Indep.C89_symmetric"
   ],
   "note": ""
  },
  {
   "property": "C90",
   "status": "proved",
   "theorems": [
    "PyBN.Indep.C90_mi_value"
   ],
   "note": "Real arithmetic instead of floats."
  },
  {
   "property": "C91",
   "status": "partial",
   "theorems": [
    "PyBN.Indep.C91_false",
    "PyBN.Indep.C91_independent_partial"
   ],
   "note": "False of the code with three or more degrees of freedom. Exact values: C92."
  },
  {
   "property": "C92",
   "status": "proved",
   "theorems": [
    "PyBN.Indep.C92_independent_pvalue",
    "PyBN.Indep.exNine_spec"
   ],
   "note": ""
  },
  {
   "property": "C93",
   "status": "partial",
   "theorems": [
    "PyBN.Indep.C93_false",
    "PyBN.Indep.C93_range_partial"
   ],
   "note": "False of the code with one degree of freedom (inf) and none (nan); proved for two or more, any number of conditioning columns."
  },
  {
   "property": "C94",
   "status": "proved",
   "theorems": [
    "PyBN.Indep.C94_second_conditioner_ignored"
   ],
   "note": ""
  },
  {
   "property": "C95",
   "status": "partial",
   "theorems": [
    "PyBN.Indep.C95_false",
    "PyBN.Indep.C95_join_injective_partial"
   ],
   "note": "False of the code for codes of different lengths; proved for codes below 10."
  },
  {
   "property": "C96",
   "status": "proved",
   "theorems": [
    "PyBN.Indep.C96_are_independent"
   ],
   "note": ""
  },
  {
   "property": "C97",
   "status": "proved",
   "theorems": [
    "PyBN.Indep.C97_conditional_zero"
   ],
   "note": ""
  },
  {
   "property": "C98",
   "status": "proved",
   "theorems": [
    "PyBN.Indep.C98_first_parent_only",
    "PyBN.Indep.C98_first_parent_only_coded"
   ],
   "note": ""
  },
  {
   "property": "C99",
   "status": "proved",
   "theorems": [
    "PyBN.Indep.C99_first_parent_score"
   ],
   "note": ""
  },
  {
   "property": "C100",
   "status": "proved",
   "theorems": [
    "PyBN.C100_one_parent"
   ],
   "note": ""
  },
  {
   "property": "C101",
   "status": "proved",
   "theorems": [
    "PyBN.C101_always_a_tree",
    "PyBN.C101_independent_tree"
   ],
   "note": ""
  },
  {
   "property": "C102",
   "status": "partial",
   "theorems": [
    "PyBN.Bif.C102_read_bif_partial",
    "PyBN.Bif.C102_false",
    "PyBN.Bif.C102_example"
   ],
   "note": "false of the code when cardinalities differ (C103) or a name contains 'variable' (C104)"
  },
  {
   "property": "C103",
   "status": "proved",
   "theorems": [
    "PyBN.Bif.C103_rows_cut",
    "PyBN.Bif.C103_value_error",
    "PyBN.Bif.C103_example",
    "PyBN.Bif.C103_value_error_example"
   ],
   "note": ""
  },
  {
   "property": "C104",
   "status": "proved",
   "theorems": [
    "PyBN.Bif.C104_spurious_node",
    "PyBN.Bif.C104_example"
   ],
   "note": ""
  },
  {
   "property": "C105",
   "status": "proved",
   "theorems": [
    "PyBN.Bif.C105_cut_in_table",
    "PyBN.Bif.C105_cut_between",
    "PyBN.Bif.C105_example"
   ],
   "note": ""
  },
  {
   "property": "C106",
   "status": "proved",
   "theorems": [
    "PyBN.Bif.C106_read_mat",
    "PyBN.Bif.C106_example"
   ],
   "note": ""
  },
  {
   "property": "C107",
   "status": "proved",
   "theorems": [
    "PyBN.Bif.C107_read_bn",
    "PyBN.Bif.C107_example"
   ],
   "note": ""
  },
  {
   "property": "C108",
   "status": "proved",
   "theorems": [
    "PyBN.Bif.C108_labels_ignored",
    "PyBN.Bif.C108_example"
   ],
   "note": ""
  },
  {
   "property": "C109",
   "status": "proved",
   "theorems": [
    "PyBN.Chordal.C109_make_chordal",
    "PyBN.Chordal.C109_supplied_graph",
    "PyBN.Chordal.C109_example"
   ],
   "note": "nx.is_chordal is a parameter, assumed sound"
  },
  {
   "property": "C110",
   "status": "proved",
   "theorems": [
    "PyBN.Chordal.C110_isolated_lost",
    "PyBN.Chordal.C109_example"
   ],
   "note": ""
  },
  {
   "property": "C111",
   "status": "proved",
   "theorems": [
    "PyBN.Clq.C111_minimum_spanning_tree",
    "PyBN.Clq.C111_example"
   ],
   "note": ""
  },
  {
   "property": "C112",
   "status": "proved",
   "theorems": [
    "PyBN.Clq.C112_junction_tree",
    "PyBN.Clq.C112_example",
    "PyBN.Clq.listCliques_ok"
   ],
   "note": "nx.is_chordal is assumed sound, nx.chordal_graph_cliques to list the maximal cliques"
  },
  {
   "property": "C113",
   "status": "proved",
   "theorems": [
    "PyBN.Clq.C113_assignment",
    "PyBN.Clq.C112_example"
   ],
   "note": ""
  },
  {
   "property": "C114",
   "status": "partial",
   "theorems": [
    "PyBN.Clq.C114_single_partial",
    "PyBN.Clq.C114_false",
    "PyBN.Clq.C114_wrong_marginal"
   ],
   "note": "false of the code as soon as a clique has two CPTs (C115)"
  },
  {
   "property": "C115",
   "status": "proved",
   "theorems": [
    "PyBN.Clq.C115_potentials",
    "PyBN.Clq.C115_some_squared",
    "PyBN.Clq.C112_example"
   ],
   "note": ""
  },
  {
   "property": "C116",
   "status": "proved",
   "theorems": [
    "PyBN.Clq.C116_uninitialised",
    "PyBN.Clq.C116_message",
    "PyBN.Clq.C116_missing",
    "PyBN.Clq.exT_canSend"
   ],
   "note": ""
  },
  {
   "property": "C117",
   "status": "partial",
   "theorems": [
    "PyBN.Clq.C117_sender_partial",
    "PyBN.Clq.C117_false"
   ],
   "note": "false of the code when a variable is summed out (C118)"
  },
  {
   "property": "C118",
   "status": "proved",
   "theorems": [
    "PyBN.Clq.C118_sender_damaged",
    "PyBN.Clq.C117_false"
   ],
   "note": ""
  },
  {
   "property": "C119",
   "status": "proved",
   "theorems": [
    "PyBN.Clq.C119_upward_pass",
    "PyBN.Clq.C119_clique_tree",
    "PyBN.Clq.C119_example",
    "PyBN.Clq.C114_wrong_marginal"
   ],
   "note": ""
  },
  {
   "property": "C120",
   "status": "proved",
   "theorems": [
    "PyBN.Clq.C120_parents",
    "PyBN.Clq.C120_clique_tree"
   ],
   "note": ""
  },
  {
   "property": "C121",
   "status": "proved",
   "theorems": [
    "PyBN.C121_iamb_growing",
    "PyBN.C121_example"
   ],
   "note": ""
  },
  {
   "property": "C122",
   "status": "partial",
   "theorems": [
    "PyBN.C122_iamb_strongest_partial",
    "PyBN.C122_false"
   ],
   "note": "false of the code: it appends the loop variable, not the maximum (C121)"
  },
  {
   "property": "C123",
   "status": "proved",
   "theorems": [
    "PyBN.C123_iamb_shrinking"
   ],
   "note": ""
  },
  {
   "property": "C124",
   "status": "partial",
   "theorems": [
    "PyBN.C124_iamb_shrink_sublist_partial",
    "PyBN.C124_false"
   ],
   "note": "false of the code: are_independent is reversed, and the list is changed while iterated (C123)"
  },
  {
   "property": "C125",
   "status": "partial",
   "theorems": [
    "PyBN.C125_gs2_orients_partial",
    "PyBN.C125_false"
   ],
   "note": "false of the code: an edge can keep both directions or lose both (C126)"
  },
  {
   "property": "C126",
   "status": "proved",
   "theorems": [
    "PyBN.C126_gs2_exact",
    "PyBN.path4_ok"
   ],
   "note": ""
  },
  {
   "property": "C127",
   "status": "proved",
   "theorems": [
    "PyBN.C127_iamb_exact",
    "PyBN.C127_iamb_total",
    "PyBN.C127_two_columns"
   ],
   "note": ""
  },
  {
   "property": "C128",
   "status": "partial",
   "theorems": [
    "PyBN.C128_iamb_nodes_partial",
    "PyBN.C128_false"
   ],
   "note": "false of the code: 2-cycles and networks without nodes"
  },
  {
   "property": "C129",
   "status": "proved",
   "theorems": [
    "PyBN.C129_fast_iamb_never"
   ],
   "note": ""
  },
  {
   "property": "C130",
   "status": "proved",
   "theorems": [
    "PyBN.C130_iamb_feature"
   ],
   "note": ""
  },
  {
   "property": "C131",
   "status": "proved",
   "theorems": [
    "PyBN.C131_naive_structure",
    "PyBN.C131_bad_target",
    "PyBN.nbBin_ok"
   ],
   "note": ""
  },
  {
   "property": "C132",
   "status": "partial",
   "theorems": [
    "PyBN.C132_naive_frequencies_partial",
    "PyBN.C132_false"
   ],
   "note": "false of the code: the estimators read a node's values from the column at its position, and the target is moved to position 0 (C133)"
  },
  {
   "property": "C133",
   "status": "proved",
   "theorems": [
    "PyBN.C133_naive_tables"
   ],
   "note": ""
  },
  {
   "property": "C134",
   "status": "proved",
   "theorems": [
    "PyBN.BayesNet.C134_ilp_feasible"
   ],
   "note": "The program is built by the modelled code; feasibility is defined in Spec/Ilp."
  },
  {
   "property": "C135",
   "status": "proved",
   "theorems": [
    "PyBN.BayesNet.C135_ilp_map",
    "PyBN.BayesNet.C135_solver_exists"
   ],
   "note": "The solver (pulp/CBC) is a parameter assumed to return an optimum; entries must be positive (-log 0 is inf)."
  },
  {
   "property": "C136",
   "status": "partial",
   "theorems": [
    "PyBN.BayesNet.C136_ilp_map_partial",
    "PyBN.BayesNet.C136_false"
   ],
   "note": "False in general: evidence is ignored and weights are rounded to 3 decimals. Proved: without evidence, a maximum by a factor above exp(n/1000) is printed."
  },
  {
   "property": "C137",
   "status": "proved",
   "theorems": [
    "PyBN.Indep.C137_entropy_one",
    "PyBN.Indep.C137_entropy_two"
   ],
   "note": ""
  },
  {
   "property": "C138",
   "status": "partial",
   "theorems": [
    "PyBN.Indep.C138_entropy_three_partial",
    "PyBN.Indep.C138_false"
   ],
   "note": "holds when every column has codes 1, 2, ...; C138_false: codes 0/1 give 0 although H(X|Y,Z) = log 2 (the largest code is used as the number of bins)."
  },
  {
   "property": "C139",
   "status": "proved",
   "theorems": [
    "PyBN.Indep.C139_entropy_zero"
   ],
   "note": ""
  },
  {
   "property": "C140",
   "status": "partial",
   "theorems": [
    "PyBN.Indep.C140_mi_from_en_partial",
    "PyBN.Indep.C140_false"
   ],
   "note": "holds on three columns with codes 1, 2, ...; C140_false: every two-column data set with two or more rows raises ValueError."
  },
  {
   "property": "C141",
   "status": "proved",
   "theorems": [
    "PyBN.Indep.C141_two_columns",
    "PyBN.Indep.C141_ignores_second"
   ],
   "note": ""
  },
  {
   "property": "C142",
   "status": "proved",
   "theorems": [
    "PyBN.BayesNet.C142_log_likelihood",
    "PyBN.BayesNet.C142_no_rows",
    "PyBN.BayesNet.C142_order"
   ],
   "note": ""
  },
  {
   "property": "C143",
   "status": "partial",
   "theorems": [
    "PyBN.BayesNet.C143_entrywise_partial",
    "PyBN.BayesNet.C143_false"
   ],
   "note": "False for every number of rows: no data enter the score. Proved only for entrywise comparable tables."
  },
  {
   "property": "C144",
   "status": "proved",
   "theorems": [
    "PyBN.BayesNet.C144_uniform_best"
   ],
   "note": ""
  },
  {
   "property": "C145",
   "status": "partial",
   "theorems": [
    "PyBN.BayesNet.C145_bic_partial",
    "PyBN.BayesNet.C145_false"
   ],
   "note": "The code takes the logarithm of the number of arcs, so the documented penalty holds only when that equals nrow; false for every nrow >= 2."
  },
  {
   "property": "C146",
   "status": "proved",
   "theorems": [
    "PyBN.BayesNet.C146_penalties"
   ],
   "note": ""
  },
  {
   "property": "C147",
   "status": "partial",
   "theorems": [
    "PyBN.BayesNet.C147_few_rows_partial",
    "PyBN.BayesNet.C147_false"
   ],
   "note": "Holds for nrow <= 2; false from 9 rows on already for two coins."
  },
  {
   "property": "C148",
   "status": "proved",
   "theorems": [
    "PyBN.BayesNet.C148_irrelevant_parent",
    "PyBN.BayesNet.C148_rewarded"
   ],
   "note": ""
  },
  {
   "property": "C149",
   "status": "proved",
   "theorems": [
    "PyBN.Indep.C149_single_target"
   ],
   "note": ""
  },
  {
   "property": "C150",
   "status": "proved",
   "theorems": [
    "PyBN.Indep.C150_fitness"
   ],
   "note": ""
  },
  {
   "property": "C151",
   "status": "partial",
   "theorems": [
    "PyBN.Indep.C151_zero_partial",
    "PyBN.Indep.C151_false"
   ],
   "note": "Holds for binary variables with empty blankets; with two degrees of freedom the fitness of an exact blanket is at least 1 per outsider, with three or more and no dependence it raises ZeroDivisionError."
  },
  {
   "property": "C152",
   "status": "proved",
   "theorems": [
    "PyBN.Factor.C152_log_roundtrip",
    "PyBN.Factor.C152_idempotent"
   ],
   "note": ""
  },
  {
   "property": "C153",
   "status": "partial",
   "theorems": [
    "PyBN.Factor.C153_positive_partial",
    "PyBN.Factor.C153_false"
   ],
   "note": "Entries of at least 6e-6 stay positive; every entry up to 4e-6 comes back as 0."
  },
  {
   "property": "C154",
   "status": "proved",
   "theorems": [
    "PyBN.Factor.C154_max_in_log_space"
   ],
   "note": ""
  },
  {
   "property": "C155",
   "status": "proved",
   "theorems": [
    "PyBN.EmpDist.C155_joint_mass"
   ],
   "note": ""
  },
  {
   "property": "C156",
   "status": "proved",
   "theorems": [
    "PyBN.EmpDist.C156_exact",
    "PyBN.EmpDist.C156_no_query_returns"
   ],
   "note": ""
  },
  {
   "property": "C157",
   "status": "proved",
   "theorems": [
    "PyBN.C157_constructor_identity",
    "PyBN.C157_ready_for_edits"
   ],
   "note": "object identity of the constructor; Callers = the caller's lists exist and are not add_node's default lists"
  },
  {
   "property": "C158",
   "status": "partial",
   "theorems": [
    "PyBN.C158_independent_partial",
    "PyBN.C158_false"
   ],
   "note": "false of the code (C158_false): the children lists are shared; proved: node list, parents, tables (and values when no value dictionary is shared) are independent"
  },
  {
   "property": "C159",
   "status": "proved",
   "theorems": [
    "PyBN.C159_shared_children"
   ],
   "note": "exact behaviour of the shared edge dictionary"
  },
  {
   "property": "C160",
   "status": "proved",
   "theorems": [
    "PyBN.Indep.C160_conditional_mi_value"
   ],
   "note": ""
  },
  {
   "property": "C161",
   "status": "proved",
   "theorems": [
    "PyBN.Indep.C161_conditionally_independent_pvalue"
   ],
   "note": ""
  },
  {
   "property": "C162",
   "status": "proved",
   "theorems": [
    "PyBN.C162_scope_size",
    "PyBN.C162_by_var"
   ],
   "note": ""
  },
  {
   "property": "C163",
   "status": "proved",
   "theorems": [
    "PyBN.C163_node_idx",
    "PyBN.C163_value_idx"
   ],
   "note": ""
  },
  {
   "property": "C164",
   "status": "proved",
   "theorems": [
    "PyBN.C164_unique_bins"
   ],
   "note": ""
  },
  {
   "property": "C165",
   "status": "proved",
   "theorems": [
    "PyBN.C165_gs_feature",
    "PyBN.C165_chow_liu",
    "PyBN.C165_consolidate",
    "PyBN.C165_mi_test",
    "PyBN.C165_gibbs_no_values"
   ],
   "note": ""
  },
  {
   "property": "C166",
   "status": "proved",
   "theorems": [
    "PyBN.C166_exact_case",
    "PyBN.C166_binary_rounding",
    "PyBN.C166_marginal_rounded",
    "PyBN.C166_absolute_error",
    "PyBN.C166_double",
    "PyBN.C166_zero"
   ],
   "note": "Standard model of floating point (relative error u, no over/underflow); the exact model is the case rnd = id."
  },
  {
   "property": "C167",
   "status": "proved",
   "theorems": [
    "PyBN.C167_map_rounded",
    "PyBN.C167_clear_winner"
   ],
   "note": "Standard model of floating point."
  },
  {
   "property": "C168",
   "status": "proved",
   "theorems": [
    "PyBN.C168_map_prob_rounded",
    "PyBN.C168_answered_iff"
   ],
   "note": "Standard model of floating point; the final round(x, 5) exact."
  },
  {
   "property": "C169",
   "status": "proved",
   "theorems": [
    "PyBN.C169_sumout_head",
    "PyBN.C169_reduce_head",
    "PyBN.C169_head_kept",
    "PyBN.C169_parents",
    "PyBN.C169_maxout_stale"
   ],
   "note": "HeadAfter (in the same file) is the specification of the head after removing a variable."
  },
  {
   "property": "C170",
   "status": "proved",
   "theorems": [
    "PyBN.C170_unknown_variable"
   ],
   "note": ""
  },
  {
   "property": "C171",
   "status": "proved",
   "theorems": [
    "PyBN.C171_mean_variance",
    "PyBN.C171_concentration"
   ],
   "note": "Spec/Random states what is assumed of the random-number source; uniforms_exist shows such a source exists."
  },
  {
   "property": "C172",
   "status": "proved",
   "theorems": [
    "PyBN.C172_forward_converges"
   ],
   "note": ""
  },
  {
   "property": "C173",
   "status": "proved",
   "theorems": [
    "PyBN.C173_lw_converges"
   ],
   "note": ""
  },
  {
   "property": "C174",
   "status": "proved",
   "theorems": [
    "PyBN.C174_gibbs_converges"
   ],
   "note": ""
  },
  {
   "property": "C175",
   "status": "partial",
   "theorems": [
    "PyBN.ParamDist.C175_false",
    "PyBN.ParamDist.C175_formulas_partial",
    "PyBN.ParamDist.C175_minkowski_false",
    "PyBN.ParamDist.C175_minkowski_partial",
    "PyBN.ParamDist.C175_kl_partial",
    "PyBN.ParamDist.C175_hellinger_partial"
   ],
   "note": "False of the code: every call raises. Proved: the counterexample; that the formulas of euclidean and manhattan are one function and a metric; that minkowski with p = 1 is another function and with p = 2 the Euclidean distance; Gibbs inequality for the formula of kl_divergence; range, symmetry and extreme values of the formula of hellinger."
  },
  {
   "property": "C176",
   "status": "proved",
   "theorems": [
    "PyBN.ParamDist.C176_broadcast",
    "PyBN.ParamDist.C176_as_shipped",
    "PyBN.ParamDist.C176_name_restored",
    "PyBN.ParamDist.C176_shapes"
   ],
   "note": ""
  },
  {
   "property": "C177",
   "status": "proved",
   "theorems": [
    "PyBN.Clq.C177_as_shipped",
    "PyBN.Clq.C177_import_restored",
    "PyBN.Clq.C177_no_cliques"
   ],
   "note": ""
  },
  {
   "property": "C178",
   "status": "partial",
   "theorems": [
    "PyBN.Clq.C178_false",
    "PyBN.Clq.C178_import_restored"
   ],
   "note": "False of the code: every call raises NameError; with the import restored the three tables for a fork are not even proportional to the marginals. What it computes instead: C177."
  },
  {
   "property": "C179",
   "status": "proved",
   "theorems": [
    "PyBN.C179_gs_blanket",
    "PyBN.C179_gs_returns_iff"
   ],
   "note": ""
  },
  {
   "property": "C180",
   "status": "proved",
   "theorems": [
    "PyBN.C180_skeleton"
   ],
   "note": ""
  },
  {
   "property": "C181",
   "status": "partial",
   "theorems": [
    "PyBN.C181_false_chain",
    "PyBN.C181_false_arc",
    "PyBN.C181_gs_diverges",
    "PyBN.C181_gs_skeleton_partial"
   ],
   "note": "False of the code: for the chain 0->1->2 gs never returns, for a single arc it returns a network without nodes. Proved: a general criterion for non-termination, and that the undirected graph is right before orientation."
  },
  {
   "property": "C182",
   "status": "proved",
   "theorems": [
    "PyBN.C182_iamb_blanket"
   ],
   "note": ""
  },
  {
   "property": "C183",
   "status": "partial",
   "theorems": [
    "PyBN.C183_false",
    "PyBN.C183_skipped",
    "PyBN.C183_pc_keeps_partial"
   ],
   "note": "False of the code: marginal independence is never tested and pairs are skipped. Proved: no true edge is dropped."
  },
  {
   "property": "C184",
   "status": "proved",
   "theorems": [
    "PyBN.C184_history",
    "PyBN.C184_start"
   ],
   "note": ""
  },
  {
   "property": "C185",
   "status": "partial",
   "theorems": [
    "PyBN.C185_false",
    "PyBN.C185_refresh_partial",
    "PyBN.C185_refresh_subset"
   ],
   "note": "False of the code for objects built for some of the nodes: refresh() builds the factors of all nodes. Proved for objects built for the whole network, and what refresh() does in general."
  },
  {
   "property": "C186",
   "status": "partial",
   "theorems": [
    "PyBN.C186_false",
    "PyBN.C186_failed_call_partial"
   ],
   "note": "False of the code: a reduction that raises has already recorded the value in map_assignment. Proved: nothing else changes, and a failed / or // changes nothing."
  },
  {
   "property": "C187",
   "status": "proved",
   "theorems": [
    "PyBN.C187_marginal_map",
    "PyBN.C187_sum_after_max"
   ],
   "note": ""
  },
  {
   "property": "C188",
   "status": "proved",
   "theorems": [
    "PyBN.C188_mle_recovers"
   ],
   "note": ""
  },
  {
   "property": "C189",
   "status": "proved",
   "theorems": [
    "PyBN.C189_bayes_recovers"
   ],
   "note": ""
  },
  {
   "property": "C190",
   "status": "partial",
   "theorems": [
    "PyBN.C190_false",
    "PyBN.C190_uniform_partial"
   ],
   "note": "False of the code: the default prior weight grows with the data, so a coin with P = 1/4 is learned as 3/8 from any number of rows. Proved for entries that are uniform."
  },
  {
   "property": "C191",
   "status": "proved",
   "theorems": [
    "PyBN.C191_default_prior_limit"
   ],
   "note": ""
  },
  {
   "property": "C192",
   "status": "proved",
   "theorems": [
    "PyBN.C192_mi_consistent",
    "PyBN.C192_entropy_consistent"
   ],
   "note": ""
  },
  {
   "property": "C193",
   "status": "proved",
   "theorems": [
    "PyBN.C193_dependence_detected"
   ],
   "note": ""
  },
  {
   "property": "C194",
   "status": "proved",
   "theorems": [
    "PyBN.C194_marginal_robust",
    "PyBN.C194_map_robust"
   ],
   "note": ""
  },
  {
   "property": "C195",
   "status": "proved",
   "theorems": [
    "PyBN.C195_learn_then_infer"
   ],
   "note": ""
  },
  {
   "property": "C196",
   "status": "proved",
   "theorems": [
    "PyBN.Broken.C196_mle_fast",
    "PyBN.Broken.C196_bayes_scores",
    "PyBN.Broken.C196_mmpc",
    "PyBN.Broken.C196_lambda_iamb",
    "PyBN.Broken.C196_predict"
   ],
   "note": ""
  },
  {
   "property": "C197",
   "status": "proved",
   "theorems": [
    "PyBN.C197_separated_independent",
    "PyBN.C197_irrelevant_evidence"
   ],
   "note": "d-separation by active paths (Spec/DSep) of sets of nodes implies independence (Spec/CondIndep); answers of marginalVE, both queries assumed to return (C52 says exactly when they do); example: the W-shaped network exW, where both do"
  },
  {
   "property": "C198",
   "status": "proved",
   "theorems": [
    "PyBN.C198_blanket_shields"
   ],
   "note": "heap model of markov_blanket (C43) combined with d-separation soundness"
  },
  {
   "property": "C199",
   "status": "proved",
   "theorems": [
    "PyBN.C199_true_tests_perfect",
    "PyBN.C199_gs_blanket",
    "PyBN.C199_gs_skeleton"
   ],
   "note": "faithfulness is a hypothesis (exNet_faithful shows a network that meets it); tests are arbitrary functions that agree with the true independences. Whether the loop returns is C181"
  },
  {
   "property": "C200",
   "status": "proved",
   "theorems": [
    "PyBN.C200_only_ancestors_matter",
    "PyBN.C200_same_graph"
   ],
   "note": "the networks may differ arbitrarily outside the ancestors"
  },
  {
   "property": "C201",
   "status": "proved",
   "theorems": [
    "PyBN.HNet.C201_unknown",
    "PyBN.HNet.C201_half_done"
   ],
   "note": ""
  },
  {
   "property": "C202",
   "status": "proved",
   "theorems": [
    "PyBN.C202_sepset"
   ],
   "note": ""
  },
  {
   "property": "C203",
   "status": "proved",
   "theorems": [
    "PyBN.C203_conditional_mi_consistent"
   ],
   "note": "the limit is the conditional mutual information with the smoothing constants of the code (nodeCMI, Spec/CondRecover)"
  },
  {
   "property": "C204",
   "status": "partial",
   "theorems": [
    "PyBN.C204_false",
    "PyBN.C204_dependence_partial"
   ],
   "note": "false of the code: conditionally independent nodes are reported dependent on all large samples"
  },
  {
   "property": "C205",
   "status": "proved",
   "theorems": [
    "PyBN.C205_conditional_test_always_rejects",
    "PyBN.C205_general",
    "PyBN.C205_every_conditional_test_rejects"
   ],
   "note": ""
  },
  {
   "property": "C206",
   "status": "proved",
   "theorems": [
    "PyBN.C206_pc_learns_nothing"
   ],
   "note": "numbers are exact reals, as in C91-C97"
  },
  {
   "property": "C207",
   "status": "partial",
   "theorems": [
    "PyBN.C207_false",
    "PyBN.C207_gs_superset_partial"
   ],
   "note": "false of the code: gs finds all other nodes, iamb half of them (C208, C209), pc no edges (C206)"
  },
  {
   "property": "C208",
   "status": "proved",
   "theorems": [
    "PyBN.C208_gs_blanket_everything",
    "PyBN.C208_gs_learns_nothing"
   ],
   "note": ""
  },
  {
   "property": "C209",
   "status": "proved",
   "theorems": [
    "PyBN.C209_iamb_half",
    "PyBN.C209_three_nodes"
   ],
   "note": "the three-node result assumes that sets of small integers are iterated in increasing order, as in CPython"
  },
  {
   "property": "C210",
   "status": "proved",
   "theorems": [
    "PyBN.C210_searches_return",
    "PyBN.C210_no_rows"
   ],
   "note": "hc_rr itself: C33/C64 family; here only that its prelude never fails"
  },
  {
   "property": "C211",
   "status": "proved",
   "theorems": [
    "PyBN.C211_no_rows"
   ],
   "note": ""
  },
  {
   "property": "C212",
   "status": "proved",
   "theorems": [
    "PyBN.C212_metric_ignored"
   ],
   "note": ""
  },
  {
   "property": "C213",
   "status": "proved",
   "theorems": [
    "PyBN.C213_mdbn"
   ],
   "note": ""
  },
  {
   "property": "C214",
   "status": "partial",
   "theorems": [
    "PyBN.C214_false",
    "PyBN.C214_greedy_partial"
   ],
   "note": "false of the code: two independent coins get an arc; holds when the network's arcs happen to be the greedy ones (C216)"
  },
  {
   "property": "C215",
   "status": "proved",
   "theorems": [
    "PyBN.C215_tree_in_the_long_run",
    "PyBN.C215_nonvacuous"
   ],
   "note": ""
  },
  {
   "property": "C216",
   "status": "proved",
   "theorems": [
    "PyBN.C216_greedy_tree",
    "PyBN.C216_greedy_in_the_long_run",
    "PyBN.C216_two_nodes",
    "PyBN.C216_nonvacuous",
    "PyBN.C216_data_nonvacuous"
   ],
   "note": ""
  },
  {
   "property": "C217",
   "status": "proved",
   "theorems": [
    "PyBN.C217_mle_other_structure"
   ],
   "note": ""
  },
  {
   "property": "C218",
   "status": "proved",
   "theorems": [
    "PyBN.C218_extra_arcs"
   ],
   "note": ""
  },
  {
   "property": "C219",
   "status": "proved",
   "theorems": [
    "PyBN.C219_naive_bayes_in_the_long_run"
   ],
   "note": "the alignment of values with columns is needed because of C132"
  },
  {
   "property": "C220",
   "status": "proved",
   "theorems": [
    "PyBN.C220_mle_rows_needed"
   ],
   "note": ""
  },
  {
   "property": "C221",
   "status": "proved",
   "theorems": [
    "PyBN.C221_inference_rows_needed"
   ],
   "note": ""
  },
  {
   "property": "C222",
   "status": "proved",
   "theorems": [
    "PyBN.C222_bayes_rows_needed"
   ],
   "note": ""
  },
  {
   "property": "C223",
   "status": "proved",
   "theorems": [
    "PyBN.C223_naive_bayes_rows_needed"
   ],
   "note": "the alignment of values with columns is needed because of C132"
  },
  {
   "property": "C224",
   "status": "proved",
   "theorems": [
    "PyBN.C224_lw_samples_needed"
   ],
   "note": ""
  },
  {
   "property": "C225",
   "status": "proved",
   "theorems": [
    "PyBN.C225_gibbs_sweeps_needed"
   ],
   "note": ""
  },
  {
   "property": "C226",
   "status": "proved",
   "theorems": [
    "PyBN.Obj.C226_as_values",
    "PyBN.Obj.C226_marginal_exact",
    "PyBN.Obj.C226_map_exact"
   ],
   "note": "object-level model in Model/FactorObjects.lean; the state left by a call that raises is not modelled"
  },
  {
   "property": "C227",
   "status": "proved",
   "theorems": [
    "PyBN.Obj.C227_undisturbed"
   ],
   "note": ""
  },
  {
   "property": "C228",
   "status": "proved",
   "theorems": [
    "PyBN.Obj.C228_interleaved"
   ],
   "note": "the value-level histories are those of C184-C186"
  },
  {
   "property": "C229",
   "status": "partial",
   "theorems": [
    "PyBN.Obj.C229_false",
    "PyBN.Obj.C229_others_partial"
   ],
   "note": "false of the code: all four operators change f (exact behaviour: C230); objects sharing nothing with the operands are unchanged"
  },
  {
   "property": "C230",
   "status": "proved",
   "theorems": [
    "PyBN.Obj.C230_operators_mutate"
   ],
   "note": ""
  },
  {
   "property": "C231",
   "status": "proved",
   "theorems": [
    "PyBN.C231_reloaded_answers"
   ],
   "note": ""
  },
  {
   "property": "C232",
   "status": "partial",
   "theorems": [
    "PyBN.C232_false",
    "PyBN.C232_forest_partial"
   ],
   "note": "false of the code: the reloaded order may put a node before its parent (exact behaviour: C233); holds when no node has two parents"
  },
  {
   "property": "C233",
   "status": "proved",
   "theorems": [
    "PyBN.C233_reloaded_sampling"
   ],
   "note": ""
  },
  {
   "property": "C234",
   "status": "proved",
   "theorems": [
    "PyBN.Chordal.C234_fill_in",
    "PyBN.Chordal.C234_supplied"
   ],
   "note": ""
  },
  {
   "property": "C235",
   "status": "proved",
   "theorems": [
    "PyBN.C235_total_probability",
    "PyBN.C235_exchange"
   ],
   "note": "exact arithmetic"
  },
  {
   "property": "C236",
   "status": "proved",
   "theorems": [
    "PyBN.C236_more_evidence"
   ],
   "note": "exact arithmetic"
  },
  {
   "property": "C237",
   "status": "partial",
   "theorems": [
    "PyBN.C237_fits_iff_partial",
    "PyBN.C237_false"
   ],
   "note": "false of the code: add_edge and remove_edge leave the table of the child as it was; the tables fit afterwards exactly if the parent has a single value"
  },
  {
   "property": "C238",
   "status": "proved",
   "theorems": [
    "PyBN.C238_wrong_length",
    "PyBN.C238_after_edit"
   ],
   "note": ""
  },
  {
   "property": "C239",
   "status": "proved",
   "theorems": [
    "PyBN.C239_extra_entries",
    "PyBN.C239_after_remove_edge"
   ],
   "note": "exact arithmetic"
  },
  {
   "property": "C240",
   "status": "proved",
   "theorems": [
    "PyBN.C240_too_short",
    "PyBN.C240_after_add_edge"
   ],
   "note": ""
  },
  {
   "property": "C241",
   "status": "proved",
   "theorems": [
    "PyBN.C241_share"
   ],
   "note": ""
  },
  {
   "property": "C242",
   "status": "proved",
   "theorems": [
    "PyBN.C242_new_factor",
    "PyBN.C242_chordal"
   ],
   "note": ""
  },
  {
   "property": "C243",
   "status": "proved",
   "theorems": [
    "PyBN.C243_too_short",
    "PyBN.C243_after_add_edge"
   ],
   "note": ""
  },
  {
   "property": "C244",
   "status": "proved",
   "theorems": [
    "PyBN.C244_marginal",
    "PyBN.C244_map",
    "PyBN.C244_map_prob"
   ],
   "note": ""
  },
  {
   "property": "C245",
   "status": "proved",
   "theorems": [
    "PyBN.C245_rows",
    "PyBN.C245_expected"
   ],
   "note": ""
  },
  {
   "property": "C246",
   "status": "proved",
   "theorems": [
    "PyBN.C246_tests",
    "PyBN.C246_estimators",
    "PyBN.C246_learners",
    "PyBN.C246_prep"
   ],
   "note": ""
  },
  {
   "property": "C247",
   "status": "proved",
   "theorems": [
    "PyBN.C247_max_likelihood"
   ],
   "note": ""
  },
  {
   "property": "C248",
   "status": "proved",
   "theorems": [
    "PyBN.C248_rare"
   ],
   "note": ""
  },
  {
   "property": "C249",
   "status": "proved",
   "theorems": [
    "PyBN.C249_wiped",
    "PyBN.C249_useless",
    "PyBN.C249_not_a_column"
   ],
   "note": ""
  },
  {
   "property": "C250",
   "status": "proved",
   "theorems": [
    "PyBN.C250_too_few_columns",
    "PyBN.C250_then_stuck"
   ],
   "note": "For bayes_estimator the state is that of its two preparing loops; the in-place counting that follows is not reached in this case."
  },
  {
   "property": "C251",
   "status": "proved",
   "theorems": [
    "PyBN.C251_old_parameters",
    "PyBN.C251_recovers",
    "PyBN.C251_all_nodes_needed"
   ],
   "note": ""
  },
  {
   "property": "C252",
   "status": "proved",
   "theorems": [
    "PyBN.C252_whole_family",
    "PyBN.C252_given_parents",
    "PyBN.C252_root_evidence"
   ],
   "note": ""
  },
  {
   "property": "C253",
   "status": "proved",
   "theorems": [
    "PyBN.C253_lw_table_row"
   ],
   "note": ""
  },
  {
   "property": "C254",
   "status": "proved",
   "theorems": [
    "PyBN.C254_at_least_star"
   ],
   "note": "chow_liu itself raises TypeError at its first call of mi_test (C50); the statement is about the selection given the weights."
  },
  {
   "property": "C255",
   "status": "proved",
   "theorems": [
    "PyBN.C255_parameters",
    "PyBN.C255_copy",
    "PyBN.C255_exact"
   ],
   "note": ""
  },
  {
   "property": "C256",
   "status": "partial",
   "theorems": [
    "PyBN.C256_false",
    "PyBN.C256_found_partial"
   ],
   "note": "False of the code: a lookup with an equal network that is another object raises TypeError, because __eq__ raises (C25). Proved: the very object is found while its nodes and children are unchanged. Exact behaviour: C257."
  },
  {
   "property": "C257",
   "status": "proved",
   "theorems": [
    "PyBN.C257_lookup",
    "PyBN.C257_store",
    "PyBN.C257_edited_lost"
   ],
   "note": ""
  },
  {
   "property": "C258",
   "status": "proved",
   "theorems": [
    "PyBN.C258_mle_nearest"
   ],
   "note": "In exact arithmetic; hypotheses are those of C66."
  },
  {
   "property": "C259",
   "status": "proved",
   "theorems": [
    "PyBN.C259_mle",
    "PyBN.C259_counts",
    "PyBN.C259_bayes"
   ],
   "note": ""
  },
  {
   "property": "C260",
   "status": "proved",
   "theorems": [
    "PyBN.C260_mle",
    "PyBN.C260_bayes"
   ],
   "note": ""
  },
  {
   "property": "C261",
   "status": "partial",
   "theorems": [
    "PyBN.Indep.C261_false",
    "PyBN.Indep.C261_entropy_false",
    "PyBN.Indep.C261_coded_partial"
   ],
   "note": "False of the code: codes with gaps are merged by the equal-width bins (0, 1, 10 in three bins), so dependent columns get mutual information 0, and the entropy of a column can be nan. Proved for codes without gaps, in any order. Exact behaviour: C262."
  },
  {
   "property": "C262",
   "status": "proved",
   "theorems": [
    "PyBN.Indep.C262_bins",
    "PyBN.Indep.C262_affine"
   ],
   "note": "Real arithmetic instead of floats."
  },
  {
   "property": "C263",
   "status": "proved",
   "theorems": [
    "PyBN.C263_information",
    "PyBN.C263_searches",
    "PyBN.C263_scale"
   ],
   "note": "Exact arithmetic instead of floats (scores are rounded to four digits as in the code)."
  },
  {
   "property": "C264",
   "status": "proved",
   "theorems": [
    "PyBN.C264_extra_entries",
    "PyBN.C264_after_remove_edge"
   ],
   "note": "Exact arithmetic instead of floats."
  },
  {
   "property": "C265",
   "status": "proved",
   "theorems": [
    "PyBN.C265_outcome",
    "PyBN.C265_recovers",
    "PyBN.C265_idempotent",
    "PyBN.C265_zero_prior"
   ],
   "note": "C265_outcome and C265_idempotent ask that no node is listed twice; C265_zero_prior is the concrete state after a ZeroDivisionError."
  },
  {
   "property": "C266",
   "status": "proved",
   "theorems": [
    "PyBN.C266_relative_frequencies",
    "PyBN.C266_prior_is_rows"
   ],
   "note": "Exact arithmetic before the rounding."
  },
  {
   "property": "C267",
   "status": "proved",
   "theorems": [
    "PyBN.C267_shrinks",
    "PyBN.C267_between"
   ],
   "note": "Exact arithmetic before the rounding."
  },
  {
   "property": "C268",
   "status": "partial",
   "theorems": [
    "PyBN.C268_others_kept_partial",
    "PyBN.C268_false",
    "PyBN.C268_false_table"
   ],
   "note": "False of the code: a finished mle_estimator drops the other nodes (C268_false, exactly: C269), and tables of nodes with an unlisted parent, or not listed at the position of their column, are wrong (C268_false_table). Proved: bayes_estimator, and mle_estimator when it raises or counts, leave the other nodes alone."
  },
  {
   "property": "C269",
   "status": "proved",
   "theorems": [
    "PyBN.C269_dropped",
    "PyBN.C269_useless"
   ],
   "note": ""
  },
  {
   "property": "C270",
   "status": "proved",
   "theorems": [
    "PyBN.C270_closed_list",
    "PyBN.C270_example"
   ],
   "note": "The positive side of C268; by simulation with the network restricted to the list."
  },
  {
   "property": "C271",
   "status": "proved",
   "theorems": [
    "PyBN.C271_counts",
    "PyBN.C271_tables",
    "PyBN.C271_example"
   ],
   "note": "As C270; what happens to the other nodes is C269."
  },
  {
   "property": "C272",
   "status": "proved",
   "theorems": [
    "PyBN.C272_mle",
    "PyBN.C272_bayes",
    "PyBN.C272_example"
   ],
   "note": "No assumption that positions match columns."
  },
  {
   "property": "C273",
   "status": "proved",
   "theorems": [
    "PyBN.C273_mle_rounded",
    "PyBN.C273_double",
    "PyBN.C273_example"
   ],
   "note": "The hypotheses are those of C66. No over- or underflow."
  },
  {
   "property": "C274",
   "status": "proved",
   "theorems": [
    "PyBN.C274_bayes_rounded",
    "PyBN.C274_double",
    "PyBN.C274_example"
   ],
   "note": "The hypotheses are those of C67. No over- or underflow; the equivalent sample size is itself a float."
  },
  {
   "property": "C275",
   "status": "proved",
   "theorems": [
    "PyBN.C275_bayes_rounded_sums",
    "PyBN.C275_example"
   ],
   "note": "The floating point counterpart of C36 for bayes_estimator."
  },
  {
   "property": "C276",
   "status": "proved",
   "theorems": [
    "PyBN.C276_mle_rounded_sums",
    "PyBN.C276_example"
   ],
   "note": "The floating point counterpart of C36 for mle_estimator; an unobserved parent assignment gives zeros, as in exact arithmetic."
  }
 ]
}