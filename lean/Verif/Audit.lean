import Verif.Props.Factor
import Verif.Props.Inference
import Verif.Props.Graph
import Verif.Props.Net
import Verif.Props.Edit
import Verif.Props.HillClimb
import Verif.Props.Learn
import Verif.Props.Sample
import Verif.Props.Sample2
import Verif.Props.Sample3
import Verif.Props.Sample4
import Verif.Props.Distance
import Verif.Props.Structure
import Verif.Props.Constraint
import Verif.Props.IO
import Verif.Props.DataPrep
import Verif.Props.Indep
import Verif.Props.Indep2
import Verif.Props.HcBinary
import Verif.Props.Bif
import Verif.Props.Chordal
import Verif.Props.Clique
import Verif.Props.Clique2
import Verif.Props.Clique3
import Verif.Props.Iamb
import Verif.Props.NaiveBayes
import Verif.Props.Ilp
import Verif.Props.Entropy
import Verif.Props.InfoScore
import Verif.Props.Fitness
import Verif.Props.LogFactor
import Verif.Props.EmpDist
import Verif.Props.Share
import Verif.Props.Indep3
import Verif.Props.Small
import Verif.Props.Rounded
import Verif.Props.Head
import Verif.Props.Sample5
import Verif.Props.ParamDist
import Verif.Props.ExactBp
import Verif.Props.Oracle
import Verif.Props.FactorizationOps
import Verif.Props.MarginalMap
import Verif.Props.Recover
import Verif.Props.SampleMI
import Verif.Props.Perturb
import Verif.Props.Broken
import Verif.Props.DSep
import Verif.Spec.Tight
import Verif.Props.Tight
import Verif.Spec.CondRecover
import Verif.Proofs.SmoothCMI
import Verif.Proofs.SampleCMI
import Verif.Proofs.EmpLimit
import Verif.Proofs.SampleBox
import Verif.Props.SampleCMI
import Verif.Props.SampleBlanket
import Verif.Model.ScoreCall
import Verif.Props.ScoreCall
import Verif.Spec.Greedy
import Verif.Proofs.HcGreedy
import Verif.Props.SampleHc
import Verif.Spec.Project
import Verif.Props.Project
import Verif.Proofs.Concentration
import Verif.Props.Finite
import Verif.Props.Objects
import Verif.Props.Reload
import Verif.Props.FillIn
import Verif.Props.Queries
import Verif.Spec.Stale
import Verif.Proofs.Stale
import Verif.Proofs.Stale2
import Verif.Proofs.Stale3
import Verif.Proofs.Stale4
import Verif.Props.Stale
import Verif.Spec.Links
import Verif.Props.Links
import Verif.Proofs.Stale5
import Verif.Props.Stale2
import Verif.Spec.Rename
import Verif.Proofs.Rename
import Verif.Props.Rename
import Verif.Props.Rename2
import Verif.Props.RowOrder
import Verif.Props.RowOrder2
import Verif.Props.MaxLik
import Verif.Props.LearnState
import Verif.Props.LearnState2
import Verif.Props.Local
import Verif.Props.ChowLiu
import Verif.Props.Keyed
import Verif.Props.Repeat
import Verif.Spec.Recode
import Verif.Props.Recode
import Verif.Spec.Codes
import Verif.Props.Codes
import Verif.Proofs.RepeatSearch
import Verif.Props.RepeatSearch
import Verif.Proofs.Stale6
import Verif.Props.Stale3
import Verif.Props.LearnState3
import Verif.Spec.Grid
import Verif.Props.Grid
import Verif.Props.Weight
import Verif.Props.Subset
import Verif.Proofs.Agree
import Verif.Props.SubsetGood
import Verif.Props.SubsetMle
import Verif.Props.LearnLocal
import Verif.Model.RoundedLearn
import Verif.Proofs.RoundedLearn
import Verif.Props.RoundedLearn
import Verif.Model.RoundedBayes
import Verif.Spec.RoundedSum
import Verif.Proofs.RoundedBayes
import Verif.Proofs.RoundedBayes2
import Verif.Props.RoundedBayes
import Verif.Props.RoundedBayesSum

/-! Prints the axioms each property theorem rests on. -/

#print axioms PyBN.C01_factor_init_reads_cpt
#print axioms PyBN.C01_value_indices
#print axioms PyBN.C02_multiply_pointwise
#print axioms PyBN.C03_multiply_comm
#print axioms PyBN.C03_multiply_assoc
#print axioms PyBN.C04_sumout_marginalises
#print axioms PyBN.C05_maxout_maximises
#print axioms PyBN.C05_negative_tables_fail
#print axioms PyBN.C06_reduce_restricts
#print axioms PyBN.C07_sumover
#print axioms PyBN.C07_sumover_eq_sumout_rest
#print axioms PyBN.C08_sumout_order
#print axioms PyBN.C08_reduce_order
#print axioms PyBN.C09_normalize
#print axioms PyBN.C09_normalize_scalar
#print axioms PyBN.C09_no_first_variable
#print axioms PyBN.C10_histories
#print axioms PyBN.C10_step
#print axioms PyBN.C11_false
#print axioms PyBN.C11_right_operand_intact_partial
#print axioms PyBN.C11_exact_effect_partial
#print axioms PyBN.C12_sum_product_eliminate
#print axioms PyBN.C13_ties
#print axioms PyBN.C13_marginal_exact
#print axioms PyBN.C13_rounding
#print axioms PyBN.C13_order_independent
#print axioms PyBN.C14_false
#print axioms PyBN.C14_no_evidence_partial
#print axioms PyBN.C51_sum_is_evidence_prob
#print axioms PyBN.C15_false
#print axioms PyBN.C52_answered_iff
#print axioms PyBN.C16_map_is_most_probable
#print axioms PyBN.C16_illegal_evidence_raises
#print axioms PyBN.C16_target
#print axioms PyBN.C17_map_prob
#print axioms PyBN.C51_sum_is_evidence_prob
#print axioms PyBN.C52_answered_iff
#print axioms PyBN.C52_root_evidence_never_answered
#print axioms PyBN.C53_map_prob_answered_iff
#print axioms PyBN.C18_cpt_indices
#print axioms PyBN.C18_complete_configuration
#print axioms PyBN.C19_stride_agrees
#print axioms PyBN.C20_counts
#print axioms PyBN.C21_moral_graph
#print axioms PyBN.C23_set_structure
#print axioms PyBN.C25_false
#print axioms PyBN.C25_exact_partial
#print axioms PyBN.C26_topsort_all_nodes
#print axioms PyBN.C26_topsort_root
#print axioms PyBN.C26_topsort_general
#print axioms PyBN.C26_topsort_terminates
#print axioms PyBN.C27_false
#print axioms PyBN.C27_topological_forest_partial
#print axioms PyBN.C27_postorder_forest_partial
#print axioms PyBN.C28_would_cause_cycle
#print axioms PyBN.C28_addition_iff_reach
#print axioms PyBN.C28_reverse_absent_raises
#print axioms PyBN.C29_mst_spanning_tree
#print axioms PyBN.C29_mst_is_prim
#print axioms PyBN.C54_some_parent_precedes
#print axioms PyBN.C55_false
#print axioms PyBN.C55_windows_partial
#print axioms PyBN.C55_no_parents_partial
#print axioms PyBN.C56_unknown_value_is_last
#print axioms PyBN.C58_cpt_str_idx
#print axioms PyBN.C59_adj_list
#print axioms PyBN.HNet.C22_histories_partial
#print axioms PyBN.HNet.C22_exceptions_partial
#print axioms PyBN.HNet.C22_constructed_partial
#print axioms PyBN.HNet.C22_reverse_arc_breaks
#print axioms PyBN.HNet.C22_false
#print axioms PyBN.HNet.C24_copy_raises
#print axioms PyBN.HNet.C24_copy_equal
#print axioms PyBN.HNet.C24_original_edits_invisible
#print axioms PyBN.HNet.C24_copy_edits_invisible_partial
#print axioms PyBN.HNet.C24_independent_partial
#print axioms PyBN.HNet.C24_false
#print axioms PyBN.HNet.C57_add_edge_unknown_source
#print axioms PyBN.HNet.C60_shared_default_parents
#print axioms PyBN.C30_hc_dag
#print axioms PyBN.C31_restriction_partial
#print axioms PyBN.C31_passes_partial
#print axioms PyBN.C31_false
#print axioms PyBN.C32_moves_made_partial
#print axioms PyBN.C32_false
#print axioms PyBN.C33_no_undo_partial
#print axioms PyBN.C33_restriction_partial
#print axioms PyBN.C33_false
#print axioms PyBN.C34_dag_if_returns_partial
#print axioms PyBN.C34_false
#print axioms PyBN.C61_reversal_freezes
#print axioms PyBN.C62_local_optimum
#print axioms PyBN.C63_tabu_window
#print axioms PyBN.C64_no_restart_is_hc
#print axioms PyBN.C35_counts_partial
#print axioms PyBN.C35_false
#print axioms PyBN.C36_mle_partial
#print axioms PyBN.C36_bayes_partial
#print axioms PyBN.C36_false
#print axioms PyBN.C65_counts_by_position
#print axioms PyBN.C66_ties
#print axioms PyBN.C66_mle_probabilities
#print axioms PyBN.C66_parent_order_needed
#print axioms PyBN.C67_bayes_probabilities
#print axioms PyBN.C37_relative_frequencies
#print axioms PyBN.C37_counts
#print axioms PyBN.C38_random_sample
#print axioms PyBN.C38_forward_sample
#print axioms PyBN.C38_unbiased
#print axioms PyBN.C39_evidence
#print axioms PyBN.C39_weighted_counts
#print axioms PyBN.C39_expected_weight
#print axioms PyBN.C40_false
#print axioms PyBN.C40_partial
#print axioms PyBN.C68_gibbs_counts
#print axioms PyBN.C68_gibbs_sum
#print axioms PyBN.C68_gibbs_zero
#print axioms PyBN.C69_gibbs_is_forward
#print axioms PyBN.C70_forward_keyError
#print axioms PyBN.C71_random_is_forward
#print axioms PyBN.C72_lw_without_evidence
#print axioms PyBN.C73_unnormalised_error
#print axioms PyBN.C73_learned_example
#print axioms PyBN.C41_missing_extra
#print axioms PyBN.C41_metric
#print axioms PyBN.C42_false
#print axioms PyBN.C42_count_iff_none_reversed_partial
#print axioms PyBN.HNet.C43_missing
#print axioms PyBN.C43_markov_blanket
#print axioms PyBN.C43_symmetric
#print axioms PyBN.C74_missing_edges
#print axioms PyBN.C74_keyError
#print axioms PyBN.C75_always_zero
#print axioms PyBN.C75_hamming
#print axioms PyBN.C76_set_structure_general
#print axioms PyBN.C47_resolve_undirected
#print axioms PyBN.C77_resolve_exact
#print axioms PyBN.C77_full_set_untested
#print axioms PyBN.C48_false
#print axioms PyBN.C48_gs_blanket_partial
#print axioms PyBN.C78_gs_blanket
#print axioms PyBN.C78_gs_growing
#print axioms PyBN.C79_gs_dependent_empty
#print axioms PyBN.C80_false
#print axioms PyBN.C80_orient_MB_partial
#print axioms PyBN.C49_pc_skeleton
#print axioms PyBN.C81_pc_no_marginal
#print axioms PyBN.C81_collider
#print axioms PyBN.C82_pc_edgeless
#print axioms PyBN.C83_false
#print axioms PyBN.C83_pc_nodes_partial
#print axioms PyBN.C50_chow_liu_tree
#print axioms PyBN.C84_false
#print axioms PyBN.C84_chow_liu_heaviest_partial
#print axioms PyBN.C44_bn_roundtrip
#print axioms PyBN.C85_int_names
#print axioms PyBN.C86_crash
#print axioms PyBN.C45_false
#print axioms PyBN.C45_numeric_partial
#print axioms PyBN.C45_strings_partial
#print axioms PyBN.C87_replace_strings
#print axioms PyBN.C46_false
#print axioms PyBN.C46_discretize_partial
#print axioms PyBN.C88_discretize_exact
#print axioms PyBN.C88_bins_by_column
#print axioms PyBN.Indep.C89_symmetric
#print axioms PyBN.Indep.C90_mi_value
#print axioms PyBN.Indep.C91_false
#print axioms PyBN.Indep.C91_independent_partial
#print axioms PyBN.Indep.C92_independent_pvalue
#print axioms PyBN.Indep.exNine_spec
#print axioms PyBN.Indep.C93_false
#print axioms PyBN.Indep.C93_range_partial
#print axioms PyBN.Indep.C94_second_conditioner_ignored
#print axioms PyBN.Indep.C95_false
#print axioms PyBN.Indep.C95_join_injective_partial
#print axioms PyBN.Indep.C96_are_independent
#print axioms PyBN.Indep.C97_conditional_zero
#print axioms PyBN.Indep.C98_first_parent_only
#print axioms PyBN.Indep.C98_first_parent_only_coded
#print axioms PyBN.Indep.C99_first_parent_score
#print axioms PyBN.C100_one_parent
#print axioms PyBN.C101_always_a_tree
#print axioms PyBN.C101_independent_tree
#print axioms PyBN.Bif.C102_read_bif_partial
#print axioms PyBN.Bif.C102_false
#print axioms PyBN.Bif.C102_example
#print axioms PyBN.Bif.C103_rows_cut
#print axioms PyBN.Bif.C103_value_error
#print axioms PyBN.Bif.C103_example
#print axioms PyBN.Bif.C103_value_error_example
#print axioms PyBN.Bif.C104_spurious_node
#print axioms PyBN.Bif.C104_example
#print axioms PyBN.Bif.C105_cut_in_table
#print axioms PyBN.Bif.C105_cut_between
#print axioms PyBN.Bif.C105_example
#print axioms PyBN.Bif.C106_read_mat
#print axioms PyBN.Bif.C106_example
#print axioms PyBN.Bif.C107_read_bn
#print axioms PyBN.Bif.C107_example
#print axioms PyBN.Bif.C108_labels_ignored
#print axioms PyBN.Bif.C108_example
#print axioms PyBN.Chordal.C109_make_chordal
#print axioms PyBN.Chordal.C109_supplied_graph
#print axioms PyBN.Chordal.C109_example
#print axioms PyBN.Chordal.C110_isolated_lost
#print axioms PyBN.Chordal.C109_example
#print axioms PyBN.Clq.C111_minimum_spanning_tree
#print axioms PyBN.Clq.C111_example
#print axioms PyBN.Clq.C112_junction_tree
#print axioms PyBN.Clq.C112_example
#print axioms PyBN.Clq.listCliques_ok
#print axioms PyBN.Clq.C113_assignment
#print axioms PyBN.Clq.C112_example
#print axioms PyBN.Clq.C114_single_partial
#print axioms PyBN.Clq.C114_false
#print axioms PyBN.Clq.C114_wrong_marginal
#print axioms PyBN.Clq.C115_potentials
#print axioms PyBN.Clq.C115_some_squared
#print axioms PyBN.Clq.C112_example
#print axioms PyBN.Clq.C116_uninitialised
#print axioms PyBN.Clq.C116_message
#print axioms PyBN.Clq.C116_missing
#print axioms PyBN.Clq.exT_canSend
#print axioms PyBN.Clq.C117_sender_partial
#print axioms PyBN.Clq.C117_false
#print axioms PyBN.Clq.C118_sender_damaged
#print axioms PyBN.Clq.C117_false
#print axioms PyBN.Clq.C119_upward_pass
#print axioms PyBN.Clq.C119_clique_tree
#print axioms PyBN.Clq.C119_example
#print axioms PyBN.Clq.C114_wrong_marginal
#print axioms PyBN.Clq.C120_parents
#print axioms PyBN.Clq.C120_clique_tree
#print axioms PyBN.C121_iamb_growing
#print axioms PyBN.C121_example
#print axioms PyBN.C122_iamb_strongest_partial
#print axioms PyBN.C122_false
#print axioms PyBN.C123_iamb_shrinking
#print axioms PyBN.C124_iamb_shrink_sublist_partial
#print axioms PyBN.C124_false
#print axioms PyBN.C125_gs2_orients_partial
#print axioms PyBN.C125_false
#print axioms PyBN.C126_gs2_exact
#print axioms PyBN.path4_ok
#print axioms PyBN.C127_iamb_exact
#print axioms PyBN.C127_iamb_total
#print axioms PyBN.C127_two_columns
#print axioms PyBN.C128_iamb_nodes_partial
#print axioms PyBN.C128_false
#print axioms PyBN.C129_fast_iamb_never
#print axioms PyBN.C130_iamb_feature
#print axioms PyBN.C131_naive_structure
#print axioms PyBN.C131_bad_target
#print axioms PyBN.nbBin_ok
#print axioms PyBN.C132_naive_frequencies_partial
#print axioms PyBN.C132_false
#print axioms PyBN.C133_naive_tables
#print axioms PyBN.BayesNet.C134_ilp_feasible
#print axioms PyBN.BayesNet.C135_ilp_map
#print axioms PyBN.BayesNet.C135_solver_exists
#print axioms PyBN.BayesNet.C136_ilp_map_partial
#print axioms PyBN.BayesNet.C136_false
#print axioms PyBN.Indep.C137_entropy_one
#print axioms PyBN.Indep.C137_entropy_two
#print axioms PyBN.Indep.C138_entropy_three_partial
#print axioms PyBN.Indep.C138_false
#print axioms PyBN.Indep.C139_entropy_zero
#print axioms PyBN.Indep.C140_mi_from_en_partial
#print axioms PyBN.Indep.C140_false
#print axioms PyBN.Indep.C141_two_columns
#print axioms PyBN.Indep.C141_ignores_second
#print axioms PyBN.BayesNet.C142_log_likelihood
#print axioms PyBN.BayesNet.C142_no_rows
#print axioms PyBN.BayesNet.C142_order
#print axioms PyBN.BayesNet.C143_entrywise_partial
#print axioms PyBN.BayesNet.C143_false
#print axioms PyBN.BayesNet.C144_uniform_best
#print axioms PyBN.BayesNet.C145_bic_partial
#print axioms PyBN.BayesNet.C145_false
#print axioms PyBN.BayesNet.C146_penalties
#print axioms PyBN.BayesNet.C147_few_rows_partial
#print axioms PyBN.BayesNet.C147_false
#print axioms PyBN.BayesNet.C148_irrelevant_parent
#print axioms PyBN.BayesNet.C148_rewarded
#print axioms PyBN.Indep.C149_single_target
#print axioms PyBN.Indep.C150_fitness
#print axioms PyBN.Indep.C151_zero_partial
#print axioms PyBN.Indep.C151_false
#print axioms PyBN.Factor.C152_log_roundtrip
#print axioms PyBN.Factor.C152_idempotent
#print axioms PyBN.Factor.C153_positive_partial
#print axioms PyBN.Factor.C153_false
#print axioms PyBN.Factor.C154_max_in_log_space
#print axioms PyBN.EmpDist.C155_joint_mass
#print axioms PyBN.EmpDist.C156_exact
#print axioms PyBN.EmpDist.C156_no_query_returns
#print axioms PyBN.C157_constructor_identity
#print axioms PyBN.C157_ready_for_edits
#print axioms PyBN.C158_independent_partial
#print axioms PyBN.C158_false
#print axioms PyBN.C159_shared_children
#print axioms PyBN.Indep.C160_conditional_mi_value
#print axioms PyBN.Indep.C161_conditionally_independent_pvalue
#print axioms PyBN.C162_scope_size
#print axioms PyBN.C162_by_var
#print axioms PyBN.C163_node_idx
#print axioms PyBN.C163_value_idx
#print axioms PyBN.C164_unique_bins
#print axioms PyBN.C165_gs_feature
#print axioms PyBN.C165_chow_liu
#print axioms PyBN.C165_consolidate
#print axioms PyBN.C165_mi_test
#print axioms PyBN.C165_gibbs_no_values
#print axioms PyBN.C166_exact_case
#print axioms PyBN.C166_binary_rounding
#print axioms PyBN.C166_marginal_rounded
#print axioms PyBN.C166_absolute_error
#print axioms PyBN.C166_double
#print axioms PyBN.C166_zero
#print axioms PyBN.C167_map_rounded
#print axioms PyBN.C167_clear_winner
#print axioms PyBN.C168_map_prob_rounded
#print axioms PyBN.C168_answered_iff
#print axioms PyBN.C169_sumout_head
#print axioms PyBN.C169_reduce_head
#print axioms PyBN.C169_head_kept
#print axioms PyBN.C169_parents
#print axioms PyBN.C169_maxout_stale
#print axioms PyBN.C170_unknown_variable
#print axioms PyBN.C171_mean_variance
#print axioms PyBN.C171_concentration
#print axioms PyBN.C172_forward_converges
#print axioms PyBN.C173_lw_converges
#print axioms PyBN.C174_gibbs_converges
#print axioms PyBN.ParamDist.C175_false
#print axioms PyBN.ParamDist.C175_formulas_partial
#print axioms PyBN.ParamDist.C175_minkowski_false
#print axioms PyBN.ParamDist.C175_minkowski_partial
#print axioms PyBN.ParamDist.C175_kl_partial
#print axioms PyBN.ParamDist.C175_hellinger_partial
#print axioms PyBN.ParamDist.C176_broadcast
#print axioms PyBN.ParamDist.C176_as_shipped
#print axioms PyBN.ParamDist.C176_name_restored
#print axioms PyBN.ParamDist.C176_shapes
#print axioms PyBN.Clq.C177_as_shipped
#print axioms PyBN.Clq.C177_import_restored
#print axioms PyBN.Clq.C177_no_cliques
#print axioms PyBN.Clq.C178_false
#print axioms PyBN.Clq.C178_import_restored
#print axioms PyBN.C179_gs_blanket
#print axioms PyBN.C179_gs_returns_iff
#print axioms PyBN.C180_skeleton
#print axioms PyBN.C181_false_chain
#print axioms PyBN.C181_false_arc
#print axioms PyBN.C181_gs_diverges
#print axioms PyBN.C181_gs_skeleton_partial
#print axioms PyBN.C182_iamb_blanket
#print axioms PyBN.C183_false
#print axioms PyBN.C183_skipped
#print axioms PyBN.C183_pc_keeps_partial
#print axioms PyBN.C184_history
#print axioms PyBN.C184_start
#print axioms PyBN.C185_false
#print axioms PyBN.C185_refresh_partial
#print axioms PyBN.C185_refresh_subset
#print axioms PyBN.C186_false
#print axioms PyBN.C186_failed_call_partial
#print axioms PyBN.C187_marginal_map
#print axioms PyBN.C187_sum_after_max
#print axioms PyBN.C188_mle_recovers
#print axioms PyBN.C189_bayes_recovers
#print axioms PyBN.C190_false
#print axioms PyBN.C190_uniform_partial
#print axioms PyBN.C191_default_prior_limit
#print axioms PyBN.C192_mi_consistent
#print axioms PyBN.C192_entropy_consistent
#print axioms PyBN.C193_dependence_detected
#print axioms PyBN.C194_marginal_robust
#print axioms PyBN.C194_map_robust
#print axioms PyBN.C195_learn_then_infer
#print axioms PyBN.Broken.C196_mle_fast
#print axioms PyBN.Broken.C196_bayes_scores
#print axioms PyBN.Broken.C196_mmpc
#print axioms PyBN.Broken.C196_lambda_iamb
#print axioms PyBN.Broken.C196_predict
#print axioms PyBN.C197_separated_independent
#print axioms PyBN.C197_irrelevant_evidence
#print axioms PyBN.C198_blanket_shields
#print axioms PyBN.C199_true_tests_perfect
#print axioms PyBN.C199_gs_blanket
#print axioms PyBN.C199_gs_skeleton
#print axioms PyBN.C200_only_ancestors_matter
#print axioms PyBN.C200_same_graph
#print axioms PyBN.HNet.C201_unknown
#print axioms PyBN.HNet.C201_half_done
#print axioms PyBN.C202_sepset
#print axioms PyBN.C203_conditional_mi_consistent
#print axioms PyBN.C204_false
#print axioms PyBN.C204_dependence_partial
#print axioms PyBN.C205_conditional_test_always_rejects
#print axioms PyBN.C205_general
#print axioms PyBN.C205_every_conditional_test_rejects
#print axioms PyBN.C206_pc_learns_nothing
#print axioms PyBN.C207_false
#print axioms PyBN.C207_gs_superset_partial
#print axioms PyBN.C208_gs_blanket_everything
#print axioms PyBN.C208_gs_learns_nothing
#print axioms PyBN.C209_iamb_half
#print axioms PyBN.C209_three_nodes
#print axioms PyBN.C210_searches_return
#print axioms PyBN.C210_no_rows
#print axioms PyBN.C211_no_rows
#print axioms PyBN.C212_metric_ignored
#print axioms PyBN.C213_mdbn
#print axioms PyBN.C214_false
#print axioms PyBN.C214_greedy_partial
#print axioms PyBN.C215_tree_in_the_long_run
#print axioms PyBN.C215_nonvacuous
#print axioms PyBN.C216_greedy_tree
#print axioms PyBN.C216_greedy_in_the_long_run
#print axioms PyBN.C216_two_nodes
#print axioms PyBN.C216_nonvacuous
#print axioms PyBN.C216_data_nonvacuous
#print axioms PyBN.C217_mle_other_structure
#print axioms PyBN.C218_extra_arcs
#print axioms PyBN.C219_naive_bayes_in_the_long_run
#print axioms PyBN.C220_mle_rows_needed
#print axioms PyBN.C221_inference_rows_needed
#print axioms PyBN.C222_bayes_rows_needed
#print axioms PyBN.C223_naive_bayes_rows_needed
#print axioms PyBN.C224_lw_samples_needed
#print axioms PyBN.C225_gibbs_sweeps_needed
#print axioms PyBN.Obj.C226_as_values
#print axioms PyBN.Obj.C226_marginal_exact
#print axioms PyBN.Obj.C226_map_exact
#print axioms PyBN.Obj.C227_undisturbed
#print axioms PyBN.Obj.C228_interleaved
#print axioms PyBN.Obj.C229_false
#print axioms PyBN.Obj.C229_others_partial
#print axioms PyBN.Obj.C230_operators_mutate
#print axioms PyBN.C231_reloaded_answers
#print axioms PyBN.C232_false
#print axioms PyBN.C232_forest_partial
#print axioms PyBN.C233_reloaded_sampling
#print axioms PyBN.Chordal.C234_fill_in
#print axioms PyBN.Chordal.C234_supplied
#print axioms PyBN.C235_total_probability
#print axioms PyBN.C235_exchange
#print axioms PyBN.C236_more_evidence
#print axioms PyBN.C237_fits_iff_partial
#print axioms PyBN.C237_false
#print axioms PyBN.C238_wrong_length
#print axioms PyBN.C238_after_edit
#print axioms PyBN.C239_extra_entries
#print axioms PyBN.C239_after_remove_edge
#print axioms PyBN.C240_too_short
#print axioms PyBN.C240_after_add_edge
#print axioms PyBN.C241_share
#print axioms PyBN.C242_new_factor
#print axioms PyBN.C242_chordal
#print axioms PyBN.C243_too_short
#print axioms PyBN.C243_after_add_edge
#print axioms PyBN.C244_marginal
#print axioms PyBN.C244_map
#print axioms PyBN.C244_map_prob
#print axioms PyBN.C245_rows
#print axioms PyBN.C245_expected
#print axioms PyBN.C246_tests
#print axioms PyBN.C246_estimators
#print axioms PyBN.C246_learners
#print axioms PyBN.C246_prep
#print axioms PyBN.C247_max_likelihood
#print axioms PyBN.C248_rare
#print axioms PyBN.C249_wiped
#print axioms PyBN.C249_useless
#print axioms PyBN.C249_not_a_column
#print axioms PyBN.C250_too_few_columns
#print axioms PyBN.C250_then_stuck
#print axioms PyBN.C251_old_parameters
#print axioms PyBN.C251_recovers
#print axioms PyBN.C251_all_nodes_needed
#print axioms PyBN.C252_whole_family
#print axioms PyBN.C252_given_parents
#print axioms PyBN.C252_root_evidence
#print axioms PyBN.C253_lw_table_row
#print axioms PyBN.C254_at_least_star
#print axioms PyBN.C255_parameters
#print axioms PyBN.C255_copy
#print axioms PyBN.C255_exact
#print axioms PyBN.C256_false
#print axioms PyBN.C256_found_partial
#print axioms PyBN.C257_lookup
#print axioms PyBN.C257_store
#print axioms PyBN.C257_edited_lost
#print axioms PyBN.C258_mle_nearest
#print axioms PyBN.C259_mle
#print axioms PyBN.C259_counts
#print axioms PyBN.C259_bayes
#print axioms PyBN.C260_mle
#print axioms PyBN.C260_bayes
#print axioms PyBN.Indep.C261_false
#print axioms PyBN.Indep.C261_entropy_false
#print axioms PyBN.Indep.C261_coded_partial
#print axioms PyBN.Indep.C262_bins
#print axioms PyBN.Indep.C262_affine
#print axioms PyBN.C263_information
#print axioms PyBN.C263_searches
#print axioms PyBN.C263_scale
#print axioms PyBN.C264_extra_entries
#print axioms PyBN.C264_after_remove_edge
#print axioms PyBN.C265_outcome
#print axioms PyBN.C265_recovers
#print axioms PyBN.C265_idempotent
#print axioms PyBN.C265_zero_prior
#print axioms PyBN.C266_relative_frequencies
#print axioms PyBN.C266_prior_is_rows
#print axioms PyBN.C267_shrinks
#print axioms PyBN.C267_between
#print axioms PyBN.C268_others_kept_partial
#print axioms PyBN.C268_false
#print axioms PyBN.C268_false_table
#print axioms PyBN.C269_dropped
#print axioms PyBN.C269_useless
#print axioms PyBN.C270_closed_list
#print axioms PyBN.C270_example
#print axioms PyBN.C271_counts
#print axioms PyBN.C271_tables
#print axioms PyBN.C271_example
#print axioms PyBN.C272_mle
#print axioms PyBN.C272_bayes
#print axioms PyBN.C272_example
#print axioms PyBN.C273_mle_rounded
#print axioms PyBN.C273_double
#print axioms PyBN.C273_example
#print axioms PyBN.C274_bayes_rounded
#print axioms PyBN.C274_double
#print axioms PyBN.C274_example
#print axioms PyBN.C275_bayes_rounded_sums
#print axioms PyBN.C275_example
#print axioms PyBN.C276_mle_rounded_sums
#print axioms PyBN.C276_example
