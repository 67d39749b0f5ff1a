{
 "claims": [
  {
   "property": "C01",
   "status": "proved",
   "theorems": [
    "Verif.C01_collapse_exact",
    "Verif.C01_collapse_order_irrelevant",
    "Verif.C01_collapse_empty",
    "Verif.C01_collapse_out_of_range"
   ],
   "note": ""
  },
  {
   "property": "C02",
   "status": "proved",
   "theorems": [
    "Verif.C02_implementations_agree"
   ],
   "note": ""
  },
  {
   "property": "C03",
   "status": "proved",
   "theorems": [
    "Verif.C03_sets_exact",
    "Verif.C03_converters_agree",
    "Verif.C03_converters_differ"
   ],
   "note": ""
  },
  {
   "property": "C04",
   "status": "proved",
   "theorems": [
    "Verif.C04_sets_roundtrip",
    "Verif.C04_sets_out_of_range",
    "Verif.C04_matrix_roundtrip"
   ],
   "note": ""
  },
  {
   "property": "C05",
   "status": "proved",
   "theorems": [
    "Verif.C05_bind_succeeds_iff",
    "Verif.C05_bind_supports",
    "Verif.C05_bad_head",
    "Verif.C05_unsupported_head"
   ],
   "note": ""
  },
  {
   "property": "C06",
   "status": "proved",
   "theorems": [
    "Verif.C06_rates"
   ],
   "note": ""
  },
  {
   "property": "C07",
   "status": "proved",
   "theorems": [
    "Verif.C07_eq_iff_perm",
    "Verif.C07_hash"
   ],
   "note": ""
  },
  {
   "property": "C08",
   "status": "proved",
   "theorems": [
    "Verif.C08_distance"
   ],
   "note": ""
  },
  {
   "property": "C09",
   "status": "proved",
   "theorems": [
    "Verif.C09_triangle"
   ],
   "note": ""
  },
  {
   "property": "C10",
   "status": "proved",
   "theorems": [
    "Verif.C10_marginal_coverage_exact",
    "Verif.C10_marginal_coverage_laws"
   ],
   "note": ""
  },
  {
   "property": "C11",
   "status": "proved",
   "theorems": [
    "Verif.C11_submodular"
   ],
   "note": ""
  },
  {
   "property": "C12",
   "status": "proved",
   "theorems": [
    "Verif.C12_KL",
    "Verif.C12_KL_strictly_increasing"
   ],
   "note": ""
  },
  {
   "property": "C13",
   "status": "proved",
   "theorems": [
    "Verif.C13_pickle"
   ],
   "note": ""
  },
  {
   "property": "C14",
   "status": "proved",
   "theorems": [
    "Verif.C14_predict_exact",
    "Verif.C14_predict_error"
   ],
   "note": ""
  },
  {
   "property": "C15",
   "status": "proved",
   "theorems": [
    "Verif.C15_order_independent",
    "Verif.C15_monotone",
    "Verif.C15_row_local"
   ],
   "note": ""
  },
  {
   "property": "C16",
   "status": "proved",
   "theorems": [
    "Verif.C16_saved_model_predicts_identically",
    "Verif.C16_missing_parameter"
   ],
   "note": ""
  },
  {
   "property": "C17",
   "status": "proved",
   "theorems": [
    "Verif.C17_coverage_ratio",
    "Verif.C17_coverage_ratio_monotone"
   ],
   "note": ""
  },
  {
   "property": "C18",
   "status": "proved",
   "theorems": [
    "Verif.C18_marginals_telescope"
   ],
   "note": ""
  },
  {
   "property": "C19",
   "status": "proved",
   "theorems": [
    "Verif.C19_coverage_le_recall"
   ],
   "note": ""
  },
  {
   "property": "C20",
   "status": "proved",
   "theorems": [
    "Verif.C20_candidates",
    "Verif.C20_tail_failure_propagates",
    "Verif.C20_no_partial_result"
   ],
   "note": ""
  },
  {
   "property": "C21",
   "status": "proved",
   "theorems": [
    "Verif.C21_select_best"
   ],
   "note": ""
  },
  {
   "property": "C22",
   "status": "proved",
   "theorems": [
    "Verif.C22_first_round_terminates",
    "Verif.C22_few_rules",
    "Verif.C22_end_to_end"
   ],
   "note": ""
  },
  {
   "property": "C23",
   "status": "proved",
   "theorems": [
    "Verif.C23_budget_terminates",
    "Verif.C23_budget_exact"
   ],
   "note": ""
  },
  {
   "property": "C24",
   "status": "proved",
   "theorems": [
    "Verif.C24_greedy_trace",
    "Verif.C24_fit",
    "Verif.C24_each_rule_covers",
    "Verif.C24_end_to_end"
   ],
   "note": ""
  },
  {
   "property": "C25",
   "status": "proved",
   "theorems": [
    "Verif.C25_second_round",
    "Verif.C25_pool_is_union_of_batches",
    "Verif.C25_may_repeat"
   ],
   "note": ""
  },
  {
   "property": "C26",
   "status": "proved",
   "theorems": [
    "Verif.C26_objective_only_diversity"
   ],
   "note": ""
  },
  {
   "property": "C27",
   "status": "proved",
   "theorems": [
    "Verif.C27_fit_keeps_larger_reports_smaller"
   ],
   "note": ""
  },
  {
   "property": "C28",
   "status": "proved",
   "theorems": [
    "Verif.C28_refit_keeps_rules",
    "Verif.C28_refit_extends"
   ],
   "note": ""
  },
  {
   "property": "C29",
   "status": "proved",
   "theorems": [
    "Verif.C29_insufficient_candidates",
    "Verif.C29_end_to_end"
   ],
   "note": ""
  },
  {
   "property": "C30",
   "status": "proved",
   "theorems": [
    "Verif.C30_greedy_guarantee_general",
    "Verif.C30_greedy_half_approximation"
   ],
   "note": ""
  },
  {
   "property": "C31",
   "status": "proved",
   "theorems": [
    "Verif.C31_submod_objective",
    "Verif.C31_useless_rule_not_selected"
   ],
   "note": ""
  },
  {
   "property": "C32",
   "status": "proved",
   "theorems": [
    "Verif.C32_row_weights",
    "Verif.C32_updates_succeed_iff"
   ],
   "note": ""
  },
  {
   "property": "C33",
   "status": "proved",
   "theorems": [
    "Verif.C33_state_depends_on_coverage_only",
    "Verif.C33_updates_commute",
    "Verif.C33_update_idempotent"
   ],
   "note": ""
  },
  {
   "property": "C34",
   "status": "proved",
   "theorems": [
    "Verif.C34_sample_from_row",
    "Verif.C34_sample_once"
   ],
   "note": ""
  },
  {
   "property": "C35",
   "status": "proved",
   "theorems": [
    "Verif.C35_sampled_tail"
   ],
   "note": ""
  },
  {
   "property": "C36",
   "status": "proved",
   "theorems": [
    "Verif.C36_on_label_matrix",
    "Verif.C36_proportional_to_uncovered_area",
    "Verif.C36_in_terms_of_rows"
   ],
   "note": ""
  },
  {
   "property": "C37",
   "status": "proved",
   "theorems": [
    "Verif.C37_row_probabilities"
   ],
   "note": ""
  },
  {
   "property": "C38",
   "status": "proved",
   "theorems": [
    "Verif.C38_naive_agrees_on_first_coverage",
    "Verif.C38_naive_keeps_decreasing"
   ],
   "note": ""
  },
  {
   "property": "C39",
   "status": "proved",
   "theorems": [
    "Verif.C39_refit_raises_iff",
    "Verif.C39_refit_breaks_sampler"
   ],
   "note": ""
  },
  {
   "property": "C40",
   "status": "proved",
   "theorems": [
    "Verif.C40_naive_exact",
    "Verif.C40_trie_assignment_general",
    "Verif.C40_trie_assignment",
    "Verif.C40_empty_sample_differs"
   ],
   "note": ""
  },
  {
   "property": "C41",
   "status": "proved",
   "theorems": [
    "Verif.C41_pretti_assignment",
    "Verif.C41_pretti_any_samples"
   ],
   "note": ""
  },
  {
   "property": "C42",
   "status": "proved",
   "theorems": [
    "Verif.C42_search"
   ],
   "note": ""
  },
  {
   "property": "C43",
   "status": "proved",
   "theorems": [
    "Verif.C43_search_subsets",
    "Verif.C43_without_batch"
   ],
   "note": ""
  },
  {
   "property": "C44",
   "status": "proved",
   "theorems": [
    "Verif.C44_search_supersets"
   ],
   "note": ""
  },
  {
   "property": "C45",
   "status": "proved",
   "theorems": [
    "Verif.C45_equality",
    "Verif.C45_permutation"
   ],
   "note": ""
  },
  {
   "property": "C46",
   "status": "proved",
   "theorems": [
    "Verif.C46_binary_search"
   ],
   "note": ""
  },
  {
   "property": "C47",
   "status": "proved",
   "theorems": [
    "Verif.C47_confidence_graph",
    "Verif.C47_range_and_symmetry",
    "Verif.C47_label_frequency"
   ],
   "note": ""
  },
  {
   "property": "C48",
   "status": "proved",
   "theorems": [
    "Verif.C48_connectivity_graph",
    "Verif.C48_weights",
    "Verif.C48_build_graph",
    "Verif.C48_missing_reverse"
   ],
   "note": ""
  },
  {
   "property": "C49",
   "status": "proved",
   "theorems": [
    "Verif.C49_enumeration",
    "Verif.C49_any_arithmetic"
   ],
   "note": ""
  },
  {
   "property": "C50",
   "status": "proved",
   "theorems": [
    "Verif.C50_prune_same",
    "Verif.C50_sample_space"
   ],
   "note": ""
  },
  {
   "property": "C51",
   "status": "proved",
   "theorems": [
    "Verif.C51_monotone",
    "Verif.C51_subset_closed"
   ],
   "note": ""
  },
  {
   "property": "C52",
   "status": "proved",
   "theorems": [
    "Verif.C52_sample_clique",
    "Verif.C52_confidence_graph",
    "Verif.C52_no_nodes"
   ],
   "note": ""
  },
  {
   "property": "C53",
   "status": "proved",
   "theorems": [
    "Verif.Cftp.C53_prepending_draws"
   ],
   "note": ""
  },
  {
   "property": "C54",
   "status": "proved",
   "theorems": [
    "Verif.Cftp.C54_coalescence"
   ],
   "note": ""
  },
  {
   "property": "C55",
   "status": "proved",
   "theorems": [
    "Verif.Cftp.C55_pairs",
    "Verif.Cftp.C55_giving_up",
    "Verif.Cftp.C55_exact_given_success"
   ],
   "note": ""
  },
  {
   "property": "C56",
   "status": "proved",
   "theorems": [
    "Verif.Cftp.C56_sample_outcomes",
    "Verif.Cftp.C56_lists"
   ],
   "note": ""
  },
  {
   "property": "C57",
   "status": "proved",
   "theorems": [
    "Verif.C57_boley",
    "Verif.C57_head_sampler_dominates",
    "Verif.C57_tight_weights",
    "Verif.C57_original_weights"
   ],
   "note": ""
  },
  {
   "property": "C58",
   "status": "proved",
   "theorems": [
    "Verif.C58_ground_truth_samples",
    "Verif.C58_ground_truth_pairs",
    "Verif.C58_batch",
    "Verif.C58_fit",
    "Verif.C58_heads",
    "Verif.C58_outcomes",
    "Verif.C58_unfitted"
   ],
   "note": ""
  },
  {
   "property": "C59",
   "status": "proved",
   "theorems": [
    "Verif.C59_fit",
    "Verif.C59_rounds",
    "Verif.C59_patterns",
    "Verif.C59_outcomes",
    "Verif.C59_ground_truth_samples",
    "Verif.C59_ground_truth_pairs"
   ],
   "note": ""
  },
  {
   "property": "C60",
   "status": "proved",
   "theorems": [
    "Verif.C60_area_exact"
   ],
   "note": ""
  },
  {
   "property": "C61",
   "status": "proved",
   "theorems": [
    "Verif.C61_frequency_exact",
    "Verif.C61_limit"
   ],
   "note": ""
  },
  {
   "property": "C62",
   "status": "proved",
   "theorems": [
    "Verif.C62_uniform",
    "Verif.C62_limit",
    "Verif.C62_with_empty",
    "Verif.C62_never_returns"
   ],
   "note": ""
  },
  {
   "property": "C63",
   "status": "proved",
   "theorems": [
    "Verif.C63_powerset"
   ],
   "note": ""
  },
  {
   "property": "C64",
   "status": "proved",
   "theorems": [
    "Verif.C64_proportional",
    "Verif.C64_distribution",
    "Verif.C64_degenerate"
   ],
   "note": ""
  },
  {
   "property": "C65",
   "status": "proved",
   "theorems": [
    "Verif.C65_split",
    "Verif.C65_law",
    "Verif.C65_sizes",
    "Verif.C65_leakage",
    "Verif.C65_lost",
    "Verif.C65_missing_labels"
   ],
   "note": ""
  },
  {
   "property": "C66",
   "status": "proved",
   "theorems": [
    "Verif.C66_reproducible",
    "Verif.C66_prefix",
    "Verif.C66_error_persists",
    "Verif.C66_cycles",
    "Verif.C66_at_most_100000_distinct",
    "Verif.C66_samples_from_seeds",
    "Verif.C66_successive_draws",
    "Verif.C66_successive_choices"
   ],
   "note": ""
  },
  {
   "property": "C67",
   "status": "proved",
   "theorems": [
    "Verif.C67_micro",
    "Verif.C67_macro",
    "Verif.C67_accuracies",
    "Verif.C67_range",
    "Verif.C67_perfect",
    "Verif.C67_perfect_only",
    "Verif.C67_swap",
    "Verif.C67_subset_le_hamming",
    "Verif.C67_report",
    "Verif.C67_default_report"
   ],
   "note": ""
  },
  {
   "property": "C68",
   "status": "proved",
   "theorems": [
    "Verif.C68_support",
    "Verif.C68_area_frequency",
    "Verif.C68_frequency_range",
    "Verif.C68_density_ratio",
    "Verif.C68_density_is_scaled_ratio",
    "Verif.C68_missing_edge",
    "Verif.C68_no_graph",
    "Verif.C68_ratio_range",
    "Verif.C68_report"
   ],
   "note": ""
  },
  {
   "property": "C69",
   "status": "proved",
   "theorems": [
    "Verif.C69_configured",
    "Verif.C69_other_keys_ignored",
    "Verif.C69_first_version"
   ],
   "note": ""
  },
  {
   "property": "C70",
   "status": "proved",
   "theorems": [
    "Verif.C70_candidates",
    "Verif.C70_distances_defined",
    "Verif.C70_fit_outcomes",
    "Verif.C70_no_label_columns",
    "Verif.C70_universal_label_crash",
    "Verif.C70_assertion_iff",
    "Verif.C70_divmax_outcomes"
   ],
   "note": ""
  },
  {
   "property": "C71",
   "status": "proved",
   "theorems": [
    "Verif.C71_backends_agree",
    "Verif.C71_backends_agree_any_order",
    "Verif.C71_empty",
    "Verif.C71_unsupported"
   ],
   "note": ""
  },
  {
   "property": "C72",
   "status": "proved",
   "theorems": [
    "Verif.C72_subgraph_stat",
    "Verif.C72_single_node"
   ],
   "note": ""
  },
  {
   "property": "C73",
   "status": "proved",
   "theorems": [
    "Verif.C73_boley_refit_ignores_features",
    "Verif.C73_refit_ignores_features",
    "Verif.C73_refit_keeps_space"
   ],
   "note": ""
  },
  {
   "property": "C74",
   "status": "proved",
   "theorems": [
    "Verif.C74_details_same_draws",
    "Verif.C74_details_outcomes",
    "Verif.C74_no_iterations",
    "Verif.C74_sample_once_details"
   ],
   "note": ""
  },
  {
   "property": "C75",
   "status": "proved",
   "theorems": [
    "Verif.C75_long_rows_lost",
    "Verif.C75_no_sample",
    "Verif.C75_area"
   ],
   "note": ""
  },
  {
   "property": "C76",
   "status": "proved",
   "theorems": [
    "Verif.C76_frequency_exact"
   ],
   "note": ""
  },
  {
   "property": "C77",
   "status": "proved",
   "theorems": [
    "Verif.C77_filter",
    "Verif.C77_length_mismatch"
   ],
   "note": ""
  },
  {
   "property": "C78",
   "status": "proved",
   "theorems": [
    "Verif.C78_set_data_succeeds_iff",
    "Verif.C78_split_is_partition",
    "Verif.C78_no_split",
    "Verif.C78_failure_state",
    "Verif.C78_resplit",
    "Verif.C78_split_positions",
    "Verif.C78_shape",
    "Verif.C78_before_data"
   ],
   "note": ""
  },
  {
   "property": "C79",
   "status": "proved",
   "theorems": [
    "Verif.C79_unseeded_ignores_generator",
    "Verif.C79_tails_follow_entropy"
   ],
   "note": ""
  },
  {
   "property": "C80",
   "status": "proved",
   "theorems": [
    "Verif.C80_set_params_stale",
    "Verif.C80_set_params",
    "Verif.C80_last_assignment_wins",
    "Verif.C80_unpickled_has_no_samplers",
    "Verif.C80_unpickled_generic_keeps_samplers"
   ],
   "note": ""
  },
  {
   "property": "C81",
   "status": "proved",
   "theorems": [
    "Verif.C81_early_stop_means_full_coverage",
    "Verif.C81_tolerance_stop"
   ],
   "note": ""
  },
  {
   "property": "C82",
   "status": "proved",
   "theorems": [
    "Verif.C82_refit_may_raise",
    "Verif.C82_divmax_refit_may_raise",
    "Verif.C82_few_labels"
   ],
   "note": ""
  },
  {
   "property": "C83",
   "status": "proved",
   "theorems": [
    "Verif.C83_loop_type_error_iff",
    "Verif.C83_fit_type_error_iff",
    "Verif.C83_divmax_type_error_iff",
    "Verif.C83_rows_with_features",
    "Verif.C83_fit_never_raises_iff",
    "Verif.C83_clean_data_fits"
   ],
   "note": ""
  },
  {
   "property": "C84",
   "status": "proved",
   "theorems": [
    "Verif.Biclus.C84_constructor_raises_iff",
    "Verif.Biclus.C84_constructor_keeps",
    "Verif.Biclus.C84_every_row_once",
    "Verif.Biclus.C84_shown_matrix",
    "Verif.Biclus.C84_out_of_range",
    "Verif.Biclus.C84_blocks_together"
   ],
   "note": ""
  },
  {
   "property": "C85",
   "status": "proved",
   "theorems": [
    "Verif.Biclus.C85_blocks_partition",
    "Verif.Biclus.C85_clusters_are_unions",
    "Verif.Biclus.C85_same_block_iff",
    "Verif.Biclus.C85_blocked_clusters",
    "Verif.Biclus.C85_block_matrix"
   ],
   "note": ""
  },
  {
   "property": "C86",
   "status": "proved",
   "theorems": [
    "Verif.Biclus.C86_cluster_picture",
    "Verif.Biclus.C86_block_picture",
    "Verif.Biclus.C86_same_cells"
   ],
   "note": ""
  },
  {
   "property": "C87",
   "status": "proved",
   "theorems": [
    "Verif.Biclus.C87_threshold_between",
    "Verif.Biclus.C87_vote"
   ],
   "note": ""
  },
  {
   "property": "C88",
   "status": "proved",
   "theorems": [
    "Verif.Biclus.C88_grid_search",
    "Verif.Biclus.C88_densities"
   ],
   "note": ""
  },
  {
   "property": "C89",
   "status": "proved",
   "theorems": [
    "Verif.Biclus.C89_row_clusters",
    "Verif.Biclus.C89_pcv",
    "Verif.Biclus.C89_threshold_ignored",
    "Verif.Biclus.C89_viewer"
   ],
   "note": ""
  },
  {
   "property": "C90",
   "status": "proved",
   "theorems": [
    "Verif.Biclus.C90_order",
    "Verif.Biclus.C90_similarity",
    "Verif.Biclus.C90_first_gap_ignored"
   ],
   "note": ""
  },
  {
   "property": "C91",
   "status": "proved",
   "theorems": [
    "Verif.C91_v2_probable",
    "Verif.C91_divmax_probable"
   ],
   "note": ""
  },
  {
   "property": "C92",
   "status": "proved",
   "theorems": [
    "Verif.C92_fit_extends",
    "Verif.C92_divmax_first_round",
    "Verif.C92_no_labels"
   ],
   "note": ""
  },
  {
   "property": "C93",
   "status": "proved",
   "theorems": [
    "Verif.GreedyArea.C93_frequencies_length",
    "Verif.GreedyArea.C93_frequencies_raises",
    "Verif.GreedyArea.C93_frequencies",
    "Verif.GreedyArea.C93_formatted"
   ],
   "note": ""
  },
  {
   "property": "C94",
   "status": "proved",
   "theorems": [
    "Verif.GreedyArea.C94_law",
    "Verif.GreedyArea.C94_outcomes",
    "Verif.GreedyArea.C94_no_single",
    "Verif.GreedyArea.C94_raises",
    "Verif.GreedyArea.C94_empty"
   ],
   "note": ""
  },
  {
   "property": "C95",
   "status": "proved",
   "theorems": [
    "Verif.Arff.C95_roundtrip",
    "Verif.Arff.C95_empty_row",
    "Verif.Arff.C95_undeclared",
    "Verif.Arff.C95_truncated",
    "Verif.Arff.C95_every_good_file",
    "Verif.Arff.C95_every_bad_file",
    "Verif.Arff.C95_good_or_bad"
   ],
   "note": ""
  },
  {
   "property": "C96",
   "status": "proved",
   "theorems": [
    "Verif.Quantile.C96_synthetic",
    "Verif.Quantile.C96_share",
    "Verif.Quantile.C96_errors"
   ],
   "note": ""
  },
  {
   "property": "C97",
   "status": "proved",
   "theorems": [
    "Verif.Quantile.C97_numeric",
    "Verif.Quantile.C97_constant"
   ],
   "note": ""
  },
  {
   "property": "C98",
   "status": "proved",
   "theorems": [
    "Verif.Arff.C98_first_character",
    "Verif.Arff.C98_first_digit_lost",
    "Verif.Arff.C98_last_character"
   ],
   "note": ""
  },
  {
   "property": "C99",
   "status": "proved",
   "theorems": [
    "Verif.Arff.C99_dense",
    "Verif.Arff.C99_numeric_label",
    "Verif.Arff.C99_every_good_file",
    "Verif.Arff.C99_every_bad_file",
    "Verif.Arff.C99_good_or_bad"
   ],
   "note": ""
  },
  {
   "property": "C100",
   "status": "proved",
   "theorems": [
    "Verif.Synthetic.C100_everything",
    "Verif.Synthetic.C100_diverse",
    "Verif.Synthetic.C100_every_rule",
    "Verif.Synthetic.C100_too_few_columns",
    "Verif.Synthetic.C100_too_few_examples",
    "Verif.Synthetic.C100_law"
   ],
   "note": ""
  },
  {
   "property": "C101",
   "status": "proved",
   "theorems": [
    "Verif.Synthetic.C101_plain",
    "Verif.Synthetic.C101_no_rules",
    "Verif.Synthetic.C101_raises",
    "Verif.Synthetic.C101_law"
   ],
   "note": ""
  },
  {
   "property": "C102",
   "status": "proved",
   "theorems": [
    "Verif.Arff.C102_genbase",
    "Verif.Arff.C102_first_label_is_a_feature",
    "Verif.Arff.C102_numeric_label"
   ],
   "note": ""
  },
  {
   "property": "C103",
   "status": "proved",
   "theorems": [
    "Verif.Arff.C103_two_files",
    "Verif.Arff.C103_proportion_ignored",
    "Verif.Arff.C103_missing",
    "Verif.Arff.C103_one_file",
    "Verif.Arff.C103_genbase",
    "Verif.Arff.C103_genbase_unbound",
    "Verif.Arff.C103_width",
    "Verif.Arff.C103_columns_differ"
   ],
   "note": ""
  },
  {
   "property": "C104",
   "status": "proved",
   "theorems": [
    "Verif.C104_law",
    "Verif.C104_random_start",
    "Verif.C104_alone",
    "Verif.C104_confidence_graph"
   ],
   "note": ""
  },
  {
   "property": "C105",
   "status": "proved",
   "theorems": [
    "Verif.Preprocess.C105_encoding",
    "Verif.Preprocess.C105_succeeds",
    "Verif.Preprocess.C105_error",
    "Verif.Preprocess.C105_exactly_one",
    "Verif.Preprocess.C105_missing",
    "Verif.Preprocess.C105_injective",
    "Verif.Preprocess.C105_two_labels"
   ],
   "note": ""
  },
  {
   "property": "C106",
   "status": "proved",
   "theorems": [
    "Verif.Load.C106_success",
    "Verif.Load.C106_freq_counts_dev",
    "Verif.Load.C106_ids",
    "Verif.Load.C106_ids_inverse",
    "Verif.Load.C106_genbase",
    "Verif.Load.C106_two_files",
    "Verif.Load.C106_one_file",
    "Verif.Load.C106_library",
    "Verif.Load.C106_toy",
    "Verif.Load.C106_labels",
    "Verif.Load.C106_columns_differ",
    "Verif.Load.C106_reload",
    "Verif.Load.C106_graph"
   ],
   "note": ""
  },
  {
   "property": "C107",
   "status": "proved",
   "theorems": [
    "Verif.Pipeline.C107_outcomes",
    "Verif.Pipeline.C107_can_raise",
    "Verif.Pipeline.C107_can_return",
    "Verif.Pipeline.C107_bad_version",
    "Verif.Pipeline.C107_validation_needs_split",
    "Verif.Pipeline.C107_heldout",
    "Verif.Pipeline.C107_train_and_eval",
    "Verif.Pipeline.C107_tune_trial",
    "Verif.Pipeline.C107_tune_recall",
    "Verif.Pipeline.C107_greedy"
   ],
   "note": ""
  },
  {
   "property": "C108",
   "status": "proved",
   "theorems": [
    "Verif.Mlflow.C108_known",
    "Verif.Mlflow.C108_first_call",
    "Verif.Mlflow.C108_second_call",
    "Verif.Mlflow.C108_wrong_experiment",
    "Verif.Mlflow.C108_create",
    "Verif.Mlflow.C108_alone",
    "Verif.Mlflow.C108_terminates",
    "Verif.Mlflow.C108_prepared",
    "Verif.Mlflow.C108_race"
   ],
   "note": ""
  },
  {
   "property": "C109",
   "status": "proved",
   "theorems": [
    "Verif.GreedyHead.C109_fit",
    "Verif.GreedyHead.C109_choice",
    "Verif.GreedyHead.C109_quality",
    "Verif.GreedyHead.C109_perfect",
    "Verif.GreedyHead.C109_unique",
    "Verif.GreedyHead.C109_batch",
    "Verif.GreedyHead.C109_no_columns",
    "Verif.GreedyHead.C109_failed_fit",
    "Verif.GreedyHead.C109_refit"
   ],
   "note": ""
  },
  {
   "property": "C110",
   "status": "proved",
   "theorems": [
    "Verif.GreedyHead.C110_fit",
    "Verif.GreedyHead.C110_outcomes",
    "Verif.GreedyHead.C110_separates",
    "Verif.GreedyHead.C110_law",
    "Verif.GreedyHead.C110_unfitted",
    "Verif.GreedyHead.C110_refit"
   ],
   "note": ""
  },
  {
   "property": "C111",
   "status": "proved",
   "theorems": [
    "Verif.Tune.C111_outcomes",
    "Verif.Tune.C111_unprepared",
    "Verif.Tune.C111_search_space",
    "Verif.Tune.C111_can_report"
   ],
   "note": ""
  },
  {
   "property": "C112",
   "status": "proved",
   "theorems": [
    "Verif.Tune.C112_table",
    "Verif.Tune.C112_no_table",
    "Verif.Tune.C112_store",
    "Verif.Tune.C112_agrees",
    "Verif.Tune.C112_summarized_experiment",
    "Verif.Tune.C112_other_experiments"
   ],
   "note": ""
  },
  {
   "property": "C113",
   "status": "proved",
   "theorems": [
    "Verif.TrieHeap.C113_children",
    "Verif.TrieHeap.C113_add_child",
    "Verif.TrieHeap.C113_sets",
    "Verif.TrieHeap.C113_populate",
    "Verif.TrieHeap.C113_same_answers",
    "Verif.TrieHeap.C113_trie",
    "Verif.TrieHeap.C113_trie_equality",
    "Verif.TrieHeap.C113_trie_node",
    "Verif.TrieHeap.C113_nested_tuple",
    "Verif.TrieHeap.C113_constructor"
   ],
   "note": ""
  },
  {
   "property": "C114",
   "status": "proved",
   "theorems": [
    "Verif.Scripts.C114_binding",
    "Verif.Scripts.C114_job",
    "Verif.Scripts.C114_unprepared",
    "Verif.Scripts.C114_train_jobs",
    "Verif.Scripts.C114_feature_jobs",
    "Verif.Scripts.C114_heads_job",
    "Verif.Scripts.C114_heads_jobs",
    "Verif.Scripts.C114_heads_groups",
    "Verif.Scripts.C114_num_rules",
    "Verif.Scripts.C114_tune_and_eval"
   ],
   "note": ""
  },
  {
   "property": "C115",
   "status": "proved",
   "theorems": [
    "Verif.GreedyHead.C115_pairs",
    "Verif.GreedyHead.C115_attributes",
    "Verif.GreedyHead.C115_unfitted",
    "Verif.GreedyHead.C115_two_stage",
    "Verif.GreedyHead.C115_pair_law",
    "Verif.GreedyHead.C115_batch"
   ],
   "note": ""
  },
  {
   "property": "C116",
   "status": "proved",
   "theorems": [
    "Verif.Dummy.C116_sample_once",
    "Verif.Dummy.C116_seed_ignored",
    "Verif.Dummy.C116_sample",
    "Verif.Dummy.C116_not_reproducible",
    "Verif.Dummy.C116_calls_reproducible",
    "Verif.Dummy.C116_calls_draws",
    "Verif.Dummy.C116_sample_draws",
    "Verif.Dummy.C116_sample_errors",
    "Verif.Dummy.C116_rules",
    "Verif.Dummy.C116_budget",
    "Verif.Dummy.C116_submod",
    "Verif.Dummy.C116_absent_feature"
   ],
   "note": ""
  },
  {
   "property": "C117",
   "status": "proved",
   "theorems": [
    "Verif.C117_iterations",
    "Verif.C117_giving_up",
    "Verif.C117_pairs_batch",
    "Verif.C117_details_batch",
    "Verif.C117_batch_length",
    "Verif.C117_boley_pair",
    "Verif.C117_boley_batch",
    "Verif.C117_boley_limit",
    "Verif.C117_boley_unfitted"
   ],
   "note": ""
  },
  {
   "property": "C118",
   "status": "proved",
   "theorems": [
    "Verif.Files.C118_schedule",
    "Verif.Files.C118_unshared",
    "Verif.Files.C118_alone",
    "Verif.Files.C118_exists",
    "Verif.Files.C118_idempotent",
    "Verif.Files.C118_bare_name",
    "Verif.Files.C118_blocked"
   ],
   "note": ""
  },
  {
   "property": "C119",
   "status": "proved",
   "theorems": [
    "Verif.Files.C119_save_file",
    "Verif.Files.C119_save_errors",
    "Verif.Files.C119_crash",
    "Verif.Files.C119_completed",
    "Verif.Files.C119_not_atomic",
    "Verif.Files.C119_pickle_round_trip",
    "Verif.Files.C119_pickle_crash",
    "Verif.Files.C119_json_bad",
    "Verif.Files.C119_save_errors_alike",
    "Verif.Files.C119_load_errors",
    "Verif.Files.C119_save_results",
    "Verif.Files.C119_save_results_bare",
    "Verif.Files.C119_tempdir",
    "Verif.Files.C119_tempdir_returns",
    "Verif.Files.C119_tempdir_distinct"
   ],
   "note": ""
  },
  {
   "property": "C120",
   "status": "proved",
   "theorems": [
    "Verif.C120_query",
    "Verif.C120_query_error",
    "Verif.C120_minus_one",
    "Verif.C120_bind",
    "Verif.C120_predict",
    "Verif.C120_mismatch"
   ],
   "note": ""
  },
  {
   "property": "C121",
   "status": "proved",
   "theorems": [
    "Verif.C121_positions",
    "Verif.C121_same_cliques",
    "Verif.C121_agree_only_if"
   ],
   "note": ""
  },
  {
   "property": "C122",
   "status": "proved",
   "theorems": [
    "Verif.C122_fit",
    "Verif.C122_law",
    "Verif.C122_no_occurrence",
    "Verif.C122_refit",
    "Verif.C122_failed_fit",
    "Verif.C122_unfitted"
   ],
   "note": ""
  },
  {
   "property": "C123",
   "status": "proved",
   "theorems": [
    "Verif.C123_within",
    "Verif.C123_returns",
    "Verif.C123_contains",
    "Verif.C123_one_rule"
   ],
   "note": ""
  },
  {
   "property": "C124",
   "status": "proved",
   "theorems": [
    "Verif.C124_every_rule",
    "Verif.C124_greedy_choice"
   ],
   "note": ""
  },
  {
   "property": "C125",
   "status": "proved",
   "theorems": [
    "Verif.C125_equal",
    "Verif.C125_sets",
    "Verif.C125_indistinguishable",
    "Verif.C125_stored_zero",
    "Verif.C125_equivalence"
   ],
   "note": ""
  },
  {
   "property": "C126",
   "status": "proved",
   "theorems": [
    "Verif.C126_run",
    "Verif.C126_fit",
    "Verif.C126_divmax",
    "Verif.C126_key_error",
    "Verif.C126_no_labels",
    "Verif.C126_no_rows"
   ],
   "note": ""
  },
  {
   "property": "C127",
   "status": "proved",
   "theorems": [
    "Verif.C127_finite_law",
    "Verif.C127_finite_law_divmax",
    "Verif.C127_miss",
    "Verif.C127_miss_divmax",
    "Verif.C127_limit",
    "Verif.C127_clean",
    "Verif.C127_guarantee",
    "Verif.C127_coverage",
    "Verif.C127_fit_coverage"
   ],
   "note": ""
  },
  {
   "property": "C128",
   "status": "proved",
   "theorems": [
    "Verif.C128_returns",
    "Verif.C128_exhausted",
    "Verif.C128_law",
    "Verif.C128_reachable"
   ],
   "note": ""
  },
  {
   "property": "C129",
   "status": "proved",
   "theorems": [
    "Verif.C129_ratios",
    "Verif.C129_kl",
    "Verif.C129_stop",
    "Verif.C129_limit"
   ],
   "note": ""
  },
  {
   "property": "C130",
   "status": "proved",
   "theorems": [
    "Verif.C130_sample_space",
    "Verif.C130_exact",
    "Verif.C130_boundary",
    "Verif.C130_unknown_backend"
   ],
   "note": ""
  },
  {
   "property": "C131",
   "status": "proved",
   "theorems": [
    "Verif.C131_divergence",
    "Verif.C131_objective",
    "Verif.C131_fit",
    "Verif.C131_second_round",
    "Verif.C131_accurate",
    "Verif.C131_size"
   ],
   "note": ""
  },
  {
   "property": "C132",
   "status": "proved",
   "theorems": [
    "Verif.C132_law",
    "Verif.C132_heads",
    "Verif.C132_outcomes"
   ],
   "note": ""
  },
  {
   "property": "C133",
   "status": "proved",
   "theorems": [
    "Verif.C133_law",
    "Verif.C133_law_divmax",
    "Verif.C133_ideal",
    "Verif.C133_coverage",
    "Verif.C133_fit_coverage"
   ],
   "note": ""
  },
  {
   "property": "C134",
   "status": "proved",
   "theorems": [
    "Verif.C134_fit",
    "Verif.C134_overflow",
    "Verif.C134_law",
    "Verif.C134_outcomes",
    "Verif.C134_ground_truth"
   ],
   "note": ""
  },
  {
   "property": "C135",
   "status": "proved",
   "theorems": [
    "Verif.C135_points_of_the_call",
    "Verif.C135_interrupted",
    "Verif.C135_sampling_may_raise",
    "Verif.C135_retry",
    "Verif.C135_retry_between",
    "Verif.C135_missing_row",
    "Verif.C135_between_reachable"
   ],
   "note": ""
  },
  {
   "property": "C136",
   "status": "proved",
   "theorems": [
    "Verif.Cftp.C136_points_of_the_call",
    "Verif.Cftp.C136_broken",
    "Verif.Cftp.C136_lengths",
    "Verif.Cftp.C136_harmless_points",
    "Verif.Cftp.C136_third_iteration",
    "Verif.Cftp.C136_harmful_points",
    "Verif.Cftp.C136_one_draw",
    "Verif.C136_head_broken",
    "Verif.C136_fit_repairs",
    "Verif.C136_boley_broken",
    "Verif.C136_boley_fit_repairs"
   ],
   "note": ""
  },
  {
   "property": "C137",
   "status": "proved",
   "theorems": [
    "Verif.C137_points_of_the_fit",
    "Verif.C137_interrupted",
    "Verif.C137_anytime",
    "Verif.C137_anytime_run",
    "Verif.C137_second_round",
    "Verif.C137_second_round_end",
    "Verif.C137_insufficient"
   ],
   "note": ""
  },
  {
   "property": "C138",
   "status": "proved",
   "theorems": [
    "Verif.C138_points",
    "Verif.C138_samples_kept",
    "Verif.C138_ground_truth_moves",
    "Verif.C138_too_many_labels",
    "Verif.C138_dead",
    "Verif.C138_retry",
    "Verif.C138_exceptions_harmless"
   ],
   "note": ""
  },
  {
   "property": "C139",
   "status": "proved",
   "theorems": [
    "Verif.GreedyArea.C139_fit",
    "Verif.GreedyArea.C139_infinite",
    "Verif.GreedyArea.C139_outcomes",
    "Verif.GreedyArea.C139_law"
   ],
   "note": ""
  },
  {
   "property": "C140",
   "status": "proved",
   "theorems": [
    "Verif.C140_fit",
    "Verif.C140_heads",
    "Verif.C140_outcomes"
   ],
   "note": ""
  },
  {
   "property": "C141",
   "status": "proved",
   "theorems": [
    "Verif.C141_area",
    "Verif.C141_frequency",
    "Verif.C141_reduced"
   ],
   "note": ""
  },
  {
   "property": "C142",
   "status": "proved",
   "theorems": [
    "Verif.Biclus.C142_figure",
    "Verif.Biclus.C142_unordered_only",
    "Verif.Biclus.C142_does_not_fit",
    "Verif.Biclus.C142_unpaired",
    "Verif.Biclus.C142_no_panel",
    "Verif.Biclus.C142_transpose",
    "Verif.Biclus.C142_no_trace"
   ],
   "note": ""
  },
  {
   "property": "C143",
   "status": "proved",
   "theorems": [
    "Verif.Biclus.C143_pcv_call",
    "Verif.Biclus.C143_rank_out_of_range",
    "Verif.Biclus.C143_no_convergence",
    "Verif.Biclus.C143_clusters_out_of_range",
    "Verif.Biclus.C143_unknown_projection",
    "Verif.Biclus.C143_unknown_clustering",
    "Verif.Biclus.C143_script",
    "Verif.Biclus.C143_script_small"
   ],
   "note": ""
  },
  {
   "property": "C144",
   "status": "proved",
   "theorems": [
    "Verif.C144_rounded",
    "Verif.C144_close",
    "Verif.C144_range",
    "Verif.C144_perfect",
    "Verif.C144_perfect_macro",
    "Verif.C144_rank",
    "Verif.C144_rank_precision",
    "Verif.C144_swap",
    "Verif.C144_subset_above_hamming"
   ],
   "note": ""
  },
  {
   "property": "C145",
   "status": "proved",
   "theorems": [
    "Verif.C145_summary",
    "Verif.C145_relations",
    "Verif.C145_unique",
    "Verif.C145_tails"
   ],
   "note": ""
  },
  {
   "property": "C146",
   "status": "proved",
   "theorems": [
    "Verif.C146_summary",
    "Verif.C146_readback",
    "Verif.C146_same_summary",
    "Verif.C146_names",
    "Verif.C146_subgraph",
    "Verif.C146_line_readback"
   ],
   "note": ""
  },
  {
   "property": "C147",
   "status": "proved",
   "theorems": [
    "Verif.C147_learns_nothing",
    "Verif.C147_unfitted",
    "Verif.C147_which_raise",
    "Verif.C147_selects_nothing",
    "Verif.C147_sampler",
    "Verif.C147_reduced_sampler",
    "Verif.C147_steps",
    "Verif.C147_disabled"
   ],
   "note": ""
  },
  {
   "property": "C148",
   "status": "proved",
   "theorems": [
    "Verif.C148_density_ratio",
    "Verif.C148_errors",
    "Verif.C148_same_rows",
    "Verif.C148_frequency",
    "Verif.C148_frequency_edge"
   ],
   "note": ""
  },
  {
   "property": "C149",
   "status": "proved",
   "theorems": [
    "Verif.Preprocess.C149_sparse",
    "Verif.Preprocess.C149_same",
    "Verif.Preprocess.C149_rows"
   ],
   "note": ""
  },
  {
   "property": "C150",
   "status": "proved",
   "theorems": [
    "Verif.C150_fit",
    "Verif.C150_fit_divmax"
   ],
   "note": ""
  },
  {
   "property": "C151",
   "status": "proved",
   "theorems": [
    "Verif.C151_fit",
    "Verif.C151_fit_divmax"
   ],
   "note": ""
  },
  {
   "property": "C152",
   "status": "proved",
   "theorems": [
    "Verif.C152_fit",
    "Verif.C152_fit_divmax",
    "Verif.C152_predict"
   ],
   "note": ""
  },
  {
   "property": "C153",
   "status": "proved",
   "theorems": [
    "Verif.C153_fit",
    "Verif.C153_fit_divmax"
   ],
   "note": ""
  },
  {
   "property": "C154",
   "status": "proved",
   "theorems": [
    "Verif.C154_choice",
    "Verif.C154_extremes",
    "Verif.C154_choice_submod",
    "Verif.C154_budget_one",
    "Verif.C154_rounds"
   ],
   "note": ""
  },
  {
   "property": "C155",
   "status": "proved",
   "theorems": [
    "Verif.C155_repeat",
    "Verif.C155_first_round",
    "Verif.C155_fit",
    "Verif.C155_repeat_beyond",
    "Verif.C155_one_candidate",
    "Verif.C155_again"
   ],
   "note": ""
  },
  {
   "property": "C156",
   "status": "proved",
   "theorems": [
    "Verif.C156_law",
    "Verif.C156_only",
    "Verif.C156_law_divmax"
   ],
   "note": ""
  },
  {
   "property": "C157",
   "status": "proved",
   "theorems": [
    "Verif.C157_at_most",
    "Verif.C157_at_most_divmax",
    "Verif.C157_rate",
    "Verif.C157_at_least",
    "Verif.C157_at_least_divmax",
    "Verif.C157_many_tails",
    "Verif.C157_many_tails_divmax"
   ],
   "note": ""
  },
  {
   "property": "C158",
   "status": "proved",
   "theorems": [
    "Verif.C158_law",
    "Verif.C158_larger_batches",
    "Verif.C158_enough_tails"
   ],
   "note": ""
  },
  {
   "property": "C159",
   "status": "proved",
   "theorems": [
    "Verif.C159_tail_law",
    "Verif.C159_many_heads",
    "Verif.C159_rule_lost"
   ],
   "note": ""
  },
  {
   "property": "C160",
   "status": "proved",
   "theorems": [
    "Verif.C160_label_threshold",
    "Verif.C160_conditional",
    "Verif.C160_feature_threshold",
    "Verif.C160_extremes"
   ],
   "note": ""
  },
  {
   "property": "C161",
   "status": "proved",
   "theorems": [
    "Verif.C161_tails",
    "Verif.C161_heads",
    "Verif.C161_filter"
   ],
   "note": ""
  },
  {
   "property": "C162",
   "status": "proved",
   "theorems": [
    "Verif.C162_inclusion",
    "Verif.C162_equivalent",
    "Verif.C162_redundant",
    "Verif.C162_features_read"
   ],
   "note": ""
  },
  {
   "property": "C163",
   "status": "proved",
   "theorems": [
    "Verif.C163_gap",
    "Verif.C163_equal",
    "Verif.C163_redundant_gain"
   ],
   "note": ""
  },
  {
   "property": "C164",
   "status": "proved",
   "theorems": [
    "Verif.C164_prefix",
    "Verif.C164_exact",
    "Verif.C164_prefix_divmax",
    "Verif.C164_raises_divmax",
    "Verif.C164_exact_divmax"
   ],
   "note": ""
  },
  {
   "property": "C165",
   "status": "proved",
   "theorems": [
    "Verif.C165_shorter",
    "Verif.C165_longer"
   ],
   "note": ""
  },
  {
   "property": "C166",
   "status": "proved",
   "theorems": [
    "Verif.C166_training_precision"
   ],
   "note": ""
  }
 ]
}