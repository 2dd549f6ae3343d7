{
 "claims": [
  {
   "property": "C01",
   "status": "proved",
   "theorems": [
    "Verif.Buffers.C01_queue_is_newest",
    "Verif.Buffers.C01_size_bounded"
   ],
   "note": "For max_size >= 1."
  },
  {
   "property": "C02",
   "status": "proved",
   "theorems": [
    "Verif.Buffers.C02_refines_fifo",
    "Verif.Buffers.C02_add_conserves",
    "Verif.Buffers.C02_zero_capacity_unbounded"
   ],
   "note": "For max_size >= 1; max_size = 0 makes the buffer unbounded (C02_zero_capacity_unbounded)."
  },
  {
   "property": "C03",
   "status": "partial",
   "theorems": [
    "Verif.Buffers.C03_sliding_window_partial",
    "Verif.Buffers.C03_multirow_violated",
    "Verif.Buffers.C03_bad_target_misaligns"
   ],
   "note": "Proved for single-row adds with a fixed target width; violated by multi-row adds (C03_multirow_violated) and by a target row of the wrong width (C03_bad_target_misaligns)."
  },
  {
   "property": "C04",
   "status": "proved",
   "theorems": [
    "Verif.Metrics.C04_entries",
    "Verif.Metrics.C04_classes",
    "Verif.Metrics.C04_margins"
   ],
   "note": "All histories; weights of any sign."
  },
  {
   "property": "C05",
   "status": "partial",
   "theorems": [
    "Verif.Metrics.C05_no_division_by_zero",
    "Verif.Metrics.C05_accuracy_partial",
    "Verif.Metrics.C05_accuracy_weighted",
    "Verif.Metrics.C05_weighted_violated"
   ],
   "note": "Proved for unit weights (C05_accuracy_partial) and in closed form for positive weights; with other weights the value leaves [0,1] (C05_weighted_violated)."
  },
  {
   "property": "C06",
   "status": "proved",
   "theorems": [
    "Verif.Metrics.C06_window_matrix",
    "Verif.Metrics.C06_window_scores"
   ],
   "note": "Positive weights, window_size >= 1."
  },
  {
   "property": "C07",
   "status": "proved",
   "theorems": [
    "Verif.Metrics.C07_majority_class",
    "Verif.Metrics.C07_majority_class_empty"
   ],
   "note": ""
  },
  {
   "property": "C08",
   "status": "proved",
   "theorems": [
    "Verif.Metrics.C08_kappa_bounds",
    "Verif.Metrics.C08_kappa_one_iff"
   ],
   "note": "Unit weights."
  },
  {
   "property": "C09",
   "status": "partial",
   "theorems": [
    "Verif.Metrics.C09_precision_recall",
    "Verif.Metrics.C09_bounds",
    "Verif.Metrics.C09_f1_partial",
    "Verif.Metrics.C09_f1_violated",
    "Verif.Metrics.C09_defaults",
    "Verif.Metrics.C09_negative_class"
   ],
   "note": "Precision and recall proved for every class; f1_score(c) ignores c when there are two classes (C09_f1_violated)."
  },
  {
   "property": "C10",
   "status": "partial",
   "theorems": [
    "Verif.MultiLabel.C10_exact_match",
    "Verif.MultiLabel.C10_jaccard",
    "Verif.MultiLabel.C10_hamming_partial",
    "Verif.MultiLabel.C10_hamming_violated",
    "Verif.MultiLabel.C10_hamming_one_label",
    "Verif.MultiLabel.C10_empty"
   ],
   "note": "Exact match and Jaccard proved; hamming_score counts true positives only (C10_hamming_violated)."
  },
  {
   "property": "C11",
   "status": "proved",
   "theorems": [
    "Verif.Regression.C11_cumulative",
    "Verif.Regression.C11_window",
    "Verif.Regression.C11_window_zero",
    "Verif.Regression.C11_multi_cumulative",
    "Verif.Regression.C11_multi_window",
    "Verif.Regression.C11_multi_empty"
   ],
   "note": "window_size >= 1; window_size = 0 raises on the first result (C11_window_zero). Number of targets fixed per evaluator."
  },
  {
   "property": "C12",
   "status": "proved",
   "theorems": [
    "Verif.Adwin.C12_window_is_a_suffix",
    "Verif.Adwin.C12_add_appends"
   ],
   "note": "Every call sequence (adds, checks, resets, clock changes) and every cut predicate; the buckets partition a suffix."
  },
  {
   "property": "C13",
   "status": "proved",
   "theorems": [
    "Verif.Adwin.C13_logarithmic_memory",
    "Verif.Adwin.C13_bucket_count"
   ],
   "note": "Rows of at most 5 buckets of 2^i elements (C12 gives the sizes), at most log2(width)+1 rows."
  },
  {
   "property": "C14",
   "status": "proved",
   "theorems": [
    "Verif.Adwin.C14_change_check",
    "Verif.Adwin.C14_counters",
    "Verif.Adwin.C14_terminates"
   ],
   "note": "Termination measured by fuel width+1; the numpy division by zero is modelled as an error and shown unreachable."
  },
  {
   "property": "C15",
   "status": "partial",
   "theorems": [
    "Verif.Adwin.C15_variance_exact_partial",
    "Verif.Adwin.C15_variance_never_too_small_partial",
    "Verif.Adwin.C15_variance_violated"
   ],
   "note": "Exact until the first drop, never too small in any reachable state; C15_variance_violated shows it is too large after a merged bucket is dropped (the first bucket's variance is lost in the merge)."
  },
  {
   "property": "C16",
   "status": "proved",
   "theorems": [
    "Verif.Drift.DDM.C16_restart",
    "Verif.Drift.DDM.C16_error_rate",
    "Verif.Drift.DDM.C16_decision",
    "Verif.Drift.DDM.C16_exclusive",
    "Verif.Drift.DDM.C16_min_instances",
    "Verif.Drift.DDM.C16_sqrt_arg"
   ],
   "note": "Square root is an arbitrary function (non-negative where stated)."
  },
  {
   "property": "C17",
   "status": "proved",
   "theorems": [
    "Verif.Drift.EDDM.C17_restart",
    "Verif.Drift.EDDM.C17_statistics",
    "Verif.Drift.EDDM.C17_decision",
    "Verif.Drift.EDDM.C17_only_after_30_errors",
    "Verif.Drift.EDDM.C17_exclusive"
   ],
   "note": "For every non-negative square root."
  },
  {
   "property": "C18",
   "status": "partial",
   "theorems": [
    "Verif.Drift.PH.C18_restart",
    "Verif.Drift.PH.C18_statistics",
    "Verif.Drift.PH.C18_decision_partial",
    "Verif.Drift.PH.C18_min_instances_violated"
   ],
   "note": "Everything proved except the intended minimum: the guard is off by one (C18_min_instances_violated)."
  },
  {
   "property": "C19",
   "status": "proved",
   "theorems": [
    "Verif.Drift.HA.C19_estimation",
    "Verif.Drift.HA.C19_range",
    "Verif.Drift.HA.C19_report_means_increase"
   ],
   "note": "Confidences such that the logarithms are non-negative."
  },
  {
   "property": "C20",
   "status": "proved",
   "theorems": [
    "Verif.Drift.HW.C20_two_side_option_inert",
    "Verif.Drift.HW.C20_never_raises"
   ],
   "note": "The option is inert on every stream."
  },
  {
   "property": "C21",
   "status": "proved",
   "theorems": [
    "Verif.Drift.KS.C21_window",
    "Verif.Drift.KS.C21_change",
    "Verif.Drift.KS.C21_large_stat_size_raises"
   ],
   "note": "KS test and random choice are arbitrary functions."
  },
  {
   "property": "C22",
   "status": "proved",
   "theorems": [
    "Verif.Streams.C22_batches_partition",
    "Verif.Streams.C22_batches_aligned",
    "Verif.Streams.C22_has_more",
    "Verif.Streams.C22_restart_replays"
   ],
   "note": "Every data set, batch sizes and restarts."
  },
  {
   "property": "C23",
   "status": "proved",
   "theorems": [
    "Verif.Streams.TM.C23_exactly_once",
    "Verif.Streams.TM.C23_available_is_exact",
    "Verif.Streams.TM.C23_next_is_earliest",
    "Verif.Streams.TM.C23_has_more"
   ],
   "note": "Unweighted queue; the sort is any sorting permutation. next_sample before anything was queued raises (C53)."
  },
  {
   "property": "C24",
   "status": "proved",
   "theorems": [
    "Verif.Streams.Gen.C24_generic",
    "Verif.Streams.Gen.C24_sea",
    "Verif.Streams.Gen.C24_stagger",
    "Verif.Streams.Gen.C24_sine",
    "Verif.Streams.Gen.C24_mixed",
    "Verif.Streams.Gen.C24_agrawal",
    "Verif.Streams.Gen.C24_unbalanced_labels"
   ],
   "note": "Generic rejection loop instantiated for SEA, STAGGER, Sine, Mixed and AGRAWAL; conditional on the loop finding a sample."
  },
  {
   "property": "C25",
   "status": "proved",
   "theorems": [
    "Verif.Evaluation.C25_test_then_train",
    "Verif.Evaluation.C25_sample_limit"
   ],
   "note": "Learners are arbitrary state machines; exceptions raised by learners are not modelled."
  },
  {
   "property": "C26",
   "status": "proved",
   "theorems": [
    "Verif.Evaluation.C26_static",
    "Verif.Evaluation.C26_dynamic"
   ],
   "note": "Static and dynamic test sets."
  },
  {
   "property": "C27",
   "status": "proved",
   "theorems": [
    "Verif.Evaluation.Delayed.C27_delayed",
    "Verif.Evaluation.Delayed.C27_transpose_roundtrip"
   ],
   "note": "Unweighted finite temporal streams; the list of models is one product learner, with the transposition proved separately."
  },
  {
   "property": "C28",
   "status": "proved",
   "theorems": [
    "Verif.Evaluation.File.C28_file_complete",
    "Verif.Evaluation.File.C28_file_always_whole_lines",
    "Verif.Evaluation.File.C28_buffer_bounded"
   ],
   "note": "Line text and sizes arbitrary."
  },
  {
   "property": "C29",
   "status": "partial",
   "theorems": [
    "Verif.Transform.C29_only_missing_replaced",
    "Verif.Transform.C29_none_left",
    "Verif.Transform.C29_windowed_violated"
   ],
   "note": "Replacement rule proved for all strategies and absence of missing values for zero/custom; for the windowed strategies the last part is refuted by C29_windowed_violated."
  },
  {
   "property": "C30",
   "status": "proved",
   "theorems": [
    "Verif.Transform.C30_identity",
    "Verif.Transform.C30_scaling_violated"
   ],
   "note": "The identity is proved, so scaling is refuted (C30_scaling_violated)."
  },
  {
   "property": "C31",
   "status": "proved",
   "theorems": [
    "Verif.Lazy.C31_proba_is_frequency",
    "Verif.Lazy.C31_predict_is_majority",
    "Verif.Lazy.C31_cold_start"
   ],
   "note": "Neighbour search is an arbitrary function returning n_neighbors valid positions; labels are natural numbers; also the majority/tie rule of predict and the cold start."
  },
  {
   "property": "C32",
   "status": "partial",
   "theorems": [
    "Verif.Lazy.C32_all_rows_share",
    "Verif.Lazy.C32_single_row",
    "Verif.Lazy.C32_cold_start",
    "Verif.Lazy.C32_multirow_violated"
   ],
   "note": "Holds for single-row queries (C32_single_row); violated for several rows (C32_multirow_violated), and several rows raise ValueError before n_neighbors samples are known (C32_cold_start)."
  },
  {
   "property": "C33",
   "status": "proved",
   "theorems": [
    "Verif.Trees.C33_weighted_moments",
    "Verif.Trees.C33_order_independent",
    "Verif.Trees.C33_variance_nonneg"
   ],
   "note": "Exact rational arithmetic; None and infinite values are ignored."
  },
  {
   "property": "C34",
   "status": "proved",
   "theorems": [
    "Verif.Trees.C34_multiway",
    "Verif.Trees.C34_multiway_conserves",
    "Verif.Trees.C34_binary",
    "Verif.Trees.C34_laplace",
    "Verif.Trees.C34_unseen_class",
    "Verif.Trees.C34_best"
   ],
   "note": "Multiway and binary distributions, Laplace probabilities and the choice of the best candidate."
  },
  {
   "property": "C35",
   "status": "proved",
   "theorems": [
    "Verif.Trees.EBST.C35_candidates",
    "Verif.Trees.EBST.C35_best_split",
    "Verif.Trees.EBST.C35_no_value"
   ],
   "note": "Candidates and the returned best split; an arbitrary criterion."
  },
  {
   "property": "C36",
   "status": "proved",
   "theorems": [
    "Verif.Trees.C36_numeric",
    "Verif.Trees.C36_nominal_binary",
    "Verif.Trees.C36_multiway_rule",
    "Verif.Trees.C36_multiway_stable",
    "Verif.Trees.C36_index_boundary",
    "Verif.Trees.C36_index_boundary_nominal",
    "Verif.Trees.C36_multiway_unknown"
   ],
   "note": "Also the off-by-one of the bounds check (C36_index_boundary)."
  },
  {
   "property": "C37",
   "status": "proved",
   "theorems": [
    "Verif.Trees.HT.C37_counters",
    "Verif.Trees.HT.C37_children_contiguous"
   ],
   "note": ""
  },
  {
   "property": "C38",
   "status": "proved",
   "theorems": [
    "Verif.Meta.DWM.C38_step",
    "Verif.Meta.DWM.C38_bounded_normalised",
    "Verif.Meta.DWM.C38_weakest_replaced"
   ],
   "note": "step, size bound, normalised weights, weakest expert replaced"
  },
  {
   "property": "C39",
   "status": "partial",
   "theorems": [
    "Verif.Meta.AddExp.C39_prunes_wrong_expert_violated",
    "Verif.Meta.AddExp.C39_full_ensemble_frozen_violated",
    "Verif.Meta.AddExp.C39_oldest_fifo",
    "Verif.Meta.AddExp.C39_size_and_weights_partial"
   ],
   "note": "code prunes the wrong expert under 'weakest' (violations proved); size bound, weights and oldest-first pruning proved"
  },
  {
   "property": "C40",
   "status": "partial",
   "theorems": [
    "Verif.Meta.AWE.C40_single_row_partial",
    "Verif.Meta.AWE.C40_rows_share_votes_violated",
    "Verif.Meta.AWE.C40_empty_pool"
   ],
   "note": "all rows of a call share one dictionary (violation proved for every pool); single-row voting and empty pool proved"
  },
  {
   "property": "C41",
   "status": "proved",
   "theorems": [
    "Verif.Meta.BatchInc.C41_windows",
    "Verif.Meta.BatchInc.C41_windows_cover"
   ],
   "note": ""
  },
  {
   "property": "C42",
   "status": "partial",
   "theorems": [
    "Verif.Meta.Leverage.C42_never_terminates_violated",
    "Verif.Meta.Leverage.C42_rows_balanced",
    "Verif.Meta.Leverage.C42_can_terminate"
   ],
   "note": "non-termination witness proved; rows balanced whenever the loop ends"
  },
  {
   "property": "C43",
   "status": "proved",
   "theorems": [
    "Verif.Meta.Boosting.C43_rates_positive",
    "Verif.Meta.Boosting.C43_error_estimate"
   ],
   "note": "rates, error estimates and absence of division by zero"
  },
  {
   "property": "C44",
   "status": "proved",
   "theorems": [
    "Verif.Meta.Chains.C44_training_tables",
    "Verif.Meta.Chains.C44_columns_in_target_order"
   ],
   "note": ""
  },
  {
   "property": "C45",
   "status": "partial",
   "theorems": [
    "Verif.Anomaly.C45_single_row_partial",
    "Verif.Anomaly.C45_all_rows_as_first_violated",
    "Verif.Anomaly.C45_batch_differs_violated"
   ],
   "note": "every row gets the class of the first row (violation proved in general and by a reachable witness); single-row calls proved"
  },
  {
   "property": "C46",
   "status": "partial",
   "theorems": [
    "Verif.Anomaly.C46_masses_partial",
    "Verif.Anomaly.C46_reference_of_one_row_violated"
   ],
   "note": "exact characterisation of the masses proved; in the second window the reference profile is a single row and the first row is lost (violation proved)"
  },
  {
   "property": "C47",
   "status": "partial",
   "theorems": [
    "Verif.Metrics.C47_window_defaults_partial",
    "Verif.Metrics.C47_window_macro_violated"
   ],
   "note": "Proved when all labels are declared classes; violated otherwise (C47_window_macro_violated)."
  },
  {
   "property": "C48",
   "status": "partial",
   "theorems": [
    "Verif.Metrics.C48_kappa_t",
    "Verif.Metrics.C48_kappa_m",
    "Verif.Metrics.C48_kappa_empty",
    "Verif.Metrics.C48_kappa_t_le_one",
    "Verif.Metrics.C48_majority_baseline_partial",
    "Verif.Metrics.C48_majority_baseline_violated"
   ],
   "note": "Kappa-T proved; the Kappa-M baseline peeks at the label (C48_majority_baseline_violated)."
  },
  {
   "property": "C49",
   "status": "proved",
   "theorems": [
    "Verif.MultiLabel.C49_window_scores"
   ],
   "note": "Equal vector lengths, window_size >= 1."
  },
  {
   "property": "C50",
   "status": "proved",
   "theorems": [
    "Verif.Drift.HA.C50_decrease_never_reported"
   ],
   "note": ""
  },
  {
   "property": "C51",
   "status": "partial",
   "theorems": [
    "Verif.Streams.C51_columns_split",
    "Verif.Streams.C51_file_stream_default",
    "Verif.Streams.C51_file_stream_explicit",
    "Verif.Streams.C51_data_stream_default_violated"
   ],
   "note": "Holds for every range inside the table and for FileStream's default; DataStream's default with several targets is the proved violation."
  },
  {
   "property": "C52",
   "status": "proved",
   "theorems": [
    "Verif.Streams.C52_reorder_keeps_samples"
   ],
   "note": "Per-sample delays and times; argsort any permutation that sorts."
  },
  {
   "property": "C53",
   "status": "proved",
   "theorems": [
    "Verif.Streams.TM.C53_weighted_next_raises",
    "Verif.Streams.TM.C53_weighted_available"
   ],
   "note": "The property states the failure."
  },
  {
   "property": "C54",
   "status": "partial",
   "theorems": [
    "Verif.Streams.Gen.C54_ranges_partial",
    "Verif.Streams.Gen.C54_house_value_violated",
    "Verif.Streams.Gen.C54_commission_violated"
   ],
   "note": "Salary, age, education, zip code, years and loan proved in range; house value and commission violated."
  },
  {
   "property": "C55",
   "status": "proved",
   "theorems": [
    "Verif.Streams.Gen.C55_drift_changes_function",
    "Verif.Streams.Gen.C55_mixed_drift_complements",
    "Verif.Streams.Gen.C55_sine_complements"
   ],
   "note": "Termination of the redraw loop is conditional on the random source."
  },
  {
   "property": "C56",
   "status": "proved",
   "theorems": [
    "Verif.Evaluation.C56_prequential_short",
    "Verif.Evaluation.C56_holdout_short"
   ],
   "note": ""
  },
  {
   "property": "C57",
   "status": "proved",
   "theorems": [
    "Verif.Evaluation.Delayed.C57_no_pretrain_raises",
    "Verif.Evaluation.Reuse.C57_new_evaluator_raises",
    "Verif.Evaluation.Reuse.C57_every_evaluation_raises"
   ],
   "note": ""
  },
  {
   "property": "C58",
   "status": "proved",
   "theorems": [
    "Verif.Evaluation.Delayed.C58_weights_of_other_samples",
    "Verif.Evaluation.Delayed.C58_weighted_run_raises"
   ],
   "note": ""
  },
  {
   "property": "C59",
   "status": "proved",
   "theorems": [
    "Verif.Transform.C59_standardised"
   ],
   "note": "The standard deviation is an arbitrary function of the column."
  },
  {
   "property": "C60",
   "status": "proved",
   "theorems": [
    "Verif.Transform.C60_one_hot"
   ],
   "note": ""
  },
  {
   "property": "C61",
   "status": "proved",
   "theorems": [
    "Verif.Lazy.C61_shrink",
    "Verif.Lazy.C61_partial_fit"
   ],
   "note": "ADWIN's answers are arbitrary."
  },
  {
   "property": "C62",
   "status": "partial",
   "theorems": [
    "Verif.Trees.EBST.C62_prune_exact_partial",
    "Verif.Trees.EBST.C62_prune_keeps_best_partial",
    "Verif.Trees.EBST.C62_stats_after_prune_violated",
    "Verif.Trees.EBST.C62_all_pruned_raises",
    "Verif.Trees.EBST.C62_subset_partial"
   ],
   "note": "Proved for the state right after pruning; violated for later observations (C62_stats_after_prune_violated), where the statistics are still those of some of the observations below the threshold (C62_subset_partial)."
  },
  {
   "property": "C63",
   "status": "proved",
   "theorems": [
    "Verif.Trees.C63_split_conserves_weight",
    "Verif.Trees.C63_split_points",
    "Verif.Trees.C63_light_class_on_wrong_side"
   ],
   "note": "Density and distribution function are arbitrary (values of the latter in [0,1])."
  },
  {
   "property": "C64",
   "status": "proved",
   "theorems": [
    "Verif.Trees.C64_nominal_regression"
   ],
   "note": "Single-target statistics."
  },
  {
   "property": "C65",
   "status": "proved",
   "theorems": [
    "Verif.Trees.HT.C65_memory_limit",
    "Verif.Trees.HT.C65_most_promising"
   ],
   "note": ""
  },
  {
   "property": "C66",
   "status": "proved",
   "theorems": [
    "Verif.Trees.HT.C66_preprune_undone",
    "Verif.Trees.HT.C66_preprune_stops_growth",
    "Verif.Trees.HT.C66_growth_never_resumes"
   ],
   "note": ""
  },
  {
   "property": "C67",
   "status": "partial",
   "theorems": [
    "Verif.Trees.Attempt.C67_remove_poor_atts_violated",
    "Verif.Trees.Attempt.C67_poor_atts_partial"
   ],
   "note": "violated with pre-pruning on; proved with no_preprune"
  },
  {
   "property": "C68",
   "status": "proved",
   "theorems": [
    "Verif.Trees.Attempt.C68_decision",
    "Verif.Trees.Attempt.C68_single",
    "Verif.Trees.Attempt.C68_pure"
   ],
   "note": ""
  },
  {
   "property": "C69",
   "status": "partial",
   "theorems": [
    "Verif.Meta.C69_predicts_unvoted_class_violated",
    "Verif.Meta.C69_binary_majority_partial"
   ],
   "note": "rounded weighted mean can be an unvoted class (violation proved); binary case proved"
  },
  {
   "property": "C70",
   "status": "partial",
   "theorems": [
    "Verif.Meta.Boosting.C70_leverage_resets_worst_partial",
    "Verif.Meta.Boosting.C70_accuracy_fed_resets_best_violated"
   ],
   "note": "accuracy-fed detectors reset a most accurate member (violation proved for all states); leveraging bagging correct"
  },
  {
   "property": "C71",
   "status": "partial",
   "theorems": [
    "Verif.Meta.BatchInc.C71_binary_majority_partial",
    "Verif.Meta.BatchInc.C71_multiclass_violated"
   ],
   "note": "multi-class violation proved; binary case proved"
  },
  {
   "property": "C72",
   "status": "partial",
   "theorems": [
    "Verif.Meta.Boosting.C72_perfect_members_ignored_violated",
    "Verif.Meta.Boosting.C72_weighted_vote_partial",
    "Verif.Meta.Boosting.C72_probabilities_partial",
    "Verif.Meta.Boosting.C72_new_class_unweighted_violated"
   ],
   "note": "members with error 0 or 1 are ignored (violation proved); otherwise the log-odds weighted vote is proved"
  },
  {
   "property": "C73",
   "status": "proved",
   "theorems": [
    "Verif.Meta.AWE.C73_keeps_best",
    "Verif.Meta.AWE.C73_chunks",
    "Verif.Meta.AWE.C73_weights",
    "Verif.Meta.AWE.C73_baseline_is_random_guessing"
   ],
   "note": "pool update, chunking for arbitrary streams, weight bounds"
  },
  {
   "property": "C74",
   "status": "partial",
   "theorems": [
    "Verif.Meta.Chains.C74_proba_columns_permuted_violated",
    "Verif.Meta.Chains.C74_default_order_partial"
   ],
   "note": "columns of predict_proba are in chain order (violation proved for every non-identity order); default order proved"
  },
  {
   "property": "C75",
   "status": "partial",
   "theorems": [
    "Verif.Meta.Chains.C75_most_probable",
    "Verif.Meta.Chains.C75_order_not_undone_violated"
   ],
   "note": "maximality proved in chain order for all chains; target order violated for non-default orders"
  },
  {
   "property": "C76",
   "status": "proved",
   "theorems": [
    "Verif.Meta.Chains.C76_never_worse_than_greedy"
   ],
   "note": ""
  },
  {
   "property": "C77",
   "status": "partial",
   "theorems": [
    "Verif.Anomaly.C77_lower_bound_not_restored_violated",
    "Verif.Anomaly.C77_splits_inside_partial"
   ],
   "note": "lower bounds not restored (violation proved); every split lies in the upper half of its region"
  },
  {
   "property": "C78",
   "status": "partial",
   "theorems": [
    "Verif.Anomaly.C78_last_feature_ignored_violated",
    "Verif.Anomaly.C78_other_features_count_partial"
   ],
   "note": "last feature never used (violation proved for all streams and draws); every other feature can matter"
  },
  {
   "property": "C79",
   "status": "proved",
   "theorems": [
    "Verif.Anomaly.C79_score_is_scaled_mass",
    "Verif.Anomaly.C79_probabilities"
   ],
   "note": ""
  },
  {
   "property": "C80",
   "status": "proved",
   "theorems": [
    "Verif.Streams.CDrift.C80_interleaving",
    "Verif.Streams.CDrift.C80_batches",
    "Verif.Streams.CDrift.C80_restart"
   ],
   "note": ""
  },
  {
   "property": "C81",
   "status": "proved",
   "theorems": [
    "Verif.Streams.CDrift.C81_drift_probability"
   ],
   "note": ""
  },
  {
   "property": "C82",
   "status": "partial",
   "theorems": [
    "Verif.Streams.CDrift.C82_remaining_partial",
    "Verif.Streams.CDrift.C82_mixed_violated",
    "Verif.Streams.CDrift.C82_has_more_disagrees_violated",
    "Verif.Streams.CDrift.C82_has_more_partial",
    "Verif.Streams.CDrift.C82_too_many_violated"
   ],
   "note": "false when exactly one stream is unbounded, and for two bounded streams has_more_samples ends earlier than n_remaining_samples says"
  },
  {
   "property": "C83",
   "status": "partial",
   "theorems": [
    "Verif.Streams.CDrift.C83_defaults_are_shared",
    "Verif.Streams.CDrift.C83_independence_violated"
   ],
   "note": "false: the default streams are shared; what holds is that both objects together see one interleaving"
  },
  {
   "property": "C84",
   "status": "partial",
   "theorems": [
    "Verif.Streams.LED.C84_noise_free",
    "Verif.Streams.LED.C84_inverted_iff_partial",
    "Verif.Streams.LED.C84_noise_percentage_violated"
   ],
   "note": "the noise-free part is proved; the rate is p - 0.01, so the claim about p is false"
  },
  {
   "property": "C85",
   "status": "partial",
   "theorems": [
    "Verif.Streams.LED.C85_columns_permuted",
    "Verif.Streams.LED.C85_more_than_seven_violated"
   ],
   "note": "proved for up to seven moved attributes; false for eight or more"
  },
  {
   "property": "C86",
   "status": "partial",
   "theorems": [
    "Verif.Streams.LED.C86_shared_map_violated",
    "Verif.Streams.LED.C86_undrifted_partial"
   ],
   "note": "false: the column map is shared by all generators; proved for generators without moved attributes"
  },
  {
   "property": "C87",
   "status": "partial",
   "theorems": [
    "Verif.Streams.Synth.C87_tables_in_order",
    "Verif.Streams.Synth.C87_regression_has_more_partial",
    "Verif.Streams.Synth.C87_has_more_violated",
    "Verif.Streams.Synth.C87_remaining_negative_violated"
   ],
   "note": "order and replay proved; has_more_samples is right for the regression generator only"
  },
  {
   "property": "C88",
   "status": "partial",
   "theorems": [
    "Verif.Streams.Synth.C88_restart_replays_partial",
    "Verif.Streams.Synth.C88_restart_after_drift_violated",
    "Verif.Streams.Synth.C88_stagger_replay_differs_violated"
   ],
   "note": "false after generate_drift; proved without it"
  },
  {
   "property": "C89",
   "status": "proved",
   "theorems": [
    "Verif.Streams.Synth.C89_label",
    "Verif.Streams.Synth.C89_noise",
    "Verif.Streams.Synth.C89_drift_is_bounded"
   ],
   "note": ""
  },
  {
   "property": "C90",
   "status": "proved",
   "theorems": [
    "Verif.Streams.Synth.C90_centroids_stay_inside",
    "Verif.Streams.Synth.C90_step_bounded"
   ],
   "note": ""
  },
  {
   "property": "C91",
   "status": "proved",
   "theorems": [
    "Verif.Streams.Synth.C91_weighted_index",
    "Verif.Streams.Synth.C91_zero_weight_never_chosen"
   ],
   "note": ""
  },
  {
   "property": "C92",
   "status": "partial",
   "theorems": [
    "Verif.Streams.RTree.C92_tree_well_formed",
    "Verif.Streams.RTree.C92_samples_labelled",
    "Verif.Streams.RTree.C92_no_numeric_features_violated"
   ],
   "note": "proved with at least one numeric feature; without, construction can raise"
  },
  {
   "property": "C93",
   "status": "proved",
   "theorems": [
    "Verif.Meta.DWM.C93_dwm_penalties",
    "Verif.Meta.AddExp.C93_aee_penalties"
   ],
   "note": ""
  },
  {
   "property": "C94",
   "status": "partial",
   "theorems": [
    "Verif.Trees.Criteria.C94_infogain",
    "Verif.Trees.Criteria.C94_gini",
    "Verif.Trees.Criteria.C94_hellinger_partial",
    "Verif.Trees.Criteria.C94_hellinger_range_violated",
    "Verif.Trees.Criteria.C94_variance_range_violated"
   ],
   "note": "proved for information gain and Gini; the Hellinger distance reaches the square root of 2 and variance reduction is unbounded while both report 1"
  },
  {
   "property": "C95",
   "status": "partial",
   "theorems": [
    "Verif.Trees.Criteria.C95_infogain",
    "Verif.Trees.Criteria.C95_gini",
    "Verif.Trees.Criteria.C95_variance_partial",
    "Verif.Trees.Criteria.C95_variance_weighted_violated"
   ],
   "note": "proved for information gain and Gini, and for variance reduction with unit weights; false for variance reduction with fractional weights because the count is truncated"
  },
  {
   "property": "C96",
   "status": "partial",
   "theorems": [
    "Verif.Trees.Criteria.C96_infogain_pure",
    "Verif.Trees.Criteria.C96_gini_pure",
    "Verif.Trees.Criteria.C96_hellinger_pure_violated"
   ],
   "note": "proved for information gain and Gini; the Hellinger criterion rates a pure split 0"
  },
  {
   "property": "C97",
   "status": "partial",
   "theorems": [
    "Verif.Bayes.C97_training",
    "Verif.Bayes.C97_posterior",
    "Verif.Bayes.C97_prediction",
    "Verif.Bayes.C97_untrained",
    "Verif.Bayes.C97_label_beyond_classes_violated"
   ],
   "note": "everything proved except that a label above the declared classes can be predicted: predict_proba then raises IndexError"
  },
  {
   "property": "C98",
   "status": "partial",
   "theorems": [
    "Verif.Bayes.C98_list_partial",
    "Verif.Bayes.C98_array_violated"
   ],
   "note": "proved for lists; with an array of two or more labels every later call raises ValueError"
  },
  {
   "property": "C99",
   "status": "partial",
   "theorems": [
    "Verif.Legacy.C99_counts",
    "Verif.Legacy.C99_kappa_partial",
    "Verif.Legacy.C99_weights_violated"
   ],
   "note": "counts, accuracy and baselines proved for all weights; kappa bounded by 1 proved for unit weights and false otherwise, because the matrix ignores the weight"
  },
  {
   "property": "C100",
   "status": "partial",
   "theorems": [
    "Verif.Legacy.C100_window_partial",
    "Verif.Legacy.C100_weights_violated",
    "Verif.Legacy.C100_fraction_violated"
   ],
   "note": "proved for unit weights; false for other weights (entered with the weight, removed as one; fractions truncated)"
  },
  {
   "property": "C101",
   "status": "partial",
   "theorems": [
    "Verif.Legacy.C101_shared_partial",
    "Verif.Legacy.C101_shared_violated"
   ],
   "note": "proved when the list already has every label; otherwise the second evaluator raises"
  },
  {
   "property": "C102",
   "status": "partial",
   "theorems": [
    "Verif.Legacy.C102_inside_partial",
    "Verif.Legacy.C102_growth_violated",
    "Verif.Legacy.C102_remove_violated",
    "Verif.Legacy.C102_remove_outside_partial",
    "Verif.Legacy.C102_growth_partial"
   ],
   "note": "proved inside the matrix and for growth through column 0; growth raises for other columns, remove raises just outside"
  },
  {
   "property": "C103",
   "status": "proved",
   "theorems": [
    "Verif.LegacyMulti.C103_scores"
   ],
   "note": ""
  },
  {
   "property": "C104",
   "status": "partial",
   "theorems": [
    "Verif.LegacyMulti.C104_scores_partial",
    "Verif.LegacyMulti.C104_matrix_violated"
   ],
   "note": "scores proved; the matrix is never reduced"
  },
  {
   "property": "C105",
   "status": "proved",
   "theorems": [
    "Verif.Streams.Gen.C105_sea",
    "Verif.Streams.Gen.C105_stagger",
    "Verif.Streams.Gen.C105_sine",
    "Verif.Streams.Gen.C105_mixed",
    "Verif.Streams.Gen.C105_mixed_booleans",
    "Verif.Streams.Gen.C105_agrawal"
   ],
   "note": "Concepts written separately from the class documentation; sin is an arbitrary function. AGRAWAL function 4 is C106."
  },
  {
   "property": "C106",
   "status": "partial",
   "theorems": [
    "Verif.Streams.Gen.C106_loan_partial",
    "Verif.Streams.Gen.C106_salary_compared_violated"
   ],
   "note": "Violated: the middle age group and the younger people outside the income band always get class 1. Proved for the other groups."
  },
  {
   "property": "C107",
   "status": "partial",
   "theorems": [
    "Verif.Streams.Gen.C107_sea_noise",
    "Verif.Streams.Gen.C107_full_noise_violated"
   ],
   "note": "Violated at level 1: 0.01 is added to the drawn number. Proved: the exact switching rule, and no switching below level 0.01."
  },
  {
   "property": "C108",
   "status": "proved",
   "theorems": [
    "Verif.Drift.HW.C108_follows_specification",
    "Verif.Drift.HW.C108_range",
    "Verif.Drift.HW.C108_decrease_never_reported"
   ],
   "note": "Exact rational arithmetic; math.sqrt is an arbitrary function, log(1/confidence) an arbitrary non-negative number."
  },
  {
   "property": "C109",
   "status": "partial",
   "theorems": [
    "Verif.Rules.C109_nominal_reachable_violated",
    "Verif.Rules.C109_fires_iff_all_hold",
    "Verif.Rules.C109_no_copies",
    "Verif.Rules.C109_expansion_never_widens",
    "Verif.Rules.C109_expansion_adds_condition_partial",
    "Verif.Rules.C109_nominal_violated"
   ],
   "note": "Violated for nominal conditions: a rule with a `!=` (`=`) condition on an attribute ignores a further one on it."
  },
  {
   "property": "C110",
   "status": "partial",
   "theorems": [
    "Verif.Rules.C110_skipped_example_violated",
    "Verif.Rules.C110_learning",
    "Verif.Rules.C110_ordered",
    "Verif.Rules.C110_unordered",
    "Verif.Rules.C110_uncovered",
    "Verif.Rules.C110_covered",
    "Verif.Rules.C110_rule_after_removed_skipped_violated"
   ],
   "note": "Violated with a drift detector: removing a rule during the loop makes the next rule miss the instance."
  },
  {
   "property": "C111",
   "status": "partial",
   "theorems": [
    "Verif.Rules.C111_reachable_violated",
    "Verif.Rules.C111_grace_period_partial",
    "Verif.Rules.C111_new_rule_violated"
   ],
   "note": "Violated for rules just created: the statistics they start with count towards the grace period."
  },
  {
   "property": "C112",
   "status": "partial",
   "theorems": [
    "Verif.Rules.C112_foil_violated",
    "Verif.Rules.C112_at_most_max_rules_partial"
   ],
   "note": "Holds for info_gain and hellinger; violated for foil_gain, which can add one rule per class at once."
  },
  {
   "property": "C113",
   "status": "partial",
   "theorems": [
    "Verif.Rules.C113_order_dependent_violated",
    "Verif.Rules.C113_first_hit",
    "Verif.Rules.C113_weighted_max",
    "Verif.Rules.C113_weighted_sum_partial",
    "Verif.Rules.C113_probabilities",
    "Verif.Rules.C113_undeclared_class"
   ],
   "note": "weighted_sum renormalises after every rule, so shares are 1/2^(n-1), 1/2^(n-1), 1/2^(n-2), ..., 1/2 and depend on the order; the rest holds."
  },
  {
   "property": "C114",
   "status": "partial",
   "theorems": [
    "Verif.Rules.C114_foil_reachable_violated",
    "Verif.Rules.C114_creation",
    "Verif.Rules.C114_no_creation",
    "Verif.Rules.C114_foil_stale_decision_violated"
   ],
   "note": "Holds for info_gain and hellinger; with foil_gain a passed test for one class carries over to later classes."
  },
  {
   "property": "C115",
   "status": "partial",
   "theorems": [
    "Verif.Rules.Criterion.C115_side_of_lowest_so_far_partial",
    "Verif.Rules.Criterion.C115_single_split_partial",
    "Verif.Rules.Criterion.C115_wrong_side_violated",
    "Verif.Rules.Criterion.C115_own_side",
    "Verif.Rules.Foil.C115_foil_missing_violated",
    "Verif.Rules.Foil.C115_hellinger_side",
    "Verif.Rules.Foil.C115_hellinger_pure_violated"
   ],
   "note": "Violated for info_gain, whose lowest entropy is never reset between candidates, for foil_gain when a class is missing on one side (C115_foil_missing_violated) and for hellinger when a class is missing on some side (C115_hellinger_pure_violated: the side of the previous candidate). Holds for hellinger and foil_gain when the classes are listed on both sides (and enough weight is there)."
  },
  {
   "property": "C116",
   "status": "partial",
   "theorems": [
    "Verif.Rules.C116_equality_partial",
    "Verif.Rules.C116_value_ignored_violated"
   ],
   "note": "Values of the conditions are ignored: characterised exactly, full statement violated."
  },
  {
   "property": "C117",
   "status": "partial",
   "theorems": [
    "Verif.Evaluation.C117_static_partial",
    "Verif.Evaluation.C117_dynamic_partial",
    "Verif.Evaluation.C117_dynamic_large_batch",
    "Verif.Evaluation.C117_static_skips_violated"
   ],
   "note": "static: a test follows step j iff n_wait divides j*batch or the limit is reached, so tests are skipped unless batch_size divides n_wait (violated with witness); dynamic: proved for endless streams and batch <= n_wait; with larger batches one test per batch"
  },
  {
   "property": "C118",
   "status": "proved",
   "theorems": [
    "Verif.Meta.Oza.C118_training",
    "Verif.Meta.Oza.C118_protocol"
   ],
   "note": ""
  },
  {
   "property": "C119",
   "status": "partial",
   "theorems": [
    "Verif.Meta.Oza.C119_probabilities",
    "Verif.Meta.Oza.C119_predict",
    "Verif.Meta.Oza.C119_discarded_violated",
    "Verif.Meta.Oza.C119_untrained"
   ],
   "note": "Proved when no member has more columns than there are classes. Violated otherwise: one such member makes the whole answer zeros."
  },
  {
   "property": "C120",
   "status": "partial",
   "theorems": [
    "Verif.Meta.Oza.C120_best_is_replaced_violated",
    "Verif.Meta.Oza.C120_drop_ignored_violated",
    "Verif.Meta.Oza.C120_training_and_record",
    "Verif.Meta.Oza.C120_replacement_partial"
   ],
   "note": "Violated: the detector is fed accuracy but used as error, so the member with the highest accuracy is replaced, and drops of accuracy replace nobody. Proved: what each member is trained on and what its detector records."
  },
  {
   "property": "C121",
   "status": "partial",
   "theorems": [
    "Verif.Meta.Oza.C121_adwin_learners_kept_violated",
    "Verif.Meta.Oza.C121_oza_reset_partial",
    "Verif.Meta.Oza.C121_classes_kept_violated"
   ],
   "note": "Violated: OzaBagging keeps its class list, the ADWIN variant keeps its trained learners. Proved: OzaBagging after reset equals a fresh ensemble that knows the classes."
  },
  {
   "property": "C122",
   "status": "partial",
   "theorems": [
    "Verif.Core.C122_partial_fit_partial",
    "Verif.Core.C122_partial_fit_predict_partial",
    "Verif.Core.C122_none_step_violated",
    "Verif.Core.C122_streaming_transformer_rejected_violated",
    "Verif.Core.C122_missing_combined_violated",
    "Verif.Core.C122_classes_keyword_violated",
    "Verif.Core.C122_half_trained_violated"
   ],
   "note": "Proved for steps with the methods the code really calls. Violated: None steps raise, the documented streaming transformers are rejected or raise."
  },
  {
   "property": "C123",
   "status": "partial",
   "theorems": [
    "Verif.Meta.C123_independent_partial",
    "Verif.Meta.C123_classes_without_weight_violated",
    "Verif.Meta.C123_first_classes_lost_violated",
    "Verif.Meta.C123_more_targets_violated",
    "Verif.Meta.C123_predict_proba_violated",
    "Verif.Meta.C123_predict_proba_value"
   ],
   "note": "Proved for a fixed number of targets and bases that take weights whenever they take classes. Violated for other bases, for a growing number of targets and for predict_proba."
  },
  {
   "property": "C124",
   "status": "partial",
   "theorems": [
    "Verif.Trees.HL.C124_never_more_partial",
    "Verif.Trees.HL.C124_inherited_lost_violated",
    "Verif.Trees.HL.C124_class_weight_conserved_partial",
    "Verif.Trees.HL.C124_only_its_leaf_learns",
    "Verif.Trees.HL.C124_leaf_counts_its_instances"
   ],
   "note": "Proved: training never fails, instances only change the leaf they are routed to, leaves gain exactly what is routed to them; weight is conserved if every split shares out the whole class weights of the leaf; with splits that share out what the observers have seen (as C34, C63 prove) the leaves never hold more than was trained. Violated: a leaf that came out of a split or was reactivated has fresh observers, and when it splits, its inherited weight is lost."
  },
  {
   "property": "C125",
   "status": "proved",
   "theorems": [
    "Verif.Trees.HL.C125_adaptive_choice",
    "Verif.Trees.HL.C125_other_leaves"
   ],
   "note": "Naive Bayes votes are an arbitrary function of statistics and observers."
  },
  {
   "property": "C126",
   "status": "partial",
   "theorems": [
    "Verif.Trees.HL.C126_proba_row_partial",
    "Verif.Trees.HL.C126_row_sums_to_one_partial",
    "Verif.Trees.HL.C126_predict_row_partial",
    "Verif.Trees.HL.C126_predict_batch_partial",
    "Verif.Trees.HL.C126_batch_rows_partial",
    "Verif.Trees.HL.C126_votes_partial",
    "Verif.Trees.HL.C126_untrained",
    "Verif.Trees.HL.C126_negative_label_violated",
    "Verif.Trees.HL.C126_label_outside_classes_violated"
   ],
   "note": "Holds for votes on labels 0..m with m the largest class. Violated for negative labels (numpy wraps the index, so class -1 of {-1, 1} is never predicted) and for a label above all declared classes (IndexError)."
  },
  {
   "property": "C127",
   "status": "partial",
   "theorems": [
    "Verif.Trees.HL.C127_rules_partial",
    "Verif.Trees.HL.C127_untrained_violated",
    "Verif.Trees.HL.C127_empty_leaf_violated",
    "Verif.Trees.HL.C127_after_split_violated"
   ],
   "note": "Holds once every leaf has seen weight. Violated for the untrained tree (AttributeError) and while a leaf is empty (ValueError from max of an empty dictionary)."
  },
  {
   "property": "C128",
   "status": "partial",
   "theorems": [
    "Verif.Lazy.Sam.C128_memories_partial",
    "Verif.Lazy.Sam.C128_no_size_option_violated",
    "Verif.Lazy.Sam.C128_ltm_size_one_violated",
    "Verif.Lazy.Sam.C128_ltm_size_zero_violated"
   ],
   "note": "Proved when stm_size_option is not None, the whole part of ltm_size * max_window_size is below max_window_size and no smaller than the number of classes. Violated for stm_size_option=None (AttributeError after max_window_size samples), ltm_size=1.0 (ValueError) and ltm_size=0.0 (limit exceeded, then IndexError)."
  },
  {
   "property": "C129",
   "status": "partial",
   "theorems": [
    "Verif.Lazy.Nearest.C129_library_partial",
    "Verif.Lazy.Sam.C129_history_partial",
    "Verif.Lazy.Sam.C129_choice_partial",
    "Verif.Lazy.Sam.C129_short_term_partial",
    "Verif.Lazy.Sam.C129_answers_known_label_partial",
    "Verif.Lazy.Sam.C129_eight_bit_labels_violated",
    "Verif.Lazy.Sam.C129_unearned_credit_violated"
   ],
   "note": "Histories, choice and fallbacks proved; violated for labels outside -128..127 (wrapped to eight bits), and a memory not asked is credited with class 0."
  },
  {
   "property": "C130",
   "status": "proved",
   "theorems": [
    "Verif.Lazy.Sam.C130_clean_with_last",
    "Verif.Lazy.Sam.C130_keeps_class"
   ],
   "note": ""
  },
  {
   "property": "C131",
   "status": "proved",
   "theorems": [
    "Verif.Meta.Forest.C131_trained_since_creation",
    "Verif.Meta.Forest.C131_counters",
    "Verif.Meta.Forest.C131_reset"
   ],
   "note": ""
  },
  {
   "property": "C132",
   "status": "partial",
   "theorems": [
    "Verif.Meta.Forest.C132_evaluator_partial",
    "Verif.Meta.Forest.C132_detectors_partial",
    "Verif.Meta.Forest.C132_errors_after_learning_violated"
   ],
   "note": "The evaluator holds the prequential results since the last drift and the detectors' histories are as claimed, but the errors fed to the detectors are judged after the tree has learned the sample (C132_errors_after_learning_violated)."
  },
  {
   "property": "C133",
   "status": "partial",
   "theorems": [
    "Verif.Meta.Forest.C133_votes_partial",
    "Verif.Meta.Forest.C133_proba_partial",
    "Verif.Meta.Forest.C133_zero_accuracy_violated",
    "Verif.Meta.Forest.C133_zero_accuracy_wins_violated",
    "Verif.Meta.Forest.C133_negative_kappa_violated"
   ],
   "note": "Proved for positive performances; violated for performance 0 (counts like 1) and for negative kappa (probabilities outside [0,1], wrong class wins)."
  },
  {
   "property": "C134",
   "status": "partial",
   "theorems": [
    "Verif.Meta.Forest.C134_range_partial",
    "Verif.Meta.Forest.C134_meaning_partial",
    "Verif.Meta.Forest.C134_parameter_overwritten_violated"
   ],
   "note": "Range and meaning proved; violated after reset() with another number of features, because the computed number replaces the parameter."
  },
  {
   "property": "C135",
   "status": "partial",
   "theorems": [
    "Verif.Meta.Forest.C135_weights_raise_violated",
    "Verif.Meta.Forest.C135_weights_ignored_violated",
    "Verif.Meta.Forest.C135_zero_weight_partial"
   ],
   "note": "Weight 0 is proved; violated otherwise: one weight per sample raises ValueError for two or more samples, and weights other than 0 do not influence training."
  },
  {
   "property": "C136",
   "status": "partial",
   "theorems": [
    "Verif.Meta.Patches.C136_subspaces_partial",
    "Verif.Meta.Patches.C136_finishes_partial",
    "Verif.Meta.Patches.C136_never_returns_violated",
    "Verif.Meta.Patches.C136_not_random_violated"
   ],
   "note": "Proved: valid distinct features, no two members alike (up to 20 features), construction ends if there are as many subspaces as members. Violated: with fewer subspaces than members (e.g. the defaults with 5 features) partial_fit never returns; the subspaces are the lexicographically first ones, so that all members share their first features."
  },
  {
   "property": "C137",
   "status": "partial",
   "theorems": [
    "Verif.Meta.Patches.C137_size_partial",
    "Verif.Meta.Patches.C137_meaning_partial",
    "Verif.Meta.Patches.C137_one_feature_violated",
    "Verif.Meta.Patches.C137_too_negative_violated",
    "Verif.Meta.Patches.C137_method_changed_violated"
   ],
   "note": "Proved for sizes from 2 to n-1, for 0 and from n on, and the meaning of the modes. Violated: size 1 gives two features; leaving out more features than there are ends in RecursionError; random subspaces of all features turn into resampling."
  },
  {
   "property": "C138",
   "status": "proved",
   "theorems": [
    "Verif.Meta.Patches.C138_trained_since_creation",
    "Verif.Meta.Patches.C138_reset"
   ],
   "note": ""
  },
  {
   "property": "C139",
   "status": "partial",
   "theorems": [
    "Verif.Meta.Patches.C139_judged_partial",
    "Verif.Meta.Patches.C139_errors_after_learning_violated"
   ],
   "note": "Proved: evaluator prequential; detectors hold the errors since their last restart. Violated: these errors are measured after the member has learned the sample."
  },
  {
   "property": "C140",
   "status": "partial",
   "theorems": [
    "Verif.Meta.Patches.C140_votes_partial",
    "Verif.Meta.Patches.C140_predict_partial",
    "Verif.Meta.Patches.C140_not_normalised_violated",
    "Verif.Meta.Patches.C140_zero_accuracy_violated",
    "Verif.Meta.Patches.C140_batch_raises_violated",
    "Verif.Meta.Patches.C140_batch_partial"
   ],
   "note": "Proved for members of positive accuracy: weighted sums, predict, batches with rows of one length. Violated: the row is not normalised (sums to the total weight); accuracy 0 counts like 1; rows of different lengths raise for a batch."
  },
  {
   "property": "C141",
   "status": "partial",
   "theorems": [
    "Verif.Meta.Patches.C141_none_given_partial",
    "Verif.Meta.Patches.C141_nominal_partial",
    "Verif.Meta.Patches.C141_resampling_violated",
    "Verif.Meta.Patches.C141_warning_with_drift_violated"
   ],
   "note": "Proved while warning and drift do not come at the same sample. Violated: without subspaces the nominal attributes never reach the estimators; a drift together with a warning leaves the nominal attributes of the old subspace."
  },
  {
   "property": "C142",
   "status": "proved",
   "theorems": [
    "Verif.Meta.ForestReg.C142_trained_and_judged",
    "Verif.Meta.ForestReg.C142_reset",
    "Verif.Meta.ForestReg.C142_last_times"
   ],
   "note": ""
  },
  {
   "property": "C143",
   "status": "partial",
   "theorems": [
    "Verif.Meta.ForestReg.C143_range_partial",
    "Verif.Meta.ForestReg.C143_unbounded_violated",
    "Verif.Meta.ForestReg.C143_constant_violated",
    "Verif.Meta.ForestReg.C143_detectors_partial"
   ],
   "note": "Proved: which values are fed since which restart, the normalisation, and the range for the first ten values after a drift. Violated: later values can exceed any bound; a constant is fed as 0 once and 1/2 from then on."
  },
  {
   "property": "C144",
   "status": "partial",
   "theorems": [
    "Verif.Meta.ForestReg.C144_error_partial",
    "Verif.Meta.ForestReg.C144_weighted_partial",
    "Verif.Meta.ForestReg.C144_plain_partial",
    "Verif.Meta.ForestReg.C144_between_partial",
    "Verif.Meta.ForestReg.C144_median_partial",
    "Verif.Meta.ForestReg.C144_single_violated",
    "Verif.Meta.ForestReg.C144_unjudged_violated"
   ],
   "note": "Proved for at least two members (mean) and for the median. Violated: a forest of one tree predicts nan after the first error; a tree that was never judged has the largest weight."
  },
  {
   "property": "C145",
   "status": "partial",
   "theorems": [
    "Verif.Meta.ForestReg.C145_max_features_partial",
    "Verif.Meta.ForestReg.C145_refused_partial",
    "Verif.Meta.ForestReg.C145_reset_violated"
   ],
   "note": "Proved for the first training. Violated: after reset one feature is considered, whatever the parameter."
  },
  {
   "property": "C146",
   "status": "partial",
   "theorems": [
    "Verif.Rules.C146_removal_partial",
    "Verif.Rules.C146_ddm_wrong_kept_right_removed_violated"
   ],
   "note": "The feedback and removal rule is proved for every detector. Violated with DDM, which takes 1 for an error while the rule reports 1 for a right prediction: a rule that is always wrong is kept, and removed the first time it is right."
  },
  {
   "property": "C147",
   "status": "partial",
   "theorems": [
    "Verif.Rules.C147_disabled_partial",
    "Verif.Rules.C147_off",
    "Verif.Rules.C147_stays_disabled",
    "Verif.Rules.C147_bayes_rule_partial",
    "Verif.Rules.C147_votes_vanish_violated"
   ],
   "note": "Which observers are disabled, and that they stay disabled, is proved. Violated: with naive Bayes prediction one disabled attribute makes all votes of the rule zero."
  },
  {
   "property": "C148",
   "status": "proved",
   "theorems": [
    "Verif.Trees.HL.C148_deactivated_leaf",
    "Verif.Trees.HL.C148_stays_deactivated",
    "Verif.Trees.HL.C148_switch",
    "Verif.Trees.HL.C148_pruned"
   ],
   "note": "Leaf statistics, activation flags and observers modelled; which leaves the memory manager switches is an arbitrary input."
  },
  {
   "property": "C149",
   "status": "proved",
   "theorems": [
    "Verif.Meta.NSE.C149_calls",
    "Verif.Meta.NSE.C149_members",
    "Verif.Meta.NSE.C149_dropped"
   ],
   "note": "Base learner, logarithm and sigmoid are parameters; exceptions of the base learner itself are not modelled."
  },
  {
   "property": "C150",
   "status": "partial",
   "theorems": [
    "Verif.Meta.NSE.C150_formula_partial",
    "Verif.Meta.NSE.C150_instance_weights",
    "Verif.Meta.NSE.C150_perfect_violated",
    "Verif.Meta.NSE.C150_silenced_violated",
    "Verif.Meta.NSE.C150_newest_partial"
   ],
   "note": "Formula for the voting weight and sample weights proved. Violated: the sigmoid weights are not renormalised, so every member with errors bounded away from 0 falls silent; a window on which the vote is right records error 0 for every member."
  },
  {
   "property": "C151",
   "status": "partial",
   "theorems": [
    "Verif.Meta.NSE.C151_votes_partial",
    "Verif.Meta.NSE.C151_label_partial",
    "Verif.Meta.NSE.C151_single_class_violated",
    "Verif.Meta.NSE.C151_one_class_answer_violated"
   ],
   "note": "Holds for increasing classes and learners that know at least two of them. Violated: a learner that knows one class adds its weight to every class, so an ensemble of such learners answers class 0. predict answers positions, which are labels for classes 0..n-1."
  },
  {
   "property": "C152",
   "status": "partial",
   "theorems": [
    "Verif.Meta.NSE.C152_first_call_partial",
    "Verif.Meta.NSE.C152_ignored_violated",
    "Verif.Meta.NSE.C152_reset_violated",
    "Verif.Meta.NSE.C152_fresh_partial"
   ],
   "note": "Missing classes in the first call raise. Violated: differing classes later are ignored without error; reset keeps the classes."
  },
  {
   "property": "C153",
   "status": "proved",
   "theorems": [
    "Verif.Meta.LPP.C153_ensembles",
    "Verif.Meta.LPP.C153_sizes"
   ],
   "note": "Base learner and random draws are parameters."
  },
  {
   "property": "C154",
   "status": "partial",
   "theorems": [
    "Verif.Meta.LPP.C154_accepted_partial",
    "Verif.Meta.LPP.C154_endless_violated",
    "Verif.Meta.LPP.C154_terminates_partial",
    "Verif.Meta.LPP.C154_weak_partial",
    "Verif.Meta.LPP.C154_half_violated",
    "Verif.Meta.LPP.C154_default_threshold_violated"
   ],
   "note": "Acceptance, early stop, the bound of 1001 attempts and the error proved. Violated: an attempt whose error equals the threshold counts neither way, and with the default threshold one half training can go on for ever."
  },
  {
   "property": "C155",
   "status": "partial",
   "theorems": [
    "Verif.Meta.LPP.C155_votes_partial",
    "Verif.Meta.LPP.C155_labels_violated",
    "Verif.Meta.LPP.C155_negative_violated"
   ],
   "note": "Holds for classes 0..n-1. Violated: other labels raise IndexError, and -1 votes for the last class."
  },
  {
   "property": "C156",
   "status": "partial",
   "theorems": [
    "Verif.Meta.LPP.C156_stuck_violated",
    "Verif.Meta.LPP.C156_reset_partial"
   ],
   "note": "Violated: after an exception the buffer holds a full window and is never trained on or emptied again. reset repairs it."
  },
  {
   "property": "C157",
   "status": "partial",
   "theorems": [
    "Verif.Meta.LPP.C157_first_partial",
    "Verif.Meta.LPP.C157_later_partial",
    "Verif.Meta.LPP.C157_reset_violated"
   ],
   "note": "The checks of classes hold. Violated: reset keeps the classes, so other classes are refused afterwards."
  },
  {
   "property": "C158",
   "status": "proved",
   "theorems": [
    "Verif.Trees.EF.C158_root"
   ],
   "note": "Observers, suggestions, bound and memory management decisions are arbitrary parameters."
  },
  {
   "property": "C159",
   "status": "proved",
   "theorems": [
    "Verif.Trees.EF.C159_reevaluation",
    "Verif.Trees.EF.C159_split",
    "Verif.Trees.EF.C159_prune_only_degenerate"
   ],
   "note": "Suggestions, merits and bound are arbitrary parameters; merits are rationals or -inf."
  },
  {
   "property": "C160",
   "status": "partial",
   "theorems": [
    "Verif.Trees.EF.C160_fresh_kept_partial",
    "Verif.Trees.EF.C160_every_instance_violated"
   ],
   "note": "Proved for a fresh split node until its first re-evaluation. Violated: re-evaluation does not restart the count, so from then on the node is re-evaluated at every instance."
  },
  {
   "property": "C161",
   "status": "partial",
   "theorems": [
    "Verif.Trees.EF.C161_counters_partial",
    "Verif.Trees.EF.C161_inactive_violated",
    "Verif.Trees.EF.C161_hidden_child_violated"
   ],
   "note": "Proved: decision nodes; active plus inactive leaves; all three without memory management; splits on an attribute having a fixed number of branches. Violated: a replaced subtree's inactive leaves are subtracted from the active counter; children with ids beyond the number of branches of the current test are not counted."
  },
  {
   "property": "C162",
   "status": "partial",
   "theorems": [
    "Verif.Trees.EF.C162_routed_partial",
    "Verif.Trees.EF.C162_renumbered_violated"
   ],
   "note": "Proved if the tie threshold is at most the bound. Violated: a node that takes over a new test on its own attribute keeps its children."
  },
  {
   "property": "C163",
   "status": "partial",
   "theorems": [
    "Verif.Trees.HA.C163_alternate_partial",
    "Verif.Trees.HA.C163_takeover_violated"
   ],
   "note": "False: an alternate leaf learns with the parent and branch of the node, so when it splits it replaces the node whatever the error rates are (C163_takeover_violated, with a run in which the alternate is worse). Proved when split attempts change nothing."
  },
  {
   "property": "C164",
   "status": "partial",
   "theorems": [
    "Verif.Trees.HA.C164_bootstrap_partial",
    "Verif.Trees.HA.C164_zero_violated"
   ],
   "note": "False for draws of 0: the instance is learned with its full weight (C164_zero_violated). Proved without bootstrap and for positive draws, in a tree of one leaf."
  },
  {
   "property": "C165",
   "status": "partial",
   "theorems": [
    "Verif.Trees.HA.C165_votes_partial",
    "Verif.Trees.HA.C165_unseen_violated"
   ],
   "note": "False for instances that reach a split node without a branch for them: no votes at all (C165_unseen_violated). Proved for all instances that reach an active leaf."
  },
  {
   "property": "C166",
   "status": "partial",
   "theorems": [
    "Verif.Trees.HA.C166_reset_partial",
    "Verif.Trees.HA.C166_counters_violated"
   ],
   "note": "False for the counters of decision nodes and inactive leaves and the training weight (C166_counters_violated). Proved for tree, votes and the other counters."
  },
  {
   "property": "C167",
   "status": "partial",
   "theorems": [
    "Verif.Trees.HA.C167_never_fails_partial",
    "Verif.Trees.HA.C167_pruned_violated"
   ],
   "note": "False for stop_mem_management=True: a leaf pruned below a split makes training raise TypeError and prediction AttributeError (C167_pruned_violated). Proved for stop_mem_management=False."
  },
  {
   "property": "C168",
   "status": "partial",
   "theorems": [
    "Verif.Trees.HA.C168_counters_partial",
    "Verif.Trees.HA.C168_takeover_violated",
    "Verif.Trees.HA.C168_switch_violated",
    "Verif.Trees.HA.C168_kill",
    "Verif.Trees.HA.C168_alternates",
    "Verif.Trees.HA.C168_prune",
    "Verif.Trees.HA.C168_negative_violated"
   ],
   "note": "False after a change: a switch subtracts the replaced leaves twice and leaves the decision counter alone (C168_switch_violated, C168_negative_violated), a split of an alternate leaf subtracts nothing (C168_takeover_violated). Proved as long as no change is reported; what each switch, deletion and pruning adds to the counters is stated exactly (C168_kill, C168_prune)."
  },
  {
   "property": "C169",
   "status": "proved",
   "theorems": [
    "Verif.Trees.HA.C169_refines_hoeffding_tree"
   ],
   "note": "Detectors, observers, split decisions and draws are parameters."
  },
  {
   "property": "C170",
   "status": "partial",
   "theorems": [
    "Verif.Trees.HR.C170_conserved_partial",
    "Verif.Trees.HR.C170_multiway_violated"
   ],
   "note": "Proved for trees without multiway splits (pruned observers, deactivated leaves and unseen categories included); a multiway split of a leaf that inherited statistics loses them (C170_multiway_violated)."
  },
  {
   "property": "C171",
   "status": "partial",
   "theorems": [
    "Verif.Trees.HR.C171_leaf_rows_partial",
    "Verif.Trees.HR.C171_second_split_violated"
   ],
   "note": "Proved when only leaves that observed all they carry are split (e.g. the root); a second split misplaces inherited rows (C171_second_split_violated)."
  },
  {
   "property": "C172",
   "status": "partial",
   "theorems": [
    "Verif.Trees.HR.C172_empty_branch_violated",
    "Verif.Trees.HR.C172_range_partial"
   ],
   "note": "Proved when every branch of a split has positive weight (which C177 gives for two suggestions or more); an empty branch predicts nan (C172_empty_branch_violated)."
  },
  {
   "property": "C173",
   "status": "proved",
   "theorems": [
    "Verif.Trees.HR.C173_unit_norm",
    "Verif.Trees.HR.C173_bounded"
   ],
   "note": "For any square root function; rows of weight at least one."
  },
  {
   "property": "C174",
   "status": "partial",
   "theorems": [
    "Verif.Trees.HR.C174_sums_partial",
    "Verif.Trees.HR.C174_single_attribute_violated"
   ],
   "note": "Proved for two attributes or more; with one numeric attribute and perceptron leaves training raises IndexError by the second row (C174_single_attribute_violated)."
  },
  {
   "property": "C175",
   "status": "partial",
   "theorems": [
    "Verif.Trees.HR.C175_fractions_violated",
    "Verif.Trees.HR.C175_weighted_mean_partial"
   ],
   "note": "Weighted mean proved for mean leaves before the first split; rows of weight below one never train a perceptron (C175_fractions_violated)."
  },
  {
   "property": "C176",
   "status": "partial",
   "theorems": [
    "Verif.Trees.HR.C176_rows_partial",
    "Verif.Trees.HR.C176_untrained_violated"
   ],
   "note": "Proved after training; untrained, predict returns a single 0.0 (C176_untrained_violated)."
  },
  {
   "property": "C177",
   "status": "partial",
   "theorems": [
    "Verif.Trees.HR.C177_rule_partial",
    "Verif.Trees.HR.C177_branches_partial",
    "Verif.Trees.HR.C177_disabled_partial",
    "Verif.Trees.HR.C177_nothing_partial",
    "Verif.Trees.HR.C177_single_violated",
    "Verif.Trees.HR.C177_poor_violated"
   ],
   "note": "Proved for two suggestions or more when deciding does not raise; a single suggestion is followed whatever its merit (C177_single_violated), and with remove_poor_atts a best merit of Python 0.0 raises ZeroDivisionError (C177_poor_violated)."
  },
  {
   "property": "C178",
   "status": "partial",
   "theorems": [
    "Verif.Meta.Skew.C178_adac2_partial",
    "Verif.Meta.Skew.C178_csb2",
    "Verif.Meta.Skew.C178_adac2_index_error_violated"
   ],
   "note": "Proved for CSB2 (C178_csb2) and for AdaC2 with at least as many members as classes; with fewer, AdaC2 raises IndexError on the first sample an added member is drawn for (C178_adac2_index_error_violated)."
  },
  {
   "property": "C179",
   "status": "proved",
   "theorems": [
    "Verif.Meta.Skew.C179_weighted_accuracy"
   ],
   "note": ""
  },
  {
   "property": "C180",
   "status": "partial",
   "theorems": [
    "Verif.Meta.Skew.C180_error_estimate_partial",
    "Verif.Meta.Skew.C180_cost_negative_ignored_violated",
    "Verif.Meta.Skew.C180_weight_forgotten_violated"
   ],
   "note": "epsilon is exact; false alarms are charged cost_positive instead of cost_negative (C180_cost_negative_ignored_violated) and the weight of a correctly predicted sample is forgotten (C180_weight_forgotten_violated)."
  },
  {
   "property": "C181",
   "status": "proved",
   "theorems": [
    "Verif.Meta.Skew.C181_rus_boost"
   ],
   "note": ""
  },
  {
   "property": "C182",
   "status": "partial",
   "theorems": [
    "Verif.Meta.Skew.C182_class_counts_partial",
    "Verif.Meta.Skew.C182_first_positive_violated"
   ],
   "note": "Right after complete rows; during a row the counters grow once per member, so the first member's rate for the first positive sample is about 1/N of what it should be (C182_first_positive_violated)."
  },
  {
   "property": "C183",
   "status": "proved",
   "theorems": [
    "Verif.Meta.Skew.C183_under_over_bagging"
   ],
   "note": ""
  },
  {
   "property": "C184",
   "status": "partial",
   "theorems": [
    "Verif.Meta.Skew.Smote.C184_smote_partial",
    "Verif.Meta.Skew.Smote.C184_memory_violated",
    "Verif.Meta.Skew.Smote.C184_beyond_violated",
    "Verif.Meta.Skew.Smote.C184_neighbour_violated"
   ],
   "note": "Rates proved; the neighbour is always the first positive sample of the stream (C184_neighbour_violated), the point lies beyond the sample, not between (C184_beyond_violated), and positives are stored once per member (C184_memory_violated)."
  },
  {
   "property": "C185",
   "status": "partial",
   "theorems": [
    "Verif.Meta.Skew.C185_reset_partial",
    "Verif.Meta.Skew.C185_entries_survive_violated",
    "Verif.Meta.Skew.C185_entries_kept_violated"
   ],
   "note": "Learner and detector are reset; the error statistics survive (C185_entries_survive_violated, C185_entries_kept_violated)."
  },
  {
   "property": "C186",
   "status": "partial",
   "theorems": [
    "Verif.Meta.Skew.C186_single_weights_partial",
    "Verif.Meta.Skew.C186_sample_weight_violated"
   ],
   "note": "Single samples with a single weight work; a batch of two or more weighted samples raises ValueError with learners that check the number of weights (C186_sample_weight_violated)."
  },
  {
   "property": "C187",
   "status": "partial",
   "theorems": [
    "Verif.Core.Clone.C187_clone_partial",
    "Verif.Core.Clone.C187_dropped_violated",
    "Verif.Core.Clone.C187_ddm_violated",
    "Verif.Core.Clone.C187_online_boosting_violated",
    "Verif.Core.Clone.C187_smote_violated",
    "Verif.Core.Clone.C187_fails_violated"
   ],
   "note": "Holds for classes that store parameters under their names; DDM, online boosting, SMOTE bagging lose one, SAM-kNN and Learn++.NSE cannot be cloned."
  },
  {
   "property": "C188",
   "status": "partial",
   "theorems": [
    "Verif.Evaluation.Report.C188_accepted_reports_partial",
    "Verif.Evaluation.Report.C188_violated"
   ],
   "note": "Proved without data_points_for_classification; with the flag a regression or multi-target metric is accepted and every report fails with AttributeError (C188_violated)."
  },
  {
   "property": "C189",
   "status": "proved",
   "theorems": [
    "Verif.Evaluation.Report.C189_task_inference"
   ],
   "note": ""
  },
  {
   "property": "C190",
   "status": "proved",
   "theorems": [
    "Verif.Evaluation.Report.C190_row_matches_header"
   ],
   "note": ""
  },
  {
   "property": "C191",
   "status": "proved",
   "theorems": [
    "Verif.Evaluation.Report.C191_data_points"
   ],
   "note": ""
  },
  {
   "property": "C192",
   "status": "proved",
   "theorems": [
    "Verif.Evaluation.Report.C192_report_schedule"
   ],
   "note": ""
  },
  {
   "property": "C193",
   "status": "proved",
   "theorems": [
    "Verif.Evaluation.Report.C193_errors_hidden",
    "Verif.Evaluation.Report.C193_failure_looks_like_end"
   ],
   "note": ""
  },
  {
   "property": "C194",
   "status": "proved",
   "theorems": [
    "Verif.Evaluation.Timer.C194_prequential_times",
    "Verif.Evaluation.Timer.C194_holdout_times",
    "Verif.Evaluation.Timer.C194_times_bounded",
    "Verif.Evaluation.Timer.C194_delayed_times",
    "Verif.Evaluation.Timer.C194_violated"
   ],
   "note": ""
  },
  {
   "property": "C195",
   "status": "proved",
   "theorems": [
    "Verif.Meta.LevBag.C195_training",
    "Verif.Meta.LevBag.C195_batch",
    "Verif.Meta.LevBag.C195_bounds"
   ],
   "note": "Labels are assumed non-negative when a code matrix is used."
  },
  {
   "property": "C196",
   "status": "partial",
   "theorems": [
    "Verif.Meta.LevBag.C196_detector_partial",
    "Verif.Meta.LevBag.C196_untrained_violated"
   ],
   "note": "Without a code matrix, and with one for members trained on the sample, proved; for untrained members with a code matrix the claim fails."
  },
  {
   "property": "C197",
   "status": "proved",
   "theorems": [
    "Verif.Meta.LevBag.C197_replacement",
    "Verif.Meta.LevBag.C197_count"
   ],
   "note": ""
  },
  {
   "property": "C198",
   "status": "partial",
   "theorems": [
    "Verif.Meta.LevBag.C198_shares",
    "Verif.Meta.LevBag.C198_unanimous_partial",
    "Verif.Meta.LevBag.C198_collision_violated"
   ],
   "note": "The scores and the first-of-equal-codes answer are proved; that the right class is answered fails when codes collide, which is shown unavoidable with more than 2^n classes."
  },
  {
   "property": "C199",
   "status": "proved",
   "theorems": [
    "Verif.Meta.LevBag.C199_reset_as_new",
    "Verif.Meta.LevBag.C199_reset_state"
   ],
   "note": "An integer random_state is assumed: the generator starts again."
  },
  {
   "property": "C200",
   "status": "proved",
   "theorems": [
    "Verif.Trees.MT.C200_targets_apart"
   ],
   "note": ""
  },
  {
   "property": "C201",
   "status": "proved",
   "theorems": [
    "Verif.Trees.MT.C201_perceptron",
    "Verif.Trees.MT.C201_stacked"
   ],
   "note": ""
  },
  {
   "property": "C202",
   "status": "partial",
   "theorems": [
    "Verif.Trees.MT.C202_common_unit_partial",
    "Verif.Trees.MT.C202_splits_violated",
    "Verif.Trees.MT.C202_units_partial"
   ],
   "note": "The units are proved for the same split decisions, and preferences between splits for a common unit; the full property is false (C202_splits_violated: merits of two splits of ten rows change order with the unit of one target)."
  },
  {
   "property": "C203",
   "status": "partial",
   "theorems": [
    "Verif.Trees.MT.C203_faded_partial",
    "Verif.Trees.MT.C203_faded_stacked_partial",
    "Verif.Trees.MT.C203_born",
    "Verif.Trees.MT.C203_choice",
    "Verif.Trees.MT.C203_choice_stacked",
    "Verif.Trees.MT.C203_own_row_violated"
   ],
   "note": "The choice and the faded errors of perceptrons are proved for rows of weight in [1,2) and non-zero standard deviations; for the mean the property is false (C203_own_row_violated)."
  },
  {
   "property": "C204",
   "status": "partial",
   "theorems": [
    "Verif.Trees.MT.C204_mean_partial",
    "Verif.Trees.MT.C204_predict_violated",
    "Verif.Trees.MT.C204_zero_weights_violated",
    "Verif.Trees.MT.C204_sums_violated",
    "Verif.Trees.HR.C204_single_target_violated"
   ],
   "note": "Proved for mean leaves after at least one partial_fit call; false for predict right after reset, after rows of weight 0 only, and for perceptron leaves (C204_predict_violated, C204_zero_weights_violated, C204_sums_violated, C204_single_target_violated)."
  },
  {
   "property": "C205",
   "status": "proved",
   "theorems": [
    "Verif.Trees.MT.C205_no_split",
    "Verif.Trees.MT.C205_small_branch",
    "Verif.Trees.MT.C205_merit",
    "Verif.Trees.MT.C205_useless"
   ],
   "note": ""
  },
  {
   "property": "C206",
   "status": "partial",
   "theorems": [
    "Verif.Trees.LC.C206_round_trip",
    "Verif.Trees.LC.C206_float_violated",
    "Verif.Trees.LC.C206_seen_or_zeros_partial",
    "Verif.Trees.LC.C206_majority_partial",
    "Verif.Trees.LC.C206_unseen_violated"
   ],
   "note": "Round trip proved in full; predictions seen proved with majority-class leaves, otherwise up to rows without votes; false for float labels, untrained trees and naive Bayes leaves after a split (C206_float_violated, C206_unseen_violated)."
  },
  {
   "property": "C207",
   "status": "partial",
   "theorems": [
    "Verif.Trees.HL.C207_known_or_zero_partial",
    "Verif.Trees.HL.C207_majority_partial",
    "Verif.Trees.HL.C207_new_branch_violated",
    "Verif.Trees.HL.C207_class_zero_violated"
   ],
   "note": "Proved for majority-class leaves without empty branches and otherwise up to rows without votes; false for naive Bayes and adaptive leaves after a split (C207_new_branch_violated, C207_class_zero_violated)."
  },
  {
   "property": "C208",
   "status": "partial",
   "theorems": [
    "Verif.Trees.HRA.C208_node",
    "Verif.Trees.HRA.C208_standard_score",
    "Verif.Trees.HRA.C208_range_partial",
    "Verif.Trees.HRA.C208_outlier_violated",
    "Verif.Trees.HRA.C208_unit_free"
   ],
   "note": "The formula and its independence of the unit hold for every sequence; the range is proved for the first ten errors of a node, and fails after ten or more equal errors followed by a different one (C208_outlier_violated)."
  },
  {
   "property": "C209",
   "status": "partial",
   "theorems": [
    "Verif.Trees.HRA.C209_never_fails_partial",
    "Verif.Trees.HRA.C209_single_attribute_violated"
   ],
   "note": "Proved for two or more attributes; with a single numeric attribute training raises IndexError at the second row at the latest, even with leaf_prediction='mean' (C209_single_attribute_violated)."
  },
  {
   "property": "C210",
   "status": "partial",
   "theorems": [
    "Verif.Trees.HRA.C210_alternate_partial",
    "Verif.Trees.HRA.C210_takeover_violated",
    "Verif.Trees.HRA.C210_new_category_violated"
   ],
   "note": "Proved for rows at which no split is made. An alternate leaf that splits replaces the node whatever the error estimates (C210_takeover_violated), and so does the leaf of a new category that splits at its first row (C210_new_category_violated)."
  },
  {
   "property": "C211",
   "status": "proved",
   "theorems": [
    "Verif.Trees.HRA.C211_refines_hoeffding_tree"
   ],
   "note": ""
  },
  {
   "property": "C212",
   "status": "partial",
   "theorems": [
    "Verif.Trees.ARFT.C212_leaf_features_partial",
    "Verif.Trees.ARFT.C212_kept",
    "Verif.Trees.ARFT.C212_too_few_violated"
   ],
   "note": "Proved for data of at least max_features features; with fewer (one feature and the default max_features=2) the first training instance raises ValueError (C212_too_few_violated). That splits test a feature of the subset is by the suggestions coming from the observers (the outcome of an attempt is a parameter)."
  },
  {
   "property": "C213",
   "status": "partial",
   "theorems": [
    "Verif.Meta.Seeds.C213_same_subsets_violated",
    "Verif.Meta.Seeds.C213_same_stream_violated",
    "Verif.Meta.Seeds.C213_shared_partial"
   ],
   "note": "Violated with an int seed: all trees start from equal generators and draw the same subsets in the same order until one of them is replaced after a drift. Proved: with a RandomState object, or None, the trees draw from one shared generator, each draw once."
  },
  {
   "property": "C214",
   "status": "partial",
   "theorems": [
    "Verif.Meta.Seeds.C214_own_seeds_partial",
    "Verif.Meta.Seeds.C214_replay_violated"
   ],
   "note": "Violated: background trees and reset trees repeat the seeds of the tree they replace. Proved: the trees of one regression forest have their own seeds."
  },
  {
   "property": "C215",
   "status": "proved",
   "theorems": [
    "Verif.Core.Params.C215_get",
    "Verif.Core.Params.C215_round_trip"
   ],
   "note": ""
  },
  {
   "property": "C216",
   "status": "proved",
   "theorems": [
    "Verif.Core.Params.C216_set_own",
    "Verif.Core.Params.C216_set_nested",
    "Verif.Core.Params.C216_set_replaced"
   ],
   "note": ""
  },
  {
   "property": "C217",
   "status": "partial",
   "theorems": [
    "Verif.Core.Params.C217_unknown_partial",
    "Verif.Core.Params.C217_half_done_violated"
   ],
   "note": "ValueError is proved for every position of the unknown name; the parameters given before it stay changed (C217_half_done_violated)."
  },
  {
   "property": "C218",
   "status": "partial",
   "theorems": [
    "Verif.Core.Params.C218_ddm_violated",
    "Verif.Core.Params.C218_used_partial"
   ],
   "note": "Violated for DDM: min_num_instances is kept under another name, so setting it has no effect, and get_params reports None before (C218_ddm_violated); holds for the two levels (C218_used_partial). Other classes are not modelled here."
  },
  {
   "property": "C219",
   "status": "proved",
   "theorems": [
    "Verif.Prototype.C219_nearest"
   ],
   "note": ""
  },
  {
   "property": "C220",
   "status": "proved",
   "theorems": [
    "Verif.Prototype.C220_right",
    "Verif.Prototype.C220_wrong",
    "Verif.Prototype.C220_amount",
    "Verif.Prototype.C220_adadelta"
   ],
   "note": ""
  },
  {
   "property": "C221",
   "status": "partial",
   "theorems": [
    "Verif.Prototype.C221_known_partial",
    "Verif.Prototype.C221_learns",
    "Verif.Prototype.C221_garbage_violated"
   ],
   "note": "Proved without initial prototypes once every class has occurred; a class declared but not yet seen has prototypes of uninitialised memory, which can answer with any label (C221_garbage_violated). Learning known labels without error is proved in full (C221_learns)."
  },
  {
   "property": "C222",
   "status": "partial",
   "theorems": [
    "Verif.Prototype.C222_batches_partial",
    "Verif.Prototype.C222_forgets_violated",
    "Verif.Prototype.C222_overwrites_violated"
   ],
   "note": "Proved without initial prototypes; with initial prototypes given as a list every call starts from them again (C222_forgets_violated), given as a float array the caller's array is overwritten (C222_overwrites_violated)."
  },
  {
   "property": "C223",
   "status": "partial",
   "theorems": [
    "Verif.Prototype.C223_unknown_partial",
    "Verif.Prototype.C223_labels_partial",
    "Verif.Prototype.C223_parameters_partial",
    "Verif.Prototype.C223_zero_violated"
   ],
   "note": "All but sigma = 0, which raises ZeroDivisionError (C223_zero_violated)."
  },
  {
   "property": "C224",
   "status": "proved",
   "theorems": [
    "Verif.Utils.Stat.C224_error_functions",
    "Verif.Utils.Stat.C224_normal_probability",
    "Verif.Utils.Stat.C224_tail"
   ],
   "note": "Over the reals with the constants of the source; rounding not modelled. erf and erfc add up to one except at |a| = 1, where two formulas meet."
  },
  {
   "property": "C225",
   "status": "proved",
   "theorems": [
    "Verif.Utils.Size.C225_object_size"
   ],
   "note": "The heap is fixed during the call: reuse of the id of temporary objects is not modelled."
  },
  {
   "property": "C226",
   "status": "proved",
   "theorems": [
    "Verif.Utils.Dicts.C226_normalize"
   ],
   "note": ""
  },
  {
   "property": "C227",
   "status": "proved",
   "theorems": [
    "Verif.Utils.Dicts.C227_add_and_max"
   ],
   "note": ""
  },
  {
   "property": "C228",
   "status": "partial",
   "theorems": [
    "Verif.Utils.Header.C228_clean_partial",
    "Verif.Utils.Header.C228_dots_violated",
    "Verif.Utils.Header.C228_same_file_violated"
   ],
   "note": "Names with more than one dot lose everything from the second dot on (./data/iris.csv becomes _no_header./data/iris), so different files are cleaned into one; with new_file equal to base_file the file is emptied. The rest is proved."
  },
  {
   "property": "C229",
   "status": "partial",
   "theorems": [
    "Verif.Evaluation.Speed.C229_measure_partial",
    "Verif.Evaluation.Speed.C229_percent_violated"
   ],
   "note": "The samples asked for are as claimed; the progress logged exceeds 100 % whenever all samples are measured in at most twenty batches."
  },
  {
   "property": "C230",
   "status": "proved",
   "theorems": [
    "Verif.Streams.Waveform.C230_waveform",
    "Verif.Streams.Waveform.C230_between",
    "Verif.Streams.Waveform.C230_classes_differ"
   ],
   "note": ""
  },
  {
   "property": "C231",
   "status": "proved",
   "theorems": [
    "Verif.Streams.RBF.C231_rbf_samples"
   ],
   "note": ""
  },
  {
   "property": "C232",
   "status": "proved",
   "theorems": [
    "Verif.Streams.RBF.C232_rbf_drift",
    "Verif.Streams.RBF.C232_speeds"
   ],
   "note": ""
  },
  {
   "property": "C233",
   "status": "proved",
   "theorems": [
    "Verif.Prototype.C233_start"
   ],
   "note": ""
  },
  {
   "property": "C234",
   "status": "partial",
   "theorems": [
    "Verif.Lazy.Sam.C234_best_window_partial",
    "Verif.Lazy.Sam.C234_odd_cut_violated"
   ],
   "note": "false after a cut of an odd number of samples (C234_odd_cut_violated); proved as long as all earlier cuts were exact halves, quarters, ..."
  },
  {
   "property": "C235",
   "status": "partial",
   "theorems": [
    "Verif.Lazy.Sam.C235_cut_if_better_partial",
    "Verif.Lazy.Sam.C235_odd_cut_violated"
   ],
   "note": "false after a cut of an odd number of samples (C235_odd_cut_violated); proved as long as all earlier cuts were exact halves, quarters, ..."
  },
  {
   "property": "C236",
   "status": "partial",
   "theorems": [
    "Verif.Lazy.Sam.C236_sizes_partial",
    "Verif.Lazy.Sam.C236_zero_violated"
   ],
   "note": "false for min_stm_size=0 (C236_zero_violated); proved for n_neighbors < min_stm_size under the conditions of C128"
  },
  {
   "property": "C237",
   "status": "partial",
   "theorems": [
    "Verif.Meta.Skew.C237_when_partial",
    "Verif.Meta.Skew.C237_best_reset_violated"
   ],
   "note": "C237_when_partial says exactly when a member is reset; C237_best_reset_violated: the detectors record right predictions, so it is a rise that leads to a reset and the best member that is reset"
  },
  {
   "property": "C238",
   "status": "partial",
   "theorems": [
    "Verif.Streams.Anomaly.C238_count_partial",
    "Verif.Streams.Anomaly.C238_replacement_violated"
   ],
   "note": "C238_count_partial: with replace=False exactly n_anomalies, otherwise between 1 and n_anomalies; C238_replacement_violated: with the default replace=True any repeated draw gives fewer"
  },
  {
   "property": "C239",
   "status": "proved",
   "theorems": [
    "Verif.Streams.Anomaly.C239_values"
   ],
   "note": ""
  },
  {
   "property": "C240",
   "status": "partial",
   "theorems": [
    "Verif.Streams.Anomaly.C240_labels_partial",
    "Verif.Streams.Anomaly.C240_contextual_violated"
   ],
   "note": "C240_labels_partial says which samples are labelled; C240_contextual_violated: contextual anomalies are labelled 0"
  },
  {
   "property": "C241",
   "status": "partial",
   "theorems": [
    "Verif.Streams.Anomaly.C241_accepted_partial",
    "Verif.Streams.Anomaly.C241_none_violated",
    "Verif.Streams.Anomaly.C241_contextual_violated"
   ],
   "note": "C241_accepted_partial characterises the accepted parameters; C241_none_violated: n_anomalies=0 raises; C241_contextual_violated: without replacement n_contextual above n_samples-|shift| raises"
  },
  {
   "property": "C242",
   "status": "partial",
   "theorems": [
    "Verif.Trees.BinTree.C242_update_violated",
    "Verif.Trees.BinTree.C242_always_empty_violated",
    "Verif.Trees.BinTree.C242_missing_partial"
   ],
   "note": "C242_update_violated and C242_always_empty_violated: the constructor of a node adds to a missing dictionary entry, so every update with a value raises KeyError and the observer stays empty; C242_missing_partial: missing values are ignored. The search below the root is not modelled because no root ever exists"
  },
  {
   "property": "C243",
   "status": "partial",
   "theorems": [
    "Verif.Core.Repr.C243_repr_reset_partial",
    "Verif.Core.Reset.C243_reset_partial",
    "Verif.Core.Reset.C243_object_violated",
    "Verif.Core.Reset.C243_long_list_violated",
    "Verif.Core.Reset.C243_blank_violated",
    "Verif.Core.Reset.C243_class_name_violated"
   ],
   "note": "C243_reset_partial: holds for numbers, truth values, None, strings without white space and sequences of at most thirty elements, if the class name does not occur in them; violated for objects (exception), longer sequences (cut off), strings with white space (removed) and strings with the class name (replaced)"
  },
  {
   "property": "C244",
   "status": "partial",
   "theorems": [
    "Verif.Rules.Foil.C244_both_sides_violated",
    "Verif.Rules.Foil.C244_one_side_violated",
    "Verif.Rules.Foil.C244_gain_partial"
   ],
   "note": "False for almost all splits: with the class on both sides the merit is negative where the gain is positive (C244_both_sides_violated); with the class on one side the side without it is kept with merit 0 (C244_one_side_violated). Proved for equal proportions and for a class alone on the left (C244_gain_partial). Listed weights positive."
  },
  {
   "property": "C245",
   "status": "partial",
   "theorems": [
    "Verif.Rules.C245_reading_partial",
    "Verif.Rules.C245_labels_partial",
    "Verif.Rules.C245_description_partial",
    "Verif.Rules.C245_untrained_violated",
    "Verif.Rules.C245_foil_description_violated",
    "Verif.Rules.C245_foil_violated"
   ],
   "note": "Both raise ValueError when a rule has seen nothing, e.g. a new classifier (C245_untrained_violated) or after rules were made with foil_gain (C245_foil_description_violated); get_model_rules overwrites the class of every rule, which changes later expansions with foil_gain (C245_foil_violated). Proved for info_gain and hellinger, and for rules that have seen something."
  },
  {
   "property": "C246",
   "status": "partial",
   "theorems": [
    "Verif.Meta.AWEScore.C246_batch_partial",
    "Verif.Meta.AWEScore.C246_incremental_violated",
    "Verif.Meta.AWEScore.C246_rote_violated"
   ],
   "note": "False for estimators whose fit goes on from what they have learned, as that of all classifiers of the package does: one copy is trained on all training sets in turn, so from the second fold on it has been trained on the test set (C246_incremental_violated, C246_rote_violated). Proved for estimators whose fit starts anew."
  },
  {
   "property": "C247",
   "status": "partial",
   "theorems": [
    "Verif.Meta.AWEScore.C247_columns_partial",
    "Verif.Meta.AWEScore.C247_perfect_violated",
    "Verif.Meta.AWEScore.C247_rare_class_violated"
   ],
   "note": "False when labels are not 0, 1, ...: the position of the label among the labels of the chunk is used as column, so a perfect model gets the worst score (C247_perfect_violated); a class that only occurs in the first test set raises IndexError (C247_rare_class_violated). Proved for labels 0, ..., k-1 and for columns in the order of the labels."
  },
  {
   "property": "C248",
   "status": "partial",
   "theorems": [
    "Verif.Meta.Skew.C248_votes_partial",
    "Verif.Meta.Skew.C248_bagging_partial",
    "Verif.Meta.Skew.C248_eps_weight_partial",
    "Verif.Meta.Skew.C248_ada_weight_partial",
    "Verif.Meta.Skew.C248_unknown_partial",
    "Verif.Meta.Skew.C248_perfect_ignored_violated",
    "Verif.Meta.Skew.C248_no_votes_violated",
    "Verif.Meta.Skew.C248_negative_violated",
    "Verif.Meta.Skew.C248_unweighted_violated",
    "Verif.Meta.Skew.C248_adac2_missing_violated",
    "Verif.Meta.Skew.C248_warning_violated",
    "Verif.Meta.Skew.C248_too_many_violated"
   ],
   "note": "Votes are the weighted sums when all members know the same classes; members without errors have no vote, negative weights give negative probabilities, classes unknown to the first member are unweighted, AdaC2 members without wacc add columns, a warning raises."
  },
  {
   "property": "C249",
   "status": "proved",
   "theorems": [
    "Verif.Evaluation.Report.C249_curves"
   ],
   "note": "Theorem over all sequences of reports for the model of data buffer and visualizer; matplotlib drawing itself is outside the model, metric values are rational (no nan)."
  },
  {
   "property": "C250",
   "status": "partial",
   "theorems": [
    "Verif.Evaluation.Report.C250_latest_partial",
    "Verif.Evaluation.Report.C250_earlier_violated",
    "Verif.Evaluation.Report.C250_kappa_violated"
   ],
   "note": "Violated: limits follow only the latest report, so earlier points of an error curve are cut off when the error falls, and kappa below -1/10 is cut off at once. Proved: values of the latest report in their usual ranges, and latest true and predicted values, are within the limits."
  },
  {
   "property": "C251",
   "status": "partial",
   "theorems": [
    "Verif.Evaluation.Report.C251_points_partial",
    "Verif.Evaluation.Report.C251_lost_violated",
    "Verif.Evaluation.Report.C251_clusters_violated"
   ],
   "note": "Violated: points whose label is not less than the number of clusters are lost, and every report adds clusters again because clusters_initialized is never set. Proved: for labels less than the number of classes of the first report the cluster holds the last hundred points with that label."
  },
  {
   "property": "C252",
   "status": "proved",
   "theorems": [
    "Verif.Evaluation.Report.C252_redraw",
    "Verif.Evaluation.Report.C252_first"
   ],
   "note": "Proved for every sequence of reports and times."
  },
  {
   "property": "C253",
   "status": "partial",
   "theorems": [
    "Verif.Evaluation.Report.C253_positions_partial",
    "Verif.Evaluation.Report.C253_ten_violated",
    "Verif.Evaluation.Report.C253_title_violated"
   ],
   "note": "Violated: ten or more plotted metrics raise ValueError, and the geometric mean is titled 'Unknown metric'. Proved: up to nine plotted metrics get consecutive rows in order."
  },
  {
   "property": "C254",
   "status": "partial",
   "theorems": [
    "Verif.Trees.MT.C254_rule_partial",
    "Verif.Trees.MT.C254_decides_partial",
    "Verif.Trees.MT.C254_single_violated",
    "Verif.Trees.MT.C254_poor_violated"
   ],
   "note": "Violated: a single suggestion (one attribute, no_preprune=True) is followed whatever its merit and branches, and with remove_poor_atts=True the attempt raises ZeroDivisionError when no attribute admits a split into branches of weight 5. Proved: everything else of the statement with two suggestions or more."
  },
  {
   "property": "C255",
   "status": "partial",
   "theorems": [
    "Verif.Lazy.Nearest.C255_smallest_partial",
    "Verif.Lazy.Nearest.C255_memory_violated"
   ],
   "note": "Holds if at least n distances are below the largest double; otherwise the remaining positions are whatever the uninitialised result array holds (C255_memory_violated)."
  },
  {
   "property": "C256",
   "status": "proved",
   "theorems": [
    "Verif.Lazy.Nearest.C256_majority",
    "Verif.Lazy.Nearest.C256_weighted",
    "Verif.Lazy.Nearest.C256_recognised"
   ],
   "note": ""
  },
  {
   "property": "C257",
   "status": "partial",
   "theorems": [
    "Verif.Lazy.Nearest.C257_distances_partial",
    "Verif.Lazy.Nearest.C257_shorter_violated",
    "Verif.Lazy.Nearest.C257_longer_violated"
   ],
   "note": "Holds for queries with as many features as the rows stored; other queries are not rejected: shorter ones are compared with misaligned data, longer ones with memory behind the rows."
  },
  {
   "property": "C258",
   "status": "partial",
   "theorems": [
    "Verif.Streams.Loading.C258_table_partial",
    "Verif.Streams.Loading.C258_apart_partial",
    "Verif.Streams.Loading.C258_rejected_partial",
    "Verif.Streams.Loading.C258_float_array_violated",
    "Verif.Streams.Loading.C258_negative_violated",
    "Verif.Streams.Loading.C258_repeated_violated",
    "Verif.Streams.Loading.C258_info_violated"
   ],
   "note": "Holds for categorical features given once each by their position. Violated: labels inside a floating point array are taken as regression targets, negative and repeated positions are accepted and counted, DataStream.get_info swaps n_targets and target_idx."
  },
  {
   "property": "C259",
   "status": "proved",
   "theorems": [
    "Verif.Streams.Logical.C259_truth_table"
   ],
   "note": ""
  },
  {
   "property": "C260",
   "status": "partial",
   "theorems": [
    "Verif.Evaluation.Classes.C260_single_partial",
    "Verif.Evaluation.Classes.C260_regression_partial",
    "Verif.Evaluation.Classes.C260_multi_partial",
    "Verif.Evaluation.Classes.C260_no_pretraining_violated",
    "Verif.Evaluation.Classes.C260_ragged_violated",
    "Verif.Evaluation.Classes.C260_float_array_violated"
   ],
   "note": "Holds for one integer target, for regression, and for several targets with equally many labels in holdout evaluation or with pre-training. Violated: without pre-training several targets give a list of lists, as do targets with different numbers of labels; a floating point array gives the type float as only class."
  },
  {
   "property": "C261",
   "status": "partial",
   "theorems": [
    "Verif.Trees.HRA.C261_leaf_partial",
    "Verif.Trees.HRA.C261_zero_violated"
   ],
   "note": "Proved if no draw is 0 (or bootstrap sampling is off); violated: rows drawn 0 times are learned with their full weight."
  },
  {
   "property": "C262",
   "status": "partial",
   "theorems": [
    "Verif.Evaluation.Report.C262_summary_partial",
    "Verif.Evaluation.Report.C262_gmean_violated",
    "Verif.Evaluation.Report.C262_lag_violated"
   ],
   "note": "The printed values are those of the last row, and include all samples when the evaluation reaches its sample limit without exceptions; otherwise samples after the last row are missing (C262_lag_violated). The metric gmean is never printed (C262_gmean_violated)."
  },
  {
   "property": "C263",
   "status": "partial",
   "theorems": [
    "Verif.Evaluation.Delayed.C263_rows_partial",
    "Verif.Evaluation.Delayed.C263_schedule_partial",
    "Verif.Evaluation.Delayed.C263_no_rows_violated"
   ],
   "note": "Rows as id and number of results covered. Proved: what each row covers, and the closing row when at least max_samples + batch_size samples are counted. Violated on shorter streams: no closing row, and no row at all when n_wait is at least the stream length."
  },
  {
   "property": "C264",
   "status": "proved",
   "theorems": [
    "Verif.Trees.HT.C264_deepest_first"
   ],
   "note": "Sizes are parameters; depth is the length of the path to the leaf."
  },
  {
   "property": "C265",
   "status": "partial",
   "theorems": [
    "Verif.Trees.HT.C265_stop_partial",
    "Verif.Trees.HT.C265_stop_violated"
   ],
   "note": "Proved: once an inactive leaf is found growth stops for good. Violated in general when the limit is first hit: the test multiplies the size of an active leaf by nothing."
  },
  {
   "property": "C266",
   "status": "partial",
   "theorems": [
    "Verif.Trees.HT.C266_period_partial",
    "Verif.Trees.HT.C266_never_estimated_violated"
   ],
   "note": "Proved for unit weights. Violated for any history that starts with weight one half and continues with whole weights."
  },
  {
   "property": "C267",
   "status": "partial",
   "theorems": [
    "Verif.Renamed.C267_former_names_partial",
    "Verif.Renamed.C267_batch_incremental_violated",
    "Verif.Renamed.C267_instance_window_violated"
   ],
   "note": "All names but two forward faithfully: C267_former_names_partial. Violated: BatchIncremental always raises TypeError (unknown argument nominal_attributes), InstanceWindow has a parameter self."
  },
  {
   "property": "C268",
   "status": "partial",
   "theorems": [
    "Verif.Evaluation.MetricsList.C268_metrics_partial",
    "Verif.Evaluation.MetricsList.C268_again_partial",
    "Verif.Evaluation.MetricsList.C268_shared_violated"
   ],
   "note": "Violated: with data_points_for_classification the constructor appends to the caller's list, which other evaluators share. Holds as long as nobody else changes the list before the first evaluation; afterwards always."
  },
  {
   "property": "C269",
   "status": "proved",
   "theorems": [
    "Verif.Core.Repr.C269_repr"
   ],
   "note": "Layout and shortening for any nesting and lengths; dictionaries and strings that pprint breaks are not modelled."
  },
  {
   "property": "C270",
   "status": "partial",
   "theorems": [
    "Verif.Neural.C270_perceptron_partial",
    "Verif.Neural.C270_set_params_violated"
   ],
   "note": "Violated: the wrapped Perceptron is built in the constructor only, set_params has no effect until reset. Holds from construction or reset on."
  },
  {
   "property": "C271",
   "status": "partial",
   "theorems": [
    "Verif.Evaluation.Reuse.C271_reuse_partial",
    "Verif.Evaluation.Reuse.C271_file_partial",
    "Verif.Evaluation.Reuse.C271_window_violated",
    "Verif.Evaluation.Reuse.C271_lines_violated",
    "Verif.Evaluation.Reuse.C271_queue_violated"
   ],
   "note": "Proved for every history of evaluations and parameter changes as long as n_wait (test_size for holdout) keeps its constructed value and, for delayed evaluation, pretrain_size is positive and no earlier evaluation raised; the three other cases are shown to fail."
  },
  {
   "property": "C272",
   "status": "partial",
   "theorems": [
    "Verif.Rules.C272_counts_partial",
    "Verif.Rules.C272_expansion_partial",
    "Verif.Rules.C272_creation_partial",
    "Verif.Rules.C272_forgets_violated"
   ],
   "note": "Proved: every instance counted is a training instance, counted at most once, that satisfies the conditions; exactly which instances an expansion or a creation takes over. Violated: an expansion drops what the rule counted before its last change (C272_forgets_violated)."
  },
  {
   "property": "C273",
   "status": "partial",
   "theorems": [
    "Verif.Streams.Switches.C273_same_value_partial",
    "Verif.Streams.Switches.C273_switch_on_violated",
    "Verif.Streams.Switches.C273_sine_off_violated",
    "Verif.Streams.Switches.C273_off_violated"
   ],
   "note": "Proved for LED, waveform and sine generators whenever has_noise ends at the value given to the constructor. Switching it on later makes every next_sample raise IndexError; switching it off leaves zero columns, and for SineGenerator makes all labels 0 with the class as third feature: all proved."
  },
  {
   "property": "C274",
   "status": "partial",
   "theorems": [
    "Verif.Streams.Description.C274_features_partial",
    "Verif.Streams.Description.C274_counts_partial",
    "Verif.Streams.Description.C274_cat_features_idx_violated",
    "Verif.Streams.Description.C274_descriptions_violated",
    "Verif.Streams.Description.C274_targets_partial",
    "Verif.Streams.Description.C274_numbered_partial"
   ],
   "note": "Width, feature names, targets and numeric counts proved for all generators and parameters. cat_features_idx is empty in all generators with categorical columns except MixedGenerator; LEDGenerator has no target names; RandomTreeGenerator counts features before one-hot coding; AnomalySineGenerator reports no classes: proved."
  },
  {
   "property": "C275",
   "status": "partial",
   "theorems": [
    "Verif.Streams.Description.C275_default_names_partial",
    "Verif.Streams.Description.C275_reordered_violated",
    "Verif.Streams.Description.C275_own_name_violated"
   ],
   "note": "Proved for the default names and names added behind them. Names decide which value a column holds, and a name of one's own raises NameError: proved."
  },
  {
   "property": "C276",
   "status": "proved",
   "theorems": [
    "Verif.Evaluation.Honest.C276_classification",
    "Verif.Evaluation.Honest.C276_regression"
   ],
   "note": ""
  },
  {
   "property": "C277",
   "status": "partial",
   "theorems": [
    "Verif.Evaluation.HoldoutRows.C277_classification_partial",
    "Verif.Evaluation.HoldoutRows.C277_regression_partial",
    "Verif.Evaluation.HoldoutRows.C277_short_test_set_violated"
   ],
   "note": "proved for test sets of test_size samples, as static test sets always are; a dynamic test set cut short at the end of the stream is mixed with the test before (witness)"
  },
  {
   "property": "C278",
   "status": "partial",
   "theorems": [
    "Verif.Trees.C278_best",
    "Verif.Trees.C278_none",
    "Verif.Trees.C278_left_weight_partial",
    "Verif.Trees.C278_light_class_violated"
   ],
   "note": "C278_best, C278_none: which threshold is proposed, with which distributions, for every history and merit. C278_left_weight_partial: monotone in the threshold for classes with a total weight above 1. C278_light_class_violated: values 0 and 10 with weight 1/2 each."
  },
  {
   "property": "C279",
   "status": "proved",
   "theorems": [
    "Verif.Evaluation.Delayed.C279_results",
    "Verif.Evaluation.Delayed.C279_classification",
    "Verif.Evaluation.Delayed.C279_regression"
   ],
   "note": "C279_results: which results a scoring step covers. C279_classification, C279_regression: the ids and scores of all rows; the metrics never raise."
  },
  {
   "property": "C280",
   "status": "partial",
   "theorems": [
    "Verif.Adwin.C280_alarm_partial",
    "Verif.Adwin.C280_oldest_partial",
    "Verif.Adwin.C280_constant",
    "Verif.Adwin.C280_missed_change_violated",
    "Verif.Adwin.C280_false_alarm_violated"
   ],
   "note": "Violated: the scan of detected_change skips the last bucket of each row (line 317). C280_missed_change_violated and C280_false_alarm_violated are about the real cut expression at the default delta, over the reals. The parts that hold are C280_alarm_partial, C280_oldest_partial and C280_constant."
  },
  {
   "property": "C281",
   "status": "proved",
   "theorems": [
    "Verif.Lazy.C281_told",
    "Verif.Lazy.C281_few_calls",
    "Verif.Lazy.C281_one_neighbour"
   ],
   "note": "C281_told, C281_few_calls for every cut test; C281_one_neighbour for the real cut expression."
  },
  {
   "property": "C282",
   "status": "proved",
   "theorems": [
    "Verif.Meta.Parts.C282_knn",
    "Verif.Meta.Parts.C282_naive_bayes",
    "Verif.Meta.Parts.C282_oza",
    "Verif.Meta.Parts.C282_learn_nse",
    "Verif.Meta.Parts.C282_learn_pp",
    "Verif.Meta.Parts.C282_batch_incremental",
    "Verif.Meta.Parts.C282_forest",
    "Verif.Meta.Parts.C282_skewed",
    "Verif.Meta.Parts.C282_oza_adwin_differs",
    "Verif.Meta.Parts.C282_skewed_drift_differs",
    "Verif.Meta.Parts.C282_knn_adwin_differs"
   ],
   "note": "SameInParts for each of the named estimators; the exceptions by witnesses (for kNN-ADWIN with the real cut expression at the default delta)."
  },
  {
   "property": "C283",
   "status": "partial",
   "theorems": [
    "Verif.Meta.ResetAll.C283_same_classes_partial",
    "Verif.Meta.ResetAll.C283_other_classes_violated",
    "Verif.Meta.ResetAll.C283_no_classes_violated",
    "Verif.Meta.ResetAll.C283_smote_partial",
    "Verif.Meta.ResetAll.C283_smote_other_classes_violated",
    "Verif.Meta.ResetAll.C283_forest_violated",
    "Verif.Meta.ResetAll.C283_patches_violated",
    "Verif.Meta.ResetAll.C283_patches_partial"
   ],
   "note": "Fails: the remembered classes (boosting and bagging ensembles, forest) and the replaced training method (random patches) survive reset. Proved: with the same classes, and without such a life before, everything else is as new."
  },
  {
   "property": "C284",
   "status": "proved",
   "theorems": [
    "Verif.Lazy.C284_proba",
    "Verif.Lazy.C284_predict",
    "Verif.Lazy.C284_adwin_reset"
   ],
   "note": "Labels are natural numbers. The neighbour search is arbitrary but must return k places of the window."
  },
  {
   "property": "C285",
   "status": "proved",
   "theorems": [
    "Verif.Meta.Skew.C285_training",
    "Verif.Meta.Skew.C285_weights"
   ],
   "note": "The base learner, the sampler and the detector are arbitrary; sums in exact arithmetic."
  },
  {
   "property": "C286",
   "status": "proved",
   "theorems": [
    "Verif.Bayes.C286_total_weights"
   ],
   "note": "Exact arithmetic; density function arbitrary."
  },
  {
   "property": "C287",
   "status": "partial",
   "theorems": [
    "Verif.Bayes.C287_units_partial",
    "Verif.Bayes.C287_one_value_violated"
   ],
   "note": "Holds for classes that vary; C287_one_value_violated: with one class showing a single value, the unit decides the prediction. The density is a parameter with the law of the normal density, which is proved for the real one."
  },
  {
   "property": "C288",
   "status": "partial",
   "theorems": [
    "Verif.Trees.HL.C288_splits_partial",
    "Verif.Trees.HL.C288_majority_partial",
    "Verif.Trees.HL.C288_naive_bayes_violated"
   ],
   "note": "Splits, class weights and exceptions for every kind of leaves; predictions for majority class leaves. C288_naive_bayes_violated: with naive Bayes leaves ('nb', and 'nba', the default) the unit decides the prediction where a class has shown one value only. Criterion, decision, normal distribution function are parameters (scale freeness of the real one is proved)."
  },
  {
   "property": "C289",
   "status": "partial",
   "theorems": [
    "Verif.Trees.HL.C289_same_splits_partial",
    "Verif.Trees.HL.C289_remove_poor_violated"
   ],
   "note": "Holds without remove_poor_atts, and between 'nb' and 'nba'. C289_remove_poor_violated: with remove_poor_atts=True (and no_preprune=True) majority class leaves disable poor attributes, naive Bayes leaves ignore it (disable_attribute is overridden with pass), so one tree splits on an attribute that the other has dropped."
  },
  {
   "property": "C290",
   "status": "proved",
   "theorems": [
    "Verif.Evaluation.Honest.C290_beginning",
    "Verif.Evaluation.Honest.C290_same_reports"
   ],
   "note": "Model of Honest.lean (prequential loop over stream, learners, evaluators and result rows). Learners are pure state machines, so a random generator shared between models is outside the statement, as is a time limit that the joint evaluation reaches earlier (timeOk is the same function of the iteration in both)."
  },
  {
   "property": "C291",
   "status": "proved",
   "theorems": [
    "Verif.Adwin.C291_shift",
    "Verif.Adwin.C291_mirror",
    "Verif.Adwin.C291_small_unit",
    "Verif.Adwin.C291_unit_matters"
   ],
   "note": "Rational arithmetic; the logarithm and square root of the cut expression are those of the reals (realCut). The unit part is worded as what the code does."
  },
  {
   "property": "C292",
   "status": "proved",
   "theorems": [
    "Verif.Drift.PH.C292_page_hinkley_level",
    "Verif.Drift.PH.C292_page_hinkley_unit",
    "Verif.Drift.PH.C292_page_hinkley_decrease",
    "Verif.Drift.HA.C292_hddm_a_level"
   ],
   "note": "Rational arithmetic; square root and logarithms of HDDM_A are parameters."
  },
  {
   "property": "C293",
   "status": "partial",
   "theorems": [
    "Verif.Drift.HW.C293_level_partial",
    "Verif.Drift.HW.C293_level_violated"
   ],
   "note": "Holds for values that are not negative (C293_level_partial); violated for negative ones, for all parameters (C293_level_violated)."
  },
  {
   "property": "C294",
   "status": "proved",
   "theorems": [
    "Verif.Lazy.C294_proba",
    "Verif.Lazy.C294_predict",
    "Verif.Lazy.C294_order",
    "Verif.Lazy.C294_distances",
    "Verif.Lazy.C294_euclid",
    "Verif.Lazy.C294_regressor",
    "Verif.Lazy.C294_one_unit",
    "Verif.Lazy.C294_ties"
   ],
   "note": "the KDTree is any search that returns n_neighbors different places with none of the others nearer (an implementation is given); distances in any linear order"
  },
  {
   "property": "C295",
   "status": "proved",
   "theorems": [
    "Verif.Trees.HL.C295_splits",
    "Verif.Trees.HL.C295_votes",
    "Verif.Trees.HL.C295_predict",
    "Verif.Trees.HL.C295_criteria",
    "Verif.Trees.HL.C295_hellinger",
    "Verif.Trees.HL.C295_observers",
    "Verif.Trees.HL.C295_zero"
   ],
   "note": ""
  },
  {
   "property": "C296",
   "status": "partial",
   "theorems": [
    "Verif.Trees.C296_ratio",
    "Verif.Trees.HR.C296_step_partial",
    "Verif.Trees.HR.C296_exact_partial",
    "Verif.Trees.HR.C296_away_violated",
    "Verif.Trees.MT.C296_targets_partial",
    "Verif.Trees.MT.C296_stacked_partial",
    "Verif.Trees.MT.C296_first_partial"
   ],
   "note": "Step formula with the divisor c and its bound, ratio bounds and fixed point proved for the single-target leaf and for every target of the multi-target perceptron leaf; the claim itself is refuted by a reachable tree whose error on the row grows."
  },
  {
   "property": "C297",
   "status": "proved",
   "theorems": [
    "Verif.Trees.HL.C297_split",
    "Verif.Trees.HL.C297_life"
   ],
   "note": ""
  },
  {
   "property": "C298",
   "status": "proved",
   "theorems": [
    "Verif.Drift.KS.C298_increasing",
    "Verif.Drift.KS.C298_decreasing",
    "Verif.Drift.KS.C298_delay",
    "Verif.Drift.KS.C298_gap",
    "Verif.Drift.KS.C298_constant"
   ],
   "note": "The statistic of ks_2samp is written out; the p-value is an arbitrary function of the statistic and the two sizes; the drawn positions are arbitrary."
  },
  {
   "property": "C299",
   "status": "partial",
   "theorems": [
    "Verif.Drift.DDM.C299_right_partial",
    "Verif.Drift.DDM.C299_rise_partial",
    "Verif.Drift.DDM.C299_first_error_violated",
    "Verif.Drift.DDM.C299_steady_violated",
    "Verif.Drift.DDM.C299_bounded_partial"
   ],
   "note": "(a) and (b) hold over the reals with the real square root, (c) for every non-negative root; (d) fails (C299_first_error_violated, C299_steady_violated)."
  },
  {
   "property": "C300",
   "status": "partial",
   "theorems": [
    "Verif.Drift.EDDM.C300_regular_partial",
    "Verif.Drift.EDDM.C300_meaning_partial",
    "Verif.Drift.EDDM.C300_rarer_violated"
   ],
   "note": "Regular errors are never reported and an alarm means a smaller mean distance or spread; C300_rarer_violated: an alarm while errors become rarer."
  },
  {
   "property": "C301",
   "status": "proved",
   "theorems": [
    "Verif.Drift.PH.C301_above",
    "Verif.Drift.PH.C301_found"
   ],
   "note": ""
  },
  {
   "property": "C302",
   "status": "partial",
   "theorems": [
    "Verif.Transform.C302_units_partial",
    "Verif.Transform.C302_constant_violated",
    "Verif.Transform.C302_calls"
   ],
   "note": "The unit and the zero point are proved to cancel in every cell after the first row whose column has a non-zero deviation over the window (C302_units_partial, which also gives the other cells exactly). Missing, because false in the code: the first row and cells after a constant window, which keep the unit (C302_constant_violated). The deviation is a parameter known to ignore the level and follow the unit; rounding is not modelled."
  },
  {
   "property": "C303",
   "status": "proved",
   "theorems": [
    "Verif.Drift.HDDMRise.C303_unreported",
    "Verif.Drift.HDDMRise.C303_forgets",
    "Verif.Drift.HDDMRise.C303_found"
   ],
   "note": "Real numbers, real square root and logarithm; floating-point rounding is not modelled. \"Starts afresh\" is read off the attribute total_n."
  },
  {
   "property": "C304",
   "status": "proved",
   "theorems": [
    "Verif.Bayes.C304_columns"
   ],
   "note": "C304_columns: for every list of distinct column numbers pos whose missing columns are constant, training and predicting on the columns pos gives the same predict_proba and predict. Exact arithmetic; positive weights; classes not a numpy array (that raises, C97)."
  },
  {
   "property": "C305",
   "status": "proved",
   "theorems": [
    "Verif.Drift.HDDMWRise.C305_blind",
    "Verif.Drift.HDDMWRise.C305_blind_default",
    "Verif.Drift.HDDMWRise.C305_found",
    "Verif.Drift.HDDMWRise.C305_lasting"
   ],
   "note": "C305_blind and C305_blind_default: blind settings. C305_found: explicit length after which a rise is reported; C305_lasting: every rise above the stated limit is reported. Real numbers, exact arithmetic, real square root and logarithm."
  },
  {
   "property": "C306",
   "status": "proved",
   "theorems": [
    "Verif.Adwin.C306_split",
    "Verif.Adwin.C306_lasting",
    "Verif.Adwin.C306_first"
   ],
   "note": "Test over the reals (logarithm and root exact); sums and the variance are rational, rounding is not modelled. N is shown to exist, not computed."
  },
  {
   "property": "C307",
   "status": "proved",
   "theorems": [
    "Verif.Drift.DDM.C307_bounded",
    "Verif.Drift.DDM.C307_found",
    "Verif.Drift.DDM.C307_lasting",
    "Verif.Drift.DDM.C307_missed"
   ],
   "note": "Real arithmetic with the exact square root; rounding is not modelled. Predictions are told as 0 or 1."
  },
  {
   "property": "C308",
   "status": "proved",
   "theorems": [
    "Verif.Drift.KS.C308_found",
    "Verif.Drift.KS.C308_never",
    "Verif.Drift.KS.C308_small_never",
    "Verif.Drift.KS.C308_default_found"
   ],
   "note": "The statistic of ks_2samp is modelled; the table from statistic and sizes to p-values is a parameter, with its value for separated samples as a hypothesis where numbers are stated. Rational values."
  },
  {
   "property": "C309",
   "status": "proved",
   "theorems": [
    "Verif.Drift.EDDM.C309_lasting"
   ],
   "note": "exact rationals; the root is any non-negative function that does not exceed r where its argument does not exceed r squared"
  },
  {
   "property": "C310",
   "status": "proved",
   "theorems": [
    "Verif.Drift.PH.C310_gap",
    "Verif.Drift.PH.C310_mute",
    "Verif.Drift.PH.C310_forgetful",
    "Verif.Drift.PH.C310_default"
   ],
   "note": "exact rationals"
  },
  {
   "property": "C311",
   "status": "proved",
   "theorems": [
    "Verif.Transform.C311_filled",
    "Verif.Transform.C311_window_one",
    "Verif.Transform.C311_units",
    "Verif.Transform.C311_calls"
   ],
   "note": "exact rationals; strategy mode is not covered (what scipy gives for a column of NaN only is not modelled)"
  },
  {
   "property": "C312",
   "status": "proved",
   "theorems": [
    "Verif.Evaluation.HoldoutRows.C312_beginning",
    "Verif.Evaluation.HoldoutRows.C312_same_reports"
   ],
   "note": "the model of C277; an exception of a model ends the evaluation, as in the code"
  },
  {
   "property": "C313",
   "status": "proved",
   "theorems": [
    "Verif.Evaluation.Delayed.C313_alone",
    "Verif.Evaluation.Delayed.C313_same_rows",
    "Verif.Evaluation.Delayed.C313_no_exception"
   ],
   "note": "Models share no state, give one prediction per row and do not raise; numpy's conversion of the predictions of several models to one type is not modelled."
  },
  {
   "property": "C314",
   "status": "proved",
   "theorems": [
    "Verif.Meta.Oza.C314_silenced",
    "Verif.Meta.Oza.C314_heard",
    "Verif.Meta.Oza.C314_knn"
   ],
   "note": "The base learner is any that satisfies the stated width condition; the model of KNNClassifier is shown to (its predict_proba also stores the classes it has met, which is not modelled). KNNADWINClassifier, the default, may forget a label when its window shrinks and is not covered."
  },
  {
   "property": "C315",
   "status": "proved",
   "theorems": [
    "Verif.Evaluation.Delayed.C315_index",
    "Verif.Evaluation.Delayed.C315_everything",
    "Verif.Evaluation.Delayed.C315_regression"
   ],
   "note": "Accuracy, and for regressors the mean squared and absolute errors; learners do not raise; unweighted streams (with weights the evaluation raises, C58)."
  }
 ]
}