# Formal model of scikit-multiflow: design

Lean 4.33.0 with Mathlib. All sources are under `lean/Verif/`. This file is
generated by `scripts/design.py` from `scripts/design_head.md`,
`scripts/how.json`, `properties.jsonl` and `MANIFEST.json`.

Definitions that mirror Python code carry a comment with the file and the
lines they model. Specification functions (the right-hand sides of the
theorems) are written separately and do not use the model's own helpers.
Beside each theorem an `example` shows a concrete case that meets the
hypotheses.

## Trusted base

* The Lean kernel. Every theorem depends only on (a subset of) the axioms
  `propext`, `Classical.choice` and `Quot.sound`. There is no `sorry`, no
  added axiom, no `native_decide` and no `bv_decide`. Concrete witnesses are
  evaluated with `decide +kernel`, that is by the kernel.
* The transcription from Python to Lean, done by hand. Each definition cites
  its lines and states its simplifications.
* The statements themselves, including the small specification functions.

## Modelling conventions

* Numbers are exact rationals. Floating-point rounding, overflow, NaN and
  infinities are outside the model unless a definition mentions them (for
  example a division by zero that numpy would turn into NaN or a warning).
* Exceptions are values (`PyErr`). Where Python would raise, the model returns
  an error, and theorems say so. Divisions that can raise are modelled as
  partial.
* Loops are folds or structural recursions. Loops without an obvious bound
  (rejection sampling, ADWIN's change check) take fuel, and `none` means that
  the fuel ran out; termination is then a theorem or a refuted claim.
* External functions are arbitrary parameters: random draws, `sqrt`, `log`,
  `exp`, the KS test, split criteria, base learners, clocks, sorting (any
  sorted permutation). Theorems hold for all of them.
* A claim that the code does not satisfy is kept as a property; its negation
  is proved (`..._violated`) and the part that does hold is proved under a name
  ending in `_partial`. Such properties have status `partial`.

## What is modelled

| Python (src/skmultiflow) | Lean |
| --- | --- |
| utils/data_structures.py: FastBuffer; utils/sliding_window.py | Buffers |
| metrics: _confusion_matrix.pyx, _classification_performance_evaluator.pyx (single- and multi-label, cumulative and windowed), measure_collection.py (classification, multi-target classification, regression and multi-target regression, cumulative and windowed); utils/data_structures.py: ConfusionMatrix, MOLConfusionMatrix | Metrics |
| drift_detection: adwin.py (its cut expression as a parameter; over the real numbers in Adwin/CutTest), ddm.py, eddm.py, page_hinkley.py, hddm_a.py, hddm_w.py, kswin.py | Adwin, Drift |
| data: data_stream.py, file_stream.py (with what they know about a table), synth.py, temporal_data_stream.py, time_manager.py, the generators (sea, stagger, sine, mixed, agrawal, LED, hyperplane, random tree, drifting RBF centroids, finite tables), concept_drift_stream.py | Streams |
| evaluation: prequential, holdout, prequential with delayed labels (loops), result file buffering; base_evaluator.py configuration check, data buffer, reports, header and rows, summary; running time measurements | Evaluation |
| transform: missing values, windowed min-max and standard scaler, one-hot encoder | Transform |
| lazy: kNN classifier and regressor, kNN with ADWIN window, SAM-kNN with its window sizer and distance matrix (clustering as parameter), its C++ library libNearestNeighbors/nearestNeighbor.cpp (neighbour search, votes, distances; without the conversions and reference counts of the Python interface) | Lazy |
| trees: Gaussian estimator, numeric/nominal observers (classification, regression), E-BST, split tests, split criteria, Hoeffding tree structure, memory management and split decision, Hoeffding tree learning, leaf predictions, predict/predict_proba, model rules; learning with Gaussian observers and naive Bayes leaves in full (Units) | Trees |
| meta: DWM, additive experts, leveraging bagging codes, batch incremental, online boosting, drift reaction of the online ensembles, accuracy-weighted ensemble (chunks, pool, votes; scores and cross-validation), chains | Meta |
| bayes: naive_bayes.py, utils.py | Bayes |
| anomaly_detection/half_space_trees.py | Anomaly |
| rules: very_fast_decision_rules.py, base_rule.py, base_predicate.py, side selection of the expand criteria, FOIL gain, reading the rules, nominal observers of rules | Rules |
| meta: adaptive_random_forests.py (over any tree and detectors), check_weights | Meta (Life, Forest, ForestProps) |
| core: base.py get_params, set_params (heap of estimators) | Core.Params |
| prototype: robust_soft_learning_vector_quantization.py (over any ordered field, exponential and root as parameters) | Prototype (RSLVQ, RSLVQRun) |
| trees: arf_hoeffding_tree.py, _nodes/arf_htc_nodes.py (leaves with random features, over the Hoeffding tree model) | Trees.ARFTree |
| random generators of the forests: _init_ensemble, reset, partial_fit, check_random_state (which tree draws from which generator, over any generator) | Meta.ForestSeeds |
| meta: adaptive_random_forest_regressor.py (over any tree, detectors, ordered field and square root) | Meta (ForestReg, ForestRegRun, ForestRegProps) |
| meta: streaming_random_patches.py (over any base estimator and detectors; random draws as parameters) | Meta (LifeRun, Patches, PatchesProps, PatchesLife, PatchesStep, PatchesRun, PatchesVotes) |
| trees: extremely_fast_decision_tree.py, _nodes/efdtc_nodes.py (observers, criterion and bound as parameters) | Trees (EFDT, EFDTProps, EFDTCount, EFDTRoute) |
| trees: hoeffding_adaptive_tree.py, _nodes/hatc_nodes.py (detector, observers, bound, split decisions and draws as parameters) | Trees (HAT, HATProps, HATVotes, HATSafe, HATRefine) |
| meta: online_boosting.py, online_adac2.py, online_csb2.py, online_rus_boost.py, online_under_over_bagging.py, online_smote_bagging.py (training, voting, reset; learner, detector, draws, distances, logarithm as parameters) | Meta (Skew, SkewProps, SkewCost, SkewRows, SkewRus, SkewVotes, Smote, BoostRun, ResetAll) |
| core/base.py: get_params, clone (constructors as what they do with each argument) | Core (Clone) |
| trees: hoeffding_tree_regressor.py, _nodes/htr_nodes.py, _nodes/base.py (observers and bound as parameters; observers as row memories for C170-C172; split decision over a list of suggestions) | Trees (Grow, HTR, HTRProps, HTRPerc, HTRMean, HTRLeaf, HTRSplit, EBSTPrune) |
| trees: hoeffding_adaptive_tree_regressor.py, _nodes/hatr_nodes.py (detector, observers, square root, split decisions and draws as parameters) | Trees (HATR, HATRNorm, HATRSafe, HATRRefine, HATRLeaf) |
| trees: label_combination_hoeffding_tree.py, _nodes/lc_htc_nodes.py; naive Bayes votes of leaves with one numeric attribute | Trees (LC, Known) |
| trees: isoup_tree.py, _nodes/isouptr_nodes.py, stacked_single_target_hoeffding_tree_regressor.py, _nodes/sst_htr_nodes.py, _split_criterion/intra_cluster_variance_reduction_split_criterion.py (observers, bound and square root as parameters) | Trees (GrowMap, MTR, MTRProps, MTRPerc, MTRUnits, MTRMerit, MTRAdapt, MTRReset, MTRSplit) |
| meta: learn_nse.py, learn_pp.py (over any base learner, random draws, logarithm and ordered field) | Meta (Windows, LearnNSE*, LearnPP*) |
| meta: oza_bagging.py, oza_bagging_adwin.py (over any base learner; the detector a parameter, instantiated with ADWIN), multi_output_learner.py | Meta (Oza, OzaProps, OzaAdwin, MultiOutput) |
| meta: leverage_bagging.py (training, drift, code-matrix voting, reset; learner, detector, generator as parameters) | Meta (Leverage, LevBag, LevBagProps) |
| core/pipeline.py | Core/Pipeline |
| utils: statistics.py (over the reals), utils.py (dictionary helpers over a store of dictionaries; calculate_object_size over a heap), file_scripts.py (over a file system) | Utils |
| data: waveform_generator.py, random_rbf_generator.py, random_rbf_generator_drift.py (draws as parameters; RBF over the reals) | Streams (Waveform, RBF) |
| evaluation/evaluate_stream_gen_speed.py | Evaluation.StreamSpeed |
| visualization/evaluation_visualizer.py: values of lines, axis limits, data points, redrawing, positions and titles | Evaluation (Plot, PlotProps, PlotLimits) |
| evaluate_prequential.py `_train_and_test` and evaluate_holdout.py `_periodic_holdout` from the stream to the rows: models, measurement objects and reports together | Evaluation (Honest, HoldoutRows) |
| evaluation: attributes an evaluator keeps between evaluations, set_params in between, exceptions that leave an evaluation | Evaluation.Reuse |
| data/anomaly_sine_generator.py (table of samples; sine, cosine and draws as parameters) | Streams.AnomalySine |
| data: setting `has_noise` after construction; attributes the generator constructors set; names of AGRAWAL features (constructors and the writing loops of next_sample) | Streams (Switches, Description) |
| trees/_attribute_observer/numeric_attribute_class_observer_binary_tree.py (up to the search below the root, which is unreachable) | Trees.BinaryTreeObserver |
| core/base.py default reset, __repr__, utils/_pprint.py (up to white space; literals, lists, tuples, objects) | Core.Reset |
| core/base.py `__repr__`, utils/_pprint.py with the layout (and pprint's `_format` of the standard library) | Core.Repr |
| the functions keeping former class names (28 signatures, Python's binding of arguments) | Core.Renamed |
| neural_networks/perceptron.py (wrapped learner arbitrary) | Neural |

## What is not modelled

* numpy broadcasting, dtype conversion and memory layout.
* Drawing by matplotlib (only the data handed to it is modelled), colours and annotation texts of plots, console output, progress bars, file formats.
* Parameter validation in constructors, except where a property mentions it.
* Learners listed in no property; the learners of scikit-learn that are wrapped.
* Dictionaries and broken strings in the printed text of estimators.
* Probability distributions of the random sources: only statements that hold
  for every draw, or for some draw, are made.

## Mutation tests

`seeded/LOG.jsonl` records edits of model definitions in a scratch copy, the
claims they break, the theorems that stopped compiling and any theorem that
was tightened as a result.

## Properties

### C01 FastBuffer keeps exactly the newest max_size elements

* Status: proved. For max_size >= 1.
* Code: `utils/data_structures.py:FastBuffer.add_element`, `utils/data_structures.py:FastBuffer.get_queue`
* Lean: `Verif/Buffers/Props.lean`
* Theorems: `C01_queue_is_newest`, `C01_size_bounded`
* How: FastBuffer as a list-valued state machine; induction over batches.

### C02 FastBuffer eviction reports lose and duplicate nothing

* Status: proved. For max_size >= 1; max_size = 0 makes the buffer unbounded (C02_zero_capacity_unbounded).
* Code: `utils/data_structures.py:FastBuffer`
* Lean: `Verif/Buffers/Props.lean`
* Theorems: `C02_refines_fifo`, `C02_add_conserves`, `C02_zero_capacity_unbounded`
* How: Refinement of a bounded FIFO queue spec over arbitrary op sequences.

### C03 SlidingWindow keeps the newest window_size labelled samples, aligned

* Status: partial. Proved for single-row adds with a fixed target width; violated by multi-row adds (C03_multirow_violated) and by a target row of the wrong width (C03_bad_target_misaligns).
* Code: `utils/data_structures.py:SlidingWindow.add_sample`, `utils/data_structures.py:SlidingWindow.delete_oldest_sample`
* Lean: `Verif/Buffers/Props.lean`
* Theorems: `C03_sliding_window_partial`, `C03_multirow_violated`, `C03_bad_target_misaligns`
* How: SlidingWindow rows as a list of (x,y); induction; multi-row violation by witness.

### C04 Confusion matrix entries and marginals always agree with the recorded results

* Status: proved. All histories; weights of any sign.
* Code: `metrics/_confusion_matrix.pyx:ConfusionMatrix`
* Lean: `Verif/Metrics/Props.lean`
* Theorems: `C04_entries`, `C04_classes`, `C04_margins`
* How: Sparse dict matrix as an association function with incremental marginals; invariant over adds.

### C05 Accuracy is the fraction of correctly predicted results

* Status: partial. Proved for unit weights (C05_accuracy_partial) and in closed form for positive weights; with other weights the value leaves [0,1] (C05_weighted_violated).
* Code: `metrics/_classification_performance_evaluator.pyx:ClassificationPerformanceEvaluator.add_result`, `metrics/_classification_performance_evaluator.pyx:ClassificationPerformanceEvaluator.accuracy_score`
* Lean: `Verif/Metrics/Props.lean`
* Theorems: `C05_no_division_by_zero`, `C05_accuracy_partial`, `C05_accuracy_weighted`, `C05_weighted_violated`
* How: Evaluator state over histories; closed form; weighted violation by witness.

### C06 Windowed classification metrics equal the metrics of the last window_size results

* Status: proved. Positive weights, window_size >= 1.
* Code: `metrics/_classification_performance_evaluator.pyx:WindowClassificationPerformanceEvaluator.add_result`
* Lean: `Verif/Metrics/Scores.lean`
* Theorems: `C06_window_matrix`, `C06_window_scores`
* How: Window evaluator with its deque; simulation: the matrix after any history is the matrix of the last window_size results; margins and scores follow.

### C07 Majority class is the smallest class of maximal observed weight

* Status: proved.
* Code: `metrics/_classification_performance_evaluator.pyx:ClassificationPerformanceEvaluator.majority_class`
* Lean: `Verif/Metrics/Props.lean`
* Theorems: `C07_majority_class`, `C07_majority_class_empty`
* How: Loop over sorted classes; argmax specification.

### C08 Cohen's kappa lies in [-1,1] and is 1 only for perfect agreement

* Status: proved. Unit weights.
* Code: `metrics/_classification_performance_evaluator.pyx:ClassificationPerformanceEvaluator.kappa_score`
* Lean: `Verif/Metrics/Scores.lean`
* Theorems: `C08_kappa_bounds`, `C08_kappa_one_iff`
* How: ℚ arithmetic on the modelled formula; inequality po≤1, pc≤1.

### C09 Precision, recall and F1 match their set definitions

* Status: partial. Precision and recall proved for every class; f1_score(c) ignores c when there are two classes (C09_f1_violated).
* Code: `metrics/_classification_performance_evaluator.pyx:ClassificationPerformanceEvaluator.precision_score`, `metrics/_classification_performance_evaluator.pyx:ClassificationPerformanceEvaluator.recall_score`, `metrics/_classification_performance_evaluator.pyx:ClassificationPerformanceEvaluator.f1_score`
* Lean: `Verif/Metrics/Scores.lean`
* Theorems: `C09_precision_recall`, `C09_bounds`, `C09_f1_partial`, `C09_f1_violated`, `C09_defaults`, `C09_negative_class`
* How: Closed forms from confusion counts.

### C10 Multi-label exact match, Jaccard and Hamming scores match their definitions

* Status: partial. Exact match and Jaccard proved; hamming_score counts true positives only (C10_hamming_violated).
* Code: `metrics/_classification_performance_evaluator.pyx:MultiLabelClassificationPerformanceEvaluator`, `metrics/_confusion_matrix.pyx:MultiLabelConfusionMatrix`
* Lean: `Verif/Metrics/MultiLabelProps.lean`
* Theorems: `C10_exact_match`, `C10_jaccard`, `C10_hamming_partial`, `C10_hamming_violated`, `C10_hamming_one_label`, `C10_empty`
* How: Multi-label matrix model; closed forms; Hamming violation.

### C11 Windowed regression errors are the errors of the last window_size results

* Status: proved. window_size >= 1; window_size = 0 raises on the first result (C11_window_zero). Number of targets fixed per evaluator.
* Code: `metrics/measure_collection.py:WindowRegressionMeasurements`, `metrics/measure_collection.py:RegressionMeasurements`
* Lean: `Verif/Metrics/RegressionProps.lean`
* Theorems: `C11_cumulative`, `C11_window`, `C11_window_zero`, `C11_multi_cumulative`, `C11_multi_window`, `C11_multi_empty`
* How: Running sums with negated evictions = window sums.

### C12 ADWIN's window is a contiguous suffix of the stream

* Status: proved. Every call sequence (adds, checks, resets, clock changes) and every cut predicate; the buckets partition a suffix.
* Code: `drift_detection/adwin.py:ADWIN.add_element`, `drift_detection/adwin.py:ADWIN.delete_element`, `drift_detection/adwin.py:ADWIN.detected_change`
* Lean: `Verif/Adwin/Props.lean`
* Theorems: `C12_window_is_a_suffix`, `C12_add_appends`
* How: Bucket rows as lists with a ghost partition of the stream into runs; simulation invariant preserved by insert, compress and delete.

### C13 ADWIN uses logarithmic memory

* Status: proved. Rows of at most 5 buckets of 2^i elements (C12 gives the sizes), at most log2(width)+1 rows.
* Code: `drift_detection/adwin.py:ADWIN`, `drift_detection/adwin.py:List`, `drift_detection/adwin.py:Item`
* Lean: `Verif/Adwin/Props.lean`
* Theorems: `C13_logarithmic_memory`, `C13_bucket_count`
* How: Structural invariant on rows; arithmetic bound.

### C14 ADWIN's change check terminates, never empties the window and reports truthfully

* Status: proved. Termination measured by fuel width+1; the numpy division by zero is modelled as an error and shown unreachable.
* Code: `drift_detection/adwin.py:ADWIN.detected_change`, `drift_detection/adwin.py:ADWIN.delete_element`
* Lean: `Verif/Adwin/Props.lean`
* Theorems: `C14_change_check`, `C14_counters`, `C14_terminates`
* How: Loop with fuel = width, shown to suffice; guards proved.

### C15 ADWIN's incremental variance is the variance of the window

* Status: partial. Exact until the first drop, never too small in any reachable state; C15_variance_violated shows it is too large after a merged bucket is dropped (the first bucket's variance is lost in the merge).
* Code: `drift_detection/adwin.py:ADWIN.__insert_element`, `drift_detection/adwin.py:ADWIN.__compress_buckets`, `drift_detection/adwin.py:ADWIN.delete_element`
* Lean: `Verif/Adwin/Props.lean`
* Theorems: `C15_variance_exact_partial`, `C15_variance_never_too_small_partial`, `C15_variance_violated`
* How: Welford identity without drops; violation by a concrete stream.

### C16 DDM statistics restart after a drift and follow the error rate

* Status: proved. Square root is an arbitrary function (non-negative where stated).
* Code: `drift_detection/ddm.py:DDM`
* Lean: `Verif/Drift/DDMProps.lean`
* Theorems: `C16_restart`, `C16_error_rate`, `C16_decision`, `C16_exclusive`, `C16_min_instances`, `C16_sqrt_arg`
* How: DDM step machine, sqrt a parameter.

### C17 EDDM never signals before 30 errors and only on errors

* Status: proved. For every non-negative square root.
* Code: `drift_detection/eddm.py:EDDM`
* Lean: `Verif/Drift/EDDMProps.lean`
* Theorems: `C17_restart`, `C17_statistics`, `C17_decision`, `C17_only_after_30_errors`, `C17_exclusive`
* How: EDDM step machine.

### C18 Page-Hinkley statistics restart after detection and the statistic is non-negative

* Status: partial. Everything proved except the intended minimum: the guard is off by one (C18_min_instances_violated).
* Code: `drift_detection/page_hinkley.py:PageHinkley`
* Lean: `Verif/Drift/DDMProps.lean`
* Theorems: `C18_restart`, `C18_statistics`, `C18_decision_partial`, `C18_min_instances_violated`
* How: Page-Hinkley step machine; statistics since the last restart in closed form by induction; the missing min-instances guard is refuted by a witness.

### C19 HDDM_A never raises and its estimate is a mean of recent values

* Status: proved. Confidences such that the logarithms are non-negative.
* Code: `drift_detection/hddm_a.py:HDDM_A`
* Lean: `Verif/Drift/HDDMProps.lean`
* Theorems: `C19_estimation`, `C19_range`, `C19_report_means_increase`
* How: HDDM_A step machine with error values for division.

### C20 HDDM_W's two-sided option has no effect

* Status: proved. The option is inert on every stream.
* Code: `drift_detection/hddm_w.py:HDDM_W`
* Lean: `Verif/Drift/HDDMProps.lean`
* Theorems: `C20_two_side_option_inert`, `C20_never_raises`
* How: HDDM_W step machine with an error value for every division; equality of the two runs for every input sequence.

### C21 KSWIN's window is a bounded suffix of the stream

* Status: proved. KS test and random choice are arbitrary functions.
* Code: `drift_detection/kswin.py:KSWIN`
* Lean: `Verif/Drift/KSWINProps.lean`
* Theorems: `C21_window`, `C21_change`, `C21_large_stat_size_raises`
* How: KSWIN step machine, KS test and sampling are parameters; induction over the stream.

### C22 Stream batches partition the data in order and restart replays them

* Status: proved. Every data set, batch sizes and restarts.
* Code: `data/data_stream.py:DataStream.next_sample`, `data/file_stream.py:FileStream.next_sample`
* Lean: `Verif/Streams/DataStreamProps.lean`
* Theorems: `C22_batches_partition`, `C22_batches_aligned`, `C22_has_more`, `C22_restart_replays`
* How: Stream cursor machine over a list of rows.

### C23 Delayed labels are delivered exactly once and never early

* Status: proved. Unweighted queue; the sort is any sorting permutation. next_sample before anything was queued raises (C53).
* Code: `data/time_manager.py:TimeManager`
* Lean: `Verif/Streams/TimeManager.lean`
* Theorems: `C23_exactly_once`, `C23_available_is_exact`, `C23_next_is_earliest`, `C23_has_more`
* How: TimeManager queue machine; `sort_values` is any function that returns a sorted permutation; invariant over all operation histories.

### C24 Balanced generators alternate the classes

* Status: proved. Generic rejection loop instantiated for SEA, STAGGER, Sine, Mixed and AGRAWAL; conditional on the loop finding a sample.
* Code: `data/sea_generator.py:SEAGenerator.next_sample`, `data/stagger_generator.py:STAGGERGenerator.next_sample`, `data/sine_generator.py:SineGenerator.next_sample`, `data/mixed_generator.py:MIXEDGenerator.next_sample`, `data/agrawal_generator.py:AGRAWALGenerator.next_sample`
* Lean: `Verif/Streams/GeneratorProps.lean`
* Theorems: `C24_generic`, `C24_sea`, `C24_stagger`, `C24_sine`, `C24_mixed`, `C24_agrawal`, `C24_unbalanced_labels`
* How: Balanced rejection loop over an infinite sample source with fuel.

### C25 Prequential evaluation tests every sample before training on it

* Status: proved. Learners are arbitrary state machines; exceptions raised by learners are not modelled.
* Code: `evaluation/evaluate_prequential.py:EvaluatePrequential._train_and_test`
* Lean: `Verif/Evaluation/Props.lean`, `Verif/Evaluation/Schedule.lean`
* Theorems: `C25_test_then_train`, `C25_sample_limit`
* How: Evaluator loop as a producer of an event trace (predict / train / record); the trace is compared with the expected interleaving.

### C26 Holdout test samples never leak into training

* Status: proved. Static and dynamic test sets.
* Code: `evaluation/evaluate_holdout.py:EvaluateHoldout._periodic_holdout`
* Lean: `Verif/Evaluation/Props.lean`
* Theorems: `C26_static`, `C26_dynamic`
* How: Holdout loop as event trace.

### C27 Prequential evaluation with delayed labels never trains on an unavailable label

* Status: proved. Unweighted finite temporal streams; the list of models is one product learner, with the transposition proved separately.
* Code: `evaluation/evaluate_prequential_delayed.py:EvaluatePrequentialDelayed._train_and_test`, `data/time_manager.py:TimeManager`
* Lean: `Verif/Evaluation/DelayedProps.lean`
* Theorems: `C27_delayed`, `C27_transpose_roundtrip`
* How: Delayed evaluator loop as an event trace together with the label queue; induction over the main and the final loop.

### C28 Result file contains every line exactly once in order

* Status: proved. Line text and sizes arbitrary.
* Code: `evaluation/base_evaluator.py:StreamEvaluator._update_file`, `evaluation/base_evaluator.py:StreamEvaluator._flush_file_buffer`
* Lean: `Verif/Evaluation/FileBuffer.lean`
* Theorems: `C28_file_complete`, `C28_file_always_whole_lines`, `C28_buffer_bounded`
* How: Line buffer machine.

### C29 Missing-value cleaning removes every missing value and changes nothing else

* Status: partial. Replacement rule proved for all strategies and absence of missing values for zero/custom; for the windowed strategies the last part is refuted by C29_windowed_violated.
* Code: `transform/missing_values_cleaner.py:MissingValuesCleaner`
* Lean: `Verif/Transform/Props.lean`
* Theorems: `C29_only_missing_replaced`, `C29_none_left`, `C29_windowed_violated`
* How: Entry-wise cleaner over matrices, strategies as parameters; the windowed strategy is refuted by a witness.

### C30 Windowed min-max scaling maps the window onto the configured range

* Status: proved. The identity is proved, so scaling is refuted (C30_scaling_violated).
* Code: `transform/windowed_minmax_scaler.py:WindowedMinmaxScaler`
* Lean: `Verif/Transform/Props.lean`
* Theorems: `C30_identity`, `C30_scaling_violated`
* How: Algebra on the transform formula.

### C31 kNN class probabilities form a distribution

* Status: proved. Neighbour search is an arbitrary function returning n_neighbors valid positions; labels are natural numbers; also the majority/tie rule of predict and the cold start.
* Code: `lazy/knn_classifier.py:KNNClassifier.predict_proba`
* Lean: `Verif/Lazy/KNN.lean`
* Theorems: `C31_proba_is_frequency`, `C31_predict_is_majority`, `C31_cold_start`
* How: Vote counting; sums.

### C32 kNN regression predicts each row from its own neighbours

* Status: partial. Holds for single-row queries (C32_single_row); violated for several rows (C32_multirow_violated), and several rows raise ValueError before n_neighbors samples are known (C32_cold_start).
* Code: `lazy/knn_regressor.py:KNNRegressor.predict`
* Lean: `Verif/Lazy/KNN.lean`
* Theorems: `C32_all_rows_share`, `C32_single_row`, `C32_cold_start`, `C32_multirow_violated`
* How: Model of the double loop; witness.

### C33 Gaussian estimator equals the weighted mean and variance of what it saw

* Status: proved. Exact rational arithmetic; None and infinite values are ignored.
* Code: `trees/gaussian_estimator.py:GaussianEstimator.add_observation`, `trees/gaussian_estimator.py:GaussianEstimator.get_variance`
* Lean: `Verif/Trees/Gaussian.lean`
* Theorems: `C33_weighted_moments`, `C33_order_independent`, `C33_variance_nonneg`
* How: Welford recurrence; closed form over ℚ.

### C34 Nominal observer split distributions conserve class weight

* Status: proved. Multiway and binary distributions, Laplace probabilities and the choice of the best candidate.
* Code: `trees/_attribute_observer/nominal_attribute_class_observer.py:NominalAttributeClassObserver`
* Lean: `Verif/Trees/Nominal.lean`
* Theorems: `C34_multiway`, `C34_multiway_conserves`, `C34_binary`, `C34_laplace`, `C34_unseen_class`, `C34_best`
* How: Per-class association maps; conservation sums.

### C35 The regression attribute observer's candidate splits are exact

* Status: proved. Candidates and the returned best split; an arbitrary criterion.
* Code: `trees/_attribute_observer/numeric_attribute_regression_observer.py:NumericAttributeRegressionObserver`
* Lean: `Verif/Trees/EBST.lean`
* Theorems: `C35_candidates`, `C35_best_split`, `C35_no_value`
* How: E-BST as binary tree; invariant over inserts.

### C36 Split tests route every instance to the branch whose rule describes it

* Status: proved. Also the off-by-one of the bounds check (C36_index_boundary).
* Code: `trees/_attribute_test/numeric_attribute_binary_test.py:NumericAttributeBinaryTest`, `trees/_attribute_test/nominal_attribute_binary_test.py:NominalAttributeBinaryTest`, `trees/_attribute_test/nominal_attribute_multiway_test.py:NominalAttributeMultiwayTest`
* Lean: `Verif/Trees/SplitTest.lean`
* Theorems: `C36_numeric`, `C36_nominal_binary`, `C36_multiway_rule`, `C36_multiway_stable`, `C36_index_boundary`, `C36_index_boundary_nominal`, `C36_multiway_unknown`
* How: Branch function versus rule predicate.

### C37 Hoeffding tree node counters equal the actual tree

* Status: proved.
* Code: `trees/hoeffding_tree.py:HoeffdingTreeClassifier._partial_fit`, `trees/hoeffding_tree.py:HoeffdingTreeClassifier._attempt_to_split`, `trees/hoeffding_tree.py:HoeffdingTreeClassifier._enforce_tracker_limit`
* Lean: `Verif/Trees/Hoeffding.lean`
* Theorems: `C37_counters`, `C37_children_contiguous`
* How: Tree datatype with counters; invariant over steps.

### C38 Dynamic weighted majority keeps a bounded, normalised, non-empty ensemble

* Status: proved. step, size bound, normalised weights, weakest expert replaced
* Code: `meta/dynamic_weighted_majority.py:DynamicWeightedMajorityClassifier.fit_single_sample`
* Lean: `Verif/Meta/Experts.lean`
* Theorems: `C38_step`, `C38_bounded_normalised`, `C38_weakest_replaced`
* How: Expert list machine; invariant.

### C39 Additive expert ensemble prunes the weakest expert

* Status: partial. code prunes the wrong expert under 'weakest' (violations proved); size bound, weights and oldest-first pruning proved
* Code: `meta/additive_expert_ensemble.py:AdditiveExpertEnsembleClassifier.fit_single_sample`, `meta/additive_expert_ensemble.py:AdditiveExpertEnsembleClassifier._add_expert`
* Lean: `Verif/Meta/Experts.lean`
* Theorems: `C39_prunes_wrong_expert_violated`, `C39_full_ensemble_frozen_violated`, `C39_oldest_fifo`, `C39_size_and_weights_partial`
* How: Expert list machine; witness.

### C40 Accuracy weighted ensemble predicts each row independently

* Status: partial. all rows of a call share one dictionary (violation proved for every pool); single-row voting and empty pool proved
* Code: `meta/accuracy_weighted_ensemble.py:AccuracyWeightedEnsembleClassifier.predict`
* Lean: `Verif/Meta/AWE.lean`
* Theorems: `C40_single_row_partial`, `C40_rows_share_votes_violated`, `C40_empty_pool`
* How: Shared dict fold; witness.

### C41 Batch-incremental training partitions the stream into windows

* Status: proved.
* Code: `meta/batch_incremental.py:BatchIncrementalClassifier.partial_fit`
* Lean: `Verif/Meta/BatchInc.lean`
* Theorems: `C41_windows`, `C41_windows_cover`
* How: Buffer machine; closed form by induction on samples.

### C42 Leveraging bagging training terminates

* Status: partial. non-termination witness proved; rows balanced whenever the loop ends
* Code: `meta/leverage_bagging.py:LeveragingBaggingClassifier.__init_output_codes`
* Lean: `Verif/Meta/Leverage.lean`
* Theorems: `C42_never_terminates_violated`, `C42_rows_balanced`, `C42_can_terminate`
* How: Rejection loop; parity argument for all random sources.

### C43 Online boosting weights stay well defined

* Status: proved. rates, error estimates and absence of division by zero
* Code: `meta/online_boosting.py:OnlineBoostingClassifier.partial_fit`
* Lean: `Verif/Meta/Boosting.lean`
* Theorems: `C43_rates_positive`, `C43_error_estimate`
* How: Per-sample update machine; invariant.

### C44 Chained predictors return labels in the original order

* Status: proved.
* Code: `meta/classifier_chains.py:ClassifierChain`, `meta/regressor_chains.py:RegressorChain`
* Lean: `Verif/Meta/Chains.lean`
* Theorems: `C44_training_tables`, `C44_columns_in_target_order`
* How: Permutation algebra.

### C45 Half-space trees classify each row separately

* Status: partial. every row gets the class of the first row (violation proved in general and by a reachable witness); single-row calls proved
* Code: `anomaly_detection/half_space_trees.py:HalfSpaceTrees.predict`
* Lean: `Verif/Anomaly/HST.lean`
* Theorems: `C45_single_row_partial`, `C45_all_rows_as_first_violated`, `C45_batch_differs_violated`
* How: Row loop; witness.

### C46 Half-space tree masses count the samples of the window

* Status: partial. exact characterisation of the masses proved; in the second window the reference profile is a single row and the first row is lost (violation proved)
* Code: `anomaly_detection/half_space_trees.py:HalfSpaceTree.update_mass`, `anomaly_detection/half_space_trees.py:HalfSpaceTree.update_model`
* Lean: `Verif/Anomaly/HST.lean`
* Theorems: `C46_masses_partial`, `C46_reference_of_one_row_violated`
* How: Tree with masses; invariant.

### C47 Windowed default precision, recall and F1 are those of the last window_size results

* Status: partial. Proved when all labels are declared classes; violated otherwise (C47_window_macro_violated).
* Code: `metrics/_classification_performance_evaluator.pyx:WindowClassificationPerformanceEvaluator`, `metrics/_confusion_matrix.pyx:ConfusionMatrix`
* Lean: `Verif/Metrics/Scores.lean`
* Theorems: `C47_window_defaults_partial`, `C47_window_macro_violated`
* How: Closed forms of the default (averaged) window scores; witness where classes that left the window still count.

### C48 Kappa-T and Kappa-M compare against the no-change and majority baselines

* Status: partial. Kappa-T proved; the Kappa-M baseline peeks at the label (C48_majority_baseline_violated).
* Code: `metrics/_classification_performance_evaluator.pyx:ClassificationPerformanceEvaluator.kappa_t_score`, `metrics/_classification_performance_evaluator.pyx:ClassificationPerformanceEvaluator.kappa_m_score`, `metrics/_classification_performance_evaluator.pyx:ClassificationPerformanceEvaluator.add_result`
* Lean: `Verif/Metrics/Baselines.lean`
* Theorems: `C48_kappa_t`, `C48_kappa_m`, `C48_kappa_empty`, `C48_kappa_t_le_one`, `C48_majority_baseline_partial`, `C48_majority_baseline_violated`
* How: Baseline weights as folds over the history; kappa-T in closed form; kappa-M compared with a predictor that may only use the past.

### C49 Windowed multi-label scores are those of the last window_size results

* Status: proved. Equal vector lengths, window_size >= 1.
* Code: `metrics/_classification_performance_evaluator.pyx:WindowMultiLabelClassificationPerformanceEvaluator`
* Lean: `Verif/Metrics/MultiLabelProps.lean`
* Theorems: `C49_window_scores`
* How: Windowed multi-label evaluator simulated by the cumulative one on the window.

### C50 HDDM_A never reports a decrease

* Status: proved.
* Code: `drift_detection/hddm_a.py:HDDM_A.add_element`, `drift_detection/hddm_a.py:HDDM_A._mean_decr`
* Lean: `Verif/Drift/HDDMProps.lean`
* Theorems: `C50_decrease_never_reported`
* How: HDDM_A runs that see only decreasing means never signal; induction with the cut invariant.

### C51 Loading a table never mixes targets into the features

* Status: partial. Holds for every range inside the table and for FileStream's default; DataStream's default with several targets is the proved violation.
* Code: `data/data_stream.py:DataStream._load_data`, `data/file_stream.py:FileStream._load_data`, `data/file_stream.py:FileStream.__init__`
* Lean: `Verif/Streams/DataStreamProps.lean`
* Theorems: `C51_columns_split`, `C51_file_stream_default`, `C51_file_stream_explicit`, `C51_data_stream_default_violated`
* How: Column selection on rows; permutation statement for explicit targets, witness for the default of DataStream.

### C52 Reordering a temporal stream keeps every sample together

* Status: proved. Per-sample delays and times; argsort any permutation that sorts.
* Code: `data/temporal_data_stream.py:TemporalDataStream.__init__`
* Lean: `Verif/Streams/DataStreamProps.lean`
* Theorems: `C52_reorder_keeps_samples`
* How: Stable sorting of the four parallel lists; the multiset of tuples is preserved.

### C53 Weighted delayed samples can never be drained

* Status: proved. The property states the failure.
* Code: `data/time_manager.py:TimeManager.next_sample`, `data/time_manager.py:TimeManager.update_queue`
* Lean: `Verif/Streams/TimeManager.lean`
* Theorems: `C53_weighted_next_raises`, `C53_weighted_available`
* How: Direct execution of the modelled method with a weight column present.

### C54 AGRAWAL features stay in their documented ranges

* Status: partial. Salary, age, education, zip code, years and loan proved in range; house value and commission violated.
* Code: `data/agrawal_generator.py:AGRAWALGenerator.next_sample`, `data/agrawal_generator.py:AGRAWALGenerator._perturb_value`
* Lean: `Verif/Streams/GeneratorProps.lean`
* Theorems: `C54_ranges_partial`, `C54_house_value_violated`, `C54_commission_violated`
* How: Rejection-free generator loops with arbitrary random sources; interval arithmetic for each attribute; witnesses for the violated ranges.

### C55 generate_drift always changes the concept

* Status: proved. Termination of the redraw loop is conditional on the random source.
* Code: `data/sea_generator.py:SEAGenerator.generate_drift`, `data/mixed_generator.py:MIXEDGenerator.generate_drift`, `data/sine_generator.py:SineGenerator.generate_drift`
* Lean: `Verif/Streams/GeneratorProps.lean`
* Theorems: `C55_drift_changes_function`, `C55_mixed_drift_complements`, `C55_sine_complements`
* How: Drift switches as functions on the classification-function index; complement identities by case analysis.

### C56 Evaluations of fewer than 20 samples stop after one batch

* Status: proved.
* Code: `evaluation/base_evaluator.py:StreamEvaluator._check_progress`, `evaluation/evaluate_prequential.py:EvaluatePrequential._train_and_test`, `evaluation/evaluate_holdout.py:EvaluateHoldout._periodic_holdout`
* Lean: `Verif/Evaluation/Props.lean`
* Theorems: `C56_prequential_short`, `C56_holdout_short`
* How: Trace model run on streams shorter than requested; loop bounds by induction.

### C57 Delayed evaluation requires a pre-training block

* Status: proved.
* Code: `evaluation/evaluate_prequential_delayed.py:EvaluatePrequentialDelayed._train_and_test`
* Lean: `Verif/Evaluation/DelayedProps.lean`, `Verif/Evaluation/NoPretrain.lean`
* Theorems: `C57_no_pretrain_raises`, `C57_new_evaluator_raises`, `C57_every_evaluation_raises`
* How: `Evaluation/NoPretrain.lean` on the model of `Reuse.lean`, where the time manager is an attribute that may be missing and is read where the code reads it: the main loop catches the error, the loop that empties the queue does not; by induction every evaluation in the life of the object raises. `C57_no_pretrain_raises` states it for the model of `Delayed.lean`.

### C58 Delayed evaluation does not respect sample weights

* Status: proved.
* Code: `evaluation/evaluate_prequential_delayed.py:EvaluatePrequentialDelayed._train_and_test`, `data/time_manager.py:TimeManager.next_sample`
* Lean: `Verif/Evaluation/DelayedProps.lean`
* Theorems: `C58_weights_of_other_samples`, `C58_weighted_run_raises`
* How: Trace model with a weight per sample; the weights passed are those of other samples, then a length mismatch raises.

### C59 Windowed standard scaling uses only earlier rows

* Status: proved. The standard deviation is an arbitrary function of the column.
* Code: `transform/windowed_standard_scaler.py:WindowedStandardScaler.transform`
* Lean: `Verif/Transform/Props.lean`
* Theorems: `C59_standardised`
* How: Algebra on the windowed standardisation; mean and variance of the transformed window.

### C60 One-hot decoding is right exactly when the row ends with a category block

* Status: proved.
* Code: `transform/one_hot_to_categorical.py:OneHotToCategorical._transform`
* Lean: `Verif/Transform/Props.lean`
* Theorems: `C60_one_hot`
* How: Column expansion as list surgery with decreasing indices; induction over the categorical columns.

### C61 kNN-ADWIN keeps the newest samples after a change

* Status: proved. ADWIN's answers are arbitrary.
* Code: `lazy/knn_adwin.py:KNNADWINClassifier.partial_fit`
* Lean: `Verif/Lazy/KNN.lean`, `Verif/Lazy/KNNAdwin.lean`
* Theorems: `C61_shrink`, `C61_partial_fit`
* How: Window shrink loop; closed form.

### C62 Pruning the regression attribute observer keeps the statistics exact

* Status: partial. Proved for the state right after pruning; violated for later observations (C62_stats_after_prune_violated), where the statistics are still those of some of the observations below the threshold (C62_subset_partial).
* Code: `trees/_attribute_observer/numeric_attribute_regression_observer.py:NumericAttributeRegressionObserver.remove_bad_splits`
* Lean: `Verif/Trees/EBST.lean`, `Verif/Trees/EBSTPrune.lean`
* Theorems: `C62_prune_exact_partial`, `C62_prune_keeps_best_partial`, `C62_stats_after_prune_violated`, `C62_all_pruned_raises`, `C62_subset_partial`
* How: Pruned E-BST compared with the unpruned one; statistics after pruning refuted by a witness; sublist invariant over updates and prunings.

### C63 Gaussian observer splits conserve class weight

* Status: proved. Density and distribution function are arbitrary (values of the latter in [0,1]).
* Code: `trees/_attribute_observer/numeric_attribute_class_observer_gaussian.py:NumericAttributeClassObserverGaussian`, `trees/gaussian_estimator.py:GaussianEstimator.estimated_weight_lessthan_equalto_greaterthan_value`
* Lean: `Verif/Trees/Gaussian.lean`
* Theorems: `C63_split_conserves_weight`, `C63_split_points`, `C63_light_class_on_wrong_side`
* How: Per-class Gaussian model with an arbitrary cumulative distribution function; sums over classes.

### C64 Nominal regression observer splits are exact

* Status: proved. Single-target statistics.
* Code: `trees/_attribute_observer/nominal_attribute_regression_observer.py:NominalAttributeRegressionObserver`
* Lean: `Verif/Trees/Nominal.lean`
* Theorems: `C64_nominal_regression`
* How: Per-category statistics as sorted association lists; closed form by induction over observations.

### C65 Hoeffding tree memory management keeps the most promising leaves

* Status: proved.
* Code: `trees/hoeffding_tree.py:638-667`, `trees/hoeffding_tree.py:704-748`, `trees/hoeffding_tree.py:762-789`
* Lean: `Verif/Trees/Hoeffding.lean`, `Verif/Trees/MemoryPolicy.lean`
* Theorems: `C65_memory_limit`, `C65_most_promising`
* How: Heartbeat procedure over the learning nodes; ordering argument on promises.

### C66 Pre-pruning in Hoeffding trees

* Status: proved.
* Code: `trees/hoeffding_tree.py:611-667`, `trees/hoeffding_tree.py:327-337`
* Lean: `Verif/Trees/Hoeffding.lean`
* Theorems: `C66_preprune_undone`, `C66_preprune_stops_growth`, `C66_growth_never_resumes`
* How: Attempt-to-split with pre-pruning on the tree datatype; counters and flags followed through the next calls.

### C67 Removing poor attributes in Hoeffding trees

* Status: partial. violated with pre-pruning on; proved with no_preprune
* Code: `trees/hoeffding_tree.py:576-610`, `trees/_nodes/base.py:449-480`
* Lean: `Verif/Trees/Attempt.lean`
* Theorems: `C67_remove_poor_atts_violated`, `C67_poor_atts_partial`
* How: Poor-attribute removal loop on the merit list; general violation from the aliasing of the index test, and what is removed.

### C68 Hoeffding tree split decision

* Status: proved.
* Code: `trees/hoeffding_tree.py:576-615`, `trees/_nodes/base.py:449-480`
* Lean: `Verif/Trees/Attempt.lean`
* Theorems: `C68_decision`, `C68_single`, `C68_pure`
* How: Decision function compared with the Hoeffding criterion stated on the sorted merits.

### C69 Expert ensembles predict the weighted majority class

* Status: partial. rounded weighted mean can be an unvoted class (violation proved); binary case proved
* Code: `meta/dynamic_weighted_majority.py:155-176`, `meta/additive_expert_ensemble.py:157-178`
* Lean: `Verif/Meta/Experts.lean`
* Theorems: `C69_predicts_unvoted_class_violated`, `C69_binary_majority_partial`
* How: Rounded weighted mean versus weighted vote; witness with three classes; binary case by ordering of the two weights.

### C70 Drift resets the worst member

* Status: partial. accuracy-fed detectors reset a most accurate member (violation proved for all states); leveraging bagging correct
* Code: `meta/leverage_bagging.py:284-303`, `meta/oza_bagging_adwin.py:175-200`, `meta/online_boosting.py:227-250`
* Lean: `Verif/Meta/Boosting.lean`
* Theorems: `C70_leverage_resets_worst_partial`, `C70_accuracy_fed_resets_best_violated`
* How: Search loop for the largest estimation; detector windows as lists of outcomes; compared with accuracies.

### C71 Batch-incremental ensemble predicts the majority class

* Status: partial. multi-class violation proved; binary case proved
* Code: `meta/batch_incremental.py:144-185`
* Lean: `Verif/Meta/BatchInc.lean`
* Theorems: `C71_binary_majority_partial`, `C71_multiclass_violated`
* How: Mean of member labels cut at one half; binary case counts votes, multi-class violation for every larger label.

### C72 Online boosting: a member's vote counts, more so the smaller its error

* Status: partial. members with error 0 or 1 are ignored (violation proved); otherwise the log-odds weighted vote is proved
* Code: `meta/online_boosting.py:282-362`
* Lean: `Verif/Meta/Boosting.lean`
* Theorems: `C72_perfect_members_ignored_violated`, `C72_weighted_vote_partial`, `C72_probabilities_partial`, `C72_new_class_unweighted_violated`
* How: Row accumulation loop with skipped and appended entries; closed form when all members know the same classes.

### C73 Accuracy-weighted ensemble keeps the best models

* Status: proved. pool update, chunking for arbitrary streams, weight bounds
* Code: `meta/accuracy_weighted_ensemble.py:151-224`, `meta/accuracy_weighted_ensemble.py:316-458`
* Lean: `Verif/Meta/AWE.lean`
* Theorems: `C73_keeps_best`, `C73_chunks`, `C73_weights`, `C73_baseline_is_random_guessing`
* How: Chunk array with pointer simulated by consecutive chunks; pool update shown to be a multiset minus a minimum.

### C74 Chain probabilities are in target order

* Status: partial. columns of predict_proba are in chain order (violation proved for every non-identity order); default order proved
* Code: `meta/classifier_chains.py:207-237`
* Lean: `Verif/Meta/Chains.lean`
* Theorems: `C74_proba_columns_permuted_violated`, `C74_default_order_partial`
* How: Output loop of the chain in closed form; for every non-identity order a pair of learners that exposes the permutation.

### C75 Probabilistic chain returns a most probable label vector

* Status: partial. maximality proved in chain order for all chains; target order violated for non-default orders
* Code: `meta/classifier_chains.py:248-275`, `meta/classifier_chains.py:327-361`
* Lean: `Verif/Meta/Chains.lean`
* Theorems: `C75_most_probable`, `C75_order_not_undone_violated`
* How: Exhaustive search over bit vectors; surjectivity of the binary representation; running-maximum invariant.

### C76 Monte Carlo chain is never worse than the greedy chain

* Status: proved.
* Code: `meta/classifier_chains.py:456-500`
* Lean: `Verif/Meta/Chains.lean`
* Theorems: `C76_never_worse_than_greedy`
* How: Running-maximum invariant.

### C77 Half-space trees halve the work space

* Status: partial. lower bounds not restored (violation proved); every split lies in the upper half of its region
* Code: `anomaly_detection/half_space_trees.py:434-463`
* Lean: `Verif/Anomaly/HST.lean`
* Theorems: `C77_lower_bound_not_restored_violated`, `C77_splits_inside_partial`
* How: Construction with threaded work space; invariant true bound ≤ used bound ≤ upper bound; witness.

### C78 Half-space trees can use every feature

* Status: partial. last feature never used (violation proved for all streams and draws); every other feature can matter
* Code: `anomaly_detection/half_space_trees.py:434-463`, `anomaly_detection/half_space_trees.py:408-432`
* Lean: `Verif/Anomaly/HST.lean`
* Theorems: `C78_last_feature_ignored_violated`, `C78_other_features_count_partial`
* How: Relational induction over two streams that agree on all features but the last.

### C79 Half-space trees return probabilities

* Status: proved.
* Code: `anomaly_detection/half_space_trees.py:202-233`, `anomaly_detection/half_space_trees.py:344-432`
* Lean: `Verif/Anomaly/HST.lean`
* Theorems: `C79_score_is_scaled_mass`, `C79_probabilities`
* How: Masses bounded by the window size; running mean equals the mean; normalisation is the identity.

### C80 A concept drift stream interleaves its two streams

* Status: proved.
* Code: `data/concept_drift_stream.py:139-174`
* Lean: `Verif/Streams/ConceptDrift.lean`
* Theorems: `C80_interleaving`, `C80_batches`, `C80_restart`
* How: Loop over abstract streams; induction gives the choice sequence and the interleaving; batches by induction.

### C81 The drift probability rises through one half at the drift position

* Status: proved.
* Code: `data/concept_drift_stream.py:158-166`
* Lean: `Verif/Streams/ConceptDrift.lean`
* Theorems: `C81_drift_probability`
* How: Algebra over any strictly monotone positive exp with exp 0 = 1.

### C82 A concept drift stream knows how many samples remain

* Status: partial. false when exactly one stream is unbounded, and for two bounded streams has_more_samples ends earlier than n_remaining_samples says
* Code: `data/concept_drift_stream.py:106-127`
* Lean: `Verif/Streams/ConceptDrift.lean`
* Theorems: `C82_remaining_partial`, `C82_mixed_violated`, `C82_has_more_disagrees_violated`, `C82_has_more_partial`, `C82_too_many_violated`
* How: answers of the two streams combined by the code; `C82_too_many_violated` reads sample by sample until has_more_samples() is false: by induction on what is left in both streams the reader always gets fewer samples than announced, whatever the random numbers

### C83 Concept drift streams built with defaults are independent

* Status: partial. false: the default streams are shared; what holds is that both objects together see one interleaving
* Code: `data/concept_drift_stream.py:61-66`, `data/concept_drift_stream.py:157-166`
* Lean: `Verif/Streams/ConceptDrift.lean`
* Theorems: `C83_defaults_are_shared`, `C83_independence_violated`
* How: Two objects over one pair of streams; induction over call sequences; witness of interference.

### C84 LED noise inverts segments at the configured rate

* Status: partial. the noise-free part is proved; the rate is p - 0.01, so the claim about p is false
* Code: `data/led_generator.py:90-99`, `data/led_generator.py:198-218`
* Lean: `Verif/Streams/LED.lean`
* Theorems: `C84_noise_free`, `C84_inverted_iff_partial`, `C84_noise_percentage_violated`
* How: Segment loop; noise-free rows by induction, distinct digits by evaluation; threshold by case analysis.

### C85 LED drift rearranges the columns

* Status: partial. proved for up to seven moved attributes; false for eight or more
* Code: `data/led_generator_drift.py:77-136`
* Lean: `Verif/Streams/LED.lean`
* Theorems: `C85_columns_permuted`, `C85_more_than_seven_violated`
* How: Loop invariant of the map: the swapped pairs and the untouched rest; for eight or more, pigeonhole.

### C86 LED drift generators do not disturb each other

* Status: partial. false: the column map is shared by all generators; proved for generators without moved attributes
* Code: `data/led_generator_drift.py:74-96`, `data/led_generator_drift.py:117-136`
* Lean: `Verif/Streams/LED.lean`
* Theorems: `C86_shared_map_violated`, `C86_undrifted_partial`
* How: Writes with an arbitrary class map; IndexError by induction over the writes.

### C87 Finite generators hand out their table and know when it ends

* Status: partial. order and replay proved; has_more_samples is right for the regression generator only
* Code: `data/anomaly_sine_generator.py:106-167`, `data/multilabel_generator.py:116-159`, `data/regression_generator.py:144-198`, `data/base_stream.py:249-269`
* Lean: `Verif/Streams/Synthetic.lean`
* Theorems: `C87_tables_in_order`, `C87_regression_has_more_partial`, `C87_has_more_violated`, `C87_remaining_negative_violated`
* How: Closed forms of the index and the returned slices by induction over batch sizes.

### C88 restart() replays a drifted generator from its first concept

* Status: partial. false after generate_drift; proved without it
* Code: `data/base_stream.py:242-247`, `data/stagger_generator.py:295-305`, `data/mixed_generator.py:216-218`
* Lean: `Verif/Streams/Synthetic.lean`
* Theorems: `C88_restart_replays_partial`, `C88_restart_after_drift_violated`, `C88_stagger_replay_differs_violated`
* How: Restart resets the random state only; witness with STAGGER.

### C89 Hyperplane samples lie on the side their label says

* Status: proved.
* Code: `data/hyper_plane_generator.py:182-243`
* Lean: `Verif/Streams/Synthetic.lean`
* Theorems: `C89_label`, `C89_noise`, `C89_drift_is_bounded`
* How: Drift loop invariant (lengths, signs, step bound); induction over samples.

### C90 Drifting RBF centroids stay in the unit cube

* Status: proved.
* Code: `data/random_rbf_generator_drift.py:123-141`
* Lean: `Verif/Streams/Synthetic.lean`
* Theorems: `C90_centroids_stay_inside`, `C90_step_bounded`
* How: Invariant under reflection; induction over samples.

### C91 Weighted index choice follows the weights

* Status: proved.
* Code: `data/pseudo_random_processes.py:4-31`
* Lean: `Verif/Streams/Synthetic.lean`
* Theorems: `C91_weighted_index`, `C91_zero_weight_never_chosen`
* How: Loop specification by induction; uniqueness from monotone partial sums.

### C92 Random tree generator: well-formed tree and labelled samples

* Status: partial. proved with at least one numeric feature; without, construction can raise
* Code: `data/random_tree_generator.py:139-360`
* Lean: `Verif/Streams/RandomTree.lean`
* Theorems: `C92_tree_well_formed`, `C92_samples_labelled`, `C92_no_numeric_features_violated`
* How: Well-formedness predicate with cell bounds and unused features; induction over the remaining depth; classification by induction over the predicate.

### C93 Expert ensembles charge exactly the experts that erred

* Status: proved.
* Code: `meta/dynamic_weighted_majority.py:181-249`, `meta/additive_expert_ensemble.py:185-249`
* Lean: `Verif/Meta/Experts.lean`
* Theorems: `C93_dwm_penalties`, `C93_aee_penalties`
* How: one training step unfolded to an explicit list of experts (permutation for the sorted variant)

### C94 A split criterion's merit lies within the range it reports

* Status: partial. proved for information gain and Gini; the Hellinger distance reaches the square root of 2 and variance reduction is unbounded while both report 1
* Code: `trees/_split_criterion/info_gain_split_criterion.py:21-72`, `trees/_split_criterion/gini_split_criterion.py:7-30`, `trees/_split_criterion/hellinger_distance_criterion.py:27-69`, `trees/_split_criterion/variance_reduction_split_criterion.py:19-48`
* Lean: `Verif/Trees/Criteria.lean`
* Theorems: `C94_infogain`, `C94_gini`, `C94_hellinger_partial`, `C94_hellinger_range_violated`, `C94_variance_range_violated`
* How: Real analysis: Jensen/log-sum inequality for entropy, elementary bounds for Gini; explicit witnesses for the violated ranges.

### C95 Splitting never looks worse than not splitting

* Status: partial. proved for information gain and Gini, and for variance reduction with unit weights; false for variance reduction with fractional weights because the count is truncated
* Code: `trees/_split_criterion/info_gain_split_criterion.py:21-72`, `trees/_split_criterion/gini_split_criterion.py:7-30`, `trees/_split_criterion/variance_reduction_split_criterion.py:19-48`
* Lean: `Verif/Trees/Criteria.lean`
* Theorems: `C95_infogain`, `C95_gini`, `C95_variance_partial`, `C95_variance_weighted_violated`
* How: Log-sum and Cauchy-Schwarz inequalities over arbitrary partitions; explicit witness for truncated counts.

### C96 A split into pure branches has the best merit

* Status: partial. proved for information gain and Gini; the Hellinger criterion rates a pure split 0
* Code: `trees/_split_criterion/info_gain_split_criterion.py:21-72`, `trees/_split_criterion/gini_split_criterion.py:7-30`, `trees/_split_criterion/hellinger_distance_criterion.py:27-69`
* Lean: `Verif/Trees/Criteria.lean`
* Theorems: `C96_infogain_pure`, `C96_gini_pure`, `C96_hellinger_pure_violated`
* How: Entropy and Gini of pure branches computed; compared with the bound over all partitions.

### C97 Naive Bayes answers Bayes' rule over everything it was shown

* Status: partial. everything proved except that a label above the declared classes can be predicted: predict_proba then raises IndexError
* Code: `bayes/naive_bayes.py:63-184`, `bayes/utils.py:4-42`
* Lean: `Verif/Bayes/NaiveBayes.lean`
* Theorems: `C97_training`, `C97_posterior`, `C97_prediction`, `C97_untrained`, `C97_label_beyond_classes_violated`
* How: Invariant relating the class distribution and the observers to the effective training rows, by induction over calls and rows; loop specification of the vote vector.

### C98 NaiveBayes.partial_fit accepts the documented classes argument on every call

* Status: partial. proved for lists; with an array of two or more labels every later call raises ValueError
* Code: `bayes/naive_bayes.py:98-112`
* Lean: `Verif/Bayes/NaiveBayes.lean`
* Theorems: `C98_list_partial`, `C98_array_violated`
* How: Case analysis of the truth value of the stored argument.

### C99 ClassificationMeasurements counts what it is given

* Status: partial. counts, accuracy and baselines proved for all weights; kappa bounded by 1 proved for unit weights and false otherwise, because the matrix ignores the weight
* Code: `metrics/measure_collection.py:41-246`, `utils/data_structures.py:373-491`
* Lean: `Verif/Metrics/Legacy.lean`
* Theorems: `C99_counts`, `C99_kappa_partial`, `C99_weights_violated`
* How: Invariant: matrix entry = number of samples with these positions in the target list, by induction over samples; first-maximum specification of the majority loop.

### C100 WindowClassificationMeasurements describes exactly the last window_size samples

* Status: partial. proved for unit weights; false for other weights (entered with the weight, removed as one; fractions truncated)
* Code: `metrics/measure_collection.py:375-512`
* Lean: `Verif/Metrics/Legacy.lean`
* Theorems: `C100_window_partial`, `C100_weights_violated`, `C100_fraction_violated`
* How: Same invariant over the last w samples; the correction buffers hold the negated marks of the window.

### C101 Two evaluators built from one list of targets do not disturb each other

* Status: partial. proved when the list already has every label; otherwise the second evaluator raises
* Code: `metrics/measure_collection.py:41-51`, `metrics/measure_collection.py:149-185`
* Lean: `Verif/Metrics/Legacy.lean`
* Theorems: `C101_shared_partial`, `C101_shared_violated`
* How: Target list passed in and out as shared state; explicit run of two evaluators.

### C102 ConfusionMatrix update and remove are total

* Status: partial. proved inside the matrix and for growth through column 0; growth raises for other columns, remove raises just outside
* Code: `utils/data_structures.py:393-491`
* Lean: `Verif/Metrics/Legacy.lean`
* Theorems: `C102_inside_partial`, `C102_growth_violated`, `C102_remove_violated`, `C102_remove_outside_partial`, `C102_growth_partial`
* How: Case analysis of the index tests; np.max(i, j) modelled with j as the axis.

### C103 Multi-target measurements are the Hamming score, exact match and Jaccard index

* Status: proved.
* Code: `metrics/measure_collection.py:741-870`, `utils/data_structures.py:624-839`
* Lean: `Verif/Metrics/LegacyMulti.lean`
* Theorems: `C103_scores`
* How: Induction over rows and results; sums over targets exchanged with counts over positions.

### C104 Windowed multi-target measurements describe the last window_size results

* Status: partial. scores proved; the matrix is never reduced
* Code: `metrics/measure_collection.py:924-1055`, `metrics/measure_collection.py:1576-1692`
* Lean: `Verif/Metrics/LegacyMulti.lean`
* Theorems: `C104_scores_partial`, `C104_matrix_violated`
* How: Queue refinement to the last w rows; remove without its third argument is the identity.

### C105 Generator labels follow the documented concepts

* Status: proved. Concepts written separately from the class documentation; sin is an arbitrary function. AGRAWAL function 4 is C106.
* Code: `data/sea_generator.py:SEAGenerator`, `data/stagger_generator.py:STAGGERGenerator`, `data/sine_generator.py:SineGenerator`, `data/mixed_generator.py:MIXEDGenerator`, `data/agrawal_generator.py:AGRAWALGenerator`
* Lean: `Verif/Streams/Concepts.lean`
* Theorems: `C105_sea`, `C105_stagger`, `C105_sine`, `C105_mixed`, `C105_mixed_booleans`, `C105_agrawal`
* How: Every emitted sample is traced to a draw (induction over the batches); each classification function is shown equivalent to the separate concept.

### C106 AGRAWAL function 4 decides by the loan in every group

* Status: partial. Violated: the middle age group and the younger people outside the income band always get class 1. Proved for the other groups.
* Code: `data/agrawal_generator.py:AGRAWALGenerator._classification_function_four`, `data/agrawal_generator.py:AGRAWALGenerator.next_sample`
* Lean: `Verif/Streams/Concepts.lean`
* Theorems: `C106_loan_partial`, `C106_salary_compared_violated`
* How: Case analysis on age and salary; the violation uses the proved range of drawn salaries.

### C107 SEA noise switches the label below the noise level

* Status: partial. Violated at level 1: 0.01 is added to the drawn number. Proved: the exact switching rule, and no switching below level 0.01.
* Code: `data/sea_generator.py:SEAGenerator.next_sample`
* Lean: `Verif/Streams/Concepts.lean`
* Theorems: `C107_sea_noise`, `C107_full_noise_violated`
* How: Every emitted sample is traced to a draw; witness source for level 1.

### C108 HDDM_W compares exponentially weighted averages around the best cut

* Status: proved. Exact rational arithmetic; math.sqrt is an arbitrary function, log(1/confidence) an arbitrary non-negative number.
* Code: `drift_detection/hddm_w.py:HDDM_W.add_element`, `drift_detection/hddm_w.py:HDDM_W._update_incr_statistics`, `drift_detection/hddm_w.py:HDDM_W._detect_mean_increment`
* Lean: `Verif/Drift/HDDMW.lean`
* Theorems: `C108_follows_specification`, `C108_range`, `C108_decrease_never_reported`
* How: Invariant by induction over the values, refinement to a separate inductive trace with explicit weights; the monotone case by bounding both averages.

### C109 VFDR rules fire on the conjunction of their conditions and expanding narrows them

* Status: partial. Violated for nominal conditions: a rule with a `!=` (`=`) condition on an attribute ignores a further one on it.
* Code: `rules/very_fast_decision_rules.py:VeryFastDecisionRulesClassifier._expand_rule`, `rules/base_rule.py:Rule.covers_instance`, `rules/base_predicate.py:Predicate.covers_instance`
* Lean: `Verif/Rules/Examples.lean`, `Verif/Rules/Props.lean`
* Theorems: `C109_nominal_reachable_violated`, `C109_fires_iff_all_hold`, `C109_no_copies`, `C109_expansion_never_widens`, `C109_expansion_adds_condition_partial`, `C109_nominal_violated`
* How: Case analysis of the decision via the sorted suggestions, induction over the conditions for the merge; witness for nominal conditions.

### C110 VFDR: the rules that learn from an instance

* Status: partial. Violated with a drift detector: removing a rule during the loop makes the next rule miss the instance.
* Code: `rules/very_fast_decision_rules.py:VeryFastDecisionRulesClassifier._partial_fit`, `rules/very_fast_decision_rules.py:VeryFastDecisionRulesClassifier.first_hit`
* Lean: `Verif/Rules/Examples.lean`, `Verif/Rules/Props.lean`
* Theorems: `C110_skipped_example_violated`, `C110_learning`, `C110_ordered`, `C110_unordered`, `C110_uncovered`, `C110_covered`, `C110_rule_after_removed_skipped_violated`
* How: Induction over the rule set for the loop; general theorem for the skipped rule and a concrete rule set.

### C111 VFDR: grace period between expansion attempts

* Status: partial. Violated for rules just created: the statistics they start with count towards the grace period.
* Code: `rules/very_fast_decision_rules.py:VeryFastDecisionRulesClassifier._partial_fit`, `rules/very_fast_decision_rules.py:VeryFastDecisionRulesClassifier._create_rule`
* Lean: `Verif/Rules/Examples.lean`, `Verif/Rules/Props.lean`
* Theorems: `C111_reachable_violated`, `C111_grace_period_partial`, `C111_new_rule_violated`
* How: Induction over the instances learned since the attempt; reachable counterexample by evaluation in the kernel.

### C112 VFDR never has more than max_rules rules

* Status: partial. Holds for info_gain and hellinger; violated for foil_gain, which can add one rule per class at once.
* Code: `rules/very_fast_decision_rules.py:VeryFastDecisionRulesClassifier._partial_fit`, `rules/very_fast_decision_rules.py:VeryFastDecisionRulesClassifier._create_rule`
* Lean: `Verif/Rules/Examples.lean`, `Verif/Rules/Props.lean`
* Theorems: `C112_foil_violated`, `C112_at_most_max_rules_partial`
* How: Invariant by induction over instances and batches; reachable counterexample for foil_gain.

### C113 VFDR: combination of the votes of the rules that fire

* Status: partial. weighted_sum renormalises after every rule, so shares are 1/2^(n-1), 1/2^(n-1), 1/2^(n-2), ..., 1/2 and depend on the order; the rest holds.
* Code: `rules/very_fast_decision_rules.py:VeryFastDecisionRulesClassifier.first_hit`, `rules/very_fast_decision_rules.py:VeryFastDecisionRulesClassifier.weighted_max`, `rules/very_fast_decision_rules.py:VeryFastDecisionRulesClassifier.weighted_sum`, `rules/very_fast_decision_rules.py:VeryFastDecisionRulesClassifier.predict_proba`
* Lean: `Verif/Rules/Examples.lean`, `Verif/Rules/Votes.lean`
* Theorems: `C113_order_dependent_violated`, `C113_first_hit`, `C113_weighted_max`, `C113_weighted_sum_partial`, `C113_probabilities`, `C113_undeclared_class`
* How: Induction over the rules that fire, for weighted_sum with explicit shares; counterexample with two orders of the same rules.

### C114 VFDR creates a rule exactly when its best suggestion is clear

* Status: partial. Holds for info_gain and hellinger; with foil_gain a passed test for one class carries over to later classes.
* Code: `rules/very_fast_decision_rules.py:VeryFastDecisionRulesClassifier._create_rule`
* Lean: `Verif/Rules/Examples.lean`, `Verif/Rules/Props.lean`
* Theorems: `C114_foil_reachable_violated`, `C114_creation`, `C114_no_creation`, `C114_foil_stale_decision_violated`
* How: Decision expressed over the candidates up to permutation; reachable counterexample for foil_gain.

### C115 VFDR expands a rule towards the better side of the split

* Status: partial. Violated for info_gain, whose lowest entropy is never reset between candidates, for foil_gain when a class is missing on one side (C115_foil_missing_violated) and for hellinger when a class is missing on some side (C115_hellinger_pure_violated: the side of the previous candidate). Holds for hellinger and foil_gain when the classes are listed on both sides (and enough weight is there).
* Code: `rules/info_gain_rule_criterion.py:InfoGainExpandCriterion.get_merit_of_split`, `rules/hellinger_distance_criterion.py:HellingerDistanceCriterion.compute_hellinger`, `rules/foil_gain_rule_criterion.py:FoilGainExpandCriterion.get_merit_of_split`, `rules/numeric_attribute_class_observer.py:GaussianNumericAttributeClassObserver.get_best_evaluated_split_suggestion`
* Lean: `Verif/Rules/Criterion.lean`, `Verif/Rules/Foil.lean`
* Theorems: `C115_side_of_lowest_so_far_partial`, `C115_single_split_partial`, `C115_wrong_side_violated`, `C115_own_side`, `C115_foil_missing_violated`, `C115_hellinger_side`, `C115_hellinger_pure_violated`
* How: Invariant of the criterion over the candidates seen so far; counterexample with two candidates of one attribute.

### C116 Equality of rules

* Status: partial. Values of the conditions are ignored: characterised exactly, full statement violated.
* Code: `rules/base_rule.py:Rule.__eq__`, `rules/base_predicate.py:Predicate.__eq__`
* Lean: `Verif/Rules/Examples.lean`
* Theorems: `C116_equality_partial`, `C116_value_ignored_violated`
* How: Induction over the conditions; counterexample with disjoint rules.

### C117 Holdout tests take place every n_wait training samples

* Status: partial. static: a test follows step j iff n_wait divides j*batch or the limit is reached, so tests are skipped unless batch_size divides n_wait (violated with witness); dynamic: proved for endless streams and batch <= n_wait; with larger batches one test per batch
* Code: `evaluation/evaluate_holdout.py:EvaluateHoldout._periodic_holdout`
* Lean: `Verif/Evaluation/Schedule.lean`
* Theorems: `C117_static_partial`, `C117_dynamic_partial`, `C117_dynamic_large_batch`, `C117_static_skips_violated`
* How: One invariant of the holdout loop (counters as a function of the step number), by induction on fuel, instantiated for static and dynamic test sets; the log of each learner is read off as a list of step numbers.

### C118 OzaBagging trains each member by its own Poisson draws

* Status: proved.
* Code: `meta/oza_bagging.py:OzaBaggingClassifier.partial_fit`
* Lean: `Verif/Meta/OzaProps.lean`
* Theorems: `C118_training`, `C118_protocol`
* How: induction over the rows, members and calls; the position in the stream of draws is computed in closed form

### C119 OzaBagging combines the members' probabilities

* Status: partial. Proved when no member has more columns than there are classes. Violated otherwise: one such member makes the whole answer zeros.
* Code: `meta/oza_bagging.py:OzaBaggingClassifier.predict`, `meta/oza_bagging.py:OzaBaggingClassifier.predict_proba`
* Lean: `Verif/Meta/OzaProps.lean`
* Theorems: `C119_probabilities`, `C119_predict`, `C119_discarded_violated`, `C119_untrained`
* How: case analysis on the row lengths, sums over members by induction

### C120 OzaBaggingADWIN replaces the worst member when accuracy drops

* Status: partial. Violated: the detector is fed accuracy but used as error, so the member with the highest accuracy is replaced, and drops of accuracy replace nobody. Proved: what each member is trained on and what its detector records.
* Code: `meta/oza_bagging_adwin.py:OzaBaggingADWINClassifier.partial_fit`
* Lean: `Verif/Meta/OzaAdwin.lean`
* Theorems: `C120_best_is_replaced_violated`, `C120_drop_ignored_violated`, `C120_training_and_record`, `C120_replacement_partial`
* How: invariant linking every detector to the record of outcomes given to it, carried through the loop over members

### C121 reset() restores the initial state of Oza bagging ensembles

* Status: partial. Violated: OzaBagging keeps its class list, the ADWIN variant keeps its trained learners. Proved: OzaBagging after reset equals a fresh ensemble that knows the classes.
* Code: `meta/oza_bagging.py:OzaBaggingClassifier.reset`, `meta/oza_bagging_adwin.py:OzaBaggingADWINClassifier.reset`
* Lean: `Verif/Meta/OzaAdwin.lean`, `Verif/Meta/OzaProps.lean`
* Theorems: `C121_adwin_learners_kept_violated`, `C121_oza_reset_partial`, `C121_classes_kept_violated`
* How: bisimulation with a fresh ensemble that already knows the classes

### C122 Pipeline trains the estimator on what prediction will hand it

* Status: partial. Proved for steps with the methods the code really calls. Violated: None steps raise, the documented streaming transformers are rejected or raise.
* Code: `core/pipeline.py:Pipeline.partial_fit`, `core/pipeline.py:Pipeline.fit`, `core/pipeline.py:Pipeline.predict`, `core/pipeline.py:Pipeline.partial_fit_predict`, `core/pipeline.py:Pipeline._validate_steps`
* Lean: `Verif/Core/Pipeline.lean`
* Theorems: `C122_partial_fit_partial`, `C122_partial_fit_predict_partial`, `C122_none_step_violated`, `C122_streaming_transformer_rejected_violated`, `C122_missing_combined_violated`, `C122_classes_keyword_violated`, `C122_half_trained_violated`
* How: induction over the steps; each violation for all steps of the named kind

### C123 MultiOutputLearner is one independent estimator per target

* Status: partial. Proved for a fixed number of targets and bases that take weights whenever they take classes. Violated for other bases, for a growing number of targets and for predict_proba.
* Code: `meta/multi_output_learner.py:MultiOutputLearner.fit`, `meta/multi_output_learner.py:MultiOutputLearner.partial_fit`, `meta/multi_output_learner.py:MultiOutputLearner.predict`, `meta/multi_output_learner.py:MultiOutputLearner.predict_proba`
* Lean: `Verif/Meta/MultiOutput.lean`
* Theorems: `C123_independent_partial`, `C123_classes_without_weight_violated`, `C123_first_classes_lost_violated`, `C123_more_targets_violated`, `C123_predict_proba_violated`, `C123_predict_proba_value`
* How: refinement to a family of stand-alone estimators, by induction over the calls

### C124 Hoeffding tree leaves account for exactly the instances routed to them

* Status: partial. Proved: training never fails, instances only change the leaf they are routed to, leaves gain exactly what is routed to them; weight is conserved if every split shares out the whole class weights of the leaf; with splits that share out what the observers have seen (as C34, C63 prove) the leaves never hold more than was trained. Violated: a leaf that came out of a split or was reactivated has fresh observers, and when it splits, its inherited weight is lost.
* Code: `trees/hoeffding_tree.py:HoeffdingTreeClassifier._partial_fit`, `trees/hoeffding_tree.py:HoeffdingTreeClassifier._attempt_to_split`, `trees/hoeffding_tree.py:HoeffdingTreeClassifier._deactivate_learning_node`, `trees/_nodes/base.py:SplitNode.filter_instance_to_leaf`
* Lean: `Verif/Trees/Conserve.lean`, `Verif/Trees/Learn.lean`
* Theorems: `C124_never_more_partial`, `C124_inherited_lost_violated`, `C124_class_weight_conserved_partial`, `C124_only_its_leaf_learns`, `C124_leaf_counts_its_instances`
* How: Structural induction over mutually inductive trees for routing, replacement and weight; induction over the training sequence. The observed weight is specified by filtering the training sequence. Upper bound: invariant that each leaf holds at least what its observers have seen.

### C125 Leaf prediction mode: adaptive leaves vote with the better of majority class and naive Bayes

* Status: proved. Naive Bayes votes are an arbitrary function of statistics and observers.
* Code: `trees/_nodes/htc_nodes.py:LearningNodeNBA.learn_one`, `trees/_nodes/htc_nodes.py:LearningNodeNBA.predict_one`, `trees/_nodes/htc_nodes.py:LearningNodeNB.predict_one`, `trees/_nodes/htc_nodes.py:InactiveLearningNodeMC`
* Lean: `Verif/Trees/Learn.lean`
* Theorems: `C125_adaptive_choice`, `C125_other_leaves`
* How: Induction over the instances a leaf learns; the two counters equal the prequential weights defined from the leaf's earlier states.

### C126 Hoeffding tree predicts the class with the most votes in the leaf reached

* Status: partial. Holds for votes on labels 0..m with m the largest class. Violated for negative labels (numpy wraps the index, so class -1 of {-1, 1} is never predicted) and for a label above all declared classes (IndexError).
* Code: `trees/hoeffding_tree.py:HoeffdingTreeClassifier._get_votes_for_instance`, `trees/hoeffding_tree.py:HoeffdingTreeClassifier.predict`, `trees/hoeffding_tree.py:HoeffdingTreeClassifier.predict_proba`
* Lean: `Verif/Trees/Predict.lean`
* Theorems: `C126_proba_row_partial`, `C126_row_sums_to_one_partial`, `C126_predict_row_partial`, `C126_predict_batch_partial`, `C126_batch_rows_partial`, `C126_votes_partial`, `C126_untrained`, `C126_negative_label_violated`, `C126_label_outside_classes_violated`
* How: Assignment into a zero row is characterised pointwise; normalisation and argmax follow; padding with zeros keeps the first maximum. Violations: general families of votes.

### C127 The rules of a Hoeffding tree partition the instances as the tree does

* Status: partial. Holds once every leaf has seen weight. Violated for the untrained tree (AttributeError) and while a leaf is empty (ValueError from max of an empty dictionary).
* Code: `trees/hoeffding_tree.py:HoeffdingTreeClassifier.get_model_rules`, `trees/_nodes/base.py:SplitNode.get_predicate`
* Lean: `Verif/Trees/Predict.lean`
* Theorems: `C127_rules_partial`, `C127_untrained_violated`, `C127_empty_leaf_violated`, `C127_after_split_violated`
* How: Mutual induction over the tree with the predicates collected so far; branch and rule of a test agree by C36. Violations by the untrained tree and by a two-instance training run.

### C128 SAM-kNN memories stay within max_window_size

* Status: partial. Proved when stm_size_option is not None, the whole part of ltm_size * max_window_size is below max_window_size and no smaller than the number of classes. Violated for stm_size_option=None (AttributeError after max_window_size samples), ltm_size=1.0 (ValueError) and ltm_size=0.0 (limit exceeded, then IndexError).
* Code: `lazy/sam_knn.py:SAMKNNClassifier._partial_fit`, `lazy/sam_knn.py:SAMKNNClassifier.size_check_STMLTM`, `lazy/sam_knn.py:SAMKNNClassifier.size_check_fade_out`, `lazy/sam_knn.py:SAMKNNClassifier.cluster_down`
* Lean: `Verif/Lazy/Sam.lean`
* Theorems: `C128_memories_partial`, `C128_no_size_option_violated`, `C128_ltm_size_one_violated`, `C128_ltm_size_zero_violated`
* How: Invariant of `_partial_fit` by induction over the stream (suffix, size, histories, labels), with the number of classes bounding what `cluster_down` leaves; violations for every stream of the given kind.

### C129 SAM-kNN answers with the memory that was right most often lately

* Status: partial. Histories, choice and fallbacks proved; violated for labels outside -128..127 (wrapped to eight bits), and a memory not asked is credited with class 0.
* Code: `lazy/sam_knn.py:SAMKNNClassifier._predict_by_all_memories`, `lazy/sam_knn.py:SAMKNNClassifier._predict_by_stm`, `lazy/sam_knn.py:SAMKNNClassifier._partial_fit_by_all_memories`, `lazy/sam_knn.py:SAMKNNClassifier.get_maj_label`, `lazy/sam_knn.py:SAMKNNClassifier.get_distance_weighted_label`
* Lean: `Verif/Lazy/Nearest.lean`, `Verif/Lazy/Sam.lean`
* Theorems: `C129_library_partial`, `C129_history_partial`, `C129_choice_partial`, `C129_short_term_partial`, `C129_answers_known_label_partial`, `C129_eight_bit_labels_violated`, `C129_unearned_credit_violated`
* How: The same invariant for the histories; case analysis of the choice; general violations for labels beyond eight bits and for memories that were not asked.

### C130 SAM-kNN removes exactly the contradicting long-term samples

* Status: proved.
* Code: `lazy/sam_knn.py:SAMKNNClassifier.clean_samples`
* Lean: `Verif/Lazy/Sam.lean`
* Theorems: `C130_clean_with_last`, `C130_keeps_class`
* How: `cleanOne` characterised as a filter by a relation `Contradicts` stated with neighbours and distances only; the loop by induction.

### C131 Adaptive random forest: every tree has learned exactly the samples since its creation

* Status: proved.
* Code: `meta/adaptive_random_forests.py:AdaptiveRandomForestClassifier._partial_fit`, `meta/adaptive_random_forests.py:ARFBaseLearner.partial_fit`, `meta/adaptive_random_forests.py:ARFBaseLearner.reset`, `meta/adaptive_random_forests.py:AdaptiveRandomForestClassifier.reset`
* Lean: `Verif/Meta/ForestProps.lean`
* Theorems: `C131_trained_since_creation`, `C131_counters`, `C131_reset`
* How: Life cycle of a member as an invariant over all answers of the detectors (`Meta/Life.lean`), refined by the model of `ARFBaseLearner`; the ensemble is shown to be its members living side by side.

### C132 Adaptive random forest: members are judged by their predictions on unseen samples

* Status: partial. The evaluator holds the prequential results since the last drift and the detectors' histories are as claimed, but the errors fed to the detectors are judged after the tree has learned the sample (C132_errors_after_learning_violated).
* Code: `meta/adaptive_random_forests.py:AdaptiveRandomForestClassifier._partial_fit`, `meta/adaptive_random_forests.py:ARFBaseLearner.partial_fit`
* Lean: `Verif/Meta/ForestProps.lean`
* Theorems: `C132_evaluator_partial`, `C132_detectors_partial`, `C132_errors_after_learning_violated`
* How: The same induction, with the evaluator's results and the detectors' inputs read off the prefixes of the run.

### C133 Adaptive random forest: votes are weighted by performance

* Status: partial. Proved for positive performances; violated for performance 0 (counts like 1) and for negative kappa (probabilities outside [0,1], wrong class wins).
* Code: `meta/adaptive_random_forests.py:AdaptiveRandomForestClassifier._get_votes_for_instance`, `meta/adaptive_random_forests.py:AdaptiveRandomForestClassifier.predict_proba`, `meta/adaptive_random_forests.py:AdaptiveRandomForestClassifier.predict`
* Lean: `Verif/Meta/ForestProps.lean`
* Theorems: `C133_votes_partial`, `C133_proba_partial`, `C133_zero_accuracy_violated`, `C133_zero_accuracy_wins_violated`, `C133_negative_kappa_violated`
* How: Dictionary sums characterised by class; reuse of the theorem on rows of Hoeffding tree probabilities; concrete violations.

### C134 Adaptive random forest: max_features

* Status: partial. Range and meaning proved; violated after reset() with another number of features, because the computed number replaces the parameter.
* Code: `meta/adaptive_random_forests.py:AdaptiveRandomForestClassifier._set_max_features`
* Lean: `Verif/Meta/ForestProps.lean`
* Theorems: `C134_range_partial`, `C134_meaning_partial`, `C134_parameter_overwritten_violated`
* How: Case analysis of the parameter with integer and rational arithmetic.

### C135 Adaptive random forest: sample weights

* Status: partial. Weight 0 is proved; violated otherwise: one weight per sample raises ValueError for two or more samples, and weights other than 0 do not influence training.
* Code: `meta/adaptive_random_forests.py:AdaptiveRandomForestClassifier.partial_fit`, `utils/validation.py:check_weights`
* Lean: `Verif/Meta/ForestProps.lean`
* Theorems: `C135_weights_raise_violated`, `C135_weights_ignored_violated`, `C135_zero_weight_partial`
* How: Case analysis of `check_weights`; simulation between runs that differ only in weights.

### C136 Streaming random patches: distinct random subspaces

* Status: partial. Proved: valid distinct features, no two members alike (up to 20 features), construction ends if there are as many subspaces as members. Violated: with fewer subspaces than members (e.g. the defaults with 5 features) partial_fit never returns; the subspaces are the lexicographically first ones, so that all members share their first features.
* Code: `meta/streaming_random_patches.py:StreamingRandomPatchesClassifier._init_ensemble`, `meta/streaming_random_patches.py:StreamingRandomPatchesClassifier._init_ensemble_members`, `meta/streaming_random_patches.py:get_all_k_combinations`
* Lean: `Verif/Meta/PatchesProps.lean`
* Theorems: `C136_subspaces_partial`, `C136_finishes_partial`, `C136_never_returns_violated`, `C136_not_random_violated`
* How: Counting of the enumerated combinations and of the padding loop; pigeonhole for the endless loop; induction on the recursion of the enumeration for the shared prefix.

### C137 Streaming random patches: size of the subspaces

* Status: partial. Proved for sizes from 2 to n-1, for 0 and from n on, and the meaning of the modes. Violated: size 1 gives two features; leaving out more features than there are ends in RecursionError; random subspaces of all features turn into resampling.
* Code: `meta/streaming_random_patches.py:StreamingRandomPatchesClassifier._init_ensemble`
* Lean: `Verif/Meta/PatchesProps.lean`
* Theorems: `C137_size_partial`, `C137_meaning_partial`, `C137_one_feature_violated`, `C137_too_negative_violated`, `C137_method_changed_violated`
* How: Case analysis of the parameters with integer and rational arithmetic.

### C138 Streaming random patches: what a member is trained on

* Status: proved.
* Code: `meta/streaming_random_patches.py:StreamingRandomPatchesClassifier._partial_fit`, `meta/streaming_random_patches.py:StreamingRandomPatchesBaseLearner.partial_fit`, `meta/streaming_random_patches.py:StreamingRandomPatchesBaseLearner._trigger_warning`, `meta/streaming_random_patches.py:StreamingRandomPatchesBaseLearner.reset`, `meta/streaming_random_patches.py:StreamingRandomPatchesClassifier.reset`
* Lean: `Verif/Meta/PatchesRun.lean`
* Theorems: `C138_trained_since_creation`, `C138_reset`
* How: Generic induction over runs of a learner with warnings and drifts (LifeRun), instantiated with one-step case analysis of the member.

### C139 Streaming random patches: members are judged on unseen samples

* Status: partial. Proved: evaluator prequential; detectors hold the errors since their last restart. Violated: these errors are measured after the member has learned the sample.
* Code: `meta/streaming_random_patches.py:StreamingRandomPatchesClassifier._partial_fit`, `meta/streaming_random_patches.py:StreamingRandomPatchesBaseLearner.partial_fit`
* Lean: `Verif/Meta/PatchesRun.lean`
* Theorems: `C139_judged_partial`, `C139_errors_after_learning_violated`
* How: The same induction, with the evaluator's results and the detectors' inputs read off the prefixes of the run.

### C140 Streaming random patches: votes

* Status: partial. Proved for members of positive accuracy: weighted sums, predict, batches with rows of one length. Violated: the row is not normalised (sums to the total weight); accuracy 0 counts like 1; rows of different lengths raise for a batch.
* Code: `meta/streaming_random_patches.py:StreamingRandomPatchesClassifier._predict_proba`, `meta/streaming_random_patches.py:StreamingRandomPatchesClassifier.predict`, `meta/streaming_random_patches.py:StreamingRandomPatchesClassifier.predict_proba`
* Lean: `Verif/Meta/PatchesVotes.lean`
* Theorems: `C140_votes_partial`, `C140_predict_partial`, `C140_not_normalised_violated`, `C140_zero_accuracy_violated`, `C140_batch_raises_violated`, `C140_batch_partial`
* How: Induction over the members for sums of rows of different lengths; argmax characterised.

### C141 Streaming random patches: nominal attributes follow the subspace

* Status: partial. Proved while warning and drift do not come at the same sample. Violated: without subspaces the nominal attributes never reach the estimators; a drift together with a warning leaves the nominal attributes of the old subspace.
* Code: `meta/streaming_random_patches.py:StreamingRandomPatchesBaseLearner._remap_nominal_attributes`, `meta/streaming_random_patches.py:StreamingRandomPatchesBaseLearner._reset_subset`, `meta/streaming_random_patches.py:StreamingRandomPatchesBaseLearner.reset`, `meta/streaming_random_patches.py:StreamingRandomPatchesBaseLearner._trigger_warning`
* Lean: `Verif/Meta/PatchesRun.lean`
* Theorems: `C141_none_given_partial`, `C141_nominal_partial`, `C141_resampling_violated`, `C141_warning_with_drift_violated`
* How: Invariant over the run: the nominal attributes of member and background learner are those of their subsets.

### C142 Adaptive random forest regressor: what a member is trained and judged on

* Status: proved.
* Code: `meta/adaptive_random_forest_regressor.py:AdaptiveRandomForestRegressor.partial_fit`, `meta/adaptive_random_forest_regressor.py:ARFRegBaseLearner.partial_fit`, `meta/adaptive_random_forest_regressor.py:ARFRegBaseLearner.reset`
* Lean: `Verif/Meta/ForestRegRun.lean`
* Theorems: `C142_trained_and_judged`, `C142_reset`, `C142_last_times`
* How: The generic induction of LifeRun, with the evaluator as part of the model that is replaced at drifts.

### C143 Adaptive random forest regressor: what the detectors are fed

* Status: partial. Proved: which values are fed since which restart, the normalisation, and the range for the first ten values after a drift. Violated: later values can exceed any bound; a constant is fed as 0 once and 1/2 from then on.
* Code: `meta/adaptive_random_forest_regressor.py:ARFRegBaseLearner._normalize_drift_input`, `meta/adaptive_random_forest_regressor.py:ARFRegBaseLearner.partial_fit`
* Lean: `Verif/Meta/ForestRegProps.lean`, `Verif/Meta/ForestRegRun.lean`
* Theorems: `C143_range_partial`, `C143_unbounded_violated`, `C143_constant_violated`, `C143_detectors_partial`
* How: Algebraic identity of Welford's update with mean and squared deviations; induction over the run for the detectors' inputs.

### C144 Adaptive random forest regressor: aggregation

* Status: partial. Proved for at least two members (mean) and for the median. Violated: a forest of one tree predicts nan after the first error; a tree that was never judged has the largest weight.
* Code: `meta/adaptive_random_forest_regressor.py:AdaptiveRandomForestRegressor.predict`, `meta/adaptive_random_forest_regressor.py:ARFRegBaseLearner.get_error`
* Lean: `Verif/Meta/ForestRegProps.lean`
* Theorems: `C144_error_partial`, `C144_weighted_partial`, `C144_plain_partial`, `C144_between_partial`, `C144_median_partial`, `C144_single_violated`, `C144_unjudged_violated`
* How: Sums over the list of members in an ordered field; counting in the sorted list for the median.

### C145 Adaptive random forest regressor: max_features

* Status: partial. Proved for the first training. Violated: after reset one feature is considered, whatever the parameter.
* Code: `meta/adaptive_random_forest_regressor.py:AdaptiveRandomForestRegressor._set_max_features`, `meta/adaptive_random_forest_regressor.py:AdaptiveRandomForestRegressor.reset`
* Lean: `Verif/Meta/ForestRegProps.lean`
* Theorems: `C145_max_features_partial`, `C145_refused_partial`, `C145_reset_violated`
* How: Case analysis of the parameter with integer and rational arithmetic.

### C146 VFDR with a drift detector removes rules whose performance drops

* Status: partial. The feedback and removal rule is proved for every detector. Violated with DDM, which takes 1 for an error while the rule reports 1 for a right prediction: a rule that is always wrong is kept, and removed the first time it is right.
* Code: `rules/very_fast_decision_rules.py:VeryFastDecisionRulesClassifier._partial_fit`, `rules/very_fast_decision_rules.py:VeryFastDecisionRulesClassifier.Rule.predict`, `drift_detection/ddm.py:DDM.add_element`
* Lean: `Verif/Rules/Adapt.lean`
* Theorems: `C146_removal_partial`, `C146_ddm_wrong_kept_right_removed_violated`
* How: decision logic of scan/check with an independent majority specification; induction on DDM's state for all-zero inputs

### C147 VFDR remove_poor_atts disables exactly the poor attributes

* Status: partial. Which observers are disabled, and that they stay disabled, is proved. Violated: with naive Bayes prediction one disabled attribute makes all votes of the rule zero.
* Code: `rules/very_fast_decision_rules.py:VeryFastDecisionRulesClassifier._expand_rule`, `rules/very_fast_decision_rules.py:VeryFastDecisionRulesClassifier.Rule.disable_attribute`, `bayes/utils.py:do_naive_bayes_prediction`, `trees/_attribute_observer/attribute_observer_null.py:AttributeObserverNull`
* Lean: `Verif/Rules/Adapt.lean`
* Theorems: `C147_disabled_partial`, `C147_off`, `C147_stays_disabled`, `C147_bayes_rule_partial`, `C147_votes_vanish_violated`
* How: decision logic through the sorted suggestions; product with a zero factor by induction over the attributes

### C148 A deactivated leaf of a Hoeffding tree only counts classes

* Status: proved. Leaf statistics, activation flags and observers modelled; which leaves the memory manager switches is an arbitrary input.
* Code: `trees/hoeffding_tree.py:HoeffdingTreeClassifier._partial_fit`, `trees/hoeffding_tree.py:HoeffdingTreeClassifier._deactivate_learning_node`, `trees/hoeffding_tree.py:HoeffdingTreeClassifier._activate_learning_node`, `trees/_nodes/htc_nodes.py:InactiveLearningNodeMC`
* Lean: `Verif/Trees/Inactive.lean`
* Theorems: `C148_deactivated_leaf`, `C148_stays_deactivated`, `C148_switch`, `C148_pruned`
* How: one-step frame lemma over tree paths, induction over the training sequence

### C149 Learn++.NSE: one member per window, pruning

* Status: proved. Base learner, logarithm and sigmoid are parameters; exceptions of the base learner itself are not modelled.
* Code: `meta/learn_nse.py:LearnPPNSEClassifier.partial_fit`
* Lean: `Verif/Meta/LearnNSEProps.lean`
* Theorems: `C149_calls`, `C149_members`, `C149_dropped`
* How: fold of `feed` over windows (append law), Forall₂ invariant over the windows; argmax specification for the dropped member

### C150 Learn++.NSE: voting weights follow the errors

* Status: partial. Formula for the voting weight and sample weights proved. Violated: the sigmoid weights are not renormalised, so every member with errors bounded away from 0 falls silent; a window on which the vote is right records error 0 for every member.
* Code: `meta/learn_nse.py:LearnPPNSEClassifier.partial_fit`
* Lean: `Verif/Meta/LearnNSEWeights.lean`
* Theorems: `C150_formula_partial`, `C150_instance_weights`, `C150_perfect_violated`, `C150_silenced_violated`, `C150_newest_partial`
* How: invariant relating the stored lists to the errors; unbounded partial sums by the Archimedean property

### C151 Learn++.NSE: predict_proba adds up the members' votes by class

* Status: partial. Holds for increasing classes and learners that know at least two of them. Violated: a learner that knows one class adds its weight to every class, so an ensemble of such learners answers class 0. predict answers positions, which are labels for classes 0..n-1.
* Code: `meta/learn_nse.py:LearnPPNSEClassifier.predict_proba`, `meta/learn_nse.py:LearnPPNSEClassifier._fill_missing_probs`, `meta/learn_nse.py:LearnPPNSEClassifier.predict`
* Lean: `Verif/Meta/LearnNSEVotes.lean`
* Theorems: `C151_votes_partial`, `C151_label_partial`, `C151_single_class_violated`, `C151_one_class_answer_violated`
* How: per-member refinement to a sum over classes, insertion positions of a sorted list, argmax specification

### C152 Learn++.NSE: classes and reset

* Status: partial. Missing classes in the first call raise. Violated: differing classes later are ignored without error; reset keeps the classes.
* Code: `meta/learn_nse.py:LearnPPNSEClassifier.partial_fit`, `meta/learn_nse.py:LearnPPNSEClassifier.reset`
* Lean: `Verif/Meta/LearnNSEVotes.lean`
* Theorems: `C152_first_call_partial`, `C152_ignored_violated`, `C152_reset_violated`, `C152_fresh_partial`
* How: frame lemmas on partial_fit and reset; induction over the stream for the fresh classifier

### C153 Learn++: one ensemble per window, the newest are kept

* Status: proved. Base learner and random draws are parameters.
* Code: `meta/learn_pp.py:LearnPPClassifier.partial_fit`, `meta/learn_pp.py:LearnPPClassifier.__fit_batch`
* Lean: `Verif/Meta/LearnPPProps.lean`
* Theorems: `C153_ensembles`, `C153_sizes`
* How: run as a fold over windows, Forall₂ invariant with lastN

### C154 Learn++: only learners below the error threshold are kept, or training fails

* Status: partial. Acceptance, early stop, the bound of 1001 attempts and the error proved. Violated: an attempt whose error equals the threshold counts neither way, and with the default threshold one half training can go on for ever.
* Code: `meta/learn_pp.py:LearnPPClassifier.__fit_batch`, `meta/learn_pp.py:LearnPPClassifier.__compute_error`
* Lean: `Verif/Meta/LearnPPProps.lean`, `Verif/Meta/LearnPPVotes.lean`
* Theorems: `C154_accepted_partial`, `C154_endless_violated`, `C154_terminates_partial`, `C154_weak_partial`, `C154_half_violated`, `C154_default_threshold_violated`
* How: invariant of the inner and outer loops over the weights; induction on fuel for non-termination and for the bound

### C155 Learn++: votes weighted by normalised error

* Status: partial. Holds for classes 0..n-1. Violated: other labels raise IndexError, and -1 votes for the last class.
* Code: `meta/learn_pp.py:LearnPPClassifier.predict_proba`, `meta/learn_pp.py:LearnPPClassifier.predict`, `meta/learn_pp.py:LearnPPClassifier.__vote_proba`
* Lean: `Verif/Meta/LearnPPVotes.lean`
* Theorems: `C155_votes_partial`, `C155_labels_violated`, `C155_negative_violated`
* How: induction over learners and ensembles, argmax specification

### C156 Learn++: usable after a failed window

* Status: partial. Violated: after an exception the buffer holds a full window and is never trained on or emptied again. reset repairs it.
* Code: `meta/learn_pp.py:LearnPPClassifier.partial_fit`, `meta/learn_pp.py:LearnPPClassifier.reset`
* Lean: `Verif/Meta/LearnPPVotes.lean`
* Theorems: `C156_stuck_violated`, `C156_reset_partial`
* How: error leaves a full buffer; induction over the later calls

### C157 Learn++: classes and reset

* Status: partial. The checks of classes hold. Violated: reset keeps the classes, so other classes are refused afterwards.
* Code: `meta/learn_pp.py:LearnPPClassifier.partial_fit`, `meta/learn_pp.py:LearnPPClassifier.reset`
* Lean: `Verif/Meta/LearnPPVotes.lean`
* Theorems: `C157_first_partial`, `C157_later_partial`, `C157_reset_violated`
* How: decision logic of the set comparison

### C158 EFDT: the root accounts for every training instance

* Status: proved. Observers, suggestions, bound and memory management decisions are arbitrary parameters.
* Code: `trees/extremely_fast_decision_tree.py:ExtremelyFastDecisionTreeClassifier._partial_fit`, `trees/extremely_fast_decision_tree.py:ExtremelyFastDecisionTreeClassifier._process_nodes`, `trees/extremely_fast_decision_tree.py:ExtremelyFastDecisionTreeClassifier._sort_instance_into_leaf`, `trees/extremely_fast_decision_tree.py:ExtremelyFastDecisionTreeClassifier._reevaluate_best_split`
* Lean: `Verif/Trees/EFDTProps.lean`
* Theorems: `C158_root`
* How: Induction over the training sequence with the invariant that the root's statistics and observers are folds over the instances so far.

### C159 EFDT: when a node is split, kept, replaced or pruned

* Status: proved. Suggestions, merits and bound are arbitrary parameters; merits are rationals or -inf.
* Code: `trees/extremely_fast_decision_tree.py:ExtremelyFastDecisionTreeClassifier._reevaluate_best_split`, `trees/extremely_fast_decision_tree.py:ExtremelyFastDecisionTreeClassifier._attempt_to_split`
* Lean: `Verif/Trees/EFDTProps.lean`
* Theorems: `C159_reevaluation`, `C159_split`, `C159_prune_only_degenerate`
* How: Case analysis of the decision functions; the sorted suggestions are characterised by a largest element, independently of the sort.

### C160 EFDT: min_samples_reevaluate instances between re-evaluations

* Status: partial. Proved for a fresh split node until its first re-evaluation. Violated: re-evaluation does not restart the count, so from then on the node is re-evaluated at every instance.
* Code: `trees/extremely_fast_decision_tree.py:ExtremelyFastDecisionTreeClassifier._process_nodes`, `trees/extremely_fast_decision_tree.py:ExtremelyFastDecisionTreeClassifier._reevaluate_best_split`
* Lean: `Verif/Trees/EFDTProps.lean`
* Theorems: `C160_fresh_kept_partial`, `C160_every_instance_violated`
* How: Induction over the instances seen by the root; a general one-step theorem shows the violation.

### C161 EFDT: node counters

* Status: partial. Proved: decision nodes; active plus inactive leaves; all three without memory management; splits on an attribute having a fixed number of branches. Violated: a replaced subtree's inactive leaves are subtracted from the active counter; children with ids beyond the number of branches of the current test are not counted.
* Code: `trees/extremely_fast_decision_tree.py:ExtremelyFastDecisionTreeClassifier._reevaluate_best_split`, `trees/extremely_fast_decision_tree.py:ExtremelyFastDecisionTreeClassifier._kill_subtree`, `trees/_nodes/efdtc_nodes.py:EFDTSplitNode.count_nodes`
* Lean: `Verif/Trees/EFDTCount.lean`
* Theorems: `C161_counters_partial`, `C161_inactive_violated`, `C161_hidden_child_violated`
* How: Mutual structural induction: each step changes counters and node counts by the same difference; concrete runs for the violations.

### C162 EFDT: nodes have learned the instances that their tests send them

* Status: partial. Proved if the tie threshold is at most the bound. Violated: a node that takes over a new test on its own attribute keeps its children.
* Code: `trees/extremely_fast_decision_tree.py:ExtremelyFastDecisionTreeClassifier._reevaluate_best_split`, `trees/extremely_fast_decision_tree.py:ExtremelyFastDecisionTreeClassifier._sort_instance_into_leaf`
* Lean: `Verif/Trees/EFDTRoute.lean`
* Theorems: `C162_routed_partial`, `C162_renumbered_violated`
* How: Invariant over the mutually inductive trees, preserved by sorting, splitting, replacing and pruning; concrete run for the violation.

### C163 HAT: an alternate tree replaces a node only when it is better

* Status: partial. False: an alternate leaf learns with the parent and branch of the node, so when it splits it replaces the node whatever the error rates are (C163_takeover_violated, with a run in which the alternate is worse). Proved when split attempts change nothing.
* Code: `trees/_nodes/hatc_nodes.py:AdaSplitNode.learn_one`, `trees/_nodes/hatc_nodes.py:AdaLearningNode.learn_one`
* Lean: `Verif/Trees/HATProps.lean`
* Theorems: `C163_alternate_partial`, `C163_takeover_violated`
* How: Case analysis of one training step at a split node; concrete run for the violation

### C164 HAT: bootstrap sampling weights

* Status: partial. False for draws of 0: the instance is learned with its full weight (C164_zero_violated). Proved without bootstrap and for positive draws, in a tree of one leaf.
* Code: `trees/_nodes/hatc_nodes.py:AdaLearningNode.learn_one`, `trees/hoeffding_adaptive_tree.py:HoeffdingAdaptiveTreeClassifier.__init__`
* Lean: `Verif/Trees/HATVotes.lean`
* Theorems: `C164_bootstrap_partial`, `C164_zero_violated`
* How: Induction over the training sequence of a single leaf

### C165 HAT: votes

* Status: partial. False for instances that reach a split node without a branch for them: no votes at all (C165_unseen_violated). Proved for all instances that reach an active leaf.
* Code: `trees/hoeffding_adaptive_tree.py:HoeffdingAdaptiveTreeClassifier._get_votes_for_instance`, `trees/hoeffding_adaptive_tree.py:HoeffdingAdaptiveTreeClassifier.filter_instance_to_leaves`, `trees/_nodes/hatc_nodes.py:AdaSplitNode.filter_instance_to_leaves`
* Lean: `Verif/Trees/HATVotes.lean`
* Theorems: `C165_votes_partial`, `C165_unseen_violated`
* How: Induction over the route of the instance (inductive predicate Reaches)

### C166 HAT: reset gives a new tree

* Status: partial. False for the counters of decision nodes and inactive leaves and the training weight (C166_counters_violated). Proved for tree, votes and the other counters.
* Code: `trees/hoeffding_adaptive_tree.py:HoeffdingAdaptiveTreeClassifier.reset`
* Lean: `Verif/Trees/HATVotes.lean`
* Theorems: `C166_reset_partial`, `C166_counters_violated`
* How: Lock step induction over the training after the reset

### C167 HAT: training and prediction never fail

* Status: partial. False for stop_mem_management=True: a leaf pruned below a split makes training raise TypeError and prediction AttributeError (C167_pruned_violated). Proved for stop_mem_management=False.
* Code: `trees/hoeffding_adaptive_tree.py:HoeffdingAdaptiveTreeClassifier._partial_fit`, `trees/_nodes/hatc_nodes.py:AdaSplitNode.learn_one`, `trees/hoeffding_adaptive_tree.py:HoeffdingAdaptiveTreeClassifier._get_votes_for_instance`
* Lean: `Verif/Trees/HATSafe.lean`
* Theorems: `C167_never_fails_partial`, `C167_pruned_violated`
* How: Invariant (branch ids, active leaves) by mutual structural induction over the tree, then over the sequence

### C168 HAT: node counters

* Status: partial. False after a change: a switch subtracts the replaced leaves twice and leaves the decision counter alone (C168_switch_violated, C168_negative_violated), a split of an alternate leaf subtracts nothing (C168_takeover_violated). Proved as long as no change is reported; what each switch, deletion and pruning adds to the counters is stated exactly (C168_kill, C168_prune).
* Code: `trees/_nodes/hatc_nodes.py:AdaSplitNode.learn_one`, `trees/_nodes/hatc_nodes.py:AdaSplitNode.kill_tree_children`, `trees/hoeffding_tree.py:HoeffdingTreeClassifier._attempt_to_split`
* Lean: `Verif/Trees/HATSafe.lean`
* Theorems: `C168_counters_partial`, `C168_takeover_violated`, `C168_switch_violated`, `C168_kill`, `C168_alternates`, `C168_prune`, `C168_negative_violated`
* How: Same induction with the differences of the counters; concrete runs and a general formula for the violations

### C169 HAT: without change it is the Hoeffding tree

* Status: proved. Detectors, observers, split decisions and draws are parameters.
* Code: `trees/_nodes/hatc_nodes.py:AdaSplitNode.learn_one`, `trees/_nodes/hatc_nodes.py:AdaLearningNode.learn_one`, `trees/hoeffding_tree.py:HoeffdingTreeClassifier._partial_fit`
* Lean: `Verif/Trees/HATRefine.lean`
* Theorems: `C169_refines_hoeffding_tree`
* How: Refinement: both trees equal a recursive growth function, by mutual structural induction, then over the sequence

### C170 HTR: leaves carry all training rows

* Status: partial. Proved for trees without multiway splits (pruned observers, deactivated leaves and unseen categories included); a multiway split of a leaf that inherited statistics loses them (C170_multiway_violated).
* Code: `trees/hoeffding_tree_regressor.py:HoeffdingTreeRegressor._partial_fit`, `trees/hoeffding_tree_regressor.py:HoeffdingTreeRegressor._attempt_to_split`, `trees/_nodes/htr_nodes.py:ActiveLeafRegressor.update_stats`
* Lean: `Verif/Trees/HTRLeaf.lean`
* Theorems: `C170_conserved_partial`, `C170_multiway_violated`
* How: Sum over leaves as an invariant of learning steps, split by split; multiway loss by a concrete history.

### C171 HTR: a leaf summarises the rows it is responsible for

* Status: partial. Proved when only leaves that observed all they carry are split (e.g. the root); a second split misplaces inherited rows (C171_second_split_violated).
* Code: `trees/hoeffding_tree_regressor.py:HoeffdingTreeRegressor._attempt_to_split`, `trees/_attribute_observer/numeric_attribute_regression_observer.py:NumericAttributeRegressionObserver._find_best_split`
* Lean: `Verif/Trees/HTRLeaf.lean`
* Theorems: `C171_leaf_rows_partial`, `C171_second_split_violated`
* How: Every leaf records its path; statistics compared with the rows following it, by induction over rows.

### C172 HTR: target-mean predictions stay in the range of the targets

* Status: partial. Proved when every branch of a split has positive weight (which C177 gives for two suggestions or more); an empty branch predicts nan (C172_empty_branch_violated).
* Code: `trees/_nodes/htr_nodes.py:InactiveLeafForRegression.predict_one`, `trees/_nodes/htr_nodes.py:ActiveLeafRegressor.predict_one`, `trees/hoeffding_tree_regressor.py:HoeffdingTreeRegressor.predict`
* Lean: `Verif/Trees/HTRLeaf.lean`, `Verif/Trees/HTRMean.lean`
* Theorems: `C172_empty_branch_violated`, `C172_range_partial`
* How: Invariant: the statistics of a leaf are those of some sublist of the training rows (using C62_subset_partial for pruned observers); means of sublists are in range.

### C173 HTR: perceptron predictions are bounded

* Status: proved. For any square root function; rows of weight at least one.
* Code: `trees/_nodes/htr_nodes.py:ActiveLeafPerceptron._update_weights`, `trees/_nodes/htr_nodes.py:ActiveLeafPerceptron.learn_one`, `trees/hoeffding_tree_regressor.py:HoeffdingTreeRegressor.normalize_sample`, `trees/hoeffding_tree_regressor.py:HoeffdingTreeRegressor.normalize_target_value`
* Lean: `Verif/Trees/HTRPerc.lean`
* Theorems: `C173_unit_norm`, `C173_bounded`
* How: Unit norm as an invariant over leaves; Hoelder inequality for the prediction.

### C174 HTR: running sums are exact and no row makes it fail

* Status: partial. Proved for two attributes or more; with one numeric attribute and perceptron leaves training raises IndexError by the second row (C174_single_attribute_violated).
* Code: `trees/hoeffding_tree_regressor.py:HoeffdingTreeRegressor._partial_fit`, `trees/hoeffding_tree_regressor.py:HoeffdingTreeRegressor.normalize_sample`, `trees/hoeffding_tree_regressor.py:HoeffdingTreeRegressor.predict`
* Lean: `Verif/Trees/HTRProps.lean`
* Theorems: `C174_sums_partial`, `C174_single_attribute_violated`
* How: Invariant for sums and shapes over all learning steps; IndexError by following the code.

### C175 HTR: rows count with their weight

* Status: partial. Weighted mean proved for mean leaves before the first split; rows of weight below one never train a perceptron (C175_fractions_violated).
* Code: `trees/_nodes/htr_nodes.py:ActiveLeafPerceptron.learn_one`, `trees/_nodes/htr_nodes.py:ActiveLeafRegressor.update_stats`
* Lean: `Verif/Trees/HTRPerc.lean`
* Theorems: `C175_fractions_violated`, `C175_weighted_mean_partial`
* How: Induction over rows; invariance of the initial weights for fractional weights.

### C176 HTR: one prediction per row

* Status: partial. Proved after training; untrained, predict returns a single 0.0 (C176_untrained_violated).
* Code: `trees/hoeffding_tree_regressor.py:HoeffdingTreeRegressor.predict`
* Lean: `Verif/Trees/HTRProps.lean`
* Theorems: `C176_rows_partial`, `C176_untrained_violated`
* How: Case analysis with the invariant of C174.

### C177 HTR: split decision

* Status: partial. Proved for two suggestions or more when deciding does not raise; a single suggestion is followed whatever its merit (C177_single_violated), and with remove_poor_atts a best merit of Python 0.0 raises ZeroDivisionError (C177_poor_violated).
* Code: `trees/hoeffding_tree_regressor.py:HoeffdingTreeRegressor._attempt_to_split`, `trees/_split_criterion/variance_reduction_split_criterion.py:VarianceReductionSplitCriterion.get_merit_of_split`
* Lean: `Verif/Trees/HTRSplit.lean`
* Theorems: `C177_rule_partial`, `C177_branches_partial`, `C177_disabled_partial`, `C177_nothing_partial`, `C177_single_violated`, `C177_poor_violated`
* How: Stable sort by merit, permutation and order arguments; error propagation through the poor-attribute loop.

### C178 Cost-sensitive boosting never fails

* Status: partial. Proved for CSB2 (C178_csb2) and for AdaC2 with at least as many members as classes; with fewer, AdaC2 raises IndexError on the first sample an added member is drawn for (C178_adac2_index_error_violated).
* Code: `meta/online_adac2.py:OnlineAdaC2Classifier.partial_fit`, `meta/online_csb2.py:OnlineCSB2Classifier.partial_fit`
* Lean: `Verif/Meta/SkewCost.lean`
* Theorems: `C178_adac2_partial`, `C178_csb2`, `C178_adac2_index_error_violated`
* How: Invariant over all rows and members for any safe bookkeeping (Safe, run_fresh_ok), instantiated for both ensembles.

### C179 AdaC2: weighted accuracy and error of a member

* Status: proved.
* Code: `meta/online_adac2.py:OnlineAdaC2Classifier.partial_fit`
* Lean: `Verif/Meta/SkewCost.lean`
* Theorems: `C179_weighted_accuracy`
* How: Entries of a member are a fold over its visits (run_fresh_hist); sums by induction over the visits.

### C180 CSB2: misses are charged with their cost

* Status: partial. epsilon is exact; false alarms are charged cost_positive instead of cost_negative (C180_cost_negative_ignored_violated) and the weight of a correctly predicted sample is forgotten (C180_weight_forgotten_violated).
* Code: `meta/online_csb2.py:OnlineCSB2Classifier.partial_fit`
* Lean: `Verif/Meta/SkewCost.lean`
* Theorems: `C180_error_estimate_partial`, `C180_cost_negative_ignored_violated`, `C180_weight_forgotten_violated`
* How: As C179; counterexamples from the update formula.

### C181 RUSBoost: training and error estimate

* Status: proved.
* Code: `meta/online_rus_boost.py:OnlineRUSBoostClassifier.partial_fit`
* Lean: `Verif/Meta/SkewRus.lean`
* Theorems: `C181_rus_boost`
* How: As C178 and C179, for rusBoost.

### C182 RUSBoost: class counts

* Status: partial. Right after complete rows; during a row the counters grow once per member, so the first member's rate for the first positive sample is about 1/N of what it should be (C182_first_positive_violated).
* Code: `meta/online_rus_boost.py:OnlineRUSBoostClassifier.partial_fit`
* Lean: `Verif/Meta/SkewRus.lean`
* Theorems: `C182_class_counts_partial`, `C182_first_positive_violated`
* How: Row-by-row induction (run_ind); the violation is proved for every number of members >= 2 and every block of negatives.

### C183 Under/over-bagging: rates

* Status: proved.
* Code: `meta/online_under_over_bagging.py:OnlineUnderOverBaggingClassifier.partial_fit`
* Lean: `Verif/Meta/SkewRows.lean`
* Theorems: `C183_under_over_bagging`
* How: run_fresh_ok with row-by-row induction.

### C184 SMOTE bagging: synthetic samples

* Status: partial. Rates proved; the neighbour is always the first positive sample of the stream (C184_neighbour_violated), the point lies beyond the sample, not between (C184_beyond_violated), and positives are stored once per member (C184_memory_violated).
* Code: `meta/online_smote_bagging.py:OnlineSMOTEBaggingClassifier.partial_fit`, `meta/online_smote_bagging.py:OnlineSMOTEBaggingClassifier.online_smote`
* Lean: `Verif/Meta/Smote.lean`
* Theorems: `C184_smote_partial`, `C184_memory_violated`, `C184_beyond_violated`, `C184_neighbour_violated`
* How: Induction over rows, members and synthetic draws; the distance row used has a single entry.

### C185 Ensembles for skewed classes: a member reset after a change starts afresh

* Status: partial. Learner and detector are reset; the error statistics survive (C185_entries_survive_violated, C185_entries_kept_violated).
* Code: `meta/online_adac2.py:OnlineAdaC2Classifier.partial_fit`, `meta/online_csb2.py:OnlineCSB2Classifier.partial_fit`, `meta/online_rus_boost.py:OnlineRUSBoostClassifier.partial_fit`
* Lean: `Verif/Meta/SkewRus.lean`
* Theorems: `C185_reset_partial`, `C185_entries_survive_violated`, `C185_entries_kept_violated`
* How: Direct from the reaction; concrete run as counterexample.

### C186 Ensembles for skewed classes: sample weights

* Status: partial. Single samples with a single weight work; a batch of two or more weighted samples raises ValueError with learners that check the number of weights (C186_sample_weight_violated).
* Code: `meta/online_adac2.py:OnlineAdaC2Classifier.partial_fit`, `meta/online_under_over_bagging.py:OnlineUnderOverBaggingClassifier.partial_fit`, `trees/hoeffding_tree.py:HoeffdingTreeClassifier.partial_fit`
* Lean: `Verif/Meta/SkewRus.lean`
* Theorems: `C186_single_weights_partial`, `C186_sample_weight_violated`
* How: run_fresh_takes; the violation for every batch of at least two weighted samples.

### C187 clone() preserves the parameters

* Status: partial. Holds for classes that store parameters under their names; DDM, online boosting, SMOTE bagging lose one, SAM-kNN and Learn++.NSE cannot be cloned.
* Code: `core/base.py:clone`, `core/base.py:BaseEstimator.get_params`, `drift_detection/ddm.py:DDM.__init__`, `meta/online_boosting.py:OnlineBoostingClassifier.__init__`, `meta/online_smote_bagging.py:OnlineSMOTEBaggingClassifier.__init__`, `lazy/sam_knn.py:SAMKNNClassifier.__init__`, `meta/learn_nse.py:LearnPPNSEClassifier.__init__`
* Lean: `Verif/Core/Clone.lean`
* Theorems: `C187_clone_partial`, `C187_dropped_violated`, `C187_ddm_violated`, `C187_online_boosting_violated`, `C187_smote_violated`, `C187_fails_violated`
* How: Mutual induction over nested estimators; counterexamples for the constructors of the library.

### C188 Metrics an evaluator accepts can be computed

* Status: partial. Proved without data_points_for_classification; with the flag a regression or multi-target metric is accepted and every report fails with AttributeError (C188_violated).
* Code: `evaluation/base_evaluator.py:170-239`, `evaluation/base_evaluator.py:320-470`, `evaluation/evaluation_data_buffer.py:6-44`, `utils/constants.py:1-73`
* Lean: `Verif/Evaluation/ReportProps.lean`
* Theorems: `C188_accepted_reports_partial`, `C188_violated`
* How: Case analysis of the check gives the metric lists; every metric on a list has its method; induction over the metrics of a report shows that it succeeds from any buffer reached.

### C189 The evaluation task is inferred from the metrics

* Status: proved.
* Code: `evaluation/base_evaluator.py:170-239`, `utils/constants.py:45-73`
* Lean: `Verif/Evaluation/ReportProps.lean`
* Theorems: `C189_task_inference`
* How: Membership reasoning about the metric lists; reordering is a permutation.

### C190 Result rows match the result file header

* Status: proved.
* Code: `evaluation/base_evaluator.py:304-318`, `evaluation/base_evaluator.py:320-535`, `evaluation/base_evaluator.py:543-649`, `evaluation/evaluation_data_buffer.py:30-44`
* Lean: `Verif/Evaluation/ReportProps.lean`
* Theorems: `C190_row_matches_header`
* How: Invariant of the data buffer over the writes of a report (each metric's entries survive the later ones), refinement of header and line to one list of columns, unique decoding of the text between commas and of the titles.

### C191 Data points are shown with their true class

* Status: proved.
* Code: `evaluation/base_evaluator.py:438-454`, `evaluation/base_evaluator.py:484-496`
* Lean: `Verif/Evaluation/ReportProps.lean`
* Theorems: `C191_data_points`
* How: The same buffer invariant for the data_points entries.

### C192 Prequential rows come every n_wait samples

* Status: proved.
* Code: `evaluation/evaluate_prequential.py:286-381`
* Lean: `Verif/Evaluation/Run.lean`
* Theorems: `C192_report_schedule`
* How: Induction over the loop with the invariant n_wait*u <= c <= n_wait*(u+1), and two exact invariants.

### C193 Errors of a learner end a prequential evaluation silently

* Status: proved.
* Code: `evaluation/evaluate_prequential.py:290-394`, `evaluation/base_evaluator.py:674-780`
* Lean: `Verif/Evaluation/Run.lean`
* Theorems: `C193_errors_hidden`, `C193_failure_looks_like_end`
* How: Induction over the loop: the data buffer is fresh or filled; simulation by the run cut off at the failing iteration.

### C194 Reported running times add up

* Status: proved.
* Code: `metrics/measure_collection.py:1489-1573`, `evaluation/evaluate_prequential.py:290-374`, `evaluation/evaluate_holdout.py:250-335`, `evaluation/evaluate_prequential_delayed.py:290-335`, `evaluation/evaluate_prequential_delayed.py:394-461`
* Lean: `Verif/Evaluation/Timer.lean`
* Theorems: `C194_prequential_times`, `C194_holdout_times`, `C194_times_bounded`, `C194_delayed_times`, `C194_violated`
* How: Induction over the acts of a run; blocks of acts end with the total up to date.

### C195 LeveragingBagging trains each member as often as its algorithm says

* Status: proved. Labels are assumed non-negative when a code matrix is used.
* Code: `meta/leverage_bagging.py:209-282`
* Lean: `Verif/Meta/LevBagProps.lean`
* Theorems: `C195_training`, `C195_batch`, `C195_bounds`
* How: induction over the members (visitAll_spec) against an independent relation for the weighting rules (Draws) and the labels (Lesson); batches by induction over the rows

### C196 LeveragingBagging's detectors record the errors of their members

* Status: partial. Without a code matrix, and with one for members trained on the sample, proved; for untrained members with a code matrix the claim fails.
* Code: `meta/leverage_bagging.py:238-291`
* Lean: `Verif/Meta/LevBagProps.lean`
* Theorems: `C196_detector_partial`, `C196_untrained_violated`
* How: from the same per-member relation; the violation is proved for all states, labels from 2 on and 0/1 learners

### C197 LeveragingBagging counts a drift once and replaces the worst member

* Status: proved.
* Code: `meta/leverage_bagging.py:284-304`
* Lean: `Verif/Meta/LevBagProps.lean`
* Theorems: `C197_replacement`, `C197_count`
* How: invariant over reachable states that every detector is a run of recorded outcomes, so estimates are non-negative; then the scan for the largest estimate by induction

### C198 A code-matrix ensemble whose members are all right is right

* Status: partial. The scores and the first-of-equal-codes answer are proved; that the right class is answered fails when codes collide, which is shown unavoidable with more than 2^n classes.
* Code: `meta/leverage_bagging.py:306-349`, `meta/leverage_bagging.py:408-459`
* Lean: `Verif/Meta/LevBagProps.lean`
* Theorems: `C198_shares`, `C198_unanimous_partial`, `C198_collision_violated`
* How: counting by induction over the members; the answer by argmax; collision by the pigeonhole principle

### C199 reset makes a LeveragingBaggingClassifier as new

* Status: proved. An integer random_state is assumed: the generator starts again.
* Code: `meta/leverage_bagging.py:170-179`, `meta/leverage_bagging.py:461-470`
* Lean: `Verif/Meta/LevBagProps.lean`
* Theorems: `C199_reset_as_new`, `C199_reset_state`
* How: bisimulation between the reset and the new ensemble, equal up to a code matrix that is not read

### C200 A multi-target tree with mean leaves treats its targets apart

* Status: proved.
* Code: `trees/isoup_tree.py:289-566`, `trees/hoeffding_tree_regressor.py:240-560`
* Lean: `Verif/Trees/MTRProps.lean`
* Theorems: `C200_targets_apart`
* How: refinement: the multi-target tree maps to the single-target tree leaf by leaf; simulation by induction over the rows

### C201 Perceptron leaves of multi-target trees do not extrapolate beyond the input

* Status: proved.
* Code: `trees/_nodes/isouptr_nodes.py:10-92`, `trees/_nodes/sst_htr_nodes.py:9-112`, `trees/isoup_tree.py:229-470`
* Lean: `Verif/Trees/MTRPerc.lean`
* Theorems: `C201_perceptron`, `C201_stacked`
* How: invariants by induction over the rows: rows of weights have 1-norm 1 (or are nan), sums are those of the rows; then the dot-product bound

### C202 The unit of a target only changes the unit of its predictions

* Status: partial. The units are proved for the same split decisions, and preferences between splits for a common unit; the full property is false (C202_splits_violated: merits of two splits of ten rows change order with the unit of one target).
* Code: `trees/isoup_tree.py:229-566`, `trees/_nodes/isouptr_nodes.py:10-157`, `trees/_nodes/sst_htr_nodes.py:9-208`, `trees/_split_criterion/intra_cluster_variance_reduction_split_criterion.py:8-38`
* Lean: `Verif/Trees/MTRMerit.lean`, `Verif/Trees/MTRUnits.lean`
* Theorems: `C202_common_unit_partial`, `C202_splits_violated`, `C202_units_partial`
* How: simulation between two runs with rescaled rows for all kinds of leaves; the criterion by algebra; the violation by evaluating two merits

### C203 Adaptive leaves of multi-target trees answer with the predictor that has erred least

* Status: partial. The choice and the faded errors of perceptrons are proved for rows of weight in [1,2) and non-zero standard deviations; for the mean the property is false (C203_own_row_violated).
* Code: `trees/_nodes/isouptr_nodes.py:93-157`, `trees/_nodes/sst_htr_nodes.py:114-208`
* Lean: `Verif/Trees/MTRAdapt.lean`
* Theorems: `C203_faded_partial`, `C203_faded_stacked_partial`, `C203_born`, `C203_choice`, `C203_choice_stacked`, `C203_own_row_violated`
* How: induction over the rows of a leaf; the choice by cases; the violation for all sums and targets

### C204 reset makes a regression tree as new

* Status: partial. Proved for mean leaves after at least one partial_fit call; false for predict right after reset, after rows of weight 0 only, and for perceptron leaves (C204_predict_violated, C204_zero_weights_violated, C204_sums_violated, C204_single_target_violated).
* Code: `trees/hoeffding_tree.py:235-247`, `trees/isoup_tree.py:146-199`, `trees/isoup_tree.py:323-470`, `trees/hoeffding_tree_regressor.py:148-230`
* Lean: `Verif/Trees/MTRReset.lean`
* Theorems: `C204_mean_partial`, `C204_predict_violated`, `C204_zero_weights_violated`, `C204_sums_violated`, `C204_single_target_violated`
* How: simulation of two runs that differ in their sums only; the violations in general or by evaluating a run

### C205 The intra-cluster merit is the reduction of the mean sample variance

* Status: proved.
* Code: `trees/_split_criterion/intra_cluster_variance_reduction_split_criterion.py:8-38`
* Lean: `Verif/Trees/MTRMerit.lean`
* Theorems: `C205_no_split`, `C205_small_branch`, `C205_merit`, `C205_useless`
* How: algebra over rational sums of squares

### C206 The label-combination tree predicts label combinations it has seen

* Status: partial. Round trip proved in full; predictions seen proved with majority-class leaves, otherwise up to rows without votes; false for float labels, untrained trees and naive Bayes leaves after a split (C206_float_violated, C206_unseen_violated).
* Code: `trees/label_combination_hoeffding_tree.py:145-222`, `trees/_nodes/lc_htc_nodes.py:1-80`
* Lean: `Verif/Trees/LC.lean`
* Theorems: `C206_round_trip`, `C206_float_violated`, `C206_seen_or_zeros_partial`, `C206_majority_partial`, `C206_unseen_violated`
* How: refinement of the Hoeffding tree on the encoded labels by induction over the rows; positional notation by injectivity of digits

### C207 A Hoeffding tree only predicts classes it was trained on

* Status: partial. Proved for majority-class leaves without empty branches and otherwise up to rows without votes; false for naive Bayes and adaptive leaves after a split (C207_new_branch_violated, C207_class_zero_violated).
* Code: `trees/hoeffding_tree.py:355-437`, `trees/_nodes/htc_nodes.py:60-170`, `bayes/utils.py:4-42`
* Lean: `Verif/Trees/Known.lean`
* Theorems: `C207_known_or_zero_partial`, `C207_majority_partial`, `C207_new_branch_violated`, `C207_class_zero_violated`
* How: invariant over all nodes that class counts are non-negative and of trained classes only, by induction over the rows; then the prediction lemma of C126

### C208 Adaptive regression tree: what the drift detectors see

* Status: partial. The formula and its independence of the unit hold for every sequence; the range is proved for the first ten errors of a node, and fails after ten or more equal errors followed by a different one (C208_outlier_violated).
* Code: `trees/_nodes/hatr_nodes.py:242-270`
* Lean: `Verif/Trees/HATRLeaf.lean`, `Verif/Trees/HATRNorm.lean`
* Theorems: `C208_node`, `C208_standard_score`, `C208_range_partial`, `C208_outlier_violated`, `C208_unit_free`
* How: Welford's updates are shown to compute mean and sum of squared deviations of the whole history by induction; the value is then the specification's standard score, for any square root function that squares back. The range uses that a value is at most sqrt(n-1) deviations from the mean of n values; the violation is a general family of histories.

### C209 Adaptive regression tree: training and prediction never fail

* Status: partial. Proved for two or more attributes; with a single numeric attribute training raises IndexError at the second row at the latest, even with leaf_prediction='mean' (C209_single_attribute_violated).
* Code: `trees/hoeffding_adaptive_tree_regressor.py:162-212`, `trees/_nodes/hatr_nodes.py:36-112`, `trees/_nodes/hatr_nodes.py:194-232`, `trees/hoeffding_tree_regressor.py:398-426`
* Lean: `Verif/Trees/HATRSafe.lean`
* Theorems: `C209_never_fails_partial`, `C209_single_attribute_violated`
* How: Invariant of the tree (children numbered, perceptron weights of matching length, sums of matching length) kept by every step, by mutual induction over tree and children; the violation follows the IndexError of normalisation through all nodes.

### C210 Adaptive regression tree: life of alternate trees

* Status: partial. Proved for rows at which no split is made. An alternate leaf that splits replaces the node whatever the error estimates (C210_takeover_violated), and so does the leaf of a new category that splits at its first row (C210_new_category_violated).
* Code: `trees/_nodes/hatr_nodes.py:36-112`, `trees/_nodes/hatr_nodes.py:194-224`, `trees/hoeffding_tree_regressor.py:428-505`
* Lean: `Verif/Trees/HATRRefine.lean`
* Theorems: `C210_alternate_partial`, `C210_takeover_violated`, `C210_new_category_violated`
* How: Case analysis of the reaction to the detectors, then of learning at a split node; the violations are general theorems with a concrete run beside them.

### C211 Adaptive regression tree without drift is the Hoeffding tree regressor

* Status: proved.
* Code: `trees/hoeffding_adaptive_tree_regressor.py:162-212`, `trees/_nodes/hatr_nodes.py:36-112`, `trees/_nodes/hatr_nodes.py:194-224`, `trees/hoeffding_tree_regressor.py:361-396`
* Lean: `Verif/Trees/HATRRefine.lean`
* Theorems: `C211_refines_hoeffding_tree`
* How: Simulation: erasing monitors and alternate trees commutes with every training step, by mutual induction over tree and children, lifted to runs by induction.

### C212 ARF tree: a leaf looks at max_features features drawn without replacement

* Status: partial. Proved for data of at least max_features features; with fewer (one feature and the default max_features=2) the first training instance raises ValueError (C212_too_few_violated). That splits test a feature of the subset is by the suggestions coming from the observers (the outcome of an attempt is a parameter).
* Code: `trees/arf_hoeffding_tree.py`, `trees/_nodes/arf_htc_nodes.py`
* Lean: `Verif/Trees/ARFTree.lean`
* Theorems: `C212_leaf_features_partial`, `C212_kept`, `C212_too_few_violated`
* How: Invariant over the training instances: every leaf has seen a sublist of them, and its observers are the fold of the update over that log, for exactly the features drawn.

### C213 Trees of a classifier forest draw their features independently

* Status: partial. Violated with an int seed: all trees start from equal generators and draw the same subsets in the same order until one of them is replaced after a drift. Proved: with a RandomState object, or None, the trees draw from one shared generator, each draw once.
* Code: `meta/adaptive_random_forests.py`, `trees/arf_hoeffding_tree.py`, `utils/validation.py`
* Lean: `Verif/Meta/ForestSeeds.lean`
* Theorems: `C213_same_subsets_violated`, `C213_same_stream_violated`, `C213_shared_partial`
* How: Heap of generators with who draws from which; the draws of two trees are shown equal by simulation, for every seed and every generator.

### C214 A tree that replaces a drifted tree of the regression forest is newly randomised

* Status: partial. Violated: background trees and reset trees repeat the seeds of the tree they replace. Proved: the trees of one regression forest have their own seeds.
* Code: `meta/adaptive_random_forest_regressor.py`, `trees/arf_hoeffding_tree_regressor.py`, `utils/validation.py`
* Lean: `Verif/Meta/ForestSeeds.lean`
* Theorems: `C214_own_seeds_partial`, `C214_replay_violated`
* How: The same heap; the draws of the replacing tree are shown to be those of its predecessor.

### C215 get_params / set_params round trip

* Status: proved.
* Code: `core/base.py`
* Lean: `Verif/Core/Params.lean`
* Theorems: `C215_get`, `C215_round_trip`
* How: A parameter path relation (Reads) on a heap of estimators; get_params is shown to list only pairs of it, and set_params to be the identity on such pairs, by induction on the depth.

### C216 set_params sets what is given and nothing else

* Status: proved.
* Code: `core/base.py`
* Lean: `Verif/Core/Params.lean`
* Theorems: `C216_set_own`, `C216_set_nested`, `C216_set_replaced`
* How: Loop invariant of the first loop; the nested loop reduces to the call on the nested estimator.

### C217 set_params with an unknown name raises ValueError and changes nothing

* Status: partial. ValueError is proved for every position of the unknown name; the parameters given before it stay changed (C217_half_done_violated).
* Code: `core/base.py`
* Lean: `Verif/Core/Params.lean`
* Theorems: `C217_unknown_partial`, `C217_half_done_violated`
* How: Induction over the call; the state at the exception is the state after the assignments before the bad name.

### C218 A parameter set by set_params is used

* Status: partial. Violated for DDM: min_num_instances is kept under another name, so setting it has no effect, and get_params reports None before (C218_ddm_violated); holds for the two levels (C218_used_partial). Other classes are not modelled here.
* Code: `core/base.py`, `drift_detection/ddm.py`
* Lean: `Verif/Core/Params.lean`
* Theorems: `C218_ddm_violated`, `C218_used_partial`
* How: Instances of C216 with the attributes that add_element reads.

### C219 RSLVQ predicts the class of the nearest prototype

* Status: proved.
* Code: `prototype/robust_soft_learning_vector_quantization.py`
* Lean: `Verif/Prototype/RSLVQ.lean`
* Theorems: `C219_nearest`
* How: argmax of the negated squared distance over 2 sigma, by the loop invariant of argmax.

### C220 RSLVQ learns only from mistakes, attracting the right prototype and repelling the wrong one

* Status: proved.
* Code: `prototype/robust_soft_learning_vector_quantization.py`
* Lean: `Verif/Prototype/RSLVQ.lean`
* Theorems: `C220_right`, `C220_wrong`, `C220_amount`, `C220_adadelta`
* How: Loop invariant of the search for the two nearest prototypes; the sign of the factor from sums of positive exponentials.

### C221 RSLVQ answers with known classes

* Status: partial. Proved without initial prototypes once every class has occurred; a class declared but not yet seen has prototypes of uninitialised memory, which can answer with any label (C221_garbage_violated). Learning known labels without error is proved in full (C221_learns).
* Code: `prototype/robust_soft_learning_vector_quantization.py`
* Lean: `Verif/Prototype/RSLVQRun.lean`
* Theorems: `C221_known_partial`, `C221_learns`, `C221_garbage_violated`
* How: Invariant: ppc prototypes per class, labelled with it as soon as it has occurred; witness with arbitrary memory.

### C222 RSLVQ learns incrementally

* Status: partial. Proved without initial prototypes; with initial prototypes given as a list every call starts from them again (C222_forgets_violated), given as a float array the caller's array is overwritten (C222_overwrites_violated).
* Code: `prototype/robust_soft_learning_vector_quantization.py`
* Lean: `Verif/Prototype/RSLVQRun.lean`
* Theorems: `C222_batches_partial`, `C222_forgets_violated`, `C222_overwrites_violated`
* How: A call is the fold of single rows; folds compose. Non-interference for initial prototypes.

### C223 RSLVQ rejects bad parameters and labels with ValueError

* Status: partial. All but sigma = 0, which raises ZeroDivisionError (C223_zero_violated).
* Code: `prototype/robust_soft_learning_vector_quantization.py`
* Lean: `Verif/Prototype/RSLVQRun.lean`
* Theorems: `C223_unknown_partial`, `C223_labels_partial`, `C223_parameters_partial`, `C223_zero_violated`
* How: Case analysis; pigeonhole for the labels.

### C224 normal_probability is a symmetric distribution function

* Status: proved. Over the reals with the constants of the source; rounding not modelled. erf and erfc add up to one except at |a| = 1, where two formulas meet.
* Code: `utils/statistics.py`
* Lean: `Verif/Utils/Statistics.lean`
* Theorems: `C224_error_functions`, `C224_normal_probability`, `C224_tail`
* How: bounds of the four quotients of polynomials coefficient by coefficient, then case distinction over the ranges

### C225 calculate_object_size counts every part once

* Status: proved. The heap is fixed during the call: reuse of the id of temporary objects is not modelled.
* Code: `utils/utils.py`
* Lean: `Verif/Utils/ObjectSize.lean`
* Theorems: `C225_object_size`
* How: loop invariant of the breadth-first search (seen is closed up to the queue), termination by lexicographic induction, permutation of the parts

### C226 normalize_values_in_dict divides by the factor

* Status: proved.
* Code: `utils/utils.py`
* Lean: `Verif/Utils/Dicts.lean`
* Theorems: `C226_normalize`
* How: induction over the items

### C227 add_dict_values and get_max_value_key

* Status: proved.
* Code: `utils/utils.py`
* Lean: `Verif/Utils/Dicts.lean`
* Theorems: `C227_add_and_max`
* How: induction over the items of the second dictionary; first-maximum invariant

### C228 Removing the header of a file

* Status: partial. Names with more than one dot lose everything from the second dot on (./data/iris.csv becomes _no_header./data/iris), so different files are cleaned into one; with new_file equal to base_file the file is emptied. The rest is proved.
* Code: `utils/file_scripts.py`
* Lean: `Verif/Utils/CleanHeader.lean`
* Theorems: `C228_clean_partial`, `C228_dots_violated`, `C228_same_file_violated`
* How: unique division into lines by induction; split lemmas; counterexamples for all names with two dots and for equal files

### C229 Measuring the generation speed

* Status: partial. The samples asked for are as claimed; the progress logged exceeds 100 % whenever all samples are measured in at most twenty batches.
* Code: `evaluation/evaluate_stream_gen_speed.py`
* Lean: `Verif/Evaluation/StreamSpeed.lean`
* Theorems: `C229_measure_partial`, `C229_percent_violated`
* How: closed form of the inner loop by induction, invariant of the outer loop; counterexample for all measurements of at most twenty batches

### C230 Waveform samples mix the two waves of their class

* Status: proved.
* Code: `data/waveform_generator.py`
* Lean: `Verif/Streams/Waveform.lean`
* Theorems: `C230_waveform`, `C230_between`, `C230_classes_differ`
* How: triangles compared with the table of waves, then algebra of convex combinations

### C231 RBF samples lie around their centroid

* Status: proved.
* Code: `data/random_rbf_generator.py`
* Lean: `Verif/Streams/RBF.lean`
* Theorems: `C231_rbf_samples`
* How: algebra over the reals with the square root

### C232 Drifting RBF samples lie around the moved centroid

* Status: proved.
* Code: `data/random_rbf_generator_drift.py`, `data/random_rbf_generator.py`
* Lean: `Verif/Streams/RBF.lean`
* Theorems: `C232_rbf_drift`, `C232_speeds`
* How: invariant over all moves by induction

### C233 Initial prototypes of RSLVQ are class means

* Status: proved.
* Code: `prototype/robust_soft_learning_vector_quantization.py`
* Lean: `Verif/Prototype/RSLVQRun.lean`
* Theorems: `C233_start`
* How: per-class invariant of the initialisation fold, then the exact content of each block of prototypes before training

### C234 SAM-kNN with 'maxACC' keeps the window with the best test-then-train accuracy

* Status: partial. false after a cut of an odd number of samples (C234_odd_cut_violated); proved as long as all earlier cuts were exact halves, quarters, ...
* Code: `lazy/sam_knn.py`
* Lean: `Verif/Lazy/SamSizer.lean`
* Theorems: `C234_best_window_partial`, `C234_odd_cut_violated`
* How: Invariant over runs: the distance matrix is right, the keys of the histories are the first samples of the windows of the memory (or of a window one longer), and after exact cuts every history is a prefix of the test-then-train flags of its window; `pass` extends them to exactly these flags and argmax picks the first maximum.

### C235 SAM-kNN with 'maxACCApprox' cuts its memory only for a more accurate window

* Status: partial. false after a cut of an odd number of samples (C235_odd_cut_violated); proved as long as all earlier cuts were exact halves, quarters, ...
* Code: `lazy/sam_knn.py`
* Lean: `Verif/Lazy/SamSizer.lean`
* Theorems: `C235_cut_if_better_partial`, `C235_odd_cut_violated`
* How: Same invariant, for the history of the whole memory; windows that look better are judged from scratch before the final argmax.

### C236 Sizes SAM-kNN chooses for its short-term memory

* Status: partial. false for min_stm_size=0 (C236_zero_violated); proved for n_neighbors < min_stm_size under the conditions of C128
* Code: `lazy/sam_knn.py`
* Lean: `Verif/Lazy/SamSizer.lean`
* Theorems: `C236_sizes_partial`, `C236_zero_violated`
* How: The keys are two apart or more, so lookups find the history of their window or of the one before, no popped history is empty and `adaptHistories` never runs out of keys; memories by C128.

### C237 Ensembles for skewed classes replace a member only when accuracy falls

* Status: partial. C237_when_partial says exactly when a member is reset; C237_best_reset_violated: the detectors record right predictions, so it is a rise that leads to a reset and the best member that is reset
* Code: `meta/online_under_over_bagging.py:200-238`, `meta/online_csb2.py:215-268`, `meta/online_adac2.py:222-276`, `meta/online_rus_boost.py:219-297`, `meta/online_smote_bagging.py:202-251`
* Lean: `Verif/Meta/SkewRus.lean`
* Theorems: `C237_when_partial`, `C237_best_reset_violated`
* How: induction over the members of one pass, following the alarm flag; the reset member by the specification of the search for the largest estimate

### C238 AnomalySineGenerator yields the number of anomalies asked for

* Status: partial. C238_count_partial: with replace=False exactly n_anomalies, otherwise between 1 and n_anomalies; C238_replacement_violated: with the default replace=True any repeated draw gives fewer
* Code: `data/anomaly_sine_generator.py:77-104`
* Lean: `Verif/Streams/AnomalySine.lean`
* Theorems: `C238_count_partial`, `C238_replacement_violated`
* How: labels after a list of assignments by induction; positions of ones are a permutation of the different positions drawn

### C239 Values of the samples of AnomalySineGenerator

* Status: proved.
* Code: `data/anomaly_sine_generator.py:59-104`
* Lean: `Verif/Streams/AnomalySine.lean`
* Theorems: `C239_values`
* How: values after assignments through an index array by induction (the last assignment to a position wins)

### C240 Contextual anomalies are labelled as anomalies

* Status: partial. C240_labels_partial says which samples are labelled; C240_contextual_violated: contextual anomalies are labelled 0
* Code: `data/anomaly_sine_generator.py:87-104`
* Lean: `Verif/Streams/AnomalySine.lean`
* Theorems: `C240_labels_partial`, `C240_contextual_violated`
* How: from the characterisation of labels and values

### C241 Parameters that AnomalySineGenerator accepts

* Status: partial. C241_accepted_partial characterises the accepted parameters; C241_none_violated: n_anomalies=0 raises; C241_contextual_violated: without replacement n_contextual above n_samples-|shift| raises
* Code: `data/anomaly_sine_generator.py:46-104`
* Lean: `Verif/Streams/AnomalySine.lean`
* Theorems: `C241_accepted_partial`, `C241_none_violated`, `C241_contextual_violated`
* How: case analysis of all checks and of the conditions under which RandomState.choice raises

### C242 The binary-tree observer of numeric attributes accepts observations

* Status: partial. C242_update_violated and C242_always_empty_violated: the constructor of a node adds to a missing dictionary entry, so every update with a value raises KeyError and the observer stays empty; C242_missing_partial: missing values are ignored. The search below the root is not modelled because no root ever exists
* Code: `trees/_attribute_observer/numeric_attribute_class_observer_binary_tree.py:14-86`
* Lean: `Verif/Trees/BinaryTreeObserver.lean`
* Theorems: `C242_update_violated`, `C242_always_empty_violated`, `C242_missing_partial`
* How: induction over the updates: the root is never made

### C243 The default reset() keeps the parameters

* Status: partial. C243_reset_partial: holds for numbers, truth values, None, strings without white space and sequences of at most thirty elements, if the class name does not occur in them; violated for objects (exception), longer sequences (cut off), strings with white space (removed) and strings with the class name (replaced)
* Code: `core/base.py:244-286`, `core/base.py:344-356`, `utils/_pprint.py:173-440`
* Lean: `Verif/Core/Repr.lean`, `Verif/Core/Reset.lean`
* Theorems: `C243_repr_reset_partial`, `C243_reset_partial`, `C243_object_violated`, `C243_long_list_violated`, `C243_blank_violated`, `C243_class_name_violated`
* How: a printer and a reader of Python literals; reading back the printed text by mutual induction over values and sequences, with enough fuel

### C244 VFDR: merit with foil_gain

* Status: partial. False for almost all splits: with the class on both sides the merit is negative where the gain is positive (C244_both_sides_violated); with the class on one side the side without it is kept with merit 0 (C244_one_side_violated). Proved for equal proportions and for a class alone on the left (C244_gain_partial). Listed weights positive.
* Code: `rules/foil_gain_rule_criterion.py:FoilGainExpandCriterion.get_merit_of_split`, `rules/foil_gain_rule_criterion.py:FoilGainExpandCriterion.compute_entropy`
* Lean: `Verif/Rules/Foil.lean`
* Theorems: `C244_both_sides_violated`, `C244_one_side_violated`, `C244_gain_partial`
* How: Real logarithms; the proportion before the split lies between those of the sides.

### C245 VFDR: looking at the rules

* Status: partial. Both raise ValueError when a rule has seen nothing, e.g. a new classifier (C245_untrained_violated) or after rules were made with foil_gain (C245_foil_description_violated); get_model_rules overwrites the class of every rule, which changes later expansions with foil_gain (C245_foil_violated). Proved for info_gain and hellinger, and for rules that have seen something.
* Code: `rules/very_fast_decision_rules.py:VeryFastDecisionRulesClassifier.get_model_rules`, `rules/very_fast_decision_rules.py:VeryFastDecisionRulesClassifier.get_model_description`
* Lean: `Verif/Rules/Reading.lean`
* Theorems: `C245_reading_partial`, `C245_labels_partial`, `C245_description_partial`, `C245_untrained_violated`, `C245_foil_description_violated`, `C245_foil_violated`
* How: Bisimulation: learning and voting commute with erasing the class labels of the rules.

### C246 AWE: cross-validation of the new model

* Status: partial. False for estimators whose fit goes on from what they have learned, as that of all classifiers of the package does: one copy is trained on all training sets in turn, so from the second fold on it has been trained on the test set (C246_incremental_violated, C246_rote_violated). Proved for estimators whose fit starts anew.
* Code: `meta/accuracy_weighted_ensemble.py:AccuracyWeightedEnsemble.compute_score_crossvalidation`, `meta/accuracy_weighted_ensemble.py:AccuracyWeightedEnsemble.train_model`
* Lean: `Verif/Meta/AWEScore.lean`
* Theorems: `C246_batch_partial`, `C246_incremental_violated`, `C246_rote_violated`
* How: Induction over the folds with the state of the shared copy; membership of test sets in earlier training sets.

### C247 AWE: the score uses the probability of the true label

* Status: partial. False when labels are not 0, 1, ...: the position of the label among the labels of the chunk is used as column, so a perfect model gets the worst score (C247_perfect_violated); a class that only occurs in the first test set raises IndexError (C247_rare_class_violated). Proved for labels 0, ..., k-1 and for columns in the order of the labels.
* Code: `meta/accuracy_weighted_ensemble.py:AccuracyWeightedEnsemble.compute_score`
* Lean: `Verif/Meta/AWEScore.lean`
* Theorems: `C247_columns_partial`, `C247_perfect_violated`, `C247_rare_class_violated`
* How: Position of a label in the sorted labels against the column it is read from.

### C248 Ensembles for skewed classes: how the members vote

* Status: partial. Votes are the weighted sums when all members know the same classes; members without errors have no vote, negative weights give negative probabilities, classes unknown to the first member are unweighted, AdaC2 members without wacc add columns, a warning raises.
* Code: `meta/online_adac2.py:317-387`, `meta/online_csb2.py:310-381`, `meta/online_rus_boost.py:338-409`, `meta/online_under_over_bagging.py:274-344`, `meta/online_smote_bagging.py:300-370`
* Lean: `Verif/Meta/SkewVotes.lean`
* Theorems: `C248_votes_partial`, `C248_bagging_partial`, `C248_eps_weight_partial`, `C248_ada_weight_partial`, `C248_unknown_partial`, `C248_perfect_ignored_violated`, `C248_no_votes_violated`, `C248_negative_violated`, `C248_unweighted_violated`, `C248_adac2_missing_violated`, `C248_warning_violated`, `C248_too_many_violated`
* How: Model of the voting loop with weights that are numbers, warn or are missing; induction over members and columns for the weighted sum and the average; link to the training model (C181) for members without errors; general witnesses for the violations.

### C249 Plotted curves are exactly the reported values

* Status: proved. Theorem over all sequences of reports for the model of data buffer and visualizer; matplotlib drawing itself is outside the model, metric values are rational (no nan).
* Code: `visualization/evaluation_visualizer.py:107-145`, `visualization/evaluation_visualizer.py:348-450`, `evaluation/evaluation_data_buffer.py`, `evaluation/base_evaluator.py:304-541`
* Lean: `Verif/Evaluation/PlotProps.lean`
* Theorems: `C249_curves`
* How: Evaluation/Plot.lean models visualizer and reports, PlotProps.lean: a report with computable metrics writes everything the plots read (induction over metrics), its effect on the plots is a pure function, each part of the state is changed by one metric only; induction over reports.

### C250 Plotted values lie within the axes

* Status: partial. Violated: limits follow only the latest report, so earlier points of an error curve are cut off when the error falls, and kappa below -1/10 is cut off at once. Proved: values of the latest report in their usual ranges, and latest true and predicted values, are within the limits.
* Code: `visualization/evaluation_visualizer.py:355-370`, `visualization/evaluation_visualizer.py:424-447`
* Lean: `Verif/Evaluation/PlotLimits.lean`
* Theorems: `C250_latest_partial`, `C250_earlier_violated`, `C250_kappa_violated`
* How: Evaluation/PlotLimits.lean: invariant of the loop over models for the limits; violations for any error falling from above 3/2 to at most 1 and any kappa below -1/10.

### C251 Data points subplot shows the latest samples of every class

* Status: partial. Violated: points whose label is not less than the number of clusters are lost, and every report adds clusters again because clusters_initialized is never set. Proved: for labels less than the number of classes of the first report the cluster holds the last hundred points with that label.
* Code: `visualization/evaluation_visualizer.py:235-242`, `visualization/evaluation_visualizer.py:371-405`
* Lean: `Verif/Evaluation/PlotLimits.lean`
* Theorems: `C251_points_partial`, `C251_lost_violated`, `C251_clusters_violated`
* How: Evaluation/PlotLimits.lean: invariant that every cluster is a full buffer of the points kept so far, by induction over reports; violations for every label not less than the number of classes and for every number of reports.

### C252 Figure is redrawn regularly but not too often

* Status: proved. Proved for every sequence of reports and times.
* Code: `visualization/evaluation_visualizer.py:58-63`, `visualization/evaluation_visualizer.py:107-145`
* Lean: `Verif/Evaluation/PlotLimits.lean`
* Theorems: `C252_redraw`, `C252_first`
* How: Evaluation/PlotLimits.lean: the redraw flags are a function of times and frame counter; induction over reports.

### C253 Every plotted metric has a titled subplot of its own

* Status: partial. Violated: ten or more plotted metrics raise ValueError, and the geometric mean is titled 'Unknown metric'. Proved: up to nine plotted metrics get consecutive rows in order.
* Code: `visualization/evaluation_visualizer.py:175-325`, `evaluation/base_evaluator.py:543-640`
* Lean: `Verif/Evaluation/PlotLimits.lean`
* Theorems: `C253_positions_partial`, `C253_ten_violated`, `C253_title_violated`
* How: Evaluation/PlotLimits.lean: positions of the subplots by induction over the metrics, digits of the position code by arithmetic; violations for every list with at least ten plotted metrics and by cases over metrics for titles.

### C254 iSOUP: split decision

* Status: partial. Violated: a single suggestion (one attribute, no_preprune=True) is followed whatever its merit and branches, and with remove_poor_atts=True the attempt raises ZeroDivisionError when no attribute admits a split into branches of weight 5. Proved: everything else of the statement with two suggestions or more.
* Code: `trees/isoup_tree.py:iSOUPTreeRegressor._attempt_to_split`, `trees/_nodes/base.py:ActiveLeaf.get_best_split_suggestions`, `trees/_split_criterion/intra_cluster_variance_reduction_split_criterion.py`
* Lean: `Verif/Trees/MTRSplit.lean`
* Theorems: `C254_rule_partial`, `C254_decides_partial`, `C254_single_violated`, `C254_poor_violated`
* How: Trees/MTRSplit.lean: stable sort gives the two best suggestions; cases of the decision; loop over suggestions for poor attributes by induction; the null split and light branches have merit 0 by C205; violations for every single suggestion and every list of light candidates.

### C255 SAM-kNN finds the nearest samples

* Status: partial. Holds if at least n distances are below the largest double; otherwise the remaining positions are whatever the uninitialised result array holds (C255_memory_violated).
* Code: `lazy/src/libNearestNeighbors/nearestNeighbor.cpp:nArgMin`, `lazy/src/libNearestNeighbors/nearestNeighbor.cpp:py_nArgMin`, `lazy/sam_knn.py:SAMKNNClassifier.get_maj_label`
* Lean: `Verif/Lazy/Nearest.lean`
* Theorems: `C255_smallest_partial`, `C255_memory_violated`
* How: the passes of nArgMin with an arbitrary initial memory; invariant of a pass (smallest of the entries not used, leftmost on ties), induction over the passes with the finite set of entries left

### C256 SAM-kNN votes are counted right

* Status: proved.
* Code: `lazy/src/libNearestNeighbors/nearestNeighbor.cpp:mostCommon`, `lazy/src/libNearestNeighbors/nearestNeighbor.cpp:linearWeightedLabels`, `lazy/sam_knn.py:SAMKNNClassifier.get_maj_label`, `lazy/sam_knn.py:SAMKNNClassifier.get_distance_weighted_label`
* Lean: `Verif/Lazy/Nearest.lean`
* Theorems: `C256_majority`, `C256_weighted`, `C256_recognised`
* How: ordered map and scan of the C++ code; the map holds the totals in the order of labels, the scan keeps the first largest; bound on the votes of other labels for recognised samples

### C257 SAM-kNN distances are those to the stored samples

* Status: partial. Holds for queries with as many features as the rows stored; other queries are not rejected: shorter ones are compared with misaligned data, longer ones with memory behind the rows.
* Code: `lazy/src/libNearestNeighbors/nearestNeighbor.cpp:getDistance`, `lazy/src/libNearestNeighbors/nearestNeighbor.cpp:get1ToNDistances`, `lazy/src/libNearestNeighbors/nearestNeighbor.cpp:py_get1ToNDistances`, `lazy/sam_knn.py:SAMKNNClassifier.get_distances`
* Lean: `Verif/Lazy/Nearest.lean`
* Theorems: `C257_distances_partial`, `C257_shorter_violated`, `C257_longer_violated`
* How: flat memory of the stored rows, read with the width of the query; equality with the squared Euclidean distances for equal widths, witness and general formula for others

### C258 A stream describes the table it was loaded from

* Status: partial. Holds for categorical features given once each by their position. Violated: labels inside a floating point array are taken as regression targets, negative and repeated positions are accepted and counted, DataStream.get_info swaps n_targets and target_idx.
* Code: `data/data_stream.py:DataStream._load_data`, `data/data_stream.py:DataStream._load_X_y`, `data/data_stream.py:DataStream._get_target_values`, `data/data_stream.py:DataStream.get_info`, `data/data_stream.py:check_data_consistency`, `data/file_stream.py:FileStream._load_data`, `data/file_stream.py:FileStream.get_target_values`
* Lean: `Verif/Streams/Loading.lean`
* Theorems: `C258_table_partial`, `C258_apart_partial`, `C258_rejected_partial`, `C258_float_array_violated`, `C258_negative_violated`, `C258_repeated_violated`, `C258_info_violated`
* How: columns with types and missing values; the split of columns of C51, distinct sorted values, case analysis of the loaders; general theorem for floating point arrays and witnesses for the other violations

### C259 make_logical returns the truth tables

* Status: proved.
* Code: `data/synth.py:make_logical`
* Lean: `Verif/Streams/Logical.lean`
* Theorems: `C259_truth_table`
* How: table, tiling and an arbitrary permutation; counts are kept by permutations and multiplied by tiling, membership in the four rows by cases

### C260 Evaluators tell learners the class labels

* Status: partial. Holds for one integer target, for regression, and for several targets with equally many labels in holdout evaluation or with pre-training. Violated: without pre-training several targets give a list of lists, as do targets with different numbers of labels; a floating point array gives the type float as only class.
* Code: `evaluation/evaluate_prequential.py:EvaluatePrequential._train_and_test`, `evaluation/evaluate_holdout.py:EvaluateHoldout._periodic_holdout`, `evaluation/evaluate_prequential_delayed.py:EvaluatePrequentialDelayed._update_classifiers`, `evaluation/evaluate_prequential_delayed.py:EvaluatePrequentialDelayed._train_and_test`
* Lean: `Verif/Evaluation/Classes.lean`
* Theorems: `C260_single_partial`, `C260_regression_partial`, `C260_multi_partial`, `C260_no_pretraining_violated`, `C260_ragged_violated`, `C260_float_array_violated`
* How: the flag first_run over all batches; values of target_values from the loading model of C258; induction over batches, general theorems for the violations

### C261 Adaptive regression tree before its first split

* Status: partial. Proved if no draw is 0 (or bootstrap sampling is off); violated: rows drawn 0 times are learned with their full weight.
* Code: `trees/_nodes/hatr_nodes.py:194-232`, `trees/_nodes/hatr_nodes.py:242-270`, `trees/hoeffding_adaptive_tree_regressor.py:181-212`
* Lean: `Verif/Trees/HATRLeaf.lean`
* Theorems: `C261_leaf_partial`, `C261_zero_violated`
* How: Invariant over the training run: statistics of the leaf, Welford attributes and detector after the rows seen so far; the scores come from C208.

### C262 Summary of a prequential evaluation

* Status: partial. The printed values are those of the last row, and include all samples when the evaluation reaches its sample limit without exceptions; otherwise samples after the last row are missing (C262_lag_violated). The metric gmean is never printed (C262_gmean_violated).
* Code: `evaluation/base_evaluator.py:674-780`, `evaluation/evaluate_prequential.py:266-394`, `evaluation/evaluation_data_buffer.py`
* Lean: `Verif/Evaluation/Summary.lean`
* Theorems: `C262_summary_partial`, `C262_gmean_violated`, `C262_lag_violated`
* How: Invariant of the evaluation loop: the data buffer holds the last row, and at the sample limit the last row belongs to the last batch; the printed lines are then read off the buffer. The lag is shown on a concrete run.

### C263 Last row of a delayed evaluation covers every scored sample

* Status: partial. Rows as id and number of results covered. Proved: what each row covers, and the closing row when at least max_samples + batch_size samples are counted. Violated on shorter streams: no closing row, and no row at all when n_wait is at least the stream length.
* Code: `evaluation/evaluate_prequential_delayed.py:EvaluatePrequentialDelayed._update_metrics_delayed`, `evaluation/evaluate_prequential_delayed.py:EvaluatePrequentialDelayed._train_and_test`, `evaluation/base_evaluator.py:StreamEvaluator._update_metrics`
* Lean: `Verif/Evaluation/DelayedRows.lean`
* Theorems: `C263_rows_partial`, `C263_schedule_partial`, `C263_no_rows_violated`
* How: Reporting is a fold over the event log of the delayed evaluator; the log is shown to pair every score with training on the same samples, and the final loop ends with a chunk of at most one batch; the violation uses C27 for the number of results.

### C264 Memory management of regression trees switches off the deepest leaves

* Status: proved. Sizes are parameters; depth is the length of the path to the leaf.
* Code: `trees/hoeffding_tree_regressor.py:516-519`, `trees/hoeffding_tree.py:638-667`
* Lean: `Verif/Trees/MemoryPolicy.lean`
* Theorems: `C264_deepest_first`
* How: Corollary of C65: the order in which leaves are switched off is a stable sort by depth, so inactive leaves precede active ones in a list sorted by depth.

### C265 stop_mem_management stops growth as soon as the memory limit is hit

* Status: partial. Proved: once an inactive leaf is found growth stops for good. Violated in general when the limit is first hit: the test multiplies the size of an active leaf by nothing.
* Code: `trees/hoeffding_tree.py:638-667`
* Lean: `Verif/Trees/MemoryPolicy.lean`
* Theorems: `C265_stop_partial`, `C265_stop_violated`
* How: Case analysis of the memory manager; growth never resumes by C66; the violation uses C65 for the number of active leaves.

### C266 Tree sizes are estimated every memory_estimate_period

* Status: partial. Proved for unit weights. Violated for any history that starts with weight one half and continues with whole weights.
* Code: `trees/hoeffding_tree.py:293-353`, `trees/hoeffding_tree.py:669-693`
* Lean: `Verif/Trees/MemoryPolicy.lean`
* Theorems: `C266_period_partial`, `C266_never_estimated_violated`
* How: Prefix sums of the weights; with zero estimates the memory manager only activates leaves, an invariant over the run.

### C267 Former names of classes

* Status: partial. All names but two forward faithfully: C267_former_names_partial. Violated: BatchIncremental always raises TypeError (unknown argument nominal_attributes), InstanceWindow has a parameter self.
* Code: `lazy/knn_classifier.py:10-16`, `meta/batch_incremental.py:12-17`, `meta/adaptive_random_forests.py:18-61`, `trees/hoeffding_tree.py:27-46`, `trees/hoeffding_adaptive_tree_regressor.py:14-37`, `rules/very_fast_decision_rules.py:32-49`, `utils/data_structures.py:870-875`
* Lean: `Verif/Core/Renamed.lean`
* Theorems: `C267_former_names_partial`, `C267_batch_incremental_violated`, `C267_instance_window_violated`
* How: 28 signatures and forwarded arguments transcribed; Python's binding of arguments; induction on the parameter list

### C268 Metrics passed to an evaluator

* Status: partial. Violated: with data_points_for_classification the constructor appends to the caller's list, which other evaluators share. Holds as long as nobody else changes the list before the first evaluation; afterwards always.
* Code: `evaluation/evaluate_prequential.py:199-222`, `evaluation/evaluate_prequential_delayed.py:225-247`, `evaluation/evaluate_holdout.py:174-177`, `evaluation/base_evaluator.py:170-239`
* Lean: `Verif/Evaluation/MetricsList.lean`
* Theorems: `C268_metrics_partial`, `C268_again_partial`, `C268_shared_violated`
* How: shared list objects; induction on the sequence of operations; checking twice is idempotent

### C269 The text of an estimator

* Status: proved. Layout and shortening for any nesting and lengths; dictionaries and strings that pprint breaks are not modelled.
* Code: `core/base.py:246-293`, `utils/_pprint.py:105-330`, `utils/_pprint.py:333-436`
* Lean: `Verif/Core/Repr.lean`
* Theorems: `C269_repr`
* How: mutual induction on values and element lists of the pretty printer with an invariant on the remaining width; lemmas on the regular expressions

### C270 PerceptronMask is the Perceptron of its parameters

* Status: partial. Violated: the wrapped Perceptron is built in the constructor only, set_params has no effect until reset. Holds from construction or reset on.
* Code: `neural_networks/perceptron.py`
* Lean: `Verif/Neural/PerceptronMask.lean`
* Theorems: `C270_perceptron_partial`, `C270_set_params_violated`
* How: arbitrary wrapped learner; induction on the sequence of calls

### C271 Using an evaluator again

* Status: partial. Proved for every history of evaluations and parameter changes as long as n_wait (test_size for holdout) keeps its constructed value and, for delayed evaluation, pretrain_size is positive and no earlier evaluation raised; the three other cases are shown to fail.
* Code: `evaluation/base_evaluator.py:37-74, 265-318, 543-672`, `evaluation/evaluate_prequential.py:176-394`, `evaluation/evaluate_holdout.py:154-345`, `evaluation/evaluate_prequential_delayed.py:202-496`
* Lean: `Verif/Evaluation/Reuse.lean`
* Theorems: `C271_reuse_partial`, `C271_file_partial`, `C271_window_violated`, `C271_lines_violated`, `C271_queue_violated`
* How: evaluator object with the attributes the three evaluate methods read and write (measurements, window size, file buffer, time manager, test set) and the three loops over arbitrary streams, models and exceptions; invariants of the loops (Good) give what waits in the file buffer after every evaluation, then the evaluation is compared with that of a new object

### C272 VFDR: what the class weights of a rule count

* Status: partial. Proved: every instance counted is a training instance, counted at most once, that satisfies the conditions; exactly which instances an expansion or a creation takes over. Violated: an expansion drops what the rule counted before its last change (C272_forgets_violated).
* Code: `rules/very_fast_decision_rules.py:VeryFastDecisionRulesClassifier._expand_rule`, `rules/very_fast_decision_rules.py:VeryFastDecisionRulesClassifier._create_rule`, `rules/very_fast_decision_rules.py:VeryFastDecisionRulesClassifier.Rule.learn_from_instance`, `rules/nominal_attribute_class_observer.py:NominalAttributeClassObserver`
* Lean: `Verif/Rules/Nominal.lean`
* Theorems: `C272_counts_partial`, `C272_expansion_partial`, `C272_creation_partial`, `C272_forgets_violated`
* How: Rules/Nominal.lean: nominal observers plugged into the rule model. Invariant over all batches: the weights of a rule are those of a sublist of the training data whose members meet the conditions, and its observers have been shown the tail of that sublist (C272_counts_partial). C272_expansion_partial and C272_creation_partial say exactly which instances are taken over; C272_forgets_violated shows that instances counted before are lost.

### C273 Switching the noise features of a generator after construction

* Status: partial. Proved for LED, waveform and sine generators whenever has_noise ends at the value given to the constructor. Switching it on later makes every next_sample raise IndexError; switching it off leaves zero columns, and for SineGenerator makes all labels 0 with the class as third feature: all proved.
* Code: `data/led_generator.py:101-122`, `data/led_generator.py:161-218`, `data/led_generator_drift.py:77-136`, `data/waveform_generator.py:92-190`, `data/sine_generator.py:89-116`, `data/sine_generator.py:181-259`
* Lean: `Verif/Streams/Switches.lean`
* Theorems: `C273_same_value_partial`, `C273_switch_on_violated`, `C273_sine_off_violated`, `C273_off_violated`
* How: Rows as lists, assignments as List.set with IndexError past the end; induction on runs of consecutive assignments gives the row; histories of settings by induction on the list.

### C274 The description of a generator fits its samples

* Status: partial. Width, feature names, targets and numeric counts proved for all generators and parameters. cat_features_idx is empty in all generators with categorical columns except MixedGenerator; LEDGenerator has no target names; RandomTreeGenerator counts features before one-hot coding; AnomalySineGenerator reports no classes: proved.
* Code: `data/base_stream.py:19-33`, `data/agrawal_generator.py:102-114`, `data/anomaly_sine_generator.py:68-73`, `data/led_generator.py:106-120`, `data/random_tree_generator.py:113-131`, `data/mixed_generator.py:88-99`, `data/stagger_generator.py:88-101`
* Lean: `Verif/Streams/Description.lean`
* Theorems: `C274_features_partial`, `C274_counts_partial`, `C274_cat_features_idx_violated`, `C274_descriptions_violated`, `C274_targets_partial`, `C274_numbered_partial`
* How: One record of attributes per generator, compared with a separate table of the columns of its samples; case analysis, and induction for the names of RandomTreeGenerator.

### C275 Renaming the features of AGRAWALGenerator

* Status: partial. Proved for the default names and names added behind them. Names decide which value a column holds, and a name of one's own raises NameError: proved.
* Code: `data/agrawal_generator.py:111-113`, `data/agrawal_generator.py:268-269`, `data/base_stream.py:142-160`
* Lean: `Verif/Streams/Description.lean`
* Theorems: `C275_default_names_partial`, `C275_reordered_violated`, `C275_own_name_violated`
* How: The loop over nine names as recursion with lookup and evaluation; induction on the number of columns left.

### C276 What a row of a prequential evaluation says

* Status: proved.
* Code: `evaluation/evaluate_prequential.py:266-394`, `evaluation/base_evaluator.py:265-320`, `evaluation/base_evaluator.py:322-530`, `metrics/_classification_performance_evaluator.pyx:48-115`, `metrics/measure_collection.py:1079-1236`
* Lean: `Verif/Evaluation/Honest.lean`
* Theorems: `C276_classification`, `C276_regression`
* How: `Evaluation/Honest.lean`: the iteration of `_train_and_test` with stream, models and measurement objects put into the loop of `Run.lean`; invariant over the loop that every bundle follows test-then-train of the first k batches, then C05, C06 and C11 for the scores

### C277 What a row of a holdout evaluation says

* Status: partial. proved for test sets of test_size samples, as static test sets always are; a dynamic test set cut short at the end of the stream is mixed with the test before (witness)
* Code: `evaluation/evaluate_holdout.py:228-345`, `evaluation/base_evaluator.py:265-320`, `evaluation/base_evaluator.py:322-530`, `metrics/_classification_performance_evaluator.pyx:490-564`, `metrics/measure_collection.py:1150-1236`
* Lean: `Verif/Evaluation/HoldoutRows.lean`
* Theorems: `C277_classification_partial`, `C277_regression_partial`, `C277_short_test_set_violated`
* How: `Evaluation/HoldoutRows.lean`: the loop of `_periodic_holdout` with stream, models, measurement objects and rows; invariant that every bundle follows the replay of the training and test events and that the events use up the stream, then C05, C06 and C11 for the scores; witness for a short test set

### C278 The split a numeric attribute observer proposes

* Status: partial. C278_best, C278_none: which threshold is proposed, with which distributions, for every history and merit. C278_left_weight_partial: monotone in the threshold for classes with a total weight above 1. C278_light_class_violated: values 0 and 10 with weight 1/2 each.
* Code: `trees/_attribute_observer/numeric_attribute_class_observer_gaussian.py:53-101`, `rules/numeric_attribute_class_observer.py:50-102`, `trees/gaussian_estimator.py:18-97`
* Lean: `Verif/Trees/GaussianBest.lean`
* Theorems: `C278_best`, `C278_none`, `C278_left_weight_partial`, `C278_light_class_violated`
* How: The loop is shown to return the first candidate of largest merit (induction); the candidates come from C63. For the left weight the class record is tied to the history, its variance is positive between two different values, and the three ranges are compared.

### C279 What a row of a delayed evaluation says

* Status: proved. C279_results: which results a scoring step covers. C279_classification, C279_regression: the ids and scores of all rows; the metrics never raise.
* Code: `evaluation/evaluate_prequential_delayed.py:290-372`, `evaluation/evaluate_prequential_delayed.py:374-496`, `data/time_manager.py:53-156`, `evaluation/base_evaluator.py:265-320`, `metrics/measure_collection.py:1150-1236`
* Lean: `Verif/Evaluation/DelayedScores.lean`
* Theorems: `C279_results`, `C279_classification`, `C279_regression`
* How: The rows are folded over the log of the evaluator with measurement objects per model; the fold keeps the objects equal to a run over the results so far (C05, C06, C11 give the scores). Which results those are follows from the queue invariant of C27, carried through the main loop and the draining loop.

### C280 What an ADWIN alarm means

* Status: partial. Violated: the scan of detected_change skips the last bucket of each row (line 317). C280_missed_change_violated and C280_false_alarm_violated are about the real cut expression at the default delta, over the reals. The parts that hold are C280_alarm_partial, C280_oldest_partial and C280_constant.
* Code: `drift_detection/adwin.py:273-364`, `drift_detection/adwin.py:366-373`
* Lean: `Verif/Adwin/CutTest.lean`
* Theorems: `C280_alarm_partial`, `C280_oldest_partial`, `C280_constant`, `C280_missed_change_violated`, `C280_false_alarm_violated`
* How: `threshold` and `realCut` model lines 366-373 over the reals. `answer_iff` characterises the answer by what the scan visits, `scanned` relates that to the elements of the window by induction on the rows. The two counterexamples are streams of 96 values: bounds on the logarithm (`dd_bounds`) turn the real test into a rational one decided by the kernel.

### C281 What kNN-ADWIN tells its change detector

* Status: proved. C281_told, C281_few_calls for every cut test; C281_one_neighbour for the real cut expression.
* Code: `lazy/knn_adwin.py:109-161`
* Lean: `Verif/Lazy/KNNAdwin.lean`
* Theorems: `C281_told`, `C281_few_calls`, `C281_one_neighbour`
* How: Induction on rows and calls with the ADWIN model inside; the few-calls part uses that the counter of checks stays below the clock 32, the one-neighbour part uses `C31_predict_is_majority` and `C280_constant`.

### C282 Which estimators do not care how the rows are cut into calls of partial_fit

* Status: proved. SameInParts for each of the named estimators; the exceptions by witnesses (for kNN-ADWIN with the real cut expression at the default delta).
* Code: `lazy/knn_classifier.py:126-133`, `bayes/naive_bayes.py:98-112`, `meta/oza_bagging.py:124-187`, `meta/learn_nse.py:124-263`, `meta/learn_pp.py:137-191`, `meta/batch_incremental.py:88-142`, `meta/adaptive_random_forests.py:276-331`, `meta/online_adac2.py:202-276`, `lazy/knn_adwin.py:109-161`, `meta/oza_bagging_adwin.py:106-202`
* Lean: `Verif/Meta/Parts.lean`
* Theorems: `C282_knn`, `C282_naive_bayes`, `C282_oza`, `C282_learn_nse`, `C282_learn_pp`, `C282_batch_incremental`, `C282_forest`, `C282_skewed`, `C282_oza_adwin_differs`, `C282_skewed_drift_differs`, `C282_knn_adwin_differs`
* How: Loops over an appended list split; what the checks of `classes` accept they accept again and the size of the ensemble is right after the first part. The kNN-ADWIN witness is 30 calls, then 98 rows in one call (the 31st, no check due) or in two (the 32nd call checks and finds a cut by rational bounds on the real expression).

### C283 reset() of the online ensembles makes them as new

* Status: partial. Fails: the remembered classes (boosting and bagging ensembles, forest) and the replaced training method (random patches) survive reset. Proved: with the same classes, and without such a life before, everything else is as new.
* Code: `meta/online_boosting.py:135-150`, `meta/online_adac2.py:142-161`, `meta/online_csb2.py:138-155`, `meta/online_rus_boost.py:140-159`, `meta/online_under_over_bagging.py:133-145`, `meta/online_smote_bagging.py:128-141`, `meta/adaptive_random_forests.py:299-300`, `meta/adaptive_random_forests.py:404-409`, `meta/streaming_random_patches.py:373-376`, `meta/streaming_random_patches.py:419-422`
* Lean: `Verif/Meta/ResetAll.lean`
* Theorems: `C283_same_classes_partial`, `C283_other_classes_violated`, `C283_no_classes_violated`, `C283_smote_partial`, `C283_smote_other_classes_violated`, `C283_forest_violated`, `C283_patches_violated`, `C283_patches_partial`
* How: `Meta/ResetAll.lean`. Online boosting is added as a fifth scheme of `Skew`. The state apart from the classes does not depend on which list of the same classes is remembered (simulation over the rows and the calls); a different set is refused by `checkClasses`. The forest's classes are an invariant of all calls, and a vote beyond them ends in the `IndexError` of the row. The training method is carried through successive lives.

### C284 Nearest neighbours: what predict and reset leave behind

* Status: proved. Labels are natural numbers. The neighbour search is arbitrary but must return k places of the window.
* Code: `lazy/knn_classifier.py:95-186`, `lazy/base_neighbors.py:32-36`, `lazy/knn_adwin.py:100-112`, `lazy/knn_adwin.py:114-166`
* Lean: `Verif/Lazy/KNNLife.lean`
* Theorems: `C284_proba`, `C284_predict`, `C284_adwin_reset`
* How: `Lazy/KNNLife.lean`. The window is that of the samples since the last reset and the list of classes holds exactly the labels met, both by induction on the calls; a prediction is the smallest most frequent label (C31), which leaves no room for the list of classes. For kNN-ADWIN the same lemma shows that the detector is told the same.

### C285 Online boosting: training

* Status: proved. The base learner, the sampler and the detector are arbitrary; sums in exact arithmetic.
* Code: `meta/online_boosting.py:165-186`, `meta/online_boosting.py:188-253`, `meta/online_boosting.py:255-265`
* Lean: `Verif/Meta/BoostRun.lean`
* Theorems: `C285_training`, `C285_weights`
* How: The training loop is the one of the skewed ensembles (Skew.lean) with the bookkeeping of this class; a relation between consecutive visits, by induction over the members and then over the rows; the entries of a member are the fold over its visits.

### C286 Naive Bayes: only the total weight of each labelled row matters

* Status: proved. Exact arithmetic; density function arbitrary.
* Code: `bayes/naive_bayes.py:74-190`, `bayes/utils.py:8-42`, `trees/gaussian_estimator.py:18-79`, `trees/_attribute_observer/numeric_attribute_class_observer_gaussian.py:23-51`, `trees/_attribute_observer/nominal_attribute_class_observer.py:20-44`
* Lean: `Verif/Bayes/NBData.lean`
* Theorems: `C286_total_weights`
* How: Sums over rows of weight times any function of the row depend on the total weights only; the estimators (C33) and counts (C34) are functions of such sums; a permutation of the class dictionary does not change the row of probabilities.

### C287 Naive Bayes: the unit of a numeric attribute

* Status: partial. Holds for classes that vary; C287_one_value_violated: with one class showing a single value, the unit decides the prediction. The density is a parameter with the law of the normal density, which is proved for the real one.
* Code: `trees/gaussian_estimator.py:56-79`, `bayes/naive_bayes.py:114-182`, `bayes/utils.py:28-42`
* Lean: `Verif/Bayes/NBUnits.lean`
* Theorems: `C287_units_partial`, `C287_one_value_violated`
* How: The estimator of a rescaled column (mean a*m + b, sum of squares times a squared) by induction; all numerators are divided by a, which normalisation cancels; general witness for the violation.

### C288 Hoeffding tree: the unit of a numeric attribute

* Status: partial. Splits, class weights and exceptions for every kind of leaves; predictions for majority class leaves. C288_naive_bayes_violated: with naive Bayes leaves ('nb', and 'nba', the default) the unit decides the prediction where a class has shown one value only. Criterion, decision, normal distribution function are parameters (scale freeness of the real one is proved).
* Code: `trees/hoeffding_tree.py:552-631`, `trees/_nodes/base.py:432-491`, `trees/_nodes/htc_nodes.py:1-230`, `trees/_attribute_observer/numeric_attribute_class_observer_gaussian.py:1-140`, `trees/gaussian_estimator.py:56-97`, `bayes/utils.py:28-42`
* Lean: `Verif/Trees/Units.lean`
* Theorems: `C288_splits_partial`, `C288_majority_partial`, `C288_naive_bayes_violated`
* How: Functional homomorphism between trees (LearnMap): leaf learning, split attempts, branching and memory management commute with the map that rescales observers and thresholds, under the invariant that the attribute's observers are Gaussian or switched off; induction over the rows. The structure does not depend on the kind of leaves (run_plain).

### C289 Hoeffding tree: the kind of leaves and the tree that grows

* Status: partial. Holds without remove_poor_atts, and between 'nb' and 'nba'. C289_remove_poor_violated: with remove_poor_atts=True (and no_preprune=True) majority class leaves disable poor attributes, naive Bayes leaves ignore it (disable_attribute is overridden with pass), so one tree splits on an attribute that the other has dropped.
* Code: `trees/_nodes/htc_nodes.py:63-201`, `trees/_nodes/base.py:444-491`, `trees/hoeffding_tree.py:472-487`, `trees/hoeffding_tree.py:552-631`
* Lean: `Verif/Trees/Kinds.lean`
* Theorems: `C289_same_splits_partial`, `C289_remove_poor_violated`
* How: Functional homomorphism (LearnMap) forgetting the counters of adaptive leaves; without remove_poor_atts the decision never names attributes to disable, so the choosers are equal. Violation: six weighted rows, three nominal attributes, Gini, the exact Hoeffding bound for split_confidence exp(-1/8), evaluated in the kernel.

### C290 Models evaluated together do not influence one another's figures

* Status: proved. Model of Honest.lean (prequential loop over stream, learners, evaluators and result rows). Learners are pure state machines, so a random generator shared between models is outside the statement, as is a time limit that the joint evaluation reaches earlier (timeOk is the same function of the iteration in both).
* Code: `evaluation/evaluate_prequential.py:266-394`, `evaluation/base_evaluator.py:273-297`, `evaluation/base_evaluator.py:320-535`
* Lean: `Verif/Evaluation/Together.lean`
* Theorems: `C290_beginning`, `C290_same_reports`
* How: Each iteration of the joint evaluation is characterised as a pointwise relation between the models before and after (iteration_iff); the joint loop then runs in step with the loop of each model alone (InStep, solo_step), as long as the joint one raises nothing; conversely, if all run alone to the end, the joint iterations succeed (solos_joint). Induction on the iterations left.

### C291 ADWIN: level, direction and unit of the values

* Status: proved. Rational arithmetic; the logarithm and square root of the cut expression are those of the reals (realCut). The unit part is worded as what the code does.
* Code: `drift_detection/adwin.py:167-271`, `drift_detection/adwin.py:273-373`
* Lean: `Verif/Adwin/Shift.lean`
* Theorems: `C291_shift`, `C291_mirror`, `C291_small_unit`, `C291_unit_matters`
* How: The state after the moved calls is the image of the state (bucket totals of row i moved by c * 2^i, total by c * width; variances unchanged), call by call (moveS, step_move), since merging, deletion and the scan commute with it; the cut expression depends on the difference of means only (realCut_blind). Small units: the last term of the threshold alone is at least 8/(3 width) (threshold_large). Witness: flicker of C280, divided by 100.

### C292 PageHinkley and HDDM_A: level and unit of the values

* Status: proved. Rational arithmetic; square root and logarithms of HDDM_A are parameters.
* Code: `drift_detection/page_hinkley.py:53-109`, `drift_detection/hddm_a.py:79-190`
* Lean: `Verif/Drift/Levels.lean`
* Theorems: `C292_page_hinkley_level`, `C292_page_hinkley_unit`, `C292_page_hinkley_decrease`, `C292_hddm_a_level`
* How: Page-Hinkley: a relation (level) and a function (unit) between the states, preserved by every value; on a stream that never increases the mean stays above the next value, so that the statistic stays 0. HDDM_A: the state is mapped by adding k times the respective count to each sum; every part of add_element commutes with it.

### C293 HDDM_W: level of the values

* Status: partial. Holds for values that are not negative (C293_level_partial); violated for negative ones, for all parameters (C293_level_violated).
* Code: `drift_detection/hddm_w.py:65-222`
* Lean: `Verif/Drift/Levels.lean`
* Theorems: `C293_level_partial`, `C293_level_violated`
* How: The state is mapped by raising all averages and cut points by k; ewma and detection commute with it as long as averages are not negative. Violation: on negative values every average restarts and detection answers False (negative_never), while two values far enough apart above zero are reported.

### C294 Nearest neighbours: what the predictions depend on

* Status: proved. the KDTree is any search that returns n_neighbors different places with none of the others nearer (an implementation is given); distances in any linear order
* Code: `lazy/base_neighbors.py:26-36`, `lazy/knn_classifier.py:126-186`, `lazy/knn_regressor.py:134-171`
* Lean: `Verif/Lazy/KNNOrder.lean`
* Theorems: `C294_proba`, `C294_predict`, `C294_order`, `C294_distances`, `C294_euclid`, `C294_regressor`, `C294_one_unit`, `C294_ties`
* How: `Lazy/KNNOrder.lean`: the places an exact search returns are, up to order, the samples with fewer than k nearer ones (counting argument on duplicate-free lists), a description that sees only comparisons of distances; then C284 and C31 give frequencies and majority, and C32 the regressor. Euclid: squared distances scale by a². Witnesses for the unit of one feature (for every exact search) and for ties.

### C295 The numbers that stand for the classes do not matter to HoeffdingTreeClassifier if order and 0 are kept

* Status: proved.
* Code: `trees/hoeffding_tree.py`, `trees/_nodes/htc_nodes.py`, `trees/_split_criterion/hellinger_distance_criterion.py`, `trees/_attribute_observer/nominal_attribute_class_observer.py`, `trees/_attribute_observer/numeric_attribute_class_observer_gaussian.py`, `bayes/utils.py`
* Lean: `Verif/Trees/Names.lean`
* Theorems: `C295_splits`, `C295_votes`, `C295_predict`, `C295_criteria`, `C295_hellinger`, `C295_observers`, `C295_zero`
* How: `Trees/Names.lean`: the tree of `Trees/Units.lean` commutes with an order-preserving renaming of the labels (homomorphism through routing, learning, split attempts, memory management, naive Bayes votes and the array of `predict_proba`); the observers and split decision of the code are shown to treat labels as names; information gain and Gini by their values only; Hellinger by its literal keys 0 and 1

### C296 Learning a row brings a leaf perceptron's answer for that row closer to its target

* Status: partial. Step formula with the divisor c and its bound, ratio bounds and fixed point proved for the single-target leaf and for every target of the multi-target perceptron leaf; the claim itself is refuted by a reachable tree whose error on the row grows.
* Code: `trees/_nodes/htr_nodes.py:88-136`, `trees/_nodes/isouptr_nodes.py:28-90`
* Lean: `Verif/Trees/PercStep.lean`
* Theorems: `C296_ratio`, `C296_step_partial`, `C296_exact_partial`, `C296_away_violated`, `C296_targets_partial`, `C296_stacked_partial`, `C296_first_partial`
* How: The dot product of the adjusted weights with the row is expanded by linearity, the division by the L1 norm commutes with the dot product and the L1 norm of the adjustment is bounded by the reverse triangle inequality; the violation is a run of three rows evaluated by the kernel.

### C297 Hoeffding tree: what a numeric split hands to its branches

* Status: proved.
* Code: `trees/_attribute_observer/numeric_attribute_class_observer_gaussian.py:45-101`, `trees/_attribute_test/numeric_attribute_binary_test.py:12-18`, `trees/hoeffding_tree.py:576-631`
* Lean: `Verif/Trees/NumSplit.lean`
* Theorems: `C297_split`, `C297_life`
* How: The observer of the attribute is the fold over the rows of the leaf; the proposal lies inside the range by C278, its distributions conserve weight by C63, and the keys of the sorted records are unique, so each class has one entry; the life of the observers (made, learning, kept, disabled) is proved separately.

### C298 KSWIN reacts to the order of the values only, and to values before the current call

* Status: proved. The statistic of ks_2samp is written out; the p-value is an arbitrary function of the statistic and the two sizes; the drawn positions are arbitrary.
* Code: `drift_detection/kswin.py:77-128`
* Lean: `Verif/Drift/KSOrder.lean`
* Theorems: `C298_increasing`, `C298_decreasing`, `C298_delay`, `C298_gap`, `C298_constant`
* How: Drift/KSOrder.lean: the statistic is bounded by c iff all differences of the two distribution functions are; under a decreasing map the share at or below turns into one minus the share strictly below, and neighbours in the pooled sample give the same maximum; induction over the stream.

### C299 DDM: a reported change means more errors than before

* Status: partial. (a) and (b) hold over the reals with the real square root, (c) for every non-negative root; (d) fails (C299_first_error_violated, C299_steady_violated).
* Code: `drift_detection/ddm.py:80-153`
* Lean: `Verif/Drift/DDMErrors.lean`, `Verif/Drift/DDMFound.lean`
* Theorems: `C299_right_partial`, `C299_rise_partial`, `C299_first_error_violated`, `C299_steady_violated`, `C299_bounded_partial`
* How: Drift/DDMErrors.lean, Drift/DDMFound.lean: the detector's definitions are taken at the reals; rate plus deviation does not rise at a right prediction and does not rise while the rate does not (two square-root inequalities); invariant over the predictions since the last change; the state after right predictions only has all minima 0; the bound follows from C16_decision.

### C300 EDDM: a reported change means that errors come faster

* Status: partial. Regular errors are never reported and an alarm means a smaller mean distance or spread; C300_rarer_violated: an alarm while errors become rarer.
* Code: `drift_detection/eddm.py:64-155`
* Lean: `Verif/Drift/EDDMErrors.lean`
* Theorems: `C300_regular_partial`, `C300_meaning_partial`, `C300_rarer_violated`
* How: Drift/EDDMErrors.lean: derived from C17_decision; with equal distances all levels are equal and by strong induction on prefixes nothing is reported; the counterexample has distances 1, 9 (15 times) and then 6.

### C301 PageHinkley: alarms are rises, and lasting rises are reported

* Status: proved.
* Code: `drift_detection/page_hinkley.py:53-109`
* Lean: `Verif/Drift/PHRise.lean`
* Theorems: `C301_above`, `C301_found`
* How: Drift/PHRise.lean: from C18_decision_partial and the recurrence of the cumulative statistic; the statistic before a reported value was at most the threshold; after a jump every increment is at least n (v - m) / (n + k) - delta.

### C302 WindowedStandardScaler takes the unit and the level out of every column

* Status: partial. The unit and the zero point are proved to cancel in every cell after the first row whose column has a non-zero deviation over the window (C302_units_partial, which also gives the other cells exactly). Missing, because false in the code: the first row and cells after a constant window, which keep the unit (C302_constant_violated). The deviation is a parameter known to ignore the level and follow the unit; rounding is not modelled.
* Code: `transform/windowed_standard_scaler.py:30-63`
* Lean: `Verif/Transform/Units.lean`
* Theorems: `C302_units_partial`, `C302_constant_violated`, `C302_calls`
* How: Each cell is the closed form of C59 over the window before it; mean and deviation of a re-scaled window are the re-scaled mean and deviation, and the unit cancels when the deviation is not 0.

### C303 HDDM_A: lasting rises are reported

* Status: proved. Real numbers, real square root and logarithm; floating-point rounding is not modelled. "Starts afresh" is read off the attribute total_n.
* Code: `drift_detection/hddm_a.py:79-144`, `drift_detection/hddm_a.py:146-160`
* Lean: `Verif/Drift/HDDMRise.lean`
* Theorems: `C303_unreported`, `C303_forgets`, `C303_found`
* How: Invariant: the stored cut has the least mean plus deviation of all cuts since the restart. Together with the failed test of line 117 and 1/n_min - 1/n <= 1/n_min <= 1 this bounds the mean; the detection theorem follows by contradiction.

### C304 Naive Bayes does not depend on the order of the columns, nor on columns that never vary

* Status: proved. C304_columns: for every list of distinct column numbers pos whose missing columns are constant, training and predicting on the columns pos gives the same predict_proba and predict. Exact arithmetic; positive weights; classes not a numpy array (that raises, C97).
* Code: `bayes/naive_bayes.py:74-190`, `bayes/utils.py:8-42`, `trees/gaussian_estimator.py:18-79`, `trees/_attribute_observer/numeric_attribute_class_observer_gaussian.py:23-51`, `trees/_attribute_observer/nominal_attribute_class_observer.py:20-44`
* Lean: `Verif/Bayes/NBColumns.lean`
* Theorems: `C304_columns`
* How: `Bayes/NBColumns.lean`: the joint weight of a class is its share times the product of one likelihood per column (`joint_eq`); the columns are a permutation of those kept and the constant ones, whose likelihood is 1 for every class seen (zero variance at the mean; Laplace correction with one value).

### C305 HDDM_W: which rises it can see

* Status: proved. C305_blind and C305_blind_default: blind settings. C305_found: explicit length after which a rise is reported; C305_lasting: every rise above the stated limit is reported. Real numbers, exact arithmetic, real square root and logarithm.
* Code: `drift_detection/hddm_w.py:70-182`
* Lean: `Verif/Drift/HDDMWRise.lean`
* Theorems: `C305_blind`, `C305_blind_default`, `C305_found`, `C305_lasting`
* How: `Drift/HDDMWRise.lean`: the sum of squared weights decreases to L / (2 - L) (`sqw_ge`, `sqw_anti`, `sqw_formula`); on the trace of C108, either enough of the high values lie behind the best cut, and the test fails only if they are low, or enough lie before it, and the cut was not best (`quiet_bound`).

### C306 ADWIN notices differences at the oldest bucket sizes and finds every lasting change

* Status: proved. Test over the reals (logarithm and root exact); sums and the variance are rational, rounding is not modelled. N is shown to exist, not computed.
* Code: `drift_detection/adwin.py`
* Lean: `Verif/Adwin/Lasting.lean`
* Theorems: `C306_split`, `C306_lasting`, `C306_first`
* How: `Adwin/Lasting.lean`: from the shape of the bucket rows the width bounds the index and length of the oldest row, so `C280_oldest_partial`'s lemma applies to splits named by width; for the lasting change a due check with between 9·2^R and 10·2^R - 5 values is picked, the means of the oldest 2^R values and of the rest are bounded apart, the variance stays bounded (its excess over the exact value is constant while nothing is dropped) and the threshold tends to 0.

### C307 DDM: which rises of the error rate are certain to be reported

* Status: proved. Real arithmetic with the exact square root; rounding is not modelled. Predictions are told as 0 or 1.
* Code: `drift_detection/ddm.py`
* Lean: `Verif/Drift/DDMLasting.lean`, `Verif/Drift/DDMMissed.lean`
* Theorems: `C307_bounded`, `C307_found`, `C307_lasting`, `C307_missed`
* How: `Drift/DDMLasting.lean`, `Drift/DDMMissed.lean`: invariant over the segment since the last change: the recorded minimum of rate + deviation is at most its value at every checked moment, its deviation is at most the root of its rate over min_num_instances - 1, and while nothing is reported the current rate + deviation is within the control limit; counting errors gives the rest.  The missed rise is by induction over the blocks of six and of four predictions: the minimum stays that of the first check and rate + deviation stay between it and the limit.

### C308 KSWIN reports every complete change, or none at all

* Status: proved. The statistic of ks_2samp is modelled; the table from statistic and sizes to p-values is a parameter, with its value for separated samples as a hypothesis where numbers are stated. Rational values.
* Code: `drift_detection/kswin.py`
* Lean: `Verif/Drift/KSFound.lean`
* Theorems: `C308_found`, `C308_never`, `C308_small_never`, `C308_default_found`
* How: `Drift/KSFound.lean`: the statistic of separated samples is 1 and no statistic exceeds 1; while nothing is reported a full window slides, so after stat_size values the drawn sample comes from the old values and the newest part is the new ones.

### C309 EDDM: errors that come lastingly faster are reported

* Status: proved. exact rationals; the root is any non-negative function that does not exceed r where its argument does not exceed r squared
* Code: `drift_detection/eddm.py:64-157`
* Lean: `Verif/Drift/EDDMLasting.lean`
* Theorems: `C309_lasting`
* How: Drift/EDDMLasting.lean (`C309_lasting`): if nothing is reported the segment keeps growing and its distances are the old ones followed by the new ones; squared deviations about the mean are at most those about `lo`, so mean + 2 deviations falls below `hi + 2 (hi - lo) + ε`; C17 then gives a report. Not shown: a formula for N in the statement (the proof gives one).

### C310 PageHinkley: how soon it can report, and when it is mute

* Status: proved. exact rationals
* Code: `drift_detection/page_hinkley.py:53-109`
* Lean: `Verif/Drift/PHMute.lean`
* Theorems: `C310_gap`, `C310_mute`, `C310_forgetful`, `C310_default`
* How: Drift/PHMute.lean (`C310_gap`, `C310_mute`, `C310_forgetful`, `C310_default`): a value exceeds the mean of the values so far by at most b - a (the first by 0), so by induction the statistic of C18 is at most (b - a - delta) times a geometric sum; the sum is at most 1 / (1 - alpha) and at most its number of terms; `C18_restart` carries it to streams after a report.

### C311 MissingValuesCleaner: what the window strategies put in place of NaN

* Status: proved. exact rationals; strategy mode is not covered (what scipy gives for a column of NaN only is not modelled)
* Code: `transform/missing_values_cleaner.py:72-145`
* Lean: `Verif/Transform/Filled.lean`
* Theorems: `C311_filled`, `C311_window_one`, `C311_units`, `C311_calls`
* How: Transform/Filled.lean (`C311_filled`, `C311_window_one`, `C311_units`, `C311_calls`): on the specification of C29; by induction over the rows all returned cells of a column stay between bounds of its numbers, and the row returned last, which is in the window of the next one, keeps the column known. `central_nanmean` shows that the mean is such a statistic.

### C312 Models in one holdout evaluation do not influence one another's figures

* Status: proved. the model of C277; an exception of a model ends the evaluation, as in the code
* Code: `evaluation/evaluate_holdout.py:228-345`
* Lean: `Verif/Evaluation/HoldoutTogether.lean`
* Theorems: `C312_beginning`, `C312_same_reports`
* How: Evaluation/HoldoutTogether.lean (`C312_beginning`, `C312_same_reports`): an iteration succeeds exactly if it succeeds for every model (`step_iff`), so that a state of the joint evaluation and one of the evaluation of model j stay in step; whether a metric can be computed does not depend on the number of models.

### C313 Models in one delayed prequential evaluation do not influence one another's figures

* Status: proved. Models share no state, give one prediction per row and do not raise; numpy's conversion of the predictions of several models to one type is not modelled.
* Code: `evaluation/evaluate_prequential_delayed.py:290-372`, `evaluation/evaluate_prequential_delayed.py:374-496`, `data/time_manager.py:37-40`
* Lean: `Verif/Evaluation/DelayedTogether.lean`
* Theorems: `C313_alone`, `C313_same_rows`, `C313_no_exception`
* How: Evaluation/DelayedTogether.lean (`C313_alone`, `C313_same_rows`, `C313_no_exception`): projecting the tuple of states and predictions on one model commutes with every function of the evaluator and of the time manager (`evaluate_map`), whose sort looks at the times alone; the measurement objects of a model are then fed the same pairs (`boardRun_solo`), and the scores can be computed if they can be for every model alone (`boardRun_all`).

### C314 One label above the declared classes silences OzaBagging for good, and nothing less does

* Status: proved. The base learner is any that satisfies the stated width condition; the model of KNNClassifier is shown to (its predict_proba also stores the classes it has met, which is not modelled). KNNADWINClassifier, the default, may forget a label when its window shrinks and is not covered.
* Code: `meta/oza_bagging.py:124-194`, `meta/oza_bagging.py:196-278`, `lazy/knn_classifier.py:126-186`
* Lean: `Verif/Meta/OzaSilenced.lean`
* Theorems: `C314_silenced`, `C314_heard`, `C314_knn`
* How: Meta/OzaSilenced.lean (`C314_silenced`, `C314_heard`, `C314_knn`): by C118 every member is a base learner trained on its own copies of the samples, so the length of its rows tells whether it met an undeclared label; the first member whose rows are too long raises the ValueError that predict_proba swallows (C119), and without one the votes are summed. The model of KNNClassifier (Lazy/KNN.lean) meets the condition on base learners.

### C315 get_measurements covers every prediction of a delayed evaluation

* Status: proved. Accuracy, and for regressors the mean squared and absolute errors; learners do not raise; unweighted streams (with weights the evaluation raises, C58).
* Code: `evaluation/base_evaluator.py:781-859`, `evaluation/evaluate_prequential_delayed.py:320-335`, `evaluation/evaluate_prequential_delayed.py:374-496`
* Lean: `Verif/Evaluation/DelayedFinal.lean`
* Theorems: `C315_index`, `C315_everything`, `C315_regression`
* How: Evaluation/DelayedFinal.lean (`C315_index`, `C315_everything`, `C315_regression`): the measurement objects at the end hold all results scored (`boardRun_ok`), which are a permutation of the predictions (C27), and the figures do not depend on the order; Python indexing by cases.
