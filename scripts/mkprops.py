import json
S='src/skmultiflow/'
P=[]
def p(title,statement,quantifier,why,anchors):
    P.append(dict(id='C%02d'%(len(P)+1),title=title,statement=statement,quantifier=quantifier,why_tests_cant=why,anchors=[S+a for a in anchors]))
p("FastBuffer keeps exactly the newest max_size elements",
  "After any sequence of add_element calls (each with a list of any length) on a FastBuffer built with max_size >= 1, get_queue() is the last max_size elements of everything ever added, in arrival order.",
  "every max_size >= 1, every element type, every finite sequence of batches of every length (including empty batches)",
  "The content depends on the whole history and on how batch sizes straddle the capacity; tests sample a few batch splits.",
  ["utils/data_structures.py:FastBuffer.add_element","utils/data_structures.py:FastBuffer.get_queue"])
p("FastBuffer eviction reports lose and duplicate nothing",
  "For every history of add_element, get_next_element and clear_queue calls, each call's return value and the visible queue are those of an ordinary bounded first-in-first-out queue: the evicted list returned by add_element is None exactly when everything fitted, otherwise it lists the displaced elements oldest first, get_next_element returns and removes the oldest element (None when empty).",
  "every interleaving of the three operations, every max_size >= 1",
  "Needs all interleavings of pushes, pops and clears around the full/empty boundaries.",
  ["utils/data_structures.py:FastBuffer"])
p("SlidingWindow keeps the newest window_size labelled samples, aligned",
  "Feeding samples one row at a time, the features and targets buffers always hold exactly the last window_size (x, y) pairs in arrival order, row i of the targets belonging to row i of the features; a row with the wrong number of features is rejected with ValueError and leaves the buffers untouched. (With multi-row adds the size bound fails; that violation is recorded separately in the same claim.)",
  "every window_size >= 1 and every sequence of single-row adds, good or malformed; for the violation: a concrete multi-row add",
  "Alignment and eviction must hold after every prefix of every stream.",
  ["utils/data_structures.py:SlidingWindow.add_sample","utils/data_structures.py:SlidingWindow.delete_oldest_sample"])
p("Confusion matrix entries and marginals always agree with the recorded results",
  "After any sequence of add operations, the entry for (true i, predicted j) equals the sum of the weights recorded for that pair; every row sum, column sum and the diagonal sum kept incrementally equals the corresponding sum of entries over the recorded results.",
  "every sequence of (true, predicted, weight) results, every class set, weights of any sign (removals are negative weights)",
  "The marginals are maintained incrementally and drift can only show after particular histories.",
  ["metrics/_confusion_matrix.pyx:ConfusionMatrix"])
p("Accuracy is the fraction of correctly predicted results",
  "With unit weights, accuracy_score() after any non-empty history equals (number of results with y_true == y_pred) / (number of results), lies in [0,1], and is 0 for an empty history. With other weights the value is (correct weight)/(number of results), which can leave [0,1]; that violation is exhibited.",
  "every sequence of results over every set of non-negative class labels",
  "Quantifies over all histories; the weighted violation is invisible with the unit weights used in tests.",
  ["metrics/_classification_performance_evaluator.pyx:ClassificationPerformanceEvaluator.add_result","metrics/_classification_performance_evaluator.pyx:ClassificationPerformanceEvaluator.accuracy_score"])
p("Windowed classification metrics equal the metrics of the last window_size results",
  "After any history of positively weighted results the sliding-window evaluator has the same confusion matrix, sample count, accuracy, kappa, majority class and per-class precision and recall as a fresh evaluator fed only the last window_size results.",
  "every window_size >= 1, every history length, every class labels, every positive weights",
  "Eviction corrections must cancel exactly for every history longer than the window.",
  ["metrics/_classification_performance_evaluator.pyx:WindowClassificationPerformanceEvaluator.add_result"])
p("Majority class is the smallest class of maximal observed weight",
  "majority_class() returns a class whose total observed true weight is at least that of every other class, and the smallest such class; 0 when nothing with positive weight was observed.",
  "every history of positively weighted results",
  "Tie-breaking and late overtakes depend on complete histories.",
  ["metrics/_classification_performance_evaluator.pyx:ClassificationPerformanceEvaluator.majority_class"])
p("Cohen's kappa lies in [-1,1] and is 1 only for perfect agreement",
  "For unit-weight histories kappa_score() is always between -1 and 1 (never raising a division error); it equals 1 exactly when every prediction was correct and at least two different true labels occurred.",
  "every unit-weight history",
  "A real inequality over all confusion matrices of all dimensions.",
  ["metrics/_classification_performance_evaluator.pyx:ClassificationPerformanceEvaluator.kappa_score"])
p("Precision, recall and F1 match their set definitions",
  "For every class value c >= 0 seen or unseen, precision_score(c) = TP/(TP+FP), recall_score(c) = TP/(TP+FN) with 0 for empty denominators and both in [0,1]; f1 is their harmonic mean. For two-class evaluators f1_score(c) ignores c; that violation is exhibited.",
  "every unit-weight history, every class value",
  "All histories and all class values, including never-seen ones.",
  ["metrics/_classification_performance_evaluator.pyx:ClassificationPerformanceEvaluator.precision_score","metrics/_classification_performance_evaluator.pyx:ClassificationPerformanceEvaluator.recall_score","metrics/_classification_performance_evaluator.pyx:ClassificationPerformanceEvaluator.f1_score"])
p("Multi-label exact match, Jaccard and Hamming scores match their definitions",
  "exact_match_score() is the fraction of results whose label vectors are identical, jaccard_score() the mean of |intersection|/|union|, hamming_score() the fraction of labels predicted correctly. The code's Hamming score counts only correctly predicted positive labels; that violation is exhibited and what it does compute is proved.",
  "every sequence of equal-length binary label vectors",
  "Holds or fails only across all label vectors; existing tests use one random sample.",
  ["metrics/_classification_performance_evaluator.pyx:MultiLabelClassificationPerformanceEvaluator","metrics/_confusion_matrix.pyx:MultiLabelConfusionMatrix"])
p("Windowed regression errors are the errors of the last window_size results",
  "After any history, the windowed mean squared error and mean absolute error equal those of the last window_size results (0 when there are none), and the reported sample count is min(history length, window_size).",
  "every window_size >= 1 and every sequence of (true, predicted) numbers",
  "Running totals with corrections must equal window sums after every prefix.",
  ["metrics/measure_collection.py:WindowRegressionMeasurements","metrics/measure_collection.py:RegressionMeasurements"])
p("ADWIN's window is a contiguous suffix of the stream",
  "After any interleaving of add_element and detected_change calls, ADWIN's width is the length of a suffix of the elements added, its total is the sum of that suffix, estimation is the mean of that suffix, and reading the buckets from oldest to newest partitions the suffix into consecutive runs with the recorded run sums and power-of-two run lengths.",
  "every stream of numbers, every interleaving with detected_change, every outcome of the statistical cut test (log and sqrt arbitrary functions)",
  "Exponential-histogram bookkeeping is only exercised by long adversarial streams and cut patterns.",
  ["drift_detection/adwin.py:ADWIN.add_element","drift_detection/adwin.py:ADWIN.delete_element","drift_detection/adwin.py:ADWIN.detected_change"])
p("ADWIN uses logarithmic memory",
  "After any history every bucket row holds at most MAX_BUCKETS (5) buckets, row i holds buckets of exactly 2^i elements, and the number of rows is at most log2(width)+1 for non-empty windows.",
  "every stream and every interleaving of additions and change checks",
  "The bound must hold at every moment of unbounded runs.",
  ["drift_detection/adwin.py:ADWIN","drift_detection/adwin.py:List","drift_detection/adwin.py:Item"])
p("ADWIN's change check terminates, never empties the window and reports truthfully",
  "detected_change() returns True exactly when it dropped at least one element from the window, terminates for every window, drops only oldest elements, leaves a non-empty window, and never divides by zero. n_detections counts the checks that answered True since construction or the last reset.",
  "every reachable state and every behaviour of the cut test",
  "Termination and absence of arithmetic exceptions for all reachable states.",
  ["drift_detection/adwin.py:ADWIN.detected_change","drift_detection/adwin.py:ADWIN.delete_element"])
p("ADWIN's incremental variance is the variance of the window",
  "ADWIN.variance equals the mean squared deviation of the elements in the window. It holds until the first element is dropped; afterwards bucket variances lose a term on each merge (the first merged bucket's variance is dropped), so the property is violated; both facts are proved.",
  "every stream without drops; concrete witness for the violation",
  "The missing merge term is only observable after merges of merged buckets followed by a drop.",
  ["drift_detection/adwin.py:ADWIN.__insert_element","drift_detection/adwin.py:ADWIN.__compress_buckets","drift_detection/adwin.py:ADWIN.delete_element"])
p("DDM statistics restart after a drift and follow the error rate",
  "Between two drifts DDM's error probability is exactly the fraction of errors since the last drift (first-sample-weighted as documented), it never signals before min_num_instances samples since the restart, change and warning are never both raised, and the sample following a detected change starts from cleared statistics.",
  "every 0/1 stream, every parameter values, every square-root implementation",
  "Behaviour depends on positions of all past drifts.",
  ["drift_detection/ddm.py:DDM"])
p("EDDM never signals before 30 errors and only on errors",
  "EDDM's change flag is raised only by an erroneous prediction, only after more than 30 errors since the last restart, and its distance statistics are the running mean of the distances between consecutive errors.",
  "every 0/1 stream, every square-root implementation",
  "History-dependent restart and counter logic.",
  ["drift_detection/eddm.py:EDDM"])
p("Page-Hinkley statistics restart after detection and the statistic is non-negative",
  "The cumulative statistic is never negative and follows its recurrence over the values since the last change, the running mean is the mean of those values, a change is reported exactly when the statistic exceeds the threshold once enough values arrived, no warning is ever reported, and the value after a detection starts from scratch. 'Enough values' should be min_instances, but the code already reports after min_instances - 1 values (violated by one).",
  "every stream of numbers and all parameters",
  "History-dependent; the off-by-one shows only at one position of particular streams.",
  ["drift_detection/page_hinkley.py:PageHinkley"])
p("HDDM_A never raises and its estimate is a mean of recent values",
  "For every stream HDDM_A.add_element never divides by zero, and the published estimation is always an average of consecutive inputs (hence inside the range of the inputs); change and warning are never both set.",
  "every stream of numbers, every confidences, one- and two-sided mode, every log/sqrt implementation",
  "Division guards depend on the cut-point history.",
  ["drift_detection/hddm_a.py:HDDM_A"])
p("HDDM_W's two-sided option has no effect",
  "For every stream and all parameters HDDM_W with two_side_option=True produces the same change flags, warning flags, estimations, delays and widths as with two_side_option=False (contrary to its documentation: the decrease cut-point starts at +infinity and can never be set); with confidences in (0,1] it never raises.",
  "every stream of numbers, every parameters",
  "Requires comparing two runs on all streams; no finite test can establish that the option is inert.",
  ["drift_detection/hddm_w.py:HDDM_W"])
p("KSWIN's window is a bounded suffix of the stream",
  "For 1 <= stat_size <= window_size - 2: add_element never raises; KSWIN's window is a suffix of the values added, never longer than window_size; change is signalled exactly when the window was full and the test rejects; after a change only the newest stat_size values before the current one plus the current one remain. For stat_size equal to window_size - 1 or window_size, which the constructor accepts, the first value after the window has filled raises on every stream.",
  "every stream, every window and stat size, every random choice and every KS-test outcome",
  "Depends on arbitrary random subsamples and test outcomes.",
  ["drift_detection/kswin.py:KSWIN"])
p("Stream batches partition the data in order and restart replays them",
  "For DataStream/FileStream, concatenating the batches of any sequence of next_sample calls (until exhaustion) gives exactly the rows of the data set in order, without loss or repetition; has_more_samples() is true exactly while rows remain, and restart() makes the stream replay from the first row.",
  "every data set and every sequence of positive batch sizes, with restarts anywhere",
  "All batch-size sequences and data lengths, including batches straddling the end.",
  ["data/data_stream.py:DataStream.next_sample","data/file_stream.py:FileStream.next_sample"])
p("Delayed labels are delivered exactly once and never early",
  "For samples queued without weights, TimeManager hands every sample back exactly once; get_available_samples() returns, in order of availability, exactly the queued samples whose available_time has come (none early, none left behind), and next_sample(n) returns the n samples that become available first.",
  "every sequence of additions and queries with arbitrary timestamps",
  "All timestamp patterns, ties and interleavings.",
  ["data/time_manager.py:TimeManager"])
p("Balanced generators alternate the classes",
  "With balance_classes=True and no noise, the labels emitted by the synthetic generators (SEA, STAGGER, Sine, Mixed, AGRAWAL) strictly alternate, so in any prefix the class counts differ by at most one; each emitted label is the value of the selected classification function on the emitted features.",
  "every random source for which the rejection loop finds a sample, every batch split",
  "Quantifies over all random streams.",
  ["data/sea_generator.py:SEAGenerator.next_sample","data/stagger_generator.py:STAGGERGenerator.next_sample","data/sine_generator.py:SineGenerator.next_sample","data/mixed_generator.py:MIXEDGenerator.next_sample","data/agrawal_generator.py:AGRAWALGenerator.next_sample"])
p("Prequential evaluation tests every sample before training on it",
  "In EvaluatePrequential with at least 20 samples to evaluate, every sample after the pre-training block is predicted exactly once, by models that have been trained on exactly the samples that precede its batch, then trained on exactly once; samples are consumed in stream order and every (label, prediction) pair is scored exactly once.",
  "every stream length, batch size, pretrain size, max_samples and n_wait, every learner",
  "Temporal ordering over whole runs; tests only look at final metric values.",
  ["evaluation/evaluate_prequential.py:EvaluatePrequential._train_and_test"])
p("Holdout test samples never leak into training",
  "In EvaluateHoldout with a static test set (at least 20 samples to evaluate) no sample used for testing is ever passed to partial_fit, every other consumed sample is trained on exactly once in order, and every test phase scores the full test set.",
  "every stream, batch size, test size, evaluation frequency",
  "Leakage is a property of complete runs.",
  ["evaluation/evaluate_holdout.py:EvaluateHoldout._periodic_holdout"])
p("Prequential evaluation with delayed labels never trains on an unavailable label",
  "In EvaluatePrequentialDelayed a sample is predicted exactly once before it is trained on, and is trained on and scored only when its label is available with respect to the newest consumed timestamp, or after the main loop has ended; no sample is lost. (Unweighted streams, pretrain_size >= 1, at least 20 samples to evaluate.)",
  "every temporal stream, delay pattern and batch size",
  "All delay patterns.",
  ["evaluation/evaluate_prequential_delayed.py:EvaluatePrequentialDelayed._train_and_test","data/time_manager.py:TimeManager"])
p("Result file contains every line exactly once in order",
  "The evaluators' buffered output writing loses, duplicates or reorders no result line whatever the line lengths, once flushed at the end.",
  "every sequence of line lengths and every buffer size",
  "Flush boundary conditions.",
  ["evaluation/base_evaluator.py:StreamEvaluator._update_file","evaluation/base_evaluator.py:StreamEvaluator._flush_file_buffer"])
p("Missing-value cleaning removes every missing value and changes nothing else",
  "MissingValuesCleaner.transform replaces exactly the entries that are NaN or equal to one of the configured missing markers by the strategy value, leaves all other entries unchanged, and the result contains no missing value. (The last part is violated for the windowed strategies: the row being cleaned is itself in the window, so the substitute can be the marker or NaN.)",
  "every matrix, window history and strategy",
  "All matrices and histories.",
  ["transform/missing_values_cleaner.py:MissingValuesCleaner"])
p("Windowed min-max scaling maps the window onto the configured range",
  "Scaled values should lie in [0,1] relative to the window minimum and maximum. The code's transform is the identity on every feature whose window minimum and maximum differ; proved, hence the property is violated.",
  "every window content and every input",
  "Universally quantified algebraic identity.",
  ["transform/windowed_minmax_scaler.py:WindowedMinmaxScaler"])
p("kNN class probabilities form a distribution",
  "For every trained window with at least n_neighbors samples, predict_proba rows are non-negative, sum to 1, and equal the label frequencies among the reported neighbours; with fewer samples all-zero rows are returned.",
  "every window content, query and neighbour oracle returning n_neighbors valid indices",
  "All windows and queries.",
  ["lazy/knn_classifier.py:KNNClassifier.predict_proba"])
p("kNN regression predicts each row from its own neighbours",
  "Prediction for a row should depend only on that row's neighbours. In the code every row's prediction is the aggregate over the neighbours of all rows, so the property holds only for single-row queries; both facts are proved.",
  "every window, every query matrix",
  "Requires comparing all multi-row queries with single-row queries.",
  ["lazy/knn_regressor.py:KNNRegressor.predict"])
p("Gaussian estimator equals the weighted mean and variance of what it saw",
  "After any sequence of positively weighted observations the estimator's mean and variance are exactly the weighted mean and (weight-1 normalised) weighted squared deviation, independent of the order of observations.",
  "every sequence of finite values and positive weights",
  "Order-independence and exactness over all sequences.",
  ["trees/gaussian_estimator.py:GaussianEstimator.add_observation","trees/gaussian_estimator.py:GaussianEstimator.get_variance"])
p("Nominal observer split distributions conserve class weight",
  "For every observed attribute value, the branch class distributions returned by the nominal attribute observer (multiway and binary) sum, class by class, to the observed class weights, and the Laplace-smoothed conditional probabilities of the observed values of a class sum to 1.",
  "every sequence of non-negatively weighted updates",
  "All update histories and attribute values.",
  ["trees/_attribute_observer/nominal_attribute_class_observer.py:NominalAttributeClassObserver"])
p("The regression attribute observer's candidate splits are exact",
  "For every threshold stored by the regression attribute observer, the left statistics it evaluates are exactly the weight, sum and sum of squares of all observed targets whose attribute value is at most the threshold, and the right statistics the remainder; all distinct observed values are candidates.",
  "every sequence of updates (no pruning between them)",
  "Binary-search-tree shape depends on insertion order; all orders must work.",
  ["trees/_attribute_observer/numeric_attribute_regression_observer.py:NumericAttributeRegressionObserver"])
p("Split tests route every instance to the branch whose rule describes it",
  "For numeric and nominal split tests, branch_for_instance(x)=b exactly when x satisfies the rule reported for branch b; numeric and binary nominal tests have exactly two branches and route every present value; multiway tests give a fresh branch to every new value and never remap old ones.",
  "every instance, threshold, value and history of added branches",
  "All instances.",
  ["trees/_attribute_test/numeric_attribute_binary_test.py:NumericAttributeBinaryTest","trees/_attribute_test/nominal_attribute_binary_test.py:NominalAttributeBinaryTest","trees/_attribute_test/nominal_attribute_multiway_test.py:NominalAttributeMultiwayTest"])
p("Hoeffding tree node counters equal the actual tree",
  "After any sequence of training steps, splits, leaf deactivations and reactivations, the counters reported by get_model_measurements (active leaves, inactive leaves, decision nodes) equal the numbers of such nodes in the tree.",
  "every training history and every outcome of split decisions and memory estimates",
  "Counter drift depends on long histories mixing splits with memory management.",
  ["trees/hoeffding_tree.py:HoeffdingTreeClassifier._partial_fit","trees/hoeffding_tree.py:HoeffdingTreeClassifier._attempt_to_split","trees/hoeffding_tree.py:HoeffdingTreeClassifier._enforce_tracker_limit"])
p("Dynamic weighted majority keeps a bounded, normalised, non-empty ensemble",
  "After any history the ensemble has between 1 and n_estimators experts, all weights lie in (0,1], after an update period the largest weight is 1 and no weight is below theta, and training never raises an index error while replacing the weakest expert.",
  "every stream, every expert predictions, n_estimators >= 1, 0 < beta < 1, 0 <= theta <= 1, period >= 1",
  "Index validity and bounds over all histories of deletions.",
  ["meta/dynamic_weighted_majority.py:DynamicWeightedMajorityClassifier.fit_single_sample"])
p("Additive expert ensemble prunes the weakest expert",
  "With pruning='weakest' the expert removed when the ensemble is full should be the one of least weight. In the code the freshly created expert is inserted at the front and is the one removed whenever it outweighs the currently weakest one; the size bound holds but the pruning property is violated.",
  "every ensemble state; concrete witness for the violation",
  "Needs the interplay of insertion position and pruning for all weights.",
  ["meta/additive_expert_ensemble.py:AdditiveExpertEnsembleClassifier.fit_single_sample","meta/additive_expert_ensemble.py:AdditiveExpertEnsembleClassifier._add_expert"])
p("Accuracy weighted ensemble predicts each row independently",
  "The prediction for a row should be the weighted vote of the models on that row. Because the vote dictionaries are shared between rows, all rows of one call receive the same label; the property holds for single-row calls only.",
  "every ensemble, every batch of rows",
  "Aliasing shows only for multi-row batches; quantified over all batches.",
  ["meta/accuracy_weighted_ensemble.py:AccuracyWeightedEnsembleClassifier.predict"])
p("Batch-incremental training partitions the stream into windows",
  "However the stream is cut into partial_fit calls, the models trained are exactly those for the consecutive disjoint windows of window_size samples in order, the ensemble holds the newest n_estimators of them, and the samples waiting are the remainder.",
  "every stream and every segmentation into calls, window_size >= 1, n_estimators >= 1",
  "Independence from call segmentation.",
  ["meta/batch_incremental.py:BatchIncrementalClassifier.partial_fit"])
p("Leveraging bagging training terminates",
  "partial_fit should terminate. With output-code matrices enabled, an even number of ensemble members and an odd number of classes, the code-matrix generation loops forever for every random source; for the remaining configurations every accepted code row is balanced.",
  "every random source, every number of classes and ensemble size",
  "Non-termination cannot be observed by a finite test and must be shown for all random sources.",
  ["meta/leverage_bagging.py:LeveragingBaggingClassifier.__init_output_codes"])
p("Online boosting weights stay well defined",
  "During online boosting every Poisson rate passed to the sampler is positive, the error estimates stay in [0,1] and no division by zero happens.",
  "every stream, every prediction outcomes and every random draws",
  "Invariant over all histories and ensemble positions.",
  ["meta/online_boosting.py:OnlineBoostingClassifier.partial_fit"])
p("Chained predictors return labels in the original order",
  "ClassifierChain/RegressorChain.predict undoes the (possibly random) chain order: column k of the result is the prediction made by the chain member trained on target k, and during training chain member j sees exactly the features plus the true values of the preceding targets.",
  "every chain order (permutation), every number of targets, every base learners",
  "All permutations.",
  ["meta/classifier_chains.py:ClassifierChain","meta/regressor_chains.py:RegressorChain"])
p("Half-space trees classify each row separately",
  "predict should classify row i by row i's anomaly score. The code uses row 0's score for every row; the property holds for single-row calls only.",
  "every forest, every batch",
  "Needs multi-row batches with differing scores.",
  ["anomaly_detection/half_space_trees.py:HalfSpaceTrees.predict"])
p("Half-space tree masses count the samples of the window",
  "For every node, the reference/latest mass equals the number of samples of the current window routed through the node; masses of the children of an internal node add up to the mass of the node.",
  "every sequence of samples and every tree shape",
  "Invariant over all histories.",
  ["anomaly_detection/half_space_trees.py:HalfSpaceTree.update_mass","anomaly_detection/half_space_trees.py:HalfSpaceTree.update_model"])
p("Windowed default precision, recall and F1 are those of the last window_size results",
  "precision_score(), recall_score() and f1_score() of the sliding-window evaluator equal those of a fresh evaluator fed with the last window_size results. Violated once a class outside the declared ones has ever been seen: classes that left the window still count in the average; proved when all labels are declared classes.",
  "every window_size >= 1 and every history of positively weighted results",
  "The effect only appears after a class has left the window; all histories must be covered.",
  ["metrics/_classification_performance_evaluator.pyx:WindowClassificationPerformanceEvaluator","metrics/_confusion_matrix.pyx:ConfusionMatrix"])
p("Kappa-T and Kappa-M compare against the no-change and majority baselines",
  "kappa_t_score() compares the accuracy with that of the classifier that repeats the previous true label, kappa_m_score() with that of the majority-class classifier. The first holds; the second is violated because each label is counted into the majority before it is 'predicted'.",
  "every history of positively weighted results",
  "The baselines are running totals over the whole history.",
  ["metrics/_classification_performance_evaluator.pyx:ClassificationPerformanceEvaluator.kappa_t_score","metrics/_classification_performance_evaluator.pyx:ClassificationPerformanceEvaluator.kappa_m_score","metrics/_classification_performance_evaluator.pyx:ClassificationPerformanceEvaluator.add_result"])
p("Windowed multi-label scores are those of the last window_size results",
  "Exact-match score, Jaccard score and sample count of the sliding-window multi-label evaluator equal those of a fresh evaluator fed with the last window_size results.",
  "every window_size >= 1 and every history of equally long label vectors",
  "Corrections on eviction must cancel exactly for all histories.",
  ["metrics/_classification_performance_evaluator.pyx:WindowMultiLabelClassificationPerformanceEvaluator"])
p("HDDM_A never reports a decrease",
  "On a stream whose values never increase, HDDM_A reports neither a change nor a warning at any point, in one-sided and in two-sided mode (two_side_option only restarts the statistics silently).",
  "every non-increasing stream, every confidences in (0,1), every square-root implementation positive on positive numbers",
  "Universal over streams; a test can only try a few drops.",
  ["drift_detection/hddm_a.py:HDDM_A.add_element","drift_detection/hddm_a.py:HDDM_A._mean_decr"])
p("Loading a table never mixes targets into the features",
  "DataStream/FileStream with target_idx and n_targets addressing a range inside a table with distinct column names use exactly those n_targets columns as targets and all other columns, in order, as features; with n_targets > 1 and the default target_idx the last n_targets columns are the targets. (FileStream does this; DataStream with the default target_idx=-1 and n_targets > 1 takes no target at all and keeps the targets among the features: violated.)",
  "every table width, every positive or negative target index and number of targets inside the table",
  "The slice arithmetic mixes negative and positive bounds; tests use one or two layouts.",
  ["data/data_stream.py:DataStream._load_data","data/file_stream.py:FileStream._load_data","data/file_stream.py:FileStream.__init__"])
p("Reordering a temporal stream keeps every sample together",
  "TemporalDataStream with ordered=False and per-sample times and delays contains exactly the given samples sorted by time, each with its own features, label, weight, time and delay.",
  "every data set, every time column including ties, every argsort result that sorts the column",
  "Five arrays are permuted by separate statements, one of them by an independent sort; ties make several permutations legal.",
  ["data/temporal_data_stream.py:TemporalDataStream.__init__"])
p("Weighted delayed samples can never be drained",
  "Samples queued in a TimeManager with sample weights cannot be retrieved with next_sample: after any number of weighted update_queue calls (and before any call) next_sample raises KeyError for every batch size.",
  "every sequence of weighted batches and every batch size",
  "The failure depends on every queued batch being weighted; the shipped tests never queue weights.",
  ["data/time_manager.py:TimeManager.next_sample","data/time_manager.py:TimeManager.update_queue"])
p("AGRAWAL features stay in their documented ranges",
  "Every emitted AGRAWAL sample has each feature in the documented range, for every perturbation in [0,1]. Violated for commission (up to 85000, and drawn for the low salaries) and for the house value under perturbation (always 0 or exactly (9-zipcode)*100000); the other numeric ranges hold.",
  "every random source, every perturbation level, every classification function",
  "Ranges must hold for all random draws; tests fix one seed.",
  ["data/agrawal_generator.py:AGRAWALGenerator.next_sample","data/agrawal_generator.py:AGRAWALGenerator._perturb_value"])
p("generate_drift always changes the concept",
  "generate_drift of the SEA, STAGGER, Sine and AGRAWAL generators ends with a valid classification function different from the current one; for the Mixed generator (and sine functions 0/1 and 2/3) the old and new concept disagree on every possible sample.",
  "every random source, every current function, every feature vector",
  "Needs all features and all random outcomes.",
  ["data/sea_generator.py:SEAGenerator.generate_drift","data/mixed_generator.py:MIXEDGenerator.generate_drift","data/sine_generator.py:SineGenerator.generate_drift"])
p("Evaluations of fewer than 20 samples stop after one batch",
  "When fewer than 20 samples are to be evaluated, EvaluatePrequential predicts and scores exactly one batch and then stops without training on it, and EvaluateHoldout trains on one batch and stops without a single prediction (the progress report divides by zero and the exception is swallowed; no row has been written, so the summary fails as described in C193).",
  "every stream, learner, batch size, pretrain size, test size and n_wait with fewer than 20 samples to evaluate",
  "The run ends normally and returns models; only a statement about all short runs shows that the models were never trained or tested.",
  ["evaluation/base_evaluator.py:StreamEvaluator._check_progress","evaluation/evaluate_prequential.py:EvaluatePrequential._train_and_test","evaluation/evaluate_holdout.py:EvaluateHoldout._periodic_holdout"])
p("Delayed evaluation requires a pre-training block",
  "A new EvaluatePrequentialDelayed with pretrain_size=0 fails with AttributeError on every stream, because the time manager is only created after pre-training.",
  "every stream, learner, batch size and limit",
  "Holds for every configuration, and the first failure is swallowed by the loop's exception handler.",
  ["evaluation/evaluate_prequential_delayed.py:EvaluatePrequentialDelayed._train_and_test"])
p("Delayed evaluation does not respect sample weights",
  "On a weighted temporal stream EvaluatePrequentialDelayed trains delayed samples with the weights of the batch just read instead of their own, and every weighted run with something to evaluate ends in a KeyError.",
  "every weighted stream with at least 20 samples to evaluate, every learner and batch size",
  "The shipped tests use no weights; that every run fails needs a proof that the queue is never empty after the main loop.",
  ["evaluation/evaluate_prequential_delayed.py:EvaluatePrequentialDelayed._train_and_test","data/time_manager.py:TimeManager.next_sample"])
p("Windowed standard scaling uses only earlier rows",
  "WindowedStandardScaler.transform standardises every cell with the column mean and standard deviation of the last window_size rows seen before its row (its own row excluded, deviation 0 counted as 1); the very first row is unchanged.",
  "every window size, history and matrix",
  "Look-ahead or self-inclusion is a property of all histories.",
  ["transform/windowed_standard_scaler.py:WindowedStandardScaler.transform"])
p("One-hot decoding is right exactly when the row ends with a category block",
  "OneHotToCategorical keeps ordinary features in order and replaces each one-hot block by the position of its 1 (block length if there is none) when the last feature of the row belongs to the last block, and raises IndexError for every row with an ordinary feature after the last block.",
  "every layout of ordinary features and non-empty blocks, every cell content",
  "All layouts; the shipped test uses one that ends with a block.",
  ["transform/one_hot_to_categorical.py:OneHotToCategorical._transform"])
p("kNN-ADWIN keeps the newest samples after a change",
  "After partial_fit of KNNADWINClassifier, if ADWIN reported a change and at least n_neighbors samples are stored, the stored samples are exactly the newest adwin.width ones (all of them if fewer); otherwise the window is unchanged by the drift handling.",
  "every window content, every ADWIN width and detection outcome, every n_neighbors",
  "Which samples survive must be right for every width relative to the window size.",
  ["lazy/knn_adwin.py:KNNADWINClassifier.partial_fit"])
p("Pruning the regression attribute observer keeps the statistics exact",
  "remove_bad_splits removes only thresholds whose split is bad, the remaining thresholds keep exact statistics, and a best split that is not bad stays the best. Statistics should also stay exact for later observations: violated, thresholds first seen after a pruning miss the pruned observations; and once all thresholds are pruned asking for a split raises AttributeError.",
  "every history of observations, every criterion, every pruning test",
  "The effect depends on tree shape and on what was observed after the pruning.",
  ["trees/_attribute_observer/numeric_attribute_regression_observer.py:NumericAttributeRegressionObserver.remove_bad_splits"])
p("Gaussian observer splits conserve class weight",
  "For every split value the left and right class distributions of the Gaussian numeric observer are non-negative and add up, class by class, to the observed class weight, and the suggested thresholds are the equally spaced points strictly between the smallest and largest observed value. (For total class weight at most 1 the whole class may be put on the wrong side.)",
  "every history of positively weighted observations, every split value, every distribution function with values in [0,1]",
  "All histories, thresholds and variances, including the zero-variance branches.",
  ["trees/_attribute_observer/numeric_attribute_class_observer_gaussian.py:NumericAttributeClassObserverGaussian","trees/gaussian_estimator.py:GaussianEstimator.estimated_weight_lessthan_equalto_greaterthan_value"])
p("Nominal regression observer splits are exact",
  "The multiway split of the nominal regression observer has one branch per observed value, in increasing order, with exactly the weight, target sum and sum of squares of the observations having that value; every binary candidate is one observed value against the exact remainder.",
  "every history of observations",
  "All histories and value orders.",
  ["trees/_attribute_observer/nominal_attribute_regression_observer.py:NominalAttributeRegressionObserver"])
p("Hoeffding tree memory management keeps the most promising leaves", "Whenever memory management runs and is not switched off, afterwards exactly the k most promising leaves of the tree are active and all others inactive, where k is the largest number of active leaves for which the size estimate stays within max_byte_size (0 if none fits).", "every reachable tree, every size estimates and every promise order", "needs every tree shape and every estimate; tests look at single trees under one limit", ["trees/hoeffding_tree.py:638-667", "trees/hoeffding_tree.py:704-748", "trees/hoeffding_tree.py:762-789"])
p("Pre-pruning in Hoeffding trees", "When the null split wins a split attempt the leaf is deactivated, but the memory manager called right afterwards re-activates it whenever memory suffices; with stop_mem_management=True the same event stops the growth of the whole tree for ever (no split node is added by any later training).", "every reachable tree, every leaf, every later training history", "about all later histories", ["trees/hoeffding_tree.py:611-667", "trees/hoeffding_tree.py:327-337"])
p("Removing poor attributes in Hoeffding trees", "With remove_poor_atts=True a split attempt should disable exactly the attributes whose merit trails the best one by more than the Hoeffding bound. With pre-pruning on (the default) every split attempt on an impure leaf with at least one candidate raises AttributeError instead, because the null split has no test; the property holds with no_preprune=True.", "every list of candidate merits, every bound", "all candidate lists and bounds", ["trees/hoeffding_tree.py:576-610", "trees/_nodes/base.py:449-480"])
p("Hoeffding tree split decision", "A pure leaf is never split. An impure leaf with at least two candidates (null split included) is split exactly when a greatest-merit candidate leads every other by more than the Hoeffding bound or the bound is below tie_threshold; the candidate used has greatest merit, and the leaf is pre-pruned exactly if that candidate is the null split.", "every list of candidate merits, every bound and tie threshold", "all candidate lists and bounds", ["trees/hoeffding_tree.py:576-615", "trees/_nodes/base.py:449-480"])
p("Expert ensembles predict the weighted majority class",
  "DynamicWeightedMajority.predict and AdditiveExpertEnsemble.predict return, for each row, a class that receives the largest total expert weight, in particular a class that some expert voted for.",
  "all ensembles, weights and expert predictions",
  "tests use two classes coded 0 and 1, where rounding the weighted mean of labels happens to agree with the majority",
  ["meta/dynamic_weighted_majority.py:155-176", "meta/additive_expert_ensemble.py:157-178"])
p("Drift resets the worst member",
  "When a drift detector of an online bagging or boosting ensemble signals a change, the member that is reset is one with the lowest accuracy over its detector window.",
  "all contents of the members' detector windows",
  "which member is reset is not observable through the API on a test stream, and both choices keep the ensemble working",
  ["meta/leverage_bagging.py:284-303", "meta/oza_bagging_adwin.py:175-200", "meta/online_boosting.py:227-250"])
p("Batch-incremental ensemble predicts the majority class",
  "BatchIncrementalClassifier.predict returns, for each row, a class predicted by a largest number of members.",
  "all ensembles, numbers of classes and member predictions",
  "tests run on binary streams where averaging labels and cutting at one half is a majority vote",
  ["meta/batch_incremental.py:144-185"])
p("Online boosting: a member's vote counts, more so the smaller its error",
  "In OnlineBoosting.predict_proba the contribution of each member is its class probabilities times the log-odds of its error estimate; a member that has made no error is not ignored.",
  "all error estimates, numbers of members and member outputs",
  "streams in tests make every member err early, so the zero-error case is never evaluated",
  ["meta/online_boosting.py:282-362"])
p("Accuracy-weighted ensemble keeps the best models",
  "AccuracyWeightedEnsemble trains one model on each consecutive chunk of window_size samples, re-weighs all models on that chunk with weight max(0, baseline - score), and keeps at most n_kept_estimators of them; a dropped model never weighs more than a kept one.",
  "all streams, chunk sizes, pool sizes, training and scoring functions",
  "depends on chunk boundaries over arbitrarily many calls and on ties among weights",
  ["meta/accuracy_weighted_ensemble.py:151-224", "meta/accuracy_weighted_ensemble.py:316-458"])
p("Chain probabilities are in target order",
  "Column k of ClassifierChain.predict_proba is the probability for target k, whatever the chain order.",
  "all chain orders, numbers of targets and base learners",
  "with the default order the columns coincide; the random order is only visible when targets behave differently",
  ["meta/classifier_chains.py:207-237"])
p("Probabilistic chain returns a most probable label vector",
  "ProbabilisticClassifierChain.predict returns a label vector of maximal joint probability among all label vectors, with the labels in target order.",
  "all member probability functions, numbers of targets, rows and chain orders",
  "the maximum ranges over exponentially many vectors and all probability functions",
  ["meta/classifier_chains.py:248-275", "meta/classifier_chains.py:327-361"])
p("Monte Carlo chain is never worse than the greedy chain",
  "MonteCarloClassifierChain.predict returns the greedy chain prediction or one of the sampled vectors, and its joint probability is at least that of the greedy prediction and of every sampled vector.",
  "all member probability functions, samples and rows",
  "quantifies over all random samples and ties",
  ["meta/classifier_chains.py:456-500"])
p("Half-space trees halve the work space",
  "Every internal node of a half-space tree splits its own part of the work space in the middle.",
  "all random draws, depths and work spaces",
  "the split values are hidden and random; a wrong split still gives plausible scores",
  ["anomaly_detection/half_space_trees.py:434-463"])
p("Half-space trees can use every feature",
  "Every feature can influence the anomaly score.",
  "all streams, forests, random draws",
  "absence of influence is a statement about all random draws and all rows",
  ["anomaly_detection/half_space_trees.py:434-463", "anomaly_detection/half_space_trees.py:408-432"])
p("Half-space trees return probabilities",
  "HalfSpaceTrees.predict_proba returns for a row two numbers in [0,1] that add up to 1; the second is the mean over the trees of the anomaly scores, or 1/2 while learning.",
  "all streams, window sizes, depths, size limits and forests with at least one tree",
  "needs the bound on masses over all histories",
  ["anomaly_detection/half_space_trees.py:202-233", "anomaly_detection/half_space_trees.py:344-432"])
p("A concept drift stream interleaves its two streams",
  "ConceptDriftStream.next_sample returns an interleaving of the next samples of the two streams, each in its own order, none skipped or repeated; batch sizes do not matter; restart() replays the same samples.",
  "all pairs of streams, random numbers, positions, widths other than zero, batch sizes",
  "which stream a sample comes from is random; a skipped sample is not visible in a test that checks shapes",
  ["data/concept_drift_stream.py:139-174"])
p("The drift probability rises through one half at the drift position",
  "With a positive width the probability that ConceptDriftStream takes a sample from the drift stream is strictly between 0 and 1, grows with the sample index and is one half exactly at position.",
  "all positions, positive widths and sample indices",
  "quantifies over all indices; a test sees only single random draws",
  ["data/concept_drift_stream.py:158-166"])
p("A concept drift stream knows how many samples remain",
  "ConceptDriftStream.n_remaining_samples() is -1 if one of the streams is unbounded and otherwise the number of samples that can still be read while has_more_samples() is true.",
  "all pairs of bounded and unbounded streams",
  "tests use two generators, which are both unbounded",
  ["data/concept_drift_stream.py:106-127"])
p("Concept drift streams built with defaults are independent",
  "Two ConceptDriftStream objects built with the default streams do not influence each other.",
  "all sequences of calls on the two objects",
  "needs interleaved use of two objects; the interference is through default argument objects",
  ["data/concept_drift_stream.py:61-66", "data/concept_drift_stream.py:157-166"])
p("LED noise inverts segments at the configured rate",
  "Without noise the first seven LED attributes are the segments of the digit and determine the label; with noise_percentage p a segment is inverted exactly when a uniform random number is at most p.",
  "all random draws and noise percentages",
  "the rate is statistical; an offset of one percent is within the tolerance of any sampling test",
  ["data/led_generator.py:90-99", "data/led_generator.py:198-218"])
p("LED drift rearranges the columns",
  "LEDGeneratorDrift with n_drift_features moved attributes emits the undrifted sample with its 24 columns rearranged: n_drift_features relevant columns are exchanged with irrelevant ones.",
  "all random offsets, numbers of moved attributes and samples",
  "a lost column still holds plausible zeros and ones",
  ["data/led_generator_drift.py:77-136"])
p("LED drift generators do not disturb each other",
  "Constructing a second LEDGeneratorDrift does not change what an existing one returns.",
  "all pairs of generators and random draws",
  "needs two live generators; the column map is a class attribute",
  ["data/led_generator_drift.py:74-96", "data/led_generator_drift.py:117-136"])
p("Finite generators hand out their table and know when it ends",
  "AnomalySineGenerator, MultilabelGenerator and RegressionGenerator return their rows in order for any batch sizes, replay them after restart(), and has_more_samples() is true exactly when next_sample() returns a row.",
  "all tables and sequences of batch sizes",
  "tests stop before the end of the table and use sizes that divide it",
  ["data/anomaly_sine_generator.py:106-167", "data/multilabel_generator.py:116-159", "data/regression_generator.py:144-198", "data/base_stream.py:249-269"])
p("restart() replays a drifted generator from its first concept",
  "After restart() a generator returns the same samples as when it was created, also when generate_drift() was called in between.",
  "all generators with generate_drift, random sources and call sequences",
  "tests of restart do not call generate_drift first",
  ["data/base_stream.py:242-247", "data/stagger_generator.py:295-305", "data/mixed_generator.py:216-218"])
p("Hyperplane samples lie on the side their label says",
  "Without label noise a sample of HyperplaneGenerator has label 1 exactly when the weighted sum of its features is at least half the sum of the current weights; with noise the other label is handed out exactly when the uniform number drawn after the features is at most noise_percentage - 0.01, and nothing else changes; over k samples a weight moves by at most k*mag_change, and weights of features that do not drift never move.",
  "all weights, random draws, magnitudes and stream lengths",
  "the weights are hidden state that drifts with every sample",
  ["data/hyper_plane_generator.py:182-243"])
p("Drifting RBF centroids stay in the unit cube",
  "However many samples are drawn, every coordinate of every drifting centroid stays in [0,1], its speed keeps its magnitude, and one sample moves it by at most that speed times change_speed.",
  "all speeds, change speeds and stream lengths",
  "needs an invariant over unbounded runs and reflections",
  ["data/random_rbf_generator_drift.py:123-141"])
p("Weighted index choice follows the weights",
  "random_index_based_on_weights returns the index whose segment of the cumulated weights contains the scaled random number; an index of weight zero is never chosen.",
  "all weight lists with positive sum and all random numbers in [0,1)",
  "boundary cases have probability zero in random tests",
  ["data/pseudo_random_processes.py:4-31"])
p("Random tree generator: well-formed tree and labelled samples",
  "RandomTreeGenerator always builds a tree with leaves at permitted depths, thresholds inside their cells and no categorical feature tested twice on a path; every sample gets a label among the classes.",
  "all parameters and random draws",
  "tree construction is random and depends on all parameters; tests fix one seed",
  ["data/random_tree_generator.py:139-360"])
p("Expert ensembles charge exactly the experts that erred",
  "DynamicWeightedMajority leaves all weights alone inside an update period; at the end of a period an expert that mispredicted the sample has its weight multiplied by beta, the others keep theirs, all are divided by the largest, those below theta are removed and, if the weighted vote was right, nothing else changes. AdditiveExpertEnsemble multiplies the weight of every mistaken expert by beta after every sample, adds an expert of weight gamma times the total exactly when the vote was wrong, and then divides by the total (except after every 1000th sample). Every expert then learns the sample.",
  "for every base learner, legal ensemble state, sample and parameter values in the documented ranges (AdditiveExpertEnsemble: while the ensemble has room)",
  "weights depend on the whole history of predictions of arbitrary base learners; tests see one learner on one stream",
  ["meta/dynamic_weighted_majority.py:181-249","meta/additive_expert_ensemble.py:185-249"])
p("A split criterion's merit lies within the range it reports",
  "For every binary or multiway split of a node's weights, the merit returned by get_merit_of_split is between 0 (or the documented minimum) and get_range_of_merit; the Hoeffding bound computed from that range is meaningless otherwise.",
  "all class distributions before and after the split (and all regression statistics)",
  "the bound concerns every real-valued distribution; tests evaluate a few tables",
  ["trees/_split_criterion/info_gain_split_criterion.py:21-72","trees/_split_criterion/gini_split_criterion.py:7-30","trees/_split_criterion/hellinger_distance_criterion.py:27-69","trees/_split_criterion/variance_reduction_split_criterion.py:19-48"])
p("Splitting never looks worse than not splitting",
  "A split that merely distributes the weight of a node over its branches has a merit at least that of leaving the node alone (information gain and variance reduction are non-negative, the Gini merit does not fall).",
  "all distributions and all partitions of them",
  "a convexity statement over all distributions",
  ["trees/_split_criterion/info_gain_split_criterion.py:21-72","trees/_split_criterion/gini_split_criterion.py:7-30","trees/_split_criterion/variance_reduction_split_criterion.py:19-48"])
p("A split into pure branches has the best merit",
  "A split that separates the classes completely is rated at least as high as any other split of the same node.",
  "all class distributions and all competing splits",
  "compares one split with all others",
  ["trees/_split_criterion/info_gain_split_criterion.py:21-72","trees/_split_criterion/gini_split_criterion.py:7-30","trees/_split_criterion/hellinger_distance_criterion.py:27-69"])
p("Naive Bayes answers Bayes' rule over everything it was shown",
  "After any sequence of partial_fit calls, predict_proba gives for class c the class's share of the weight times the likelihoods its attribute observers assign to the values, divided by the sum over the classes seen; the observers have seen exactly the rows of non-zero weight, once and in order; predict returns the smallest label of largest posterior; an untrained model answers zeros; every label learned can be predicted.",
  "all training sequences, weights, batchings, attribute observers and query rows",
  "depends on the whole training history and its batching",
  ["bayes/naive_bayes.py:63-184","bayes/utils.py:4-42"])
p("NaiveBayes.partial_fit accepts the documented classes argument on every call",
  "Passing the array of class labels at the first call (as documented) does not prevent later calls from learning.",
  "all label arrays, batches and later calls",
  "needs several calls with an array argument; tests pass lists or omit the argument",
  ["bayes/naive_bayes.py:98-112"])
p("ClassificationMeasurements counts what it is given",
  "However many labels turn up, declared or not, the confusion matrix has each (truth, prediction) pair counted once, get_accuracy is the share of correct predictions, and get_kappa_t and get_kappa_m compare it with the share that the no-change and the majority classifier get right (hence never exceed 1); the same after reset.",
  "all target lists, label sequences and weights",
  "the matrix grows while it is in use; statements about all histories",
  ["metrics/measure_collection.py:41-246","utils/data_structures.py:373-491"])
p("WindowClassificationMeasurements describes exactly the last window_size samples",
  "The confusion matrix, the accuracy and the two baseline counts are those of the last window_size samples, for any weights.",
  "all window sizes, label sequences and weights",
  "removal of old samples must match their addition over unbounded histories",
  ["metrics/measure_collection.py:375-512"])
p("Two evaluators built from one list of targets do not disturb each other",
  "Passing the same targets list to two measurement objects gives two independent evaluators.",
  "all target lists and label sequences",
  "aliasing appears only with two objects and an unforeseen label",
  ["metrics/measure_collection.py:41-51","metrics/measure_collection.py:149-185"])
p("ConfusionMatrix update and remove are total",
  "update adds the weight to one entry, enlarging the matrix when the indices lie outside; remove takes one away from one entry; both report False, and change nothing, when they cannot act; removing undoes adding.",
  "all matrices, indices and whole-number weights",
  "boundary indices are not exercised by tests",
  ["utils/data_structures.py:393-491"])
p("Multi-target measurements are the Hamming score, exact match and Jaccard index",
  "After any non-empty sequence of binary multi-target results the per-target matrices count every label pair, get_hamming_score is the share of targets predicted right, get_exact_match the share of samples entirely right, and get_j_index the mean overlap of the label sets (1 when both are empty).",
  "all sequences of binary results of a fixed number of targets, whatever number was declared",
  "the scores are accumulated incrementally over unbounded histories",
  ["metrics/measure_collection.py:741-870","utils/data_structures.py:624-839"])
p("Windowed multi-target measurements describe the last window_size results",
  "Hamming score, exact match, Jaccard index and confusion matrix of WindowMultiTargetClassificationMeasurements are those of the last window_size results.",
  "all window sizes and sequences of binary results",
  "needs more results than the window and a look at the matrix",
  ["metrics/measure_collection.py:924-1055","metrics/measure_collection.py:1576-1692"])
p("Generator labels follow the documented concepts","Without label noise every sample emitted by SEA, STAGGER, Sine and Mixed, balanced or not, carries the label that the documented concept gives to the emitted features, and the features lie in the documented ranges. AGRAWAL labels are those of the selected concept (age, income and education bands, disposable income) on the features before perturbation, and perturbation leaves the categorical attributes and a commission of zero alone.","every classification function, every random source, every batch split, every perturbation","Each concept partitions an infinite feature space and the drawn features depend on the random source.",["data/sea_generator.py:SEAGenerator","data/stagger_generator.py:STAGGERGenerator","data/sine_generator.py:SineGenerator","data/mixed_generator.py:MIXEDGenerator","data/agrawal_generator.py:AGRAWALGenerator"])
p("AGRAWAL function 4 decides by the loan in every group","Under AGRAWAL classification function 4 the label of a person depends, within each age and income group, on whether the loan lies in the band of that group.","every generated person, every loan","Needs the whole range of generated salaries: a test sees the labels but not that a branch is dead.",["data/agrawal_generator.py:AGRAWALGenerator._classification_function_four","data/agrawal_generator.py:AGRAWALGenerator.next_sample"])
p("SEA noise switches the label below the noise level","With noise_percentage p the label of a SEA sample is the concept's, switched exactly when the uniform number drawn for it falls below the noise level; level 0 switches no label and level 1 switches every label.","every noise level, random source and batch split","The comparison is with a random number; an off-by-0.01 is invisible in a sample.",["data/sea_generator.py:SEAGenerator.next_sample"])
p("HDDM_W compares exponentially weighted averages around the best cut","For non-negative values and lambda in [0, 1], HDDM_W never raises; its estimate is the exponentially weighted average of the values since the last reported change; a change (warning) is reported exactly when the weighted average after the first cut with the smallest upper confidence limit exceeds the one before it by the Hoeffding bound at the drift (warning) confidence; delay counts the values after the cut; a sequence that never increases is never reported.","every sequence of non-negative values, every lambda in [0, 1], every confidence","An invariant over the whole history: incremental records must equal averages over a cut chosen retrospectively.",["drift_detection/hddm_w.py:HDDM_W.add_element","drift_detection/hddm_w.py:HDDM_W._update_incr_statistics","drift_detection/hddm_w.py:HDDM_W._detect_mean_increment"])
p("VFDR rules fire on the conjunction of their conditions and expanding narrows them","A rule of VeryFastDecisionRulesClassifier covers a row exactly when all its conditions hold. Expanding a rule never makes it cover more rows; when the best suggestion is clear the rule afterwards covers exactly the rows it covered that also satisfy the suggested condition, and takes the class distribution of that side of the split; when it is not clear nothing changes.","every rule, row, set of suggestions, merit (including -inf), Hoeffding bound and tie threshold","Conditions are merged with existing ones by min/max depending on operator; the claim is about all rows and all sequences of expansions.",["rules/very_fast_decision_rules.py:VeryFastDecisionRulesClassifier._expand_rule","rules/base_rule.py:Rule.covers_instance","rules/base_predicate.py:Predicate.covers_instance"])
p("VFDR: the rules that learn from an instance","With ordered rules an instance is learned by the first rule that covers it, which is also the rule that predicts it, and changes nothing else; with unordered rules it is learned by every rule that covers it; an instance covered by no rule is learned by the default rule. This also holds while a drift detector removes rules.","every rule set, row, label and weight; every observer, criterion and detector","Which rules change depends on coverage of the whole rule set and on list mutation during iteration.",["rules/very_fast_decision_rules.py:VeryFastDecisionRulesClassifier._partial_fit","rules/very_fast_decision_rules.py:VeryFastDecisionRulesClassifier.first_hit"])
p("VFDR: grace period between expansion attempts","A rule is considered for expansion only after the instances it has learned since the last attempt (or since its creation) weigh at least grace_period, and then it is.","every rule, every sequence of non-negatively weighted instances","A statement about arbitrary sequences between two attempts.",["rules/very_fast_decision_rules.py:VeryFastDecisionRulesClassifier._partial_fit","rules/very_fast_decision_rules.py:VeryFastDecisionRulesClassifier._create_rule"])
p("VFDR never has more than max_rules rules","At any time the rule set has at most max_rules rules.","every sequence of partial_fit calls and every configuration","An invariant over all streams.",["rules/very_fast_decision_rules.py:VeryFastDecisionRulesClassifier._partial_fit","rules/very_fast_decision_rules.py:VeryFastDecisionRulesClassifier._create_rule"])
p("VFDR: combination of the votes of the rules that fire","first_hit returns the votes of the first rule that fires; weighted_max the normalised votes of a rule with the largest normalised vote among those that fire; weighted_sum the sum of the normalised votes of all rules that fire, each with the same share; without a rule that fires the default rule votes. predict_proba returns the votes divided by their sum.","every rule set, row and vote distribution","The result must not depend on the order of the rules for weighted_sum; only a formula over any number of rules shows the shares.",["rules/very_fast_decision_rules.py:VeryFastDecisionRulesClassifier.first_hit","rules/very_fast_decision_rules.py:VeryFastDecisionRulesClassifier.weighted_max","rules/very_fast_decision_rules.py:VeryFastDecisionRulesClassifier.weighted_sum","rules/very_fast_decision_rules.py:VeryFastDecisionRulesClassifier.predict_proba"])
p("VFDR creates a rule exactly when its best suggestion is clear","When the default rule has seen its grace period and at least two classes, a new rule is created exactly when the best suggested split is the only one, or beats every other one by more than the Hoeffding bound, or the bound is below the tie threshold; the new rule has just that condition and the statistics of its side, and the default rule starts again with the statistics of the other side. With foil_gain this holds for every class separately.","every default rule, set of suggestions, bound and threshold","The decision is over arbitrary merits including ties and -inf.",["rules/very_fast_decision_rules.py:VeryFastDecisionRulesClassifier._create_rule"])
p("VFDR expands a rule towards the better side of the split","The condition of a suggestion points to the side of its own split that the criterion prefers: the one with lower entropy for info_gain, the larger distance for hellinger, the larger class proportion for foil_gain.","every list of split candidates of every attribute","One criterion object is shared by all candidates of an attempt, so state left by one candidate can influence another; any fixed example shows only one order.",["rules/info_gain_rule_criterion.py:InfoGainExpandCriterion.get_merit_of_split","rules/hellinger_distance_criterion.py:HellingerDistanceCriterion.compute_hellinger","rules/foil_gain_rule_criterion.py:FoilGainExpandCriterion.get_merit_of_split","rules/numeric_attribute_class_observer.py:GaussianNumericAttributeClassObserver.get_best_evaluated_split_suggestion"])
p("Equality of rules","Two rules compare equal exactly when they have the same conditions (attribute, operator and value) in the same order.","every pair of rules","Quantifies over all pairs of rules.",["rules/base_rule.py:Rule.__eq__","rules/base_predicate.py:Predicate.__eq__"])
p("Holdout tests take place every n_wait training samples","EvaluateHoldout tests the models once for every n_wait samples used for training, and once more when the sample limit is reached; with a static test set the test comes right after the training step that completes a multiple of n_wait, with dynamic test sets right after the step that passes a further multiple of n_wait.","every stream, batch size, n_wait, test size, limit and learner","The schedule interacts with batch size and test size; a test run sees one combination.",["evaluation/evaluate_holdout.py:EvaluateHoldout._periodic_holdout"])
p("OzaBagging trains each member by its own Poisson draws","Over any sequence of partial_fit calls, member i of OzaBaggingClassifier is trained on each sample as often as its own Poisson draw says, however the stream is cut into batches; the ensemble has max(n_estimators, number of classes) members; classes are compulsory in the first call and must stay the same.","every sequence of calls, every source of Poisson draws","Quantifies over all streams and all random sources; the order of draws depends on ensemble size and batch lengths.",["meta/oza_bagging.py:OzaBaggingClassifier.partial_fit"])
p("OzaBagging combines the members' probabilities","predict_proba of OzaBaggingClassifier is the sum of the members' class probabilities, normalised to one, and predict its most probable class, whatever number of classes each member has seen so far.","every ensemble state and every matrix of member probabilities","Members disagree on the number of columns only after particular partial streams.",["meta/oza_bagging.py:OzaBaggingClassifier.predict","meta/oza_bagging.py:OzaBaggingClassifier.predict_proba"])
p("OzaBaggingADWIN replaces the worst member when accuracy drops","Each member's accuracy is watched by ADWIN; when a drop is detected the member with the highest error is replaced by a new one, and no member is replaced otherwise.","every sequence of partial_fit calls, every base learner, detector and source of Poisson draws","Which member is replaced is not visible from accuracy on one stream.",["meta/oza_bagging_adwin.py:OzaBaggingADWINClassifier.partial_fit"])
p("reset() restores the initial state of Oza bagging ensembles","After reset() an OzaBagging or OzaBaggingADWIN ensemble behaves as a newly built one.","every state and every sequence of later calls","Leftover state shows only in calls made after the reset.",["meta/oza_bagging.py:OzaBaggingClassifier.reset","meta/oza_bagging_adwin.py:OzaBaggingADWINClassifier.reset"])
p("Pipeline trains the estimator on what prediction will hand it","In a Pipeline of transformers that implement transform with partial_fit or partial_fit_transform, or None, partial_fit(X, y) lets every step learn from the data as transformed by the steps before it and trains the final estimator on exactly the data that predict(X) hands it afterwards; None steps are skipped.","every list of steps, every estimator and every batch","Quantifies over all compositions of user-supplied steps.",["core/pipeline.py:Pipeline.partial_fit","core/pipeline.py:Pipeline.fit","core/pipeline.py:Pipeline.predict","core/pipeline.py:Pipeline.partial_fit_predict","core/pipeline.py:Pipeline._validate_steps"])
p("MultiOutputLearner is one independent estimator per target","After any sequence of partial_fit calls column j of the prediction of MultiOutputLearner is what a single base estimator trained on target j alone would predict; classes and sample weights are handed to the base estimator as far as it takes them; predict_proba reports the probabilities of all labels of each task.","every base estimator, number of targets and sequence of batches","Independence of the targets is a statement about all other columns.",["meta/multi_output_learner.py:MultiOutputLearner.fit","meta/multi_output_learner.py:MultiOutputLearner.partial_fit","meta/multi_output_learner.py:MultiOutputLearner.predict","meta/multi_output_learner.py:MultiOutputLearner.predict_proba"])
p("Hoeffding tree leaves account for exactly the instances routed to them",
  "Training a HoeffdingTreeClassifier on rows of a fixed length never fails. For every class, the weight held in the leaves of the tree equals the total weight of the training instances of that class, whatever splits, prunings, activations and deactivations happened on the way. One instance changes only the leaf it is routed to, and a leaf present since some moment has gained exactly the weight of the instances routed to it since.",
  "for every sequence of training instances, every outcome of split attempts, every memory management decision, every leaf kind",
  "A test trains on one stream and compares predictions or a model dump; it cannot show conservation over all sequences of splits, prunings and (de)activations, nor that no other leaf is touched.",
  ["trees/hoeffding_tree.py:HoeffdingTreeClassifier._partial_fit","trees/hoeffding_tree.py:HoeffdingTreeClassifier._attempt_to_split","trees/hoeffding_tree.py:HoeffdingTreeClassifier._deactivate_learning_node","trees/_nodes/base.py:SplitNode.filter_instance_to_leaf"])
p("Leaf prediction mode: adaptive leaves vote with the better of majority class and naive Bayes",
  "An active leaf of a tree with leaf_prediction 'nba' answers with the class weights if, over the instances it learned since it was created, the weight the majority class would have got right just before each of them is strictly larger than the weight naive Bayes would have got right; otherwise with naive Bayes. 'mc' leaves and inactive leaves answer with the class weights; 'nb' leaves answer with naive Bayes from weight nb_threshold on and with the class weights below.",
  "for every sequence of instances a leaf learns, every weight, every naive Bayes vote function",
  "Tests compare final accuracies on one stream; the prequential bookkeeping of both candidates is not observable there.",
  ["trees/_nodes/htc_nodes.py:LearningNodeNBA.learn_one","trees/_nodes/htc_nodes.py:LearningNodeNBA.predict_one","trees/_nodes/htc_nodes.py:LearningNodeNB.predict_one","trees/_nodes/htc_nodes.py:InactiveLearningNodeMC"])
p("Hoeffding tree predicts the class with the most votes in the leaf reached",
  "predict_proba answers each instance with one probability per class up to the largest class (of classes when given to partial_fit, else of the votes), the share of the votes for that class in the leaf the instance reaches (in the split node when the instance has an unseen value of a multiway split); rows sum to one. predict answers with the most voted class, the smallest on ties, independently of the other rows of the batch. An untrained tree answers class 0. This holds for every set of integer labels the tree was trained with.",
  "for every tree, batch, set of votes and list of classes",
  "Tests use labels 0..k-1 that all appear; negative labels, labels outside classes and padding of ragged rows are not exercised.",
  ["trees/hoeffding_tree.py:HoeffdingTreeClassifier._get_votes_for_instance","trees/hoeffding_tree.py:HoeffdingTreeClassifier.predict","trees/hoeffding_tree.py:HoeffdingTreeClassifier.predict_proba"])
p("The rules of a Hoeffding tree partition the instances as the tree does",
  "get_model_rules returns, for every tree, one rule per leaf with the class weights of the leaf and its majority class; an instance that reaches a leaf is covered by the rule of that leaf and by no other rule, and an instance that reaches no leaf is covered by none.",
  "for every reachable tree and every instance",
  "The test compares the rule text of one tree with a literal; agreement of rules and routing for all instances and all trees, including trees with fresh leaves, cannot be tested.",
  ["trees/hoeffding_tree.py:HoeffdingTreeClassifier.get_model_rules","trees/_nodes/base.py:SplitNode.get_predicate"])
p("SAM-kNN memories stay within max_window_size",
  "For every admissible stm_size_option (including None, a fixed window) and every ltm_size in [0,1], training SAMKNNClassifier never fails; the short-term memory always holds the newest samples in stream order; short-term and long-term memory together never hold more than max_window_size samples; the long-term memory holds only labels of the stream and stays empty without use_ltm.",
  "for every stream of samples, every number of neighbours, every distance, clustering and window size chosen by the sizer",
  "Sizes are only exceeded for particular combinations of class count, long-term share and stream length.",
  ["lazy/sam_knn.py:SAMKNNClassifier._partial_fit","lazy/sam_knn.py:SAMKNNClassifier.size_check_STMLTM","lazy/sam_knn.py:SAMKNNClassifier.size_check_fade_out","lazy/sam_knn.py:SAMKNNClassifier.cluster_down"])
p("SAM-kNN answers with the memory that was right most often lately",
  "The prediction histories cover exactly the samples now in the short-term memory, each judged just before it was learned. When both memories hold n_neighbors samples, predict answers with the memory (short-term, long-term, both, in this order on ties) that was right most often on these samples; otherwise the short-term memory answers. The answer is a label held in memory, for every integer label.",
  "for every stream, every state, every query and every voting function that answers with one of the labels it is given",
  "Alignment of three histories with a shrinking window is invisible in predictions on one stream; tests use small labels.",
  ["lazy/sam_knn.py:SAMKNNClassifier._predict_by_all_memories","lazy/sam_knn.py:SAMKNNClassifier._predict_by_stm","lazy/sam_knn.py:SAMKNNClassifier._partial_fit_by_all_memories","lazy/sam_knn.py:SAMKNNClassifier.get_maj_label","lazy/sam_knn.py:SAMKNNClassifier.get_distance_weighted_label"])
p("SAM-kNN removes exactly the contradicting long-term samples",
  "After a training sample the long-term memory loses exactly those of its n_neighbors samples nearest to the new sample that have another class and are no farther away than some sample of the same class among the n_neighbors nearest in the rest of the short-term memory; it loses none while the short-term memory holds at most n_neighbors samples, and never a sample of a class that the whole short-term memory has.",
  "for every pair of memories, every new sample, every distance and neighbour search",
  "Which samples are dropped depends on the geometry of both memories; tests see only predictions.",
  ["lazy/sam_knn.py:SAMKNNClassifier.clean_samples"])
p("Adaptive random forest: every tree has learned exactly the samples since its creation",
  "After any sequence of partial_fit and predict calls AdaptiveRandomForestClassifier has n_estimators members. The tree a member predicts with is an untrained tree that has learned, in order, exactly the samples after its creation, each with the weight of the member's own Poisson draw (none if it is 0). It is the original tree until the member's first drift; a drift replaces it by the background tree started at the latest warning since the drift before, or by an empty tree if there was no warning. The counters report the detectors' answers, and reset() starts anew.",
  "for every sequence of calls, every tree learner, every drift and warning detector, every outcome of the random draws",
  "Which samples a replaced tree has learned is not visible in predictions, and the order of warnings and drifts of many members cannot be enumerated by tests.",
  ["meta/adaptive_random_forests.py:AdaptiveRandomForestClassifier._partial_fit","meta/adaptive_random_forests.py:ARFBaseLearner.partial_fit","meta/adaptive_random_forests.py:ARFBaseLearner.reset","meta/adaptive_random_forests.py:AdaptiveRandomForestClassifier.reset"])
p("Adaptive random forest: members are judged by their predictions on unseen samples",
  "The performance that weighs a member's vote covers exactly its predictions for the samples since its last drift, each made before the sample was learned; the drift and warning detectors are fed with the errors of these predictions since they were last restarted.",
  "for every sequence of calls, every tree learner, every detector whose reset restores its initial state",
  "A test sees accuracies, not the sequence of errors each detector was given.",
  ["meta/adaptive_random_forests.py:AdaptiveRandomForestClassifier._partial_fit","meta/adaptive_random_forests.py:ARFBaseLearner.partial_fit"])
p("Adaptive random forest: votes are weighted by performance",
  "predict_proba answers with, for each class, the sum over the members of their normalised vote for the class times their performance (accuracy or kappa; 1 if disable_weighted_vote), divided by the total for all classes; the row is a probability distribution, and predict answers with the most probable class, the smallest on ties. A member without votes does not count; better performance means more influence.",
  "for every list of member votes and performances, every list of classes",
  "Members of performance 0 or negative kappa appear only shortly after drifts.",
  ["meta/adaptive_random_forests.py:AdaptiveRandomForestClassifier._get_votes_for_instance","meta/adaptive_random_forests.py:AdaptiveRandomForestClassifier.predict_proba","meta/adaptive_random_forests.py:AdaptiveRandomForestClassifier.predict"])
p("Adaptive random forest: max_features",
  "For every value of max_features between 1 and all n features are considered at a split: the given number, n minus the absolute value of a negative number, the given share of n, the rounded square root or logarithm, or all for None; the parameter keeps its meaning for the lifetime of the forest.",
  "for every value of the parameter and every number of features",
  "Boundary cases (negative, above n, shares below 1/n) and retraining on data of another width.",
  ["meta/adaptive_random_forests.py:AdaptiveRandomForestClassifier._set_max_features"])
p("Adaptive random forest: sample weights",
  "partial_fit accepts one weight per sample; a sample counts in training according to its weight, and not at all with weight 0.",
  "for every batch, every list of weights, every tree learner",
  "Tests train without weights.",
  ["meta/adaptive_random_forests.py:AdaptiveRandomForestClassifier.partial_fit","utils/validation.py:check_weights"])
p("Streaming random patches: distinct random subspaces",
  "At the first partial_fit every member gets a list of distinct, valid feature indices; no two members get the same subspace when there are enough different ones, the subspaces are drawn at random among all of their size, and the construction always returns.",
  "for every number of features and members, every subspace size, every random draw",
  "With few features the construction enumerates subspaces and pads the list; tests use one data set.",
  ["meta/streaming_random_patches.py:StreamingRandomPatchesClassifier._init_ensemble","meta/streaming_random_patches.py:StreamingRandomPatchesClassifier._init_ensemble_members","meta/streaming_random_patches.py:get_all_k_combinations"])
p("Streaming random patches: size of the subspaces",
  "For every subspace_mode and subspace_size the subspaces have the documented size: m features, the rounded square root plus 1 (or n minus it), or the given percentage of n, and n minus the number for negative sizes; 0 or a size of at least n means all features, and training_method stays as the user set it.",
  "for every mode, size, method and number of features",
  "Each boundary (1, 2, n, negative) is a separate case of the code.",
  ["meta/streaming_random_patches.py:StreamingRandomPatchesClassifier._init_ensemble"])
p("Streaming random patches: what a member is trained on",
  "At any time a member is an untrained estimator that has learned exactly the samples after its creation with positive weight, of each only the features of its subset, which never changes in its lifetime; it was created at the start, at the last drift, or at the latest warning between the drift before and that drift. The background learner exists iff there was a warning since the last drift. The counters report the number of warnings and drifts; reset starts anew.",
  "for every sequence of calls, every estimator, every detector, every random draw",
  "The moments of warnings and drifts are decided by detectors; a test cannot enumerate their interleavings.",
  ["meta/streaming_random_patches.py:StreamingRandomPatchesClassifier._partial_fit","meta/streaming_random_patches.py:StreamingRandomPatchesBaseLearner.partial_fit","meta/streaming_random_patches.py:StreamingRandomPatchesBaseLearner._trigger_warning","meta/streaming_random_patches.py:StreamingRandomPatchesBaseLearner.reset","meta/streaming_random_patches.py:StreamingRandomPatchesClassifier.reset"])
p("Streaming random patches: members are judged on unseen samples",
  "The evaluator of a member holds its predictions for all samples since its last drift, each made before the sample was learned; the drift and warning detectors are fed with the errors of predictions of samples that the member had not learned.",
  "for every sequence of calls, every estimator, every detector",
  "A test sees accuracies, not the sequence of errors each detector was given.",
  ["meta/streaming_random_patches.py:StreamingRandomPatchesClassifier._partial_fit","meta/streaming_random_patches.py:StreamingRandomPatchesBaseLearner.partial_fit"])
p("Streaming random patches: votes",
  "predict_proba answers with a probability distribution: for each class the members' normalised votes weighted by accuracy (disable_weighted_vote: equally); predict answers with the most probable class, the smallest on ties; a batch is predicted like its samples one by one.",
  "for every list of member votes and accuracies, every batch",
  "Members of accuracy 0 and members that know different numbers of classes appear only in short phases.",
  ["meta/streaming_random_patches.py:StreamingRandomPatchesClassifier._predict_proba","meta/streaming_random_patches.py:StreamingRandomPatchesClassifier.predict","meta/streaming_random_patches.py:StreamingRandomPatchesClassifier.predict_proba"])
p("Streaming random patches: nominal attributes follow the subspace",
  "Every estimator of the ensemble, including those created at warnings and drifts, is trained all the time with exactly those of the given nominal attributes that are in its subset, renumbered to positions in the subset.",
  "for every list of nominal attributes, every subspace, every sequence of calls",
  "Needs drifts that replace subspaces, and a look at the estimators' own parameters.",
  ["meta/streaming_random_patches.py:StreamingRandomPatchesBaseLearner._remap_nominal_attributes","meta/streaming_random_patches.py:StreamingRandomPatchesBaseLearner._reset_subset","meta/streaming_random_patches.py:StreamingRandomPatchesBaseLearner.reset","meta/streaming_random_patches.py:StreamingRandomPatchesBaseLearner._trigger_warning"])
p("Adaptive random forest regressor: what a member is trained and judged on",
  "At any time the tree of a member is an untrained tree that has learned exactly the samples after its creation (created_on) with positive weight, and its evaluator holds the tree's predictions for exactly these samples, each made before learning the sample. It was created at the start, at the last drift, or at the latest warning between the drift before and that drift; the same holds for the background tree, which exists iff there was a warning since the last drift. The counters report the number of warnings and drifts; reset starts anew.",
  "for every sequence of calls, every tree learner, every detector, every random draw",
  "The moments of warnings and drifts are decided by detectors; a test cannot enumerate their interleavings.",
  ["meta/adaptive_random_forest_regressor.py:AdaptiveRandomForestRegressor.partial_fit","meta/adaptive_random_forest_regressor.py:ARFRegBaseLearner.partial_fit","meta/adaptive_random_forest_regressor.py:ARFRegBaseLearner.reset"])
p("Adaptive random forest regressor: what the detectors are fed",
  "The detectors are fed with the monitored values (error or prediction, made before learning) since they were last restarted, each expressed in standard deviations from the mean of the values since the last drift and scaled to a number in [0, 1]; a constant value is fed as a constant.",
  "for every sequence of calls, every tree learner, every detector whose reset restores its initial state",
  "The normalisation is an online algorithm whose state is restarted at drifts; a test sees at most when drifts are reported.",
  ["meta/adaptive_random_forest_regressor.py:ARFRegBaseLearner._normalize_drift_input","meta/adaptive_random_forest_regressor.py:ARFRegBaseLearner.partial_fit"])
p("Adaptive random forest regressor: aggregation",
  "With the mean, the forest predicts a weighted average of the trees' predictions: the weights are not negative, sum up to 1 and are larger for trees with smaller error (equal if there is no error or no weighting), so that the prediction lies between the trees' predictions; with the median, half of the trees predict at most and half at least that value. The prediction is a number for every forest, and trees without experience do not dominate.",
  "for every list of predictions and errors",
  "Forests of one tree and freshly reset trees are corner cases.",
  ["meta/adaptive_random_forest_regressor.py:AdaptiveRandomForestRegressor.predict","meta/adaptive_random_forest_regressor.py:ARFRegBaseLearner.get_error"])
p("Adaptive random forest regressor: max_features",
  "For every accepted value of max_features between 1 and all n features are considered at a split, as the parameter says; exactly shares outside (0, 1] are refused with ValueError; the parameter keeps its meaning after reset.",
  "for every value of the parameter and every number of features, every sequence of resets",
  "Boundary cases, and training after reset on a forest with a non-default value.",
  ["meta/adaptive_random_forest_regressor.py:AdaptiveRandomForestRegressor._set_max_features","meta/adaptive_random_forest_regressor.py:AdaptiveRandomForestRegressor.reset"])
p("VFDR with a drift detector removes rules whose performance drops",
  "With drift_detector set, every instance a rule covers is scored against the majority class of the rule before the rule learns from it and the outcome is handed to the detector of that rule; when the detector reports a change and the rule has seen more than min_weight the rule is removed, and otherwise it stays. A rule is removed because its predictions have become worse, for each of the supported detectors.",
  "every rule set, instance, detector and history",
  "Which rule goes depends on the sign convention between classifier and detector over long histories; accuracy on one stream does not show it.",
  ["rules/very_fast_decision_rules.py:VeryFastDecisionRulesClassifier._partial_fit","rules/very_fast_decision_rules.py:VeryFastDecisionRulesClassifier.Rule.predict","drift_detection/ddm.py:DDM.add_element"])
p("VFDR remove_poor_atts disables exactly the poor attributes",
  "With remove_poor_atts=True an expansion attempt with at least two suggestions disables the attributes whose suggestion is worse than the best by more than the Hoeffding bound and no others; a disabled attribute makes no further suggestions until the rule is expanded, and predictions of the rule go on using the attributes that are left.",
  "every rule, set of suggestions, bound and instance",
  "Quantifies over all merits and over every later prediction of the rule.",
  ["rules/very_fast_decision_rules.py:VeryFastDecisionRulesClassifier._expand_rule","rules/very_fast_decision_rules.py:VeryFastDecisionRulesClassifier.Rule.disable_attribute","bayes/utils.py:do_naive_bayes_prediction","trees/_attribute_observer/attribute_observer_null.py:AttributeObserverNull"])
p("A deactivated leaf of a Hoeffding tree only counts classes",
  "A leaf of HoeffdingTreeClassifier that is deactivated, by the memory manager or because not splitting was the best choice, keeps adding the weight of the instances that reach it to their classes and answers with those weights; it is never split and nothing else in it changes until the memory manager activates it again, and then its class weights stay and everything else starts afresh.",
  "every tree, every sequence of instances and every decision of the memory manager about other leaves",
  "Invariant over all training sequences and interleavings with memory management.",
  ["trees/hoeffding_tree.py:HoeffdingTreeClassifier._partial_fit","trees/hoeffding_tree.py:HoeffdingTreeClassifier._deactivate_learning_node","trees/hoeffding_tree.py:HoeffdingTreeClassifier._activate_learning_node","trees/_nodes/htc_nodes.py:InactiveLearningNodeMC"])
p("Learn++.NSE: one member per window, pruning",
  "After any sequence of partial_fit calls the members of LearnPPNSEClassifier are learners trained each on one full window of window_size consecutive samples, oldest first: on every window without pruning, on the last n_estimators windows with pruning='age', on n_estimators windows with pruning='error', where the member dropped is the one with the largest error on the window just processed (the oldest on a tie). The samples after the last full window wait; how the samples are spread over calls does not matter.",
  "every base learner, every split of every stream into calls, every parameter setting",
  "Invariant over all streams and all ways of cutting them into calls.",
  ["meta/learn_nse.py:LearnPPNSEClassifier.partial_fit"])
p("Learn++.NSE: voting weights follow the errors",
  "The weight of a sample is larger if the ensemble gets it wrong, and the sample weights add up to one; the voting weight of a member is log(1/b) for the sigmoid weighted average b of its normalised errors on the windows since its creation, so a member whose errors are all below one half always votes, and a member that is wrong on part of a window is recorded with an error there.",
  "every base learner, stream and sigmoid; any number of windows",
  "The weighted average is taken over an unbounded history; the failure needs many windows.",
  ["meta/learn_nse.py:LearnPPNSEClassifier.partial_fit"])
p("Learn++.NSE: predict_proba adds up the members' votes by class",
  "The score of a class is the sum, over the members with a positive voting weight, of the weight times the probability the member gives to that class, where members that have seen only some of the classes give 0 to the others; predict answers the class with the highest score.",
  "every ensemble, sample and set of classes",
  "Windows that miss classes occur on unbalanced or drifting streams only; the alignment must hold for every subset of the classes.",
  ["meta/learn_nse.py:LearnPPNSEClassifier.predict_proba","meta/learn_nse.py:LearnPPNSEClassifier._fill_missing_probs","meta/learn_nse.py:LearnPPNSEClassifier.predict"])
p("Learn++.NSE: classes and reset",
  "partial_fit raises RuntimeError if the classes are not passed in the first call, or if they are passed in further calls and differ from the first ones; after reset the classifier behaves like a new one.",
  "every history, every list of classes",
  "Quantifies over all histories before the second call or the reset.",
  ["meta/learn_nse.py:LearnPPNSEClassifier.partial_fit","meta/learn_nse.py:LearnPPNSEClassifier.reset"])
p("Learn++: one ensemble per window, the newest are kept",
  "After any sequence of partial_fit calls that raise nothing LearnPPClassifier holds one ensemble for each of the last n_ensembles full windows of window_size consecutive samples, each trained on its window alone and with at most n_estimators learners; the samples after the last full window wait; how the samples are spread over calls does not matter.",
  "every base learner, every split of every stream into calls, every random draw",
  "Invariant over all streams and all ways of cutting them into calls.",
  ["meta/learn_pp.py:LearnPPClassifier.partial_fit","meta/learn_pp.py:LearnPPClassifier.__fit_batch"])
p("Learn++: only learners below the error threshold are kept, or training fails",
  "Training on a window ends: either every learner of the new ensemble has a test error below error_threshold and so has the vote of the learners up to it, with n_estimators learners unless the vote is right on the whole window; or RuntimeError is raised because the base estimator is too weak.",
  "every base learner, window, threshold and sequence of random draws",
  "Termination, and an invariant over every sequence of draws.",
  ["meta/learn_pp.py:LearnPPClassifier.__fit_batch","meta/learn_pp.py:LearnPPClassifier.__compute_error"])
p("Learn++: votes weighted by normalised error",
  "predict_proba gives each class the total weight log(1/(e + 1e-50)) of the learners of all ensembles that predict it, e being the normalised error of the learner, and predict answers the class with the largest weight, for every list of integer classes.",
  "every list of ensembles, every sample, every list of classes",
  "Quantifies over the class labels and over all ensembles.",
  ["meta/learn_pp.py:LearnPPClassifier.predict_proba","meta/learn_pp.py:LearnPPClassifier.predict","meta/learn_pp.py:LearnPPClassifier.__vote_proba"])
p("Learn++: usable after a failed window",
  "When training on a window raises, the classifier goes on learning from the windows that follow in later calls.",
  "every history of calls after the exception",
  "The failure is silent and shows only in the absence of learning over all later calls.",
  ["meta/learn_pp.py:LearnPPClassifier.partial_fit","meta/learn_pp.py:LearnPPClassifier.reset"])
p("Learn++: classes and reset",
  "partial_fit raises RuntimeError if the classes are not passed in the first call, or if a different set is passed later; passing the same set or none changes nothing; after reset the classifier behaves like a new one.",
  "every history, every list of classes",
  "Quantifies over all histories before the second call or the reset.",
  ["meta/learn_pp.py:LearnPPClassifier.partial_fit","meta/learn_pp.py:LearnPPClassifier.reset"])
p("EFDT: the root accounts for every training instance",
  "After any training of an ExtremelyFastDecisionTreeClassifier the class statistics of the root are those of all training instances, each counted once, whatever was split, re-evaluated, replaced or pruned; and unless the memory manager deactivated the root, the root's attribute observers have seen exactly the training instances.",
  "every sequence of weighted training instances and memory management decisions",
  "A replacement hands statistics and observers on from node to node; a test sees one such chain.",
  ["trees/extremely_fast_decision_tree.py:ExtremelyFastDecisionTreeClassifier._partial_fit","trees/extremely_fast_decision_tree.py:ExtremelyFastDecisionTreeClassifier._process_nodes","trees/extremely_fast_decision_tree.py:ExtremelyFastDecisionTreeClassifier._sort_instance_into_leaf","trees/extremely_fast_decision_tree.py:ExtremelyFastDecisionTreeClassifier._reevaluate_best_split"])
p("EFDT: when a node is split, kept, replaced or pruned",
  "A due leaf of several classes is split on the best suggestion exactly if that beats not splitting by more than the Hoeffding bound or the bound is below the tie threshold. A due split node is pruned if not splitting beats the best suggestion by more than the bound; otherwise it is replaced if the best suggestion beats the best one on its own attribute by more than the bound or the bound is below the tie threshold (a new test only, if on the same attribute), and kept in all other cases. With merits that are never below that of not splitting, a node is pruned only if no suggestion is admissible.",
  "every node, suggestions, bound and threshold",
  "Quantifies over all real-valued merits; tests reach few combinations of the conditions.",
  ["trees/extremely_fast_decision_tree.py:ExtremelyFastDecisionTreeClassifier._reevaluate_best_split","trees/extremely_fast_decision_tree.py:ExtremelyFastDecisionTreeClassifier._attempt_to_split"])
p("EFDT: min_samples_reevaluate instances between re-evaluations",
  "A split node is re-evaluated only after it has seen min_samples_reevaluate more weight since it was created or last re-evaluated.",
  "every node and every sequence of instances",
  "A re-evaluation that keeps the node is not visible from outside; its frequency shows only over long runs.",
  ["trees/extremely_fast_decision_tree.py:ExtremelyFastDecisionTreeClassifier._process_nodes","trees/extremely_fast_decision_tree.py:ExtremelyFastDecisionTreeClassifier._reevaluate_best_split"])
p("EFDT: node counters",
  "The counters of decision nodes, active leaves and inactive leaves of an EFDT always equal the numbers of such nodes in the tree.",
  "every sequence of training instances, splits, replacements, prunings and memory management decisions",
  "The counters are updated by differences; an error needs a replacement of a particular subtree to show.",
  ["trees/extremely_fast_decision_tree.py:ExtremelyFastDecisionTreeClassifier._reevaluate_best_split","trees/extremely_fast_decision_tree.py:ExtremelyFastDecisionTreeClassifier._kill_subtree","trees/_nodes/efdtc_nodes.py:EFDTSplitNode.count_nodes"])
p("EFDT: nodes have learned the instances that their tests send them",
  "At any time, every instance a node of an EFDT has learned from since it was created is one that the tests of the tree as it now stands send to this node.",
  "every sequence of training instances, all suggestions and thresholds",
  "A statement about all past instances and the current tree, through all replacements.",
  ["trees/extremely_fast_decision_tree.py:ExtremelyFastDecisionTreeClassifier._reevaluate_best_split","trees/extremely_fast_decision_tree.py:ExtremelyFastDecisionTreeClassifier._sort_instance_into_leaf"])
p("HAT: an alternate tree replaces a node only when it is better",
  "In a Hoeffding adaptive tree a node is replaced by its alternate tree only if the error rate of the alternate tree is lower than that of the node by more than the bound (both from more than 300 instances); it is dropped only if it is higher by more than the bound; a new one is started exactly on a detected change with an error rate that did not go down.",
  "every node, instance, detector behaviour and error rates",
  "The rule relates two detectors, two trees and a bound; tests see a few streams with real ADWIN detectors.",
  ["trees/_nodes/hatc_nodes.py:AdaSplitNode.learn_one","trees/_nodes/hatc_nodes.py:AdaLearningNode.learn_one"])
p("HAT: bootstrap sampling weights",
  "With bootstrap sampling each training instance counts at a leaf of a Hoeffding adaptive tree as often as the Poisson draw says; without it, once.",
  "every training sequence and every sequence of draws",
  "A statement about all draws; a draw of 0 is as likely as a draw of 1 but leaves no trace in test scores.",
  ["trees/_nodes/hatc_nodes.py:AdaLearningNode.learn_one","trees/hoeffding_adaptive_tree.py:HoeffdingAdaptiveTreeClassifier.__init__"])
p("HAT: votes",
  "The votes of a Hoeffding adaptive tree for an instance are those of the node of the main tree that its tests lead to (the leaf, or the split node if it has no branch for the instance), scaled for a leaf by the inverse of their sum and of its squared error rate; alternate trees do not vote.",
  "every tree, alternate trees and instances",
  "The answer must be independent of all alternate trees and hold for values not seen in training.",
  ["trees/hoeffding_adaptive_tree.py:HoeffdingAdaptiveTreeClassifier._get_votes_for_instance","trees/hoeffding_adaptive_tree.py:HoeffdingAdaptiveTreeClassifier.filter_instance_to_leaves","trees/_nodes/hatc_nodes.py:AdaSplitNode.filter_instance_to_leaves"])
p("HAT: reset gives a new tree",
  "After reset() a Hoeffding adaptive tree is as good as new: the same training gives the same tree, votes and counters as for a new tree.",
  "every state before the reset, every training sequence and instance afterwards",
  "An equivalence of all continuations; a forgotten field shows only in particular ones.",
  ["trees/hoeffding_adaptive_tree.py:HoeffdingAdaptiveTreeClassifier.reset"])
p("HAT: training and prediction never fail",
  "Training a Hoeffding adaptive tree on instances with a fixed number of attributes never raises an error, and neither does prediction.",
  "every sequence of training instances, split decisions, detected changes, prunings and draws, both settings of stop_mem_management",
  "Errors need a particular combination of prunings, switches and alternate trees.",
  ["trees/hoeffding_adaptive_tree.py:HoeffdingAdaptiveTreeClassifier._partial_fit","trees/_nodes/hatc_nodes.py:AdaSplitNode.learn_one","trees/hoeffding_adaptive_tree.py:HoeffdingAdaptiveTreeClassifier._get_votes_for_instance"])
p("HAT: node counters",
  "The counters of active leaves and decision nodes of a Hoeffding adaptive tree equal the numbers of such nodes in the main tree.",
  "every sequence of training instances, splits, prunings, alternate trees and switches",
  "The counters are updated by differences at several places; an error needs a switch to show.",
  ["trees/_nodes/hatc_nodes.py:AdaSplitNode.learn_one","trees/_nodes/hatc_nodes.py:AdaSplitNode.kill_tree_children","trees/hoeffding_tree.py:HoeffdingTreeClassifier._attempt_to_split"])
p("HAT: without change it is the Hoeffding tree",
  "As long as the detectors report no change, bootstrap sampling is off, no leaf is pruned and single instances weigh less than the grace period, the main tree of a Hoeffding adaptive tree is the Hoeffding tree (with adaptive naive Bayes leaves) grown from the same instances with the same split decisions.",
  "every sequence of training instances and split decisions",
  "An equality of two different algorithms (recursive and path based) over all sequences.",
  ["trees/_nodes/hatc_nodes.py:AdaSplitNode.learn_one","trees/_nodes/hatc_nodes.py:AdaLearningNode.learn_one","trees/hoeffding_tree.py:HoeffdingTreeClassifier._partial_fit"])
p("HTR: leaves carry all training rows",
  "The statistics (weight, sum and sum of squares of targets) of the leaves of a Hoeffding tree regressor add up to those of all training rows, whatever splits were made.",
  "every sequence of training rows, split decisions and memory checks",
  "Needs trees that have grown by several splits, including multiway splits with rows of unseen values.",
  ["trees/hoeffding_tree_regressor.py:HoeffdingTreeRegressor._partial_fit","trees/hoeffding_tree_regressor.py:HoeffdingTreeRegressor._attempt_to_split","trees/_nodes/htr_nodes.py:ActiveLeafRegressor.update_stats"])
p("HTR: a leaf summarises the rows it is responsible for",
  "The statistics of a leaf of a Hoeffding tree regressor are those of exactly the training rows that the tree routes to this leaf.",
  "every sequence of training rows, split decisions and memory checks",
  "Children inherit statistics that observers collected before the split; which rows they stand for is not visible from outside.",
  ["trees/hoeffding_tree_regressor.py:HoeffdingTreeRegressor._attempt_to_split","trees/_attribute_observer/numeric_attribute_regression_observer.py:NumericAttributeRegressionObserver._find_best_split"])
p("HTR: target-mean predictions stay in the range of the targets",
  "With leaf_prediction='mean', every prediction of a Hoeffding tree regressor lies between the smallest and the largest training target.",
  "every sequence of training rows, split decisions (with pruned observers too) and query rows",
  "A claim about all histories of splits and observer prunings; a counterexample needs a particular one.",
  ["trees/_nodes/htr_nodes.py:InactiveLeafForRegression.predict_one","trees/_nodes/htr_nodes.py:ActiveLeafRegressor.predict_one","trees/hoeffding_tree_regressor.py:HoeffdingTreeRegressor.predict"])
p("HTR: perceptron predictions are bounded",
  "After every update the weights of a leaf perceptron have unit L1 norm, hence a prediction for a row whose normalised attributes are at most B in absolute value (B at least 1) differs from the mean target by at most three standard deviations times B.",
  "every sequence of training rows of weight at least one, split decisions and query rows",
  "Boundedness over all training sequences; tests see finitely many.",
  ["trees/_nodes/htr_nodes.py:ActiveLeafPerceptron._update_weights","trees/_nodes/htr_nodes.py:ActiveLeafPerceptron.learn_one","trees/hoeffding_tree_regressor.py:HoeffdingTreeRegressor.normalize_sample","trees/hoeffding_tree_regressor.py:HoeffdingTreeRegressor.normalize_target_value"])
p("HTR: running sums are exact and no row makes it fail",
  "The sums of weights, targets, squared targets, attributes and squared attributes kept by a Hoeffding tree regressor are exactly those of the rows seen, and neither training nor prediction raises.",
  "every number of attributes, every sequence of training and query rows",
  "Universally quantified over the number of attributes and over all sequences.",
  ["trees/hoeffding_tree_regressor.py:HoeffdingTreeRegressor._partial_fit","trees/hoeffding_tree_regressor.py:HoeffdingTreeRegressor.normalize_sample","trees/hoeffding_tree_regressor.py:HoeffdingTreeRegressor.predict"])
p("HTR: rows count with their weight",
  "Training a Hoeffding tree regressor takes every row of positive weight into account, in proportion to its weight.",
  "every sequence of weighted rows",
  "Weights other than one are hardly tested; the claim is about all of them.",
  ["trees/_nodes/htr_nodes.py:ActiveLeafPerceptron.learn_one","trees/_nodes/htr_nodes.py:ActiveLeafRegressor.update_stats"])
p("HTR: one prediction per row",
  "Predict of a Hoeffding tree regressor returns one number per query row.",
  "every training sequence (also none) and all query rows",
  "Needs all states of the tree, including the untrained one.",
  ["trees/hoeffding_tree_regressor.py:HoeffdingTreeRegressor.predict"])
p("HTR: split decision",
  "A leaf of a Hoeffding tree regressor is split only along a suggestion of positive and largest merit whose branches all weigh at least 5, and exactly if the Hoeffding bound is below the tie threshold or all other merits stay below the fraction 1 - bound of the best; deciding never raises.",
  "every list of suggestions, bound, tie threshold and option",
  "The decision depends on real-valued merits and bounds; boundary cases are not reachable by sampling.",
  ["trees/hoeffding_tree_regressor.py:HoeffdingTreeRegressor._attempt_to_split","trees/_split_criterion/variance_reduction_split_criterion.py:VarianceReductionSplitCriterion.get_merit_of_split"])
p("Cost-sensitive boosting never fails",
  "Training OnlineAdaC2Classifier or OnlineCSB2Classifier with positive costs never raises, whatever is drawn and predicted, and every Poisson rate used is positive.",
  "every base learner, every sequence of batches, all draws, any number of members and classes",
  "The rates are ratios of running sums that depend on all past draws and predictions; tests see a few runs.",
  ["meta/online_adac2.py:OnlineAdaC2Classifier.partial_fit","meta/online_csb2.py:OnlineCSB2Classifier.partial_fit"])
p("AdaC2: weighted accuracy and error of a member",
  "In OnlineAdaC2Classifier, after a member was trained on a binary sample, its weighted accuracy and weighted error are the cost-weighted shares, of the weight of all samples shown to it, of those it predicted correctly and wrongly.",
  "every base learner, every sequence of batches, all draws, every member",
  "An invariant over the whole history of a member, including samples it was not drawn for and resets after change.",
  ["meta/online_adac2.py:OnlineAdaC2Classifier.partial_fit"])
p("CSB2: misses are charged with their cost",
  "In OnlineCSB2Classifier, epsilon of a member is the share of weight it predicted wrongly among all samples shown to it, misses are charged with the cost of their class, and a correctly predicted sample is handed to the next member with its weight scaled.",
  "every base learner, every sequence of batches, all draws, every member",
  "The bookkeeping depends on the history of the member; a wrong cost only shows in rates of later draws.",
  ["meta/online_csb2.py:OnlineCSB2Classifier.partial_fit"])
p("RUSBoost: training and error estimate",
  "Training OnlineRUSBoostClassifier with a positive sampling rate never raises, every Poisson rate is non-negative, every member is shown every sample once, and epsilon of a member is the share of the weight shown to it that it predicted wrongly.",
  "every base learner, algorithm, sequence of batches, all draws, every member",
  "The rates contain nested ratios of running sums; division by zero depends on the history.",
  ["meta/online_rus_boost.py:OnlineRUSBoostClassifier.partial_fit"])
p("RUSBoost: class counts",
  "OnlineRUSBoostClassifier bases its sampling rates on the proportions of the classes among the samples seen, including the current one.",
  "every sequence of batches and every number of members",
  "The effect of miscounting is only a different Poisson rate.",
  ["meta/online_rus_boost.py:OnlineRUSBoostClassifier.partial_fit"])
p("Under/over-bagging: rates",
  "Training OnlineUnderOverBaggingClassifier never raises; every member is shown every sample exactly once in order, and is trained on it as often as a Poisson draw of rate (i+1)/N, times the sampling rate for positive samples.",
  "every base learner, sequence of batches, all draws, every member",
  "Quantifies over draws and number of members.",
  ["meta/online_under_over_bagging.py:OnlineUnderOverBaggingClassifier.partial_fit"])
p("SMOTE bagging: synthetic samples",
  "OnlineSMOTEBaggingClassifier trains member i of N on a positive sample by a Poisson draw of rate a*sampling_rate and on synthetic samples by one of rate (1-a)*sampling_rate, a=(i+1)/N; a synthetic sample lies between the positive sample and one of its five nearest earlier positive samples; positive samples are remembered once.",
  "every sequence of batches, all draws, any distance",
  "The synthetic samples go to the base learners and are never visible.",
  ["meta/online_smote_bagging.py:OnlineSMOTEBaggingClassifier.partial_fit","meta/online_smote_bagging.py:OnlineSMOTEBaggingClassifier.online_smote"])
p("Ensembles for skewed classes: a member reset after a change starts afresh",
  "When an online ensemble for skewed classes detects a change, the member picked is reset: learner, detector and its error statistics.",
  "every state of the ensemble",
  "Statistics that survive a reset only bias later rates.",
  ["meta/online_adac2.py:OnlineAdaC2Classifier.partial_fit","meta/online_csb2.py:OnlineCSB2Classifier.partial_fit","meta/online_rus_boost.py:OnlineRUSBoostClassifier.partial_fit"])
p("Ensembles for skewed classes: sample weights",
  "partial_fit of the online ensembles for skewed classes accepts one weight per sample and trains the members with them.",
  "every batch size, every base learner that takes one weight per sample",
  "Depends on the base learner and on batches of several samples.",
  ["meta/online_adac2.py:OnlineAdaC2Classifier.partial_fit","meta/online_under_over_bagging.py:OnlineUnderOverBaggingClassifier.partial_fit","trees/hoeffding_tree.py:HoeffdingTreeClassifier.partial_fit"])
p("clone() preserves the parameters",
  "clone(estimator) gives an estimator of the same class, built with the same parameters (nested estimators likewise), that has learned nothing.",
  "every estimator, nested to any depth, in any state of training",
  "Quantifies over nesting and classes; losing a parameter raises nothing.",
  ["core/base.py:clone","core/base.py:BaseEstimator.get_params","drift_detection/ddm.py:DDM.__init__","meta/online_boosting.py:OnlineBoostingClassifier.__init__","meta/online_smote_bagging.py:OnlineSMOTEBaggingClassifier.__init__","lazy/sam_knn.py:SAMKNNClassifier.__init__","meta/learn_nse.py:LearnPPNSEClassifier.__init__"])
p("Metrics an evaluator accepts can be computed",
"A metric list that passes the evaluator's configuration check can be evaluated: every measurement object of the inferred task has the method each metric needs, so no report fails with AttributeError.",
"all metric name lists, numbers of targets, numbers of models, measurement values and earlier reports",
"The check and the computation are two separate chains of if/elif over 21 metrics, four tasks and a flag; tests evaluate a handful of lists.",
["evaluation/base_evaluator.py:170-239","evaluation/base_evaluator.py:320-470","evaluation/evaluation_data_buffer.py:6-44","utils/constants.py:1-73"])
p("The evaluation task is inferred from the metrics",
"For a single-target stream the evaluator takes the task to be classification (regression) exactly when all metrics are classification (regression) metrics and at least one of them is not neutral (true_vs_predicted, running_time, model_size); neutral metrics alone are refused with ValueError. For a multi-target stream the metrics running_time and model_size alone always select classification, also for regression streams. Metrics are only reordered, never dropped.",
"all metric name lists in any letter case, all numbers of targets",
"Needs all subsets of the metrics, not the few combinations used in tests.",
["evaluation/base_evaluator.py:170-239","utils/constants.py:45-73"])
p("Result rows match the result file header",
"Every row of the result file has exactly one value per column of the header, and the value under a title is the one the title names: mean or current value of that metric for that model, prediction of that model, true value, times and size. Titles are pairwise distinct when the metrics and the model names are.",
"all metric lists, numbers and names of models (without commas), earlier reports, measurement values",
"Header and rows are produced by two separate chains of if/elif joined by a buffer with its own keys; a misplaced column still looks like a valid file.",
["evaluation/base_evaluator.py:304-318","evaluation/base_evaluator.py:320-535","evaluation/base_evaluator.py:543-649","evaluation/evaluation_data_buffer.py:30-44"])
p("Data points are shown with their true class",
"With the data_points metric the class recorded for the plotted sample under 'predictions' is the true label of the last scored sample, not the prediction of the model (get_last returns the pair in the other order), and every report on a stream with fewer than two features fails.",
"all reports, models, labels and predictions",
"True label and prediction agree on most samples of a good model, so a test that looks at the value passes.",
["evaluation/base_evaluator.py:438-454","evaluation/base_evaluator.py:484-496"])
p("Prequential rows come every n_wait samples",
"However the evaluation ends: with a batch size and a pre-training block of at most n_wait samples, u rows have been written after c samples (pre-training included) only if u*n_wait <= c <= (u+1)*n_wait; without pre-training and with a batch size dividing n_wait the rows are exactly those of the multiples of n_wait plus the last batch; but a pre-training block of k*n_wait samples is followed by a row after every one of the first k batches.",
"all streams, learners, batch sizes, n_wait, pre-training sizes, limits and ways to end",
"The catch-up rule count/n_wait > update_count + 1 only shows with particular combinations of sizes.",
["evaluation/evaluate_prequential.py:286-381"])
p("Errors of a learner end a prequential evaluation silently",
"After pre-training, an exception raised by a learner is never passed to the caller of EvaluatePrequential.evaluate: the rows and the result are those of a stream that ended before the failing batch. The only exception evaluate raises is the TypeError of the summary, exactly when no row had been written and a metric of the summary was asked for.",
"all learners, failures, streams, metric lists and sizes",
"Quantifies over the place of the failure and over every configuration.",
["evaluation/evaluate_prequential.py:290-394","evaluation/base_evaluator.py:674-780"])
p("Reported running times add up",
"In the rows of prequential and holdout evaluations the training and testing times are the time spent so far in partial_fit and predict, their total is the sum, and with a clock that never goes back they are non-negative and at most the time passed. In delayed evaluation the total of a row only includes what happened up to the last training, so it can be smaller than training plus testing time.",
"all clock readings, numbers of batches, placements of rows",
"Timings differ from run to run and tests do not control the clock.",
["metrics/measure_collection.py:1489-1573","evaluation/evaluate_prequential.py:290-374","evaluation/evaluate_holdout.py:250-335","evaluation/evaluate_prequential_delayed.py:290-335","evaluation/evaluate_prequential_delayed.py:394-461"])
p("LeveragingBagging trains each member as often as its algorithm says",
  "For one sample given to LeveragingBaggingClassifier.partial_fit, each member is trained: Poisson(w) times with 'leveraging_bag'; once with 'leveraging_bag_me' if the member has no prediction or a wrong one, and if it is right once with probability error/(1-error), never if its error is 1; 0 or 1 times with 'leveraging_bag_half'; 1+Poisson(1) times with 'leveraging_bag_wt'; once if Poisson(1) is not 0 with 'leveraging_subag'. The draws are taken one after the other. All trainings are on that sample, with its label and all classes, or with a code matrix on the member's bit for the label and the classes 0 and 1. A batch is the same as its samples one after the other, and afterwards at most one member is reset.",
  "all base learners, detectors, random generators, states and samples (non-negative labels with a code matrix)",
  "the counts depend on random draws and on the history of each member",
  ["meta/leverage_bagging.py:209-282"])
p("LeveragingBagging's detectors record the errors of their members",
  "After each sample, the change detector of each member of LeveragingBaggingClassifier is told whether the member mistakes what it is to learn: the label, or with a code matrix the member's bit for the label. Violated: with a code matrix a member that is not trained on the sample is compared with the label itself, so every sample of a label from 2 on counts as an error of each such member, and 'leveraging_bag_me' takes every such sample as misclassified.",
  "all base learners, detectors, random generators, states and samples",
  "visible only in the detectors, for code matrices, three or more classes and zero weights",
  ["meta/leverage_bagging.py:238-291"])
p("LeveragingBagging counts a drift once and replaces the worst member",
  "In every reachable state of LeveragingBaggingClassifier, a sample after which at least one member's detector reports a change with a larger error estimate than before raises n_detected_changes by one and replaces exactly one member: the first of those with the largest estimate is reset and gets a new detector. Any other sample replaces no member and leaves the count.",
  "all base learners, all detectors whose estimate is a mean of recent outcomes (ADWIN is one), all reachable states, all samples",
  "drifts are rare events that depend on the whole history",
  ["meta/leverage_bagging.py:284-304"])
p("A code-matrix ensemble whose members are all right is right",
  "With enable_code_matrix, the score of a class is the number of members that vote for the side the class is coded on, divided by the sum of these numbers over the classes; if all members answer their bit of the true class, the ensemble predicts that class. Violated: the rows of the matrix are drawn without regard to the columns, so classes may share all codes; the ensemble then predicts the first of them, and with more than 2^n classes for n members there always is a class that is never predicted however right the members are.",
  "all members, code matrices, samples and classes",
  "the matrix is random and collisions depend on the numbers of classes and members",
  ["meta/leverage_bagging.py:306-349", "meta/leverage_bagging.py:408-459"])
p("reset makes a LeveragingBaggingClassifier as new",
  "With an integer random_state, after reset() a LeveragingBaggingClassifier gives for every sequence of partial_fit and predict_proba calls the same outcomes as a newly built one: the members, detectors, classes, change count, random draws and code matrix all start again.",
  "all earlier histories and all later sequences of calls",
  "concerns every history before and after the reset",
  ["meta/leverage_bagging.py:170-179", "meta/leverage_bagging.py:461-470"])
p("A multi-target tree with mean leaves treats its targets apart",
  "iSOUPTreeRegressor with leaf_prediction='mean' predicts for each target exactly what a single-target HoeffdingTreeRegressor with the same parameters predicts that is trained on the same rows with that target alone and takes the same split decisions: no target influences another except through the choice of splits.",
  "all sequences of training rows and weights, split decisions, numbers of targets, observers and queried rows",
  "The trees are two separate implementations; equality must hold for every stream and every shape of tree.",
  ["trees/isoup_tree.py:289-566","trees/hoeffding_tree_regressor.py:240-560"])
p("Perceptron leaves of multi-target trees do not extrapolate beyond the input",
  "Asked about a row whose attributes are at most B >= 1 standard deviations away from their means, a perceptron leaf of iSOUPTreeRegressor or the stacked perceptrons of StackedSingleTargetHoeffdingTreeRegressor answer every target within B standard deviations of its mean (or nan), whatever the learning rate, the initial weights and the data.",
  "all training sequences with positive weights, initial weights, learning rates, queried rows, B >= 1",
  "A bound over all streams and all gradient steps; it rests on the weights being normalised after every step.",
  ["trees/_nodes/isouptr_nodes.py:10-92","trees/_nodes/sst_htr_nodes.py:9-112","trees/isoup_tree.py:229-470"])
p("The unit of a target only changes the unit of its predictions",
  "If every target is expressed in another unit (y*a+b with a > 0), the predictions of the multi-target trees are the old ones in the new units, for mean, perceptron, adaptive and stacked leaves. Violated: the intra-cluster criterion adds variances of different targets, so changing the unit of a single target can change which split is chosen; with a common unit for all targets the preferred split stays the same.",
  "all training sequences, units, kinds of leaves, queried rows",
  "Relates two runs on different data; tests run one.",
  ["trees/isoup_tree.py:229-566","trees/_nodes/isouptr_nodes.py:10-157","trees/_nodes/sst_htr_nodes.py:9-208","trees/_split_criterion/intra_cluster_variance_reduction_split_criterion.py:8-38"])
p("Adaptive leaves of multi-target trees answer with the predictor that has erred least",
  "An adaptive leaf answers each target with the predictor (mean, perceptron, and stacked perceptron) of least faded error; the faded error is the sum of its errors on the rows seen by the leaf, each weighted by 0.95 to the number of later rows and measured before the row was learnt. Violated for the mean: it is measured after the row has entered the mean, so the first row of a leaf costs the mean nothing whatever its targets.",
  "all sequences of rows of weight in [1,2) at a leaf, all weights and sums, all targets",
  "The faded errors are never exposed, and which predictor answers depends on the whole history of the leaf.",
  ["trees/_nodes/isouptr_nodes.py:93-157","trees/_nodes/sst_htr_nodes.py:114-208"])
p("reset makes a regression tree as new",
  "After reset() a regression tree behaves as a newly built one, and predict without training answers zeros. With mean leaves training after reset raises or answers as training of a new tree does. Violated: after training and reset, predict of the multi-target trees raises AttributeError (the number of targets is kept, the tree is not), so it does after training with rows of weight 0 only; and the sums by which perceptrons standardise survive reset, so that later predictions differ from those of a new tree (single-target tree as well).",
  "all earlier histories, all later sequences of partial_fit calls, all queried rows",
  "Concerns every history before and after the reset.",
  ["trees/hoeffding_tree.py:235-247","trees/isoup_tree.py:146-199","trees/isoup_tree.py:323-470","trees/hoeffding_tree_regressor.py:148-230"])
p("The intra-cluster merit is the reduction of the mean sample variance",
  "For rows partitioned into branches of at least five rows each, the merit of IntraClusterVarianceReductionSplitCriterion times the number of targets is the sum over the targets of the sample variance of the rows minus the weighted mean of the sample variances of the branches; not splitting has merit 0, a split with a branch of weight below five has merit 0, and a split that tells nothing apart has a negative merit as soon as some target varies.",
  "all numbers of targets, all rows and partitions",
  "An identity between running sums and variances over all data.",
  ["trees/_split_criterion/intra_cluster_variance_reduction_split_criterion.py:8-38"])
p("The label-combination tree predicts label combinations it has seen",
  "LabelCombinationHoeffdingTreeClassifier turns every row of n_labels binary labels into a number and back without loss, and each prediction is a row of n_labels zeros and ones that occurred in training. Violated: rows of float labels (0.0, 1.0) cannot be trained on (ValueError), an untrained tree predicts zeros, and with naive Bayes or adaptive leaves zeros are also predicted for instances to which no combination gives a vote (in particular right after a split) although no row of zeros was seen. With majority-class leaves and non-empty branches every prediction is a combination seen.",
  "all numbers of labels, label rows, training sequences, split decisions, observers and queried rows",
  "Quantifies over all combinations and over trees of every shape; tests look at one stream.",
  ["trees/label_combination_hoeffding_tree.py:145-222","trees/_nodes/lc_htc_nodes.py:1-80"])
p("A Hoeffding tree only predicts classes it was trained on",
  "Every prediction of a trained HoeffdingTreeClassifier is a class it has been trained on. Proved for majority-class leaves when no branch of a split is empty, and in general up to instances for which no class gets a vote, which are answered with class 0. Violated for naive Bayes and adaptive leaves: a branch of a split inherits class counts but no observers, so after its first row the leaf gives no vote to any other attribute value, and class 0 is predicted even if it never occurred.",
  "all training sequences with non-negative labels, split decisions, leaf prediction modes, queried rows",
  "Needs leaves just after a split and classes other than 0; tests on balanced binary streams cannot tell class 0 from a default.",
  ["trees/hoeffding_tree.py:355-437","trees/_nodes/htc_nodes.py:60-170","bayes/utils.py:4-42"])
p("Adaptive regression tree: what the drift detectors see",
"In HoeffdingAdaptiveTreeRegressor the value a node passes to its ADWIN detector is the standard score of the absolute prediction error among all absolute errors the node has seen, mapped linearly so that a score of -3 gives 0 and 3 gives 1; the first error gives 0, and while all errors are equal the value is 1/2. It does not change when all targets and predictions are multiplied by the same positive constant. The values stay in the interval from 0 to 1, which ADWIN's bounds assume.",
"all sequences of errors, all units of the target",
"the normalisation runs on Welford updates over an unbounded history; tests look at final scores of the tree, never at the detector input, and values outside the interval need a particular history of errors",
["trees/_nodes/hatr_nodes.py:242-270"])
p("Adaptive regression tree: training and prediction never fail",
"HoeffdingAdaptiveTreeRegressor.partial_fit accepts every sequence of rows with the same number of attributes and predict then returns one value per row, whatever drift detections, split decisions, bootstrap draws and weights occur.",
"all numbers of attributes, all row sequences, all detector behaviours, all split decisions",
"a failure needs a combination of split nodes, alternate trees, unseen categories and attribute counts that example streams do not contain",
["trees/hoeffding_adaptive_tree_regressor.py:162-212","trees/_nodes/hatr_nodes.py:36-112","trees/_nodes/hatr_nodes.py:194-232","trees/hoeffding_tree_regressor.py:398-426"])
p("Adaptive regression tree: life of alternate trees",
"A split node of HoeffdingAdaptiveTreeRegressor starts a new alternate leaf exactly when its detector reports a change and its estimated error did not decrease. Otherwise the node is replaced by its alternate tree only if both error windows hold more than 300 values and the alternate's estimated error is lower by more than the bound, and the alternate tree is dropped only if it is higher by more than the bound. In every other case node and alternate tree stay, and the alternate tree learns the row.",
"all trees, rows, detector states and split decisions",
"the replaced subtree depends on detector states hundreds of rows back; tests only compare scores at the end of one stream",
["trees/_nodes/hatr_nodes.py:36-112","trees/_nodes/hatr_nodes.py:194-224","trees/hoeffding_tree_regressor.py:428-505"])
p("Adaptive regression tree without drift is the Hoeffding tree regressor",
"As long as no detector reports a change, with bootstrap sampling off, rows lighter than the grace period and at least two attributes, HoeffdingAdaptiveTreeRegressor grows the same main tree as HoeffdingTreeRegressor trained on the same rows with the same split decisions and initial perceptron weights: same tests, statistics, observers and, for leaf_prediction='perceptron', same perceptron weights and same predictions.",
"all row sequences, all split decisions, both leaf predictions",
"equality of two separately written recursive learners over all sequences; tests compare neither trees nor intermediate states",
["trees/hoeffding_adaptive_tree_regressor.py:162-212","trees/_nodes/hatr_nodes.py:36-112","trees/_nodes/hatr_nodes.py:194-224","trees/hoeffding_tree_regressor.py:361-396"])
p("ARF tree: a leaf looks at max_features features drawn without replacement",
"An active leaf of an adaptive random forest tree (remove_poor_atts off) that has learned something observes exactly max_features different features, all of them features of the data, drawn when its first instance arrived; it keeps these features until it is split or switched off, and the observer of each is given the values of that feature in all the instances the leaf learns. No other feature can be chosen for a split of the leaf. Training does not fail.",
"all sequences of training instances of n features, all split decisions, all random generators that draw without replacement, all max_features",
"The features are drawn anew at each leaf and each run; tests check that accuracies of one seeded run match recorded numbers, on data with more features than max_features.",
["trees/arf_hoeffding_tree.py", "trees/_nodes/arf_htc_nodes.py"])
p("Trees of a classifier forest draw their features independently",
"The trees of AdaptiveRandomForestClassifier draw their random subsets of features independently of each other, whatever is given as random_state.",
"all numbers of trees, all seeds, all sequences of draws, warnings and drifts",
"Tests fix the seed and compare the final predictions; that all trees use the same subsets does not show in an accuracy.",
["meta/adaptive_random_forests.py", "trees/arf_hoeffding_tree.py", "utils/validation.py"])
p("A tree that replaces a drifted tree of the regression forest is newly randomised",
"When AdaptiveRandomForestRegressor replaces a tree after a drift (by its background tree, or by a reset), the tree that comes in draws random feature subsets that are not determined by those of the tree it replaces.",
"all numbers of trees, all seeds, all sequences of draws, warnings and drifts",
"The seeds of the trees are not observable in predictions of a single run; tests compare predictions to recorded numbers.",
["meta/adaptive_random_forest_regressor.py", "trees/arf_hoeffding_tree_regressor.py", "utils/validation.py"])
p("get_params / set_params round trip",
"get_params() reports every constructor parameter of the estimator, and under name__subname those of nested estimators, with the values they have; passing all or some of what it reports back to set_params raises nothing and changes no estimator.",
"all estimators and nestings of them, shared or not, with parameter names that contain no double underscore and do not end with an underscore; all subsets of the reported parameters",
"Nestings are unbounded; tests look at single flat estimators.",
["core/base.py"])
p("set_params sets what is given and nothing else",
"set_params(a=v, ...) gives the named parameters the values given and leaves all other parameters and all other estimators as they are; set_params(base__p=v) is base.set_params(p=v), where base is the new estimator if base is given in the same call, in whichever order.",
"all estimators and nestings of them, shared or not, all names and values",
"Needs all combinations of parameters and nestings, and that nothing else changes.",
["core/base.py"])
p("set_params with an unknown name raises ValueError and changes nothing",
"A call of set_params in which some name is not a parameter of the estimator raises ValueError, and the estimator is as it was before the call.",
"all estimators, all calls",
"Tests check that the exception is raised, not what the estimator looks like afterwards when the bad name is not the first.",
["core/base.py"])
p("A parameter set by set_params is used",
"After set_params(p=v) the estimator works with v as if it had been constructed with it.",
"all estimators with parameters; shown for the settings of DDM",
"That a value is stored does not show that it is used; tests read the value back with get_params.",
["core/base.py", "drift_detection/ddm.py"])
p("RSLVQ predicts the class of the nearest prototype",
"RobustSoftLearningVectorQuantization.predict answers for each row the class of the prototype with the smallest Euclidean distance to it (the first one if several are equally near).",
"all prototypes, all rows, all sigma > 0",
"The code maximises a likelihood, not a distance, so this is a claim about all real vectors.",
["prototype/robust_soft_learning_vector_quantization.py"])
p("RSLVQ learns only from mistakes, attracting the right prototype and repelling the wrong one",
"Learning a row of class y changes nothing if the nearest prototype is of class y. Otherwise the nearest prototype of class y moves towards the row and the nearest prototype of another class moves away from it, every coordinate in proportion to its distance to the row (with vanilla gradient descent by one common factor of at most 1/sigma), and no other prototype changes.",
"all prototypes, all rows and labels, both optimizers, all sigma > 0",
"The factors are differences of probabilities; that their sign is always right is a statement about all vectors.",
["prototype/robust_soft_learning_vector_quantization.py"])
p("RSLVQ answers with known classes",
"After training, RobustSoftLearningVectorQuantization answers every row with one of its classes, the classes declared or those of the first batch; and a batch with labels among the classes can be learned.",
"all sequences of batches, all rows, all numbers of prototypes per class",
"Tests declare no class that is missing in the first batch; and what uninitialised memory holds is not reproducible.",
["prototype/robust_soft_learning_vector_quantization.py"])
p("RSLVQ learns incrementally",
"Every call of partial_fit continues from the prototypes the calls before have learned, so that learning two batches one after the other is learning them as one batch (once there are prototypes of all classes); and the caller's data is not changed.",
"all batches, with and without initial prototypes, given as list or as array",
"Tests with initial prototypes make one call; a call that starts afresh still predicts well on the test data.",
["prototype/robust_soft_learning_vector_quantization.py"])
p("RSLVQ rejects bad parameters and labels with ValueError",
"The constructor raises ValueError exactly for sigma <= 0, prototypes_per_class <= 0, gamma outside [0, 1) or an unknown optimizer; partial_fit raises ValueError if the classes are not 0, ..., k-1, and for a label outside the classes after the first batch.",
"all parameters, all batches",
"Tests try some bad values only; the boundary value sigma = 0 is not among them.",
["prototype/robust_soft_learning_vector_quantization.py"])
p("normal_probability is a symmetric distribution function",
"normal_probability(a), on which the Gaussian observers of the trees rest, is a probability for every a, is one half at 0 and more than one half exactly for positive a; its values at a and -a add up to one; and beyond sqrt(2) standard deviations its tail is at most exp(-a^2/2)/2. The error function behind it is odd and its complement symmetric about one, everywhere.",
"all real arguments",
"The formula is pieced together from rational approximations chosen by range; a test compares a handful of values and cannot show that no argument, in any range or where they meet, leaves [0, 1] or breaks the symmetry.",
["utils/statistics.py"])
p("calculate_object_size counts every part once",
"calculate_object_size of an object ends however its parts are shared or refer to each other in circles, and answers the sum of the sizes of all objects that belong to it (keys, values, attributes, elements), each counted exactly once, in bytes, kB (1024) or MB (2^20); only if a part refuses to be iterated (a numpy array of dimension zero) it raises TypeError.",
"all finite object graphs, all units",
"Tests measure a few containers; cycles and sharing of every shape cannot be enumerated.",
["utils/utils.py"])
p("normalize_values_in_dict divides by the factor",
"normalize_values_in_dict divides every value by the factor, by default the sum of the values (the result then adds up to one), and keeps the keys in order; with inplace the caller's dictionary is changed and returned, without it a new one is returned and nothing of the caller's changes; a factor of zero or nan raises ValueError and changes nothing.",
"all dictionaries, factors and both values of inplace, whatever other dictionaries the caller has",
"Tests use one dictionary; aliasing and untouched inputs hold for all states of the caller's store.",
["utils/utils.py"])
p("add_dict_values and get_max_value_key",
"add_dict_values adds the values key by key, appending the keys that are new, in order, also when both arguments are the same dictionary; with inplace the result is the first dictionary, without it a new one and nothing of the caller's changes. get_max_value_key answers the first of the keys with the largest value, and 0 for an empty dictionary.",
"all dictionaries with comparable values and both values of inplace",
"Tests use one pair of dictionaries without ties.",
["utils/utils.py"])
p("Removing the header of a file",
"clean_header (and RemoveHeader) writes to the new file exactly the lines of the base file that do not start with the ignored character, in order, and leaves the base file and every other file as it was; without a name given the new file is the base name with _no_header put before the extension.",
"all files, file names and ignored characters",
"Tests use one file whose path has one dot; paths such as ./data.csv or the same file as output are never tried.",
["utils/file_scripts.py"])
p("Measuring the generation speed",
"EvaluateStreamGenerationSpeed asks the stream for batches of batch_size samples, as many as fit into n_samples and into what the stream has left and none more, unless the time limit ends it first; the progress it logs rises by five per cent and never exceeds 100 %.",
"all sizes and batch sizes of at least one, streams with and without end, all clocks",
"Tests measure one stream with batches of one and do not look at the log; the relation of sizes is an arithmetic statement.",
["evaluation/evaluate_stream_gen_speed.py"])
p("Waveform samples mix the two waves of their class",
"WaveformGenerator answers as many rows as asked for, with 21 features (40 with noise) and labels 0, 1 or 2; the features of a row are a convex mixture of the two triangular base waves of its class plus one normal draw each, so without the draws they lie between the two waves and within [0, 6]; features 22 to 40 are normal draws only; different classes mix different pairs of waves.",
"all batch sizes and all answers of the random number generator",
"Tests compare one seeded batch with stored numbers.",
["data/waveform_generator.py"])
p("RBF samples lie around their centroid",
"A sample of RandomRBFGenerator has the label of the centroid chosen for it and lies at a distance of |normal| * std_dev from it, in the direction drawn; its features are nan only if all uniform draws are exactly one half.",
"all centroids, batch sizes and draws, in any dimension",
"Tests compare one seeded batch with stored numbers.",
["data/random_rbf_generator.py"])
p("Drifting RBF samples lie around the moved centroid",
"In RandomRBFGeneratorDrift every drifting centroid moves before each sample by at most change_speed and stays in the unit cube; centroids beyond the first num_drift_centroids never move; labels and spreads never change; and every sample lies around its centroid at the place it has moved to.",
"all sequences of samples of any length, all speeds, all draws",
"Whether the invariant holds after any number of moves and reflections is a statement about unbounded runs.",
["data/random_rbf_generator_drift.py","data/random_rbf_generator.py"])
p("Initial prototypes of RSLVQ are class means",
"Without initial prototypes, a partial_fit call of RSLVQ in which a class occurs for the first time starts its training with prototypes_per_class prototypes labelled with that class, each the mean of the batch's rows of that class (one prototype per class) or within 1 of that mean in every feature (several); prototypes of classes seen before, or absent from the batch, start where they were.",
"all reachable states, batches, numbers of prototypes and random draws in [0, 1)",
"Tests check the predictions of one seeded run.",
["prototype/robust_soft_learning_vector_quantization.py"])
p("SAM-kNN with 'maxACC' keeps the window with the best test-then-train accuracy",
"With stm_size_option='maxACC', after every sample the short-term memory of SAMKNNClassifier is cut to the one of its newest n, n/2, n/4, ... samples, down to min_stm_size, on which testing then training from scratch with n_neighbors neighbours gives the highest accuracy, the longest of them if several do; with fewer than 2 * min_stm_size samples it stays.",
"all streams, distances, votes, sizes with n_neighbors < min_stm_size, with and without long-term memory",
"The accuracies come from cached prediction histories shifted at every cut; that the cache always belongs to the windows it stands for is an invariant of unbounded runs.",
["lazy/sam_knn.py"])
p("SAM-kNN with 'maxACCApprox' cuts its memory only for a more accurate window",
"With the default stm_size_option='maxACCApprox' and use_ltm, whenever SAMKNNClassifier cuts its short-term memory, testing then training from scratch gives a higher accuracy on the window it keeps than on the whole memory.",
"all streams, distances, votes, sizes with n_neighbors < min_stm_size",
"The approximation reuses histories of earlier windows; the claim is about every cut in every stream.",
["lazy/sam_knn.py"])
p("Sizes SAM-kNN chooses for its short-term memory",
"Training SAMKNNClassifier with a size option always ends without error; at each sample a short-term memory of fewer than 2 * min_stm_size samples keeps its size, and a longer one keeps it or is cut to a half, a quarter, ... of it, rounded down, never below min_stm_size.",
"all streams of any length, both size options, all distances, votes and cluster centres",
"Lookups in and deletions from the dictionary of histories can only be shown safe for all runs by an invariant on its keys.",
["lazy/sam_knn.py"])
p("Ensembles for skewed classes replace a member only when accuracy falls",
"With drift_detection=True, an online ensemble for skewed classes (OnlineUnderOverBagging, OnlineSMOTEBagging, OnlineCSB2, OnlineAdaC2, OnlineRUSBoost) resets a member during partial_fit only if the recent accuracy that some member's ADWIN recorded has fallen, and the member it resets is one of the lowest recorded accuracy. Every reset member is given a new ADWIN.",
"for every base learner, change detector, sequence of Poisson draws, batch, and state of the ensemble",
"Whether a member is reset depends on the whole history of each detector; tests with fixed seeds on short streams rarely trigger a change and never compare the reset member with the others.",
["meta/online_under_over_bagging.py:200-238","meta/online_csb2.py:215-268","meta/online_adac2.py:222-276","meta/online_rus_boost.py:219-297","meta/online_smote_bagging.py:202-251"])
p("AnomalySineGenerator yields the number of anomalies asked for",
"AnomalySineGenerator(n_samples=n, n_anomalies=k) yields n samples of which exactly k are labelled 1 and the others 0.",
"for every choice of parameters the constructor accepts and everything the random source can return",
"The number of labels depends on collisions among random positions; a test with a fixed seed compares with stored data and cannot tell a collision from the intended count.",
["data/anomaly_sine_generator.py:77-104"])
p("Values of the samples of AnomalySineGenerator",
"Attribute 1 of sample i is the sine of i/4 plus noise. Attribute 2 of a sample labelled 0 is the cosine of i/4 plus noise or, only with contextual=True, attribute 1 of the sample |shift| places earlier. Attribute 2 of a sample labelled 1 is 2 plus noise plus the sine of a number that is drawn once and shared by all anomalies. A negative shift acts like the positive one and never wraps around.",
"for all functions in place of sine and cosine, all parameters, noise and drawn positions",
"Index arrays with repetitions and overlapping replacements make the table depend on the order of assignments; tests only compare with one stored table.",
["data/anomaly_sine_generator.py:59-104"])
p("Contextual anomalies are labelled as anomalies",
"With contextual=True, the samples of AnomalySineGenerator whose attribute 2 is replaced by a value of attribute 1 are labelled 1, like the other anomalies.",
"for every choice of parameters and everything the random source can return",
"A test would have to know which rows are contextual anomalies, and the generator does not expose them.",
["data/anomaly_sine_generator.py:87-104"])
p("Parameters that AnomalySineGenerator accepts",
"As documented, AnomalySineGenerator accepts every n_anomalies not larger than n_samples and, with contextual=True, every n_contextual not larger than n_samples; otherwise it raises ValueError.",
"for all parameters and random draws",
"The limits depend on four parameters together; tests check one value above each documented limit.",
["data/anomaly_sine_generator.py:46-104"])
p("The binary-tree observer of numeric attributes accepts observations",
"NumericAttributeClassObserverBinaryTree.update(value, label, weight) records the observation, and get_best_evaluated_split_suggestion then suggests the best cut among the values seen; missing values are ignored.",
"for every sequence of values, labels and weights",
"The class is exported but used by no tree, so no test exercises it; the claim is about every sequence of updates.",
["trees/_attribute_observer/numeric_attribute_class_observer_binary_tree.py:14-86"])
p("The default reset() keeps the parameters",
"reset() of an object that does not override it (NaiveBayes, SAMKNNClassifier, RobustSoftLearningVectorQuantization, HalfSpaceTrees, Pipeline, PerceptronMask, the transforms and the streams) calls its constructor again with the present values of all parameters, whatever these are.",
"for every class name and all parameter values: numbers, strings, lists, tuples and objects, nested to any depth, and every layout of the printed object",
"reset() prints the object and executes the text; whether that works depends on the text of every parameter, and tests reset objects with a few short parameters.",
["core/base.py:244-286","core/base.py:344-356","utils/_pprint.py:173-440"])
p("VFDR: merit with foil_gain",
 "With expand_criterion='foil_gain' the merit of a candidate condition is its FOIL gain: the weight of the class among the instances that satisfy the condition, times the growth of the logarithm of the proportion of the class.",
 "all class distributions on the two sides of a split, every class",
 "The sign and the side are wrong for almost all real-valued distributions, but every merit is a plausible number, so examples do not show it.",
 ["rules/foil_gain_rule_criterion.py:FoilGainExpandCriterion.get_merit_of_split","rules/foil_gain_rule_criterion.py:FoilGainExpandCriterion.compute_entropy"])
p("VFDR: looking at the rules",
 "get_model_rules and get_model_description can be called at any time, name the majority class of every rule, and do not change what the classifier learns or predicts afterwards.",
 "every state of the classifier, every later sequence of instances, every row",
 "The effect of a read access shows only in later expansions; equality of all later behaviour is not testable.",
 ["rules/very_fast_decision_rules.py:VeryFastDecisionRulesClassifier.get_model_rules","rules/very_fast_decision_rules.py:VeryFastDecisionRulesClassifier.get_model_description"])
p("AWE: cross-validation of the new model",
 "The score that decides the weight of the newest model of AccuracyWeightedEnsemble is a cross-validation score: every fold of the chunk is scored by a copy of the base estimator that was trained on the other folds only.",
 "every base estimator, every chunk and every division into folds",
 "Whether a model has seen a fold cannot be observed from the score; tests only compare final accuracies.",
 ["meta/accuracy_weighted_ensemble.py:AccuracyWeightedEnsemble.compute_score_crossvalidation","meta/accuracy_weighted_ensemble.py:AccuracyWeightedEnsemble.train_model"])
p("AWE: the score uses the probability of the true label",
 "The score of a model on a chunk is the mean of (1 - p)^2 where p is the probability the model gives to the true label of the row (0 for labels it has never seen); a model that is always right with probability 1 has score 0.",
 "every set of class labels, every model and chunk",
 "Depends on the labels in use; test streams have classes 0, 1, ..., where position and label coincide.",
 ["meta/accuracy_weighted_ensemble.py:AccuracyWeightedEnsemble.compute_score"])
p("Ensembles for skewed classes: how the members vote",
  "predict_proba of OnlineAdaC2Classifier, OnlineCSB2Classifier and OnlineRUSBoostClassifier is the sum of the members' probabilities weighted by the log-odds of their (weighted) accuracy, that of OnlineUnderOverBaggingClassifier and OnlineSMOTEBaggingClassifier is the average of the members' probabilities; every member that answers has a vote, and the numbers returned are probabilities of the known classes.",
  "all numbers of members, weights, rows and answers of the members",
  "the wrong cases need a member without any error, with an error above one half, with fewer columns than a later one, or one that warns",
  ["meta/online_adac2.py:317-387","meta/online_csb2.py:310-381","meta/online_rus_boost.py:338-409","meta/online_under_over_bagging.py:274-344","meta/online_smote_bagging.py:300-370"])
p("Plotted curves are exactly the reported values","With show_plot, after any sequence of reports the line of every model in the subplot of every performance metric is the sequence of its mean (respectively current) values, one per report and in order, over the sample ids of the reports; the true-vs-predicted subplot has the reported true values and the predictions of every model in the same way.","for every task type, number of models, list of metrics without repetition and sequence of reports in which the metrics can be computed","A test looks at a figure after one evaluation; that no report is lost, doubled or attributed to another model or metric concerns all sequences of reports.",["visualization/evaluation_visualizer.py:107-145","visualization/evaluation_visualizer.py:348-450","evaluation/evaluation_data_buffer.py","evaluation/base_evaluator.py:304-541"])
p("Plotted values lie within the axes","After every report, every value of the lines of a subplot lies within the limits of its axes.","for every metric and every sequence of reports","Limits depend on the values reported; a test sees values of one run, usually between 0 and 1.",["visualization/evaluation_visualizer.py:355-370","visualization/evaluation_visualizer.py:424-447"])
p("Data points subplot shows the latest samples of every class","The data points subplot shows, for every class, the last hundred samples reported with that label (first two features), in one cluster per class.","for every set of labels and sequence of reports","Whether points are lost depends on the labels and on the order in which they arrive; tests use labels 0 and 1 and do not look into the clusters.",["visualization/evaluation_visualizer.py:235-242","visualization/evaluation_visualizer.py:371-405"])
p("Figure is redrawn regularly but not too often","The first report redraws the figure; of any six consecutive reports at least one does; after a redraw the next one is at the sixth report or at the first report made more than a second later, whichever comes first.","for every sequence of reports and of times at which they are made, even if the clock goes backwards","Redrawing depends on wall clock times, which a test does not control.",["visualization/evaluation_visualizer.py:58-63","visualization/evaluation_visualizer.py:107-145"])
p("Every plotted metric has a titled subplot of its own","Whatever metrics are chosen, every one but running time and model size has a subplot of its own with its name as title, one above the other in the order of the metrics.","for every list of metrics the evaluator accepts","Tests plot two or three metrics; the position code of a subplot has one digit for the number of rows.",["visualization/evaluation_visualizer.py:175-325","evaluation/base_evaluator.py:543-640"])
p("iSOUP: split decision","A leaf of an iSOUP tree (or stacked single-target tree) is split exactly if the best suggestion has positive merit and the Hoeffding bound is below the tie threshold or the second merit below the fraction 1 - bound of the best; it is split along the best suggestion, whose branches all weigh at least 5, and never deactivated. With remove_poor_atts, attributes are disabled only when the leaf is not split: those whose merit is less than the second best by more than 2 * bound times the best. Deciding never raises.","every leaf statistics, list of candidate splits, bound, tie threshold and options","The decision depends on real-valued merits and bounds; boundary cases are not reachable by sampling.",["trees/isoup_tree.py:iSOUPTreeRegressor._attempt_to_split","trees/_nodes/base.py:ActiveLeaf.get_best_split_suggestions","trees/_split_criterion/intra_cluster_variance_reduction_split_criterion.py"])
p("SAM-kNN finds the nearest samples", "libNearestNeighbor.nArgMin(n, distances), with which SAM-kNN finds neighbours, returns the positions of the n smallest distances: different positions, ordered by distance and by position on ties, and every other position comes after all of them; for every n and all distances, also infinite ones.", "for all arrays of distances, every n and whatever the memory allocated for the result holds", "The result array is not initialised: whether entries are left as they are depends on the memory at hand, so a test usually sees zeros.", ["lazy/src/libNearestNeighbors/nearestNeighbor.cpp:nArgMin", "lazy/src/libNearestNeighbors/nearestNeighbor.cpp:py_nArgMin", "lazy/sam_knn.py:SAMKNNClassifier.get_maj_label"])
p("SAM-kNN votes are counted right", "For 1 <= k <= number of samples and finite distances, get_maj_label answers with the most frequent label (as eight bit integer) of the k nearest samples and get_distance_weighted_label with the label of the largest sum of inverse distances, where distances below 1e-9 count as 1e-9; the smallest label on ties. With distance weights a query that equals one of the k nearest stored samples gets its label, if the others are farther away than (k - 1) * 1e-9.", "for all distances, labels, k, all contents of uninitialised memory and every square root function", "The order of ties depends on the iteration order of the map; tests see few configurations of labels and distances.", ["lazy/src/libNearestNeighbors/nearestNeighbor.cpp:mostCommon", "lazy/src/libNearestNeighbors/nearestNeighbor.cpp:linearWeightedLabels", "lazy/sam_knn.py:SAMKNNClassifier.get_maj_label", "lazy/sam_knn.py:SAMKNNClassifier.get_distance_weighted_label"])
p("SAM-kNN distances are those to the stored samples", "libNearestNeighbor.get1ToNDistances(sample, samples), with which SAM-kNN compares a query with its memory, returns for each stored row the squared Euclidean distance to it; a query with another number of features is rejected.", "for all queries, stored rows and contents of the memory behind them", "A query with too few features is answered silently from misaligned data, one with too many reads memory beyond the array, which no assertion shows.", ["lazy/src/libNearestNeighbors/nearestNeighbor.cpp:getDistance", "lazy/src/libNearestNeighbors/nearestNeighbor.cpp:get1ToNDistances", "lazy/src/libNearestNeighbors/nearestNeighbor.cpp:py_get1ToNDistances", "lazy/sam_knn.py:SAMKNNClassifier.get_distances"])
p("A stream describes the table it was loaded from", "DataStream and FileStream reject text, missing values (unless allowed), features and targets of different length and categorical features that do not exist. Otherwise n_samples, n_features and n_targets are those of the table, n_cat_features and n_num_features count the categorical and the other features, integer class labels are recognised as such, target_values lists the labels of every target in order and n_classes counts the different ones; get_info shows the parameters given.", "for all tables, target positions, lists of categorical features and both ways to pass the targets", "Loaders are tested on a few well-formed files; floating point arrays, negative or repeated positions and the text of get_info of unusual calls are not.", ["data/data_stream.py:DataStream._load_data", "data/data_stream.py:DataStream._load_X_y", "data/data_stream.py:DataStream._get_target_values", "data/data_stream.py:DataStream.get_info", "data/data_stream.py:check_data_consistency", "data/file_stream.py:FileStream._load_data", "data/file_stream.py:FileStream.get_target_values"])
p("make_logical returns the truth tables", "make_logical(n_tiles) returns 4 * n_tiles samples; each pairs two binary inputs with their OR, XOR and AND, and every combination of inputs occurs n_tiles times, whatever the random state.", "for every n_tiles and every shuffle of the rows", "Features and labels are cut out of one shuffled table; that they still belong together for every shuffle is not visible in one seed.", ["data/synth.py:make_logical"])
p("Evaluators tell learners the class labels", "At its first call of partial_fit in an evaluation a classifier is told the class labels of the stream as classes, each label once and in order (for several targets: the labels of all targets), and later calls leave classes out; a regressor never gets classes. This holds for prequential, delayed and holdout evaluation, with and without pre-training.", "for all loaded streams, tasks, pre-training sizes and numbers of batches", "Most learners ignore or merely store classes, so a wrong value goes unnoticed until a label is missing.", ["evaluation/evaluate_prequential.py:EvaluatePrequential._train_and_test", "evaluation/evaluate_holdout.py:EvaluateHoldout._periodic_holdout", "evaluation/evaluate_prequential_delayed.py:EvaluatePrequentialDelayed._update_classifiers", "evaluation/evaluate_prequential_delayed.py:EvaluatePrequentialDelayed._train_and_test"])
p("Adaptive regression tree before its first split","As long as HoeffdingAdaptiveTreeRegressor with leaf_prediction='mean' has not split, it predicts the weighted mean of the targets seen so far. With bootstrap sampling every row counts as its weight times its Poisson draw, so a row drawn 0 times does not count. The errors its drift detector sees are the distances between each target and the mean of the targets before it.","all row sequences with positive weights, all draws, both settings of bootstrap_sampling","a Poisson draw of 0 is as likely as a draw of 1 but leaves no trace in test scores; tests do not look at the detector input",["trees/_nodes/hatr_nodes.py:194-232","trees/_nodes/hatr_nodes.py:242-270","trees/hoeffding_adaptive_tree_regressor.py:181-212"])
p("Summary of a prequential evaluation","At its end EvaluatePrequential prints the number of processed samples and, for every model in order, the mean value of every chosen performance metric over exactly these samples, and the running times and the model size if chosen.","all streams, models, metric lists, batch sizes, sample limits and reasons for the end of the evaluation","tests do not read what is printed; the difference only shows when the evaluation ends between two rows or with particular metrics",["evaluation/base_evaluator.py:674-780","evaluation/evaluate_prequential.py:266-394","evaluation/evaluation_data_buffer.py"])
p("Last row of a delayed evaluation covers every scored sample",
  "In EvaluatePrequentialDelayed the rows written to the report cover the whole evaluation: every row covers the results up to and including one scoring step, its id is the number of samples trained on before that step (pre-training included) less the batch size, a step adds a row exactly when that number is a multiple of n_wait, has reached max_samples or exceeds n_wait times one more than the rows so far, and the last row covers every scored sample. Violated for streams with no more than max_samples samples: nothing closes the report there, and with n_wait not smaller than the stream there is no row at all.",
  "every temporal stream, delay pattern, batch size, n_wait, pretrain_size and max_samples (at least 20 samples to evaluate)",
  "Depends on the alignment of delays, batch size, n_wait and pretrain_size over a whole run.",
  ["evaluation/evaluate_prequential_delayed.py:EvaluatePrequentialDelayed._update_metrics_delayed", "evaluation/evaluate_prequential_delayed.py:EvaluatePrequentialDelayed._train_and_test", "evaluation/base_evaluator.py:StreamEvaluator._update_metrics"])
p("Memory management of regression trees switches off the deepest leaves",
  "Whenever memory management of a Hoeffding tree regressor (or a tree built on it) runs and is not switched off, no leaf that is inactive afterwards is closer to the root than a leaf that is active.",
  "every reachable tree, every size estimates and limit",
  "Needs every tree shape and every estimate; tests look at single trees under one limit.",
  ["trees/hoeffding_tree_regressor.py:516-519", "trees/hoeffding_tree.py:638-667"])
p("stop_mem_management stops growth as soon as the memory limit is hit",
  "With stop_mem_management=True a Hoeffding tree stops growing as soon as its estimated size exceeds max_byte_size, as documented. Violated: the estimate tested counts one active leaf only, so when the limit is first hit leaves are switched off and the tree grows on; it stops for good the next time memory management finds an inactive leaf.",
  "every reachable tree, every size estimates, limit and later training",
  "Depends on size estimates over the whole history of a tree.",
  ["trees/hoeffding_tree.py:638-667"])
p("Tree sizes are estimated every memory_estimate_period",
  "A Hoeffding tree compares its size with max_byte_size once every memory_estimate_period of training weight. With unit weights it does so exactly at the multiples of the period; violated for other weights: after one sample of weight one half and samples of whole weights the size is never estimated, and every leaf stays active however small max_byte_size is.",
  "every training history, period and limit",
  "The failure is an absence over all later history.",
  ["trees/hoeffding_tree.py:293-353", "trees/hoeffding_tree.py:669-693"])
p("Former names of classes", "Calling a renamed class by its former name (KNN, HAT, VFDR, OnlineBoosting, BatchIncremental, InstanceWindow, ...) gives, after a warning, exactly the object that the same call of the class gives: every positional and keyword argument reaches the parameter it was meant for, the others have the defaults of the class.", "all 28 functions that stand for a renamed class, all positional and keyword arguments", "a test calls a function with some arguments; swapped, dropped or unknown arguments show only for the combinations that use them", ["lazy/knn_classifier.py:10-16", "meta/batch_incremental.py:12-17", "meta/adaptive_random_forests.py:18-61", "trees/hoeffding_tree.py:27-46", "trees/hoeffding_adaptive_tree_regressor.py:14-37", "rules/very_fast_decision_rules.py:32-49", "utils/data_structures.py:870-875"])
p("Metrics passed to an evaluator", "An evaluator reports the metrics in the list passed to its constructor, and data_points as well if data_points_for_classification is set, whatever other evaluators are constructed and used; the list of the caller keeps its contents.", "all lists, all sequences of constructions, evaluations and changes of lists by the caller", "tests construct one evaluator per list", ["evaluation/evaluate_prequential.py:199-222", "evaluation/evaluate_prequential_delayed.py:225-247", "evaluation/evaluate_holdout.py:174-177", "evaluation/base_evaluator.py:170-239"])
p("The text of an estimator", "repr(estimator) and get_info() give, apart from white space, Name(p=v, ...) with every parameter in alphabetical order and its value, nested estimators likewise; lists, tuples and parameter lists show their first thirty elements. Of a text with more than 700 visible characters the first 350 and at least the last 350 are kept, with dots in between, continuing at the end of a line if lines are left out, unless that would save no space.", "all estimators: any number of parameters, any nesting and lengths of values (dictionaries and strings to be broken excepted)", "the layout depends on the lengths of all texts; tests see some estimators, most of which fit", ["core/base.py:246-293", "utils/_pprint.py:105-330", "utils/_pprint.py:333-436"])
p("PerceptronMask is the Perceptron of its parameters", "After any calls of fit, partial_fit, set_params and reset a PerceptronMask answers as the Perceptron of scikit-learn built with its present parameters and taught by the calls since construction or reset.", "all parameter values, all sequences of calls, any wrapped learner", "depends on the order of calls; a test that sets parameters checks get_params", ["neural_networks/perceptron.py"])
p("Using an evaluator again","An evaluator can be used for several evaluations one after the other, also after its parameters were changed with set_params and after an evaluation ended with an exception: each evaluation measures, reports, writes to its result file, does to the models and raises exactly what a newly constructed evaluator with the current parameters would, and the result file holds the lines of that evaluation only. Violated: the window of the current measurements keeps the size given to the constructor when n_wait (test_size for holdout) is changed; when a delayed evaluation raises while the queue is emptied (as it does for every stream with sample weights) its lines end up in the file of the next evaluation; and with pretrain_size changed to 0 a delayed evaluation goes on with the queue of the previous one.","every evaluator class, every history of evaluations, parameter changes and exceptions, every stream, model and set of parameters","Quantifies over histories of one object and over the places where exceptions leave an evaluation; tests construct a new evaluator each time.",["evaluation/base_evaluator.py:37-74, 265-318, 543-672","evaluation/evaluate_prequential.py:176-394","evaluation/evaluate_holdout.py:154-345","evaluation/evaluate_prequential_delayed.py:202-496"])
p("VFDR: what the class weights of a rule count",
  "With nominal attributes, the class weights of a rule of VeryFastDecisionRulesClassifier, on which its predictions rest, count training instances: exactly the instances learned by the rule, or by the default rule before the rule was made, that satisfy all its conditions, each once. The default rule counts the instances it has learned that did not go to a rule.",
  "for all training data in any batches, all parameters, criteria and detectors",
  "the statistics of a rule are handed over at every expansion; tests train a few rules and check accuracy or the printed rules, not what has been counted",
  ["rules/very_fast_decision_rules.py:VeryFastDecisionRulesClassifier._expand_rule","rules/very_fast_decision_rules.py:VeryFastDecisionRulesClassifier._create_rule","rules/very_fast_decision_rules.py:VeryFastDecisionRulesClassifier.Rule.learn_from_instance","rules/nominal_attribute_class_observer.py:NominalAttributeClassObserver"])
p("Switching the noise features of a generator after construction","The attribute has_noise of LEDGenerator, LEDGeneratorDrift, WaveformGenerator and SineGenerator can be set at any time; from then on next_sample returns the samples of a generator constructed with that value: the relevant features, the noise features if asked for, and the class as label.","every one of the generators, every history of settings of has_noise, every draw and every batch","The constructor derives n_features from has_noise once and next_sample reads both; tests construct generators and never set the attribute.",["data/led_generator.py:101-122","data/led_generator.py:161-218","data/led_generator_drift.py:77-136","data/waveform_generator.py:92-190","data/sine_generator.py:89-116","data/sine_generator.py:181-259"])
p("The description of a generator fits its samples","n_features is the width of the samples, feature_names names each column once, n_num_features and n_cat_features count the numeric and the categorical columns, cat_features_idx lists the categorical columns, n_targets and target_names fit the targets and n_classes the classes.","every generator and every choice of its constructor parameters","The parameters are unbounded, and tests compare the attributes they list with literals; cat_features_idx is never compared.",["data/base_stream.py:19-33","data/agrawal_generator.py:102-114","data/anomaly_sine_generator.py:68-73","data/led_generator.py:106-120","data/random_tree_generator.py:113-131","data/mixed_generator.py:88-99","data/stagger_generator.py:88-101"])
p("Renaming the features of AGRAWALGenerator","feature_names is a settable attribute of a stream; setting it on an AGRAWALGenerator changes the names and not the samples.","every list of names, every sample","The names are evaluated as Python expressions when a sample is made; no test sets them.",["data/agrawal_generator.py:111-113","data/agrawal_generator.py:268-269","data/base_stream.py:142-160"])
p("What a row of a prequential evaluation says","Every row of a prequential evaluation carries the number of samples before its batch, pretrain_size + k * batch_size, and the scores of test-then-train: the mean accuracy of each model is the share of correct predictions among all samples from the end of the pre-training to the end of that batch, the current accuracy the share among the last n_sliding of them, each batch predicted by the model as it was after learning exactly the samples before the batch. For regression the same holds of the mean squared and mean absolute errors. Rows written before an exception are right as well.","all streams, finite or endless, all models with one prediction per sample (any state, any exceptions), any number of models, all batch sizes, pre-training sizes, limits and n_wait, n_sliding at least 1","Combines the order of reading, predicting, scoring, training and reporting with the windowed statistics over all runs; tests compare the scores of a few runs with recorded values.",["evaluation/evaluate_prequential.py:266-394","evaluation/base_evaluator.py:265-320","evaluation/base_evaluator.py:322-530","metrics/_classification_performance_evaluator.pyx:48-115","metrics/measure_collection.py:1079-1236"])
p("What a row of a holdout evaluation says","Every row of a holdout evaluation carries the number of samples used so far, and the scores of the models at that moment: the current accuracy of each model is the share of correct predictions for the test set of that row, made by the model after learning exactly the training batches before, and the mean accuracy the share among the predictions of all tests so far. With a static test set that set is the first test_size samples and every other sample is used for training, once and in order; with dynamic test sets every sample is used once, for training or for a test. Rows come exactly after the training steps that complete a multiple of n_wait training samples (static) or reach n_wait further training samples for each test so far (dynamic), or reach the limit. For regression the same holds of the mean squared and mean absolute errors. Rows written before an exception are right as well. Violated: when the end of the stream cuts a dynamic test set short, the current scores of that row include predictions from the test before.","all streams, finite or endless, all models with one prediction per sample (any state, any exceptions), any number of models, all batch sizes, test sizes of at least 1, limits and n_wait","Combines the order of reading, training, predicting, scoring and reporting with the windowed statistics over all runs; tests compare the scores of a few runs with recorded values.",["evaluation/evaluate_holdout.py:228-345","evaluation/base_evaluator.py:265-320","evaluation/base_evaluator.py:322-530","metrics/_classification_performance_evaluator.pyx:490-564","metrics/measure_collection.py:1150-1236"])
p("The split a numeric attribute observer proposes","For a numeric attribute the Gaussian observer proposes, if at least two different values were observed, one of the ten points dividing the range of the observed values (over all classes) into eleven equal parts: none of them has a larger merit, the smaller ones have a smaller merit, and the suggestion carries the branch distributions and the merit of that point. If all values are equal or nothing was observed there is no suggestion. In the branch distributions the weight expected of a class at or below the threshold is 0 below its smallest value, its whole weight from its largest value on, and grows with the threshold. Violated: for a class with a total weight of at most 1 it can fall from the whole weight to 0 as the threshold grows.","all histories of observations, all merit functions (values or -inf), all numbers of bins, all densities and all monotone distribution functions into [0,1]","The loop over candidates, the per-class ranges and the estimators interact over all histories; tests look at one attribute with a handful of values.",["trees/_attribute_observer/numeric_attribute_class_observer_gaussian.py:53-101","rules/numeric_attribute_class_observer.py:50-102","trees/gaussian_estimator.py:18-97"])
p("What a row of a delayed evaluation says","In a prequential evaluation with delayed labels that finishes, every row belongs to one scoring step and its id is the number of samples trained on before that step less the batch size. For each model the mean accuracy of the row is the share of correct results up to and including that step, and the current accuracy the share among the last n_sliding of them; for regression the same holds of the mean squared and mean absolute errors. The results up to a step pair the label of each sample with the predictions made for it when it arrived, each once; while the stream is read a step only adds predictions whose label is available at the newest arrival time, and leaves out none of those.","all temporal streams without weights, finite or endless, all delays, all models with one prediction per sample, any number of models, all batch sizes, pre-training sizes, limits and n_wait, n_sliding at least 1, at least 20 samples to evaluate","Combines the queue of delayed samples, the transposed predictions, the windowed statistics and the reporting schedule over all runs and delay patterns; tests compare a few runs with recorded values.",["evaluation/evaluate_prequential_delayed.py:290-372","evaluation/evaluate_prequential_delayed.py:374-496","data/time_manager.py:53-156","evaluation/base_evaluator.py:265-320","metrics/measure_collection.py:1150-1236"])
p("What an ADWIN alarm means",
  "With the documented test (mean difference above epsilon), a check of ADWIN that is due answers True only if the window splits into an older and a newer part of at least five elements each whose means differ by more than epsilon, and it does answer True if such a split falls between two of its buckets. In particular it never answers True while only one value was fed. (Found: the scan leaves out the newest bucket of every size, so the parts compared are not contiguous; with the default delta, 34 zeros followed by 62 ones go unnoticed although the split after 32 is far above epsilon, and runs of zeros and ones raise an alarm although no split of the window is above it. What holds: an alarm means that the elements can be divided, contiguously or not, into two such parts; a split inside the buckets of the oldest size is noticed; a constant stream raises no alarm.)",
  "all sequences of add_element, detected_change, clock changes and resets, all delta (between 0 and 1 for the constant stream)",
  "A test feeds one synthetic drift that is eventually found; which splits are compared, and what an alarm says about the window, concerns all windows and all ways the buckets can fall.",
  ["drift_detection/adwin.py:273-364", "drift_detection/adwin.py:366-373"])
p("What kNN-ADWIN tells its change detector",
  "KNNADWINClassifier.partial_fit tells its detector one value per row, in order: whether the label predicted for the row, from the window that already contains the row, is right (0 while there are fewer than n_neighbors samples); and it asks for a change once per call, after all rows. Hence fewer than 32 calls never shorten the window, however much data they bring; and with one neighbour, as long as equal rows carry equal labels, every row is its own neighbour, so no change is ever reported and the window is that of a plain KNNClassifier, whatever the drift.",
  "all calls, all data, all n_neighbors and window sizes; any exact search for the nearest sample in the one-neighbour part",
  "Tests compare one accuracy on one stream; that the detector never reacts under these conditions is a statement about all streams.",
  ["lazy/knn_adwin.py:109-161"])
p("Which estimators do not care how the rows are cut into calls of partial_fit",
"For KNNClassifier, NaiveBayes (classes not given or a list), OzaBagging, LearnPPNSE, LearnPPClassifier, BatchIncrementalClassifier, AdaptiveRandomForestClassifier (no weights, parts not empty), and OnlineAdaC2 / OnlineCSB2 / OnlineRUSBoost / OnlineUnderOverBagging with drift detection off and no weights: once partial_fit(A) has succeeded, partial_fit(B) leaves the estimator exactly as a single partial_fit(A followed by B) would have left it, or raises what that would have raised (the random draws continuing where they were). It is not so for KNNADWINClassifier (the same rows can be all kept in one call and partly dropped in two), for OzaBaggingADWINClassifier and for the ensembles for skewed classes with drift detection (their change detectors are told different things).",
"for all estimator states, all batches A and B, all base learners, all draws; witnesses with the default test of ADWIN for the exceptions",
"There are infinitely many ways to cut a stream into calls and infinitely many states to start from; a test compares a few, and the exceptions need particular histories (a check is made only at every 32nd call).",
["lazy/knn_classifier.py:126-133","bayes/naive_bayes.py:98-112","meta/oza_bagging.py:124-187","meta/learn_nse.py:124-263","meta/learn_pp.py:137-191","meta/batch_incremental.py:88-142","meta/adaptive_random_forests.py:276-331","meta/online_adac2.py:202-276","lazy/knn_adwin.py:109-161","meta/oza_bagging_adwin.py:106-202"])
p("reset() of the online ensembles makes them as new",
  "With an integer random_state, an OnlineBoosting, OnlineAdaC2, OnlineCSB2, OnlineRUSBoost, OnlineUnderOverBagging, OnlineSMOTEBagging, AdaptiveRandomForest or StreamingRandomPatches classifier behaves after reset() like a newly built one. In fact the first six keep the classes of their first partial_fit: told the same classes they behave like new, told others they raise ValueError, and told none they go on where a new one would raise. The forest keeps them too, ignores those it is given later, and raises IndexError when a tree votes for a larger label. StreamingRandomPatches keeps the training method: after one use on data with no more features than the subspace size it never uses subspaces again.",
  "for all ensembles, base learners, detectors, draws, classes and sequences of calls before and after reset()",
  "The effect shows only when an object is reused on data with other classes or another number of features; a test that resets and trains on the same data sees nothing.",
  ["meta/online_boosting.py:135-150","meta/online_adac2.py:142-161","meta/online_csb2.py:138-155","meta/online_rus_boost.py:140-159","meta/online_under_over_bagging.py:133-145","meta/online_smote_bagging.py:128-141","meta/adaptive_random_forests.py:299-300","meta/adaptive_random_forests.py:404-409","meta/streaming_random_patches.py:373-376","meta/streaming_random_patches.py:419-422"])
p("Nearest neighbours: what predict and reset leave behind",
  "The predictions of a KNNClassifier depend only on the samples given since the last reset(): earlier calls of predict or predict_proba, the classes named in partial_fit and everything before the reset make no difference. The rows of predict_proba hold the label frequencies among the neighbours; their length is one more than the largest label ever named in a partial_fit, or in the window at any answered predict or predict_proba call up to now, and reset() does not shorten it. A KNNADWINClassifier has after reset() and any calls the window and detector of a new one.",
  "for all sequences of partial_fit, predict, predict_proba and reset calls, all window sizes and numbers of neighbours, and every neighbour search that returns as many places of the window as asked",
  "That queries change nothing but the row length is a statement about all interleavings of calls; tests query once at the end.",
  ["lazy/knn_classifier.py:95-186","lazy/base_neighbors.py:32-36","lazy/knn_adwin.py:100-112","lazy/knn_adwin.py:114-166"])
p("Online boosting: training",
"Give a new OnlineBoostingClassifier its first batch with the classes, then any further batches, over a base learner whose partial_fit and predict do not fail. Then, whatever is drawn and whatever is predicted, no call fails; there are max(n_estimators, number of classes) members; each member is shown every sample once and in order. A member is trained on a sample as often as a Poisson draw tells whose rate is the weight of the sample. The first member is shown each sample with weight 1. A member that was not trained on the sample hands its weight on unchanged; one that was trained on it and predicts it correctly divides the weight by 2(1 - e) (leaves it if e is 0), one that predicts it wrongly by 2e, where e is the share of wrong weight among all samples the member was trained on so far, this one included. The epsilon of each member, from which the vote is weighted, is this share, or 0 for a member never trained.",
"for all batches, class lists, ensemble sizes, draws of the sampler, detectors and base learners that do not fail",
"The weights depend on all draws and predictions so far; a test sees one random stream",
["meta/online_boosting.py:165-186", "meta/online_boosting.py:188-253", "meta/online_boosting.py:255-265"])
p("Naive Bayes: only the total weight of each labelled row matters",
"Train two NaiveBayes models (same nominal attributes) so that every labelled row (features and class) has the same total weight in the training data of both, with weights not negative. Then predict_proba and predict of the two agree on all rows: the order of the rows, how they were spread over calls of partial_fit, and whether a row came once with weight 3 or three times with weight 1 do not matter. The classes argument is the same list in all calls, or never given.",
"for all training data of complete numeric rows, weights, calls, nominal attributes, density functions and rows to predict",
"A test compares a few orders and weights of one data set",
["bayes/naive_bayes.py:74-190", "bayes/utils.py:8-42", "trees/gaussian_estimator.py:18-79", "trees/_attribute_observer/numeric_attribute_class_observer_gaussian.py:23-51", "trees/_attribute_observer/nominal_attribute_class_observer.py:20-44"])
p("Naive Bayes: the unit of a numeric attribute",
"The unit in which a numeric attribute is measured does not matter to NaiveBayes: if all values of one attribute are replaced by a*x + b (a > 0), in the training rows and in the rows to predict, predict_proba and predict answer as before. (Holds if every class seen has weight more than 1 and two different values of the attribute. Violated otherwise: a class that has shown one value only gets the density 1 there in every unit, so that the unit decides the predicted class.)",
"for all training data, rows to predict, units and attributes",
"A test tries one unit on one data set",
["trees/gaussian_estimator.py:56-79", "bayes/naive_bayes.py:114-182", "bayes/utils.py:28-42"])
p("Hoeffding tree: the unit of a numeric attribute",
"Giving one numeric attribute in another unit (x becomes a*x + b with a > 0, say Celsius to Fahrenheit) in every training row, and then in every row asked about, does not change what a HoeffdingTreeClassifier does: the tree splits at the same moments on the same attributes, the thresholds of that attribute being the old ones in the new unit, every leaf holds the same class weights, the same exceptions are raised, and predict and predict_proba answer the same.",
"for every sequence of weighted training rows, every attribute position, every a > 0 and b, every split criterion and split decision based on class distributions, every memory limit, and every later query",
"A test tries one unit on one data set; that every threshold, every merit and every vote is unit free holds for all data and all trees",
["trees/hoeffding_tree.py:552-631", "trees/_nodes/base.py:432-491", "trees/_nodes/htc_nodes.py:1-230", "trees/_attribute_observer/numeric_attribute_class_observer_gaussian.py:1-140", "trees/gaussian_estimator.py:56-97", "bayes/utils.py:28-42"])
p("Hoeffding tree: the kind of leaves and the tree that grows",
"leaf_prediction says how a leaf answers, not how the tree grows: HoeffdingTreeClassifiers that differ only in leaf_prediction ('mc', 'nb', 'nba') and nb_threshold, trained on the same rows, raise the same exceptions and have the same splits on the same attributes with the same thresholds, the same class statistics in every node and the same active leaves.",
"for every two kinds of leaves, every two thresholds, every sequence of weighted rows, every mix of numeric and nominal attributes, every criterion, bound and tie threshold, with and without remove_poor_atts, as long as the memory manager activates the same leaves",
"A test compares trees on one data set with default parameters; that no counter or vote of a leaf reaches the split decision is about all data and all parameters",
["trees/_nodes/htc_nodes.py:63-201", "trees/_nodes/base.py:444-491", "trees/hoeffding_tree.py:472-487", "trees/hoeffding_tree.py:552-631"])
p("Models evaluated together do not influence one another's figures",
"EvaluatePrequential can be given several models at once. What it reports about each of them (sample ids, mean and current value of every metric, row by row) is what it reports when it is given that model alone with the same stream and settings, provided each model can be evaluated alone to the end; then the joint evaluation reaches its end, too. If some model raises an exception, the joint evaluation stops there for all of them, and what is reported about each is a beginning of what is reported about it alone. Assumed: the models share no state (no common random generator), each returns one prediction per row, and the time limit is not reached earlier by the joint evaluation.",
"every number of models, every learner, stream, pretraining size, batch size, list of metrics, n_wait and max_samples",
"an interaction through the shared loop (a prediction attributed to the wrong model, a list shared by two evaluators, a count taken from the first model) shows only for particular combinations of models; a test compares one pair of models on one stream",
["evaluation/evaluate_prequential.py:266-394","evaluation/base_evaluator.py:273-297","evaluation/base_evaluator.py:320-535"])
p("ADWIN: level, direction and unit of the values",
"Feeding ADWIN x + c in place of x, or c - x in place of x (hits instead of errors, say), does not change any answer of detected_change(), nor width, variance and n_detections; estimation changes accordingly. The unit, however, matters: a stream of at most N values within an interval of length 8/(3N) is never reported, whatever change it contains (delta at most 1/2), and there is a stream of zeros and ones that is reported, but not when its values are divided by 100.",
"every sequence of calls (add_element, detected_change, set_clock with a positive clock, reset), every delta and every number c",
"a test feeds a few streams; the invariance concerns all streams and every state of the bucket structure, and a slip in one of the incremental variance formulas would show only after particular sequences of merges and deletions",
["drift_detection/adwin.py:167-271","drift_detection/adwin.py:273-373"])
p("PageHinkley and HDDM_A: level and unit of the values",
"Raising every value by the same number changes no change or warning flag of PageHinkley or HDDM_A (nor the delay of HDDM_A) at any point of the stream; the estimation is raised by that number. For PageHinkley, multiplying the values, delta and threshold by the same positive number changes no flag either; and PageHinkley, for delta and threshold not negative, reports nothing on a stream whose values never increase.",
"every stream, all parameters (HDDM_A: confidences in (0, 1])",
"a statement about pairs of executions on all streams; tests compare the flags on a single recorded stream",
["drift_detection/page_hinkley.py:53-109","drift_detection/hddm_a.py:79-190"])
p("HDDM_W: level of the values",
"HDDM_W compares weighted averages, so raising or lowering every value by the same number should not change its flags, delay and width. This holds as long as no value is negative before and after. It fails otherwise: a negative average is taken for 'no average yet', so a stream of negative values is never reported; for all parameters there is a stream with a reported change that goes unreported when all its values are lowered.",
"every stream; lambda in [0, 1] (violation: in (0, 1]), confidences in (0, 1]",
"tests feed zeros and ones; the failure needs negative values",
["drift_detection/hddm_w.py:65-222"])
p("Nearest neighbours: what the predictions depend on",
"For a row to which no two samples of the window are equally near, the predictions of KNNClassifier and KNNRegressor are determined by the samples that have fewer than n_neighbors nearer ones: label frequencies and most frequent label, or the aggregate of the targets. The order in which the samples of the window arrived makes no difference, and of the distances only their order matters; so with the Euclidean metric the predictions do not change when a constant is added to a feature, when all features are given in another common unit or when the features are permuted. The unit of a single feature does matter, and with equally near samples the answer depends on which of them the search returns.",
"every sequence of partial_fit, predict and reset calls, every metric, every exact neighbour search, every n_neighbors > 0 and max_window_size, all rows without ties, all rewritings of the rows that preserve the order of distances",
"a relation between pairs of executions over all windows, metrics and transformations; tests compare predictions on one data set",
["lazy/base_neighbors.py:26-36","lazy/knn_classifier.py:126-186","lazy/knn_regressor.py:134-171"])
p("The numbers that stand for the classes do not matter to HoeffdingTreeClassifier if order and 0 are kept",
"Rename the classes in all training rows of a HoeffdingTreeClassifier so that their order is kept. With information gain or Gini, numeric and nominal attributes and every kind of leaves, training ends with the same exception or the same splits, with the class weights under the new names. If the renaming also keeps label 0, every row gets the same votes under the new names, and predict returns the new name of what it returned before. The label 0 has to be kept: where no class gets a vote, predict answers 0, whether or not there is a class 0. split_criterion='hellinger' is tied to the labels 0 and 1: if there is no class called 1, every split has merit 0 or minus infinity.",
"for all training sequences, trees, order-preserving renamings, leaf kinds, rows to predict",
"Tests use data sets whose labels are already 0..k-1; no test trains a second tree on renamed labels, and a test could only compare a few trees.",
["trees/hoeffding_tree.py", "trees/_nodes/htc_nodes.py", "trees/_split_criterion/hellinger_distance_criterion.py", "trees/_attribute_observer/nominal_attribute_class_observer.py", "trees/_attribute_observer/numeric_attribute_class_observer_gaussian.py", "bayes/utils.py"])
p("Learning a row brings a leaf perceptron's answer for that row closer to its target", "In a regression tree with perceptron leaves, one learning step moves the answer of the leaf for the row it learns towards the target of the row: with r the learning ratio (learning_ratio_perceptron, or that divided by 1 + learning_ratio_decay times the weight of the leaf, which lies between 0 and the parameter and never grows with the weight) and x the normalised row, the fraction r * |x|^2 of the way. Violated: after each step the weights are divided by the sum c of their absolute values, which divides the distance of the answer from the mean target by c; an answer that is too high can thereby become higher, and the error on the row just learnt grow, with the default learning ratio. A perceptron of unit norm that already answers the target keeps its answer. As long as the tree has seen a weight of at most one, learning leaves the perceptrons of a multi-target tree as they are.", "every leaf, row of weight at least 1 and below 2, learning ratio and tree sums with a varying target; single-target and multi-target trees", "The direction of a single step depends on all weights and on the unit of the attributes; tests look at errors averaged over a stream.", ["trees/_nodes/htr_nodes.py:88-136", "trees/_nodes/isouptr_nodes.py:28-90"])
p("Hoeffding tree: what a numeric split hands to its branches", "When a HoeffdingTreeClassifier splits a leaf on a numeric attribute, the new node has exactly two branches; the threshold lies strictly between two values the leaf has seen; a row goes to the first branch if its value is at most the threshold and to the second otherwise; and the class weights the two branches start with share out, class by class, the weight of the rows the leaf has learnt since it was made, a class seen only at or below (only above) the threshold going wholly to the first (second) branch.", "every active leaf, sequence of rows with positive weights it has learnt, number of attributes, leaf kind, criterion and split decision, and distribution function with values in [0, 1]", "The branch weights come from normal approximations per class; a test checks a tree on one data set and cannot see a class credited to the wrong branch in general.", ["trees/_attribute_observer/numeric_attribute_class_observer_gaussian.py:45-101", "trees/_attribute_test/numeric_attribute_binary_test.py:12-18", "trees/hoeffding_tree.py:576-631"])
p("KSWIN reacts to the order of the values only, and to values before the current call",
  "KSWIN runs the two-sample Kolmogorov-Smirnov test between stat_size values drawn from the older part of its window and the newest stat_size values. (a) Sending all values of the stream through a strictly increasing map, or through a strictly decreasing one, changes no report and no exception, and the window holds the images of the same values. (b) The value given to add_element takes no part in the test of that same call: whatever the value is, detected_change() answers the same. (c) A reported change means that at some value the share of the drawn older values at or below it and the same share of the newest stat_size values differ by more than 0.1; a stream that repeats one value is never reported, however large alpha is.",
  "for all window sizes, statistic sizes, alpha, positions drawn, tables of p-values, streams and strictly monotone maps",
  "A test feeds one stream with one seed; that every monotone rescaling of every stream gives the same alarms is a statement about all streams, all maps and all draws.",
  ["drift_detection/kswin.py:77-128"])
p("DDM: a reported change means more errors than before",
  "A user of DDM, told 1 for every wrong and 0 for every right prediction of a learner, relies on a reported change meaning that the learner has become worse: (a) a right prediction is never reported as a change; (b) when a change is reported, the share of wrong predictions since the last change is larger than it was at an earlier moment since then, at least min_num_instances - 1 predictions after that change; (c) as long as no change is reported, that share never exceeds out_control_level times the sum of the share and its deviation at any such earlier moment; (d) a learner that errs at a steady rate is not reported. (d) is false: after min_num_instances - 1 right predictions the first wrong one is reported at once, whatever the levels, so a learner that errs exactly once in every 30 predictions is reported at every one of its errors.",
  "for all sequences of right and wrong predictions, all min_num_instances, all warning levels, all out-of-control levels of at least 1 in (a) to (c) and all of them in (d)",
  "Tests feed one sequence of predictions; that no sequence makes a right prediction an alarm, or makes an alarm while the rate falls, is a statement about all of them and about the real square root.",
  ["drift_detection/ddm.py:80-153"])
p("EDDM: a reported change means that errors come faster",
  "A user of EDDM relies on a reported change meaning that the errors of the learner come faster than before. What holds: (a) if all distances between consecutive errors (and the one from the start to the first error) are equal, neither a change nor a warning is ever reported; (b) when a change is reported, more than 30 errors were made since the last change, and the mean distance between these errors, or the spread of the distances, is less than 0.9 of what it was at an earlier one. What fails: there are predictions at which EDDM reports a change although the mean distance between errors is larger than it was at every earlier error, because a smaller spread alone can be reported.",
  "for all sequences of predictions and all non-negative square roots in (b), those with root of 0 equal to 0 in (a); the counterexample is reported with every square root that is exact to 1/1000",
  "Tests feed one sequence of predictions and look at where the alarms are; what an alarm says about the errors is a statement about all sequences.",
  ["drift_detection/eddm.py:64-155"])
p("PageHinkley: alarms are rises, and lasting rises are reported",
  "With a forgetting factor between 0 and 1 and delta and threshold not negative, a value that PageHinkley reports as a change exceeds the mean of all values since the last change (itself included) by more than delta, unless it is the first value at which the detector may report. Conversely, when n values with mean m, none of them reported, are followed by k values v of at least m, and (1 + alpha + ... + alpha^(k-1)) * (n (v - m) / (n + k) - delta) exceeds the threshold, the rise is reported by the last of these values (provided n + k is at least min_instances - 1).",
  "for all parameters, streams, levels before and after the rise and lengths",
  "Tests look at one stream with one rise; a guarantee that no lasting rise is missed, with a bound on the delay, is about all of them.",
  ["drift_detection/page_hinkley.py:53-109"])
p("WindowedStandardScaler takes the unit and the level out of every column",
"Give a new WindowedStandardScaler the same rows once as they are and once with every column in another positive unit and from another zero point (value -> a*value + b, own a and b per column). The transformed rows are the same, so that what is learned after the scaler does not depend on the units. This holds for every cell after the first row whose column was not constant over the window before it. Not for the first row, which is passed on unchanged, and not after a constant window: there the result is the distance from the constant, in the column's own unit.",
"for every window size >= 1, number of columns, rows, positive units and zero points, cut into calls anyhow",
"A test standardises one sample in one unit; that the unit cancels is a statement about pairs of whole streams and all units, and the cells where it does not are those of a constant window.",
["transform/windowed_standard_scaler.py:30-63"])
p("HDDM_A: lasting rises are reported",
"As long as HDDM_A reports no change, the values since it last started afresh average less than the average of their first k plus sqrt(log(1/drift_confidence)/(2k)) plus sqrt(log(2/drift_confidence)/2) - sqrt(log(1/drift_confidence)/2), for every k. So a rise that lasts is reported: if the k values seen so far average at most p and the m values that follow at least q, and (q-p)*m is at least k+m times that margin, one of the m is reported as a change; with two_side_option the only other possibility is that one of them makes the detector start afresh because of a fall. It starts afresh after a reported change, and otherwise with two_side_option only. It never fails.",
"for every drift_confidence and warning_confidence between 0 and 1, both values of two_side_option, and all real values",
"That a detector must react is a statement about every stream with such a rise, however it wavers; a test shows one stream on which it does. How late the reaction may come follows from an invariant of the minimum kept.",
["drift_detection/hddm_a.py:79-144","drift_detection/hddm_a.py:146-160"])
p("Naive Bayes does not depend on the order of the columns, nor on columns that never vary",
"Train NaiveBayes on rows with positive weights, no call giving classes as a numpy array. Rearrange the columns of all training rows and of the rows to predict in the same way, with the numbers in nominal_attributes following their columns, and leave out any columns that hold one and the same value in all these rows. Then predict_proba and predict give the same answers as before, whether the columns left out are numeric or nominal. Read the other way round: adding columns that never vary, anywhere, changes no answer.",
"for every choice of nominal attributes, every normal density function, every sequence of partial_fit calls, every arrangement of the columns, every set of constant columns left out, and all rows to predict",
"A test can permute the columns of one data set; that no order and no constant column ever matters is a statement about every data set, and for constant columns depends on the special cases of a zero variance and of the Laplace correction.",
["bayes/naive_bayes.py:74-190", "bayes/utils.py:8-42", "trees/gaussian_estimator.py:18-79", "trees/_attribute_observer/numeric_attribute_class_observer_gaussian.py:23-51", "trees/_attribute_observer/nominal_attribute_class_observer.py:20-44"])
p("HDDM_W: which rises it can see",
"HDDM_W works with exponentially weighted averages whose uncertainty never falls below a limit set by lambda_option (L) and drift_confidence. (1) If L / (2 - L) * ln(1 / drift_confidence) is at least 1, no sequence of values between 0 and 1 is ever reported as a change, however the error rate moves; with the default drift_confidence this is so for every lambda_option from 0.26 to 1. The same with warning_confidence holds for warnings. (2) If the detector has kept a stretch of non-negative values, and all values that follow are at least h, where h exceeds the weighted average of the stretch plus its deviation plus the square root of L / (2 - L) * ln(1 / drift_confidence) / 2, then a change is reported once enough of them have come, and how many suffice follows from the parameters.",
"for all drift and warning confidences in (0, 1], all lambda_option in (0, 1], with and without two_side_option, and all sequences of values (in [0, 1] for the first part, non-negative for the second)",
"That a setting makes a detector blind, and that a lasting rise is found for certain, are statements about all sequences of unbounded length; a test sees a change reported or not reported on one of them.",
["drift_detection/hddm_w.py:70-182"])
p("ADWIN notices differences at the oldest bucket sizes and finds every lasting change", "Which differences a due `detected_change()` is certain to notice can be told from the width alone: with between (5+j)*2^R - 4 and 10*2^R - 5 values in the window (j at least 1, more than ten values), it returns True if the mean of the oldest j*2^R values differs from the mean of the others by more than the threshold of the test. And a lasting change is found: if the values in the window lie in one range and all later ones in another, higher or lower, whose gap exceeds a seventh of the first range's length, then for every positive `delta` and every bound on the variance there is a width N such that from any state with at least N values in the window (and a clock of at most 32) some check returns True while at most nine times as many new values are fed, each followed by a check. Before the first drop no bound on the variance is needed.", "for all delta, all histories of add_element / detected_change / set_clock / reset calls, all values", "A test feeds one stream with one jump; which splits the bucket structure lets the detector see, and that a change of any size is found after any long enough history, concern all windows and all positions of the change relative to the buckets.", ["drift_detection/adwin.py"])
p("DDM: which rises of the error rate are certain to be reported", "Let r be the share of wrong predictions since DDM last reported a change, at least min_num_instances - 1 predictions ago, T = r + sqrt(r(1-r)/n) and L = T + (out_control_level - 1) * sqrt(T / (min_num_instances - 1)). As long as no change is reported, the share of wrong predictions (plus its deviation) stays at most L. So if the next predictions contain more than L times (n + their number) wrong ones, a change is reported on one of them; and if a share b > L of them is wrong, it is reported before there are n L / (b - L) of them, whatever their order. Below L a rise can stay unreported for ever: with the default parameters, after 26 right and 6 wrong predictions, an error rate of 1/6 for 360 or more predictions that then rises to 1/4 is never reported, however long it lasts.", "for all out_control_level >= 1, all min_num_instances and warning levels, all sequences of right and wrong predictions", "A test feeds one sequence with one jump of the error rate; that every lasting rise beyond the limit is reported, within a stated number of predictions, concerns all sequences and all histories before them.", ["drift_detection/ddm.py"])
p("KSWIN reports every complete change, or none at all", "Let p1 be the p-value the Kolmogorov-Smirnov test gives two samples of stat_size values that are entirely separated (the smallest it can give). If p1 <= alpha, then once the window is full and the next stat_size values all lie above, or all below, the values in it, detected_change() answers True after one of them or after the value that follows, whatever is drawn at random. If p1 > alpha, detected_change() never answers True on any stream. With the exact p-value 2/C(2s, s), the defaults (alpha 0.005, window 100, stat_size 30) are of the first kind, and with the default alpha every stat_size of 5 or less is of the second kind, without any message.", "for all streams, window sizes of at least stat_size + 2, alpha, random draws and p-value tables", "A test draws once with one seed and one stream; that no draw can miss a complete change, and that some parameters make the detector mute on all streams, are statements about all draws and all streams.", ["drift_detection/kswin.py"])
p("EDDM: errors that come lastingly faster are reported", "Let M be the mean plus two deviations of the distances between errors, taken at any error since EDDM last reported a change (at the 29th prediction or later). If after a wrong prediction that is not reported the distances between errors stay between lo and hi for good, where hi + 2 * (hi - lo) < 0.9 * M, then a change is reported: there is a number N such that one of the next predictions is reported as soon as they contain N more errors, whatever the distances were before and however the errors lie within that range.", "for all sequences of right and wrong predictions, all ranges of distances", "A test feeds one sequence in which errors become more frequent; that the old, longer distances are outweighed after every history and for every later sequence in the range concerns sequences of unbounded length.", ["drift_detection/eddm.py:64-157"])
p("PageHinkley: how soon it can report, and when it is mute", "Let all values lie between a and b, alpha not be negative, and delta and threshold not be negative. A change is reported only when, with k values since the beginning or since the previous report, (b - a - delta) * (1 + alpha + ... + alpha^(k-2)) exceeds threshold. So if alpha < 1 and b - a - delta <= (1 - alpha) * threshold, no stream of such values is ever reported, without any message. On errors coded 0 and 1 with the default delta and threshold: every alpha of at most 0.98 makes the detector mute, and with any alpha up to 1 and any min_instances (default 30) a report needs at least 52 values, also after a report.", "for all parameters (alpha, delta, threshold not negative), all streams of values in a range", "A test feeds one stream; that a setting makes the detector silent on all streams, and that no stream can raise an alarm sooner than a bound, quantify over all streams of all lengths.", ["drift_detection/page_hinkley.py:53-109"])
p("MissingValuesCleaner: what the window strategies put in place of NaN", "With strategy mean or median, missing_value=nan and a window of at least two rows, a cell comes out of MissingValuesCleaner as a number exactly if its column had a number in that row or any earlier one (however far back, also outside the window), and it lies between the smallest and the largest of those numbers; NaN before the first number stays NaN. With window_size=1 nothing is ever replaced, without any message. With strategy mean, rows in other units (a*value + b, own a and b per column) come out as the old results in those units. How the rows are divided over calls of transform does not matter.", "for all window sizes, all matrices of numbers and NaN, all divisions into calls (mean and median: any column statistic that ignores NaN and lies between the numbers)", "A test cleans one matrix; that substitutes are never outside what was seen although they are computed from earlier substitutes, and never missing once a number was seen, concerns all sequences of rows.", ["transform/missing_values_cleaner.py:72-145"])
p("Models in one holdout evaluation do not influence one another's figures", "EvaluateHoldout can be given several models at once. What it reports about each of them (sample ids, mean and current value of every metric, row by row) is what it reports when it is given that model alone with the same stream and settings, with a static test set and with dynamic ones, provided each model can be evaluated alone to the end; then the joint evaluation reaches its end, too. If some model raises an exception, the joint evaluation stops there for all of them, and what is reported about each is a beginning of what is reported about it alone. Assumed: the models share no state (no common random generator), each returns one prediction per row, and the time limit is not reached earlier by the joint evaluation.", "for all streams, numbers of models, learners, metrics, batch sizes, test sizes and waiting times", "A test compares one pair of models on one stream; that no figure of one model ever depends on the presence of another quantifies over all learners, streams and settings.", ["evaluation/evaluate_holdout.py:228-345"])
p("Models in one delayed prequential evaluation do not influence one another's figures",
  "Comparing several models with EvaluatePrequentialDelayed gives every model the rows it would get in an evaluation of it alone: for each of them the predictions, the batches it is trained on, the moment each of its predictions is scored, its final state, the position in the stream and the exception, if any, are those of the evaluation of that model alone with the same settings, and each row holds at the same id the same measurements. No model makes the scores of the others raise if they would not raise alone.",
  "for every number of models, every model that gives one prediction for each row, every stream with or without weights, every order in which the queue's ties are sorted (by the times alone), every batch size, pretrain size, n_wait and max_samples, and any measurement objects",
  "Tests evaluate one or two fixed models on one stream and compare with stored figures; the claim compares all joint evaluations with the evaluations of each model alone.",
  ["evaluation/evaluate_prequential_delayed.py:290-372", "evaluation/evaluate_prequential_delayed.py:374-496", "data/time_manager.py:37-40"])
p("One label above the declared classes silences OzaBagging for good, and nothing less does",
  "partial_fit of OzaBaggingClassifier accepts samples whose label is larger than every class declared in the first call. As soon as one member has been trained on one such sample, and has enough samples to answer for its labels, predict answers class 0 and predict_proba a single 0 for every row, whatever the other members say, whatever came before and whatever samples follow; no exception is raised, although predict_proba documents a ValueError. As long as no member is trained on such a label, every row gets the first class with the largest sum of the members' probabilities.",
  "for every sequence of accepted partial_fit calls on a new ensemble, every number of members, every outcome of the Poisson draws, every batch of rows to predict, and every base learner whose rows have an entry for each label it was trained on and none beyond those and the classes it was told of (such as KNNClassifier between n_neighbors and max_window_size samples)",
  "Tests give labels that were declared; that a single sample among arbitrarily many disables the ensemble for all later calls is a statement about all histories and all random draws.",
  ["meta/oza_bagging.py:124-194", "meta/oza_bagging.py:196-278", "lazy/knn_classifier.py:126-186"])
p("get_measurements covers every prediction of a delayed evaluation",
  "After EvaluatePrequentialDelayed has run, get_measurements(i) gives the measurements of model i, counted from the front or, if negative, from the back: the mean accuracy (for regressors the mean squared and absolute errors) is that of all predictions of the model, exactly one for every sample taken from the stream after the pre-training block, also those scored after the last row was written; the current figures are those of the last n_sliding results scored. Any other index gives (None, None), although an IndexError is documented.",
  "for every finite unweighted stream, all models that give one prediction per row, every sort of the queue by available time, all batch, pre-training and window sizes, n_wait and max_samples with at least 20 samples to evaluate, every time limit, and every index",
  "Tests look at the figures of one run; that no prediction is missing from the final figures or counted twice is a statement about all delays, batch sizes and stopping points.",
  ["evaluation/base_evaluator.py:781-859", "evaluation/evaluate_prequential_delayed.py:320-335", "evaluation/evaluate_prequential_delayed.py:374-496"])
json_lines='\n'.join(json.dumps(x,ensure_ascii=False) for x in P)+'\n'
open('/verif/properties.jsonl','w').write(json_lines)
print(len(P))
