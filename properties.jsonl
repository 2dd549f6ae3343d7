{"id": "C01", "title": "FastBuffer keeps exactly the newest max_size elements", "statement": "After any sequence of add_element calls (each with a list of any length) on a FastBuffer built with max_size >= 1, get_queue() is the last max_size elements of everything ever added, in arrival order.", "quantifier": "every max_size >= 1, every element type, every finite sequence of batches of every length (including empty batches)", "why_tests_cant": "The content depends on the whole history and on how batch sizes straddle the capacity; tests sample a few batch splits.", "anchors": ["src/skmultiflow/utils/data_structures.py:FastBuffer.add_element", "src/skmultiflow/utils/data_structures.py:FastBuffer.get_queue"]}
{"id": "C02", "title": "FastBuffer eviction reports lose and duplicate nothing", "statement": "For every history of add_element, get_next_element and clear_queue calls, each call's return value and the visible queue are those of an ordinary bounded first-in-first-out queue: the evicted list returned by add_element is None exactly when everything fitted, otherwise it lists the displaced elements oldest first, get_next_element returns and removes the oldest element (None when empty).", "quantifier": "every interleaving of the three operations, every max_size >= 1", "why_tests_cant": "Needs all interleavings of pushes, pops and clears around the full/empty boundaries.", "anchors": ["src/skmultiflow/utils/data_structures.py:FastBuffer"]}
{"id": "C03", "title": "SlidingWindow keeps the newest window_size labelled samples, aligned", "statement": "Feeding samples one row at a time, the features and targets buffers always hold exactly the last window_size (x, y) pairs in arrival order, row i of the targets belonging to row i of the features; a row with the wrong number of features is rejected with ValueError and leaves the buffers untouched. (With multi-row adds the size bound fails; that violation is recorded separately in the same claim.)", "quantifier": "every window_size >= 1 and every sequence of single-row adds, good or malformed; for the violation: a concrete multi-row add", "why_tests_cant": "Alignment and eviction must hold after every prefix of every stream.", "anchors": ["src/skmultiflow/utils/data_structures.py:SlidingWindow.add_sample", "src/skmultiflow/utils/data_structures.py:SlidingWindow.delete_oldest_sample"]}
{"id": "C04", "title": "Confusion matrix entries and marginals always agree with the recorded results", "statement": "After any sequence of add operations, the entry for (true i, predicted j) equals the sum of the weights recorded for that pair; every row sum, column sum and the diagonal sum kept incrementally equals the corresponding sum of entries over the recorded results.", "quantifier": "every sequence of (true, predicted, weight) results, every class set, weights of any sign (removals are negative weights)", "why_tests_cant": "The marginals are maintained incrementally and drift can only show after particular histories.", "anchors": ["src/skmultiflow/metrics/_confusion_matrix.pyx:ConfusionMatrix"]}
{"id": "C05", "title": "Accuracy is the fraction of correctly predicted results", "statement": "With unit weights, accuracy_score() after any non-empty history equals (number of results with y_true == y_pred) / (number of results), lies in [0,1], and is 0 for an empty history. With other weights the value is (correct weight)/(number of results), which can leave [0,1]; that violation is exhibited.", "quantifier": "every sequence of results over every set of non-negative class labels", "why_tests_cant": "Quantifies over all histories; the weighted violation is invisible with the unit weights used in tests.", "anchors": ["src/skmultiflow/metrics/_classification_performance_evaluator.pyx:ClassificationPerformanceEvaluator.add_result", "src/skmultiflow/metrics/_classification_performance_evaluator.pyx:ClassificationPerformanceEvaluator.accuracy_score"]}
{"id": "C06", "title": "Windowed classification metrics equal the metrics of the last window_size results", "statement": "After any history of positively weighted results the sliding-window evaluator has the same confusion matrix, sample count, accuracy, kappa, majority class and per-class precision and recall as a fresh evaluator fed only the last window_size results.", "quantifier": "every window_size >= 1, every history length, every class labels, every positive weights", "why_tests_cant": "Eviction corrections must cancel exactly for every history longer than the window.", "anchors": ["src/skmultiflow/metrics/_classification_performance_evaluator.pyx:WindowClassificationPerformanceEvaluator.add_result"]}
{"id": "C07", "title": "Majority class is the smallest class of maximal observed weight", "statement": "majority_class() returns a class whose total observed true weight is at least that of every other class, and the smallest such class; 0 when nothing with positive weight was observed.", "quantifier": "every history of positively weighted results", "why_tests_cant": "Tie-breaking and late overtakes depend on complete histories.", "anchors": ["src/skmultiflow/metrics/_classification_performance_evaluator.pyx:ClassificationPerformanceEvaluator.majority_class"]}
{"id": "C08", "title": "Cohen's kappa lies in [-1,1] and is 1 only for perfect agreement", "statement": "For unit-weight histories kappa_score() is always between -1 and 1 (never raising a division error); it equals 1 exactly when every prediction was correct and at least two different true labels occurred.", "quantifier": "every unit-weight history", "why_tests_cant": "A real inequality over all confusion matrices of all dimensions.", "anchors": ["src/skmultiflow/metrics/_classification_performance_evaluator.pyx:ClassificationPerformanceEvaluator.kappa_score"]}
{"id": "C09", "title": "Precision, recall and F1 match their set definitions", "statement": "For every class value c >= 0 seen or unseen, precision_score(c) = TP/(TP+FP), recall_score(c) = TP/(TP+FN) with 0 for empty denominators and both in [0,1]; f1 is their harmonic mean. For two-class evaluators f1_score(c) ignores c; that violation is exhibited.", "quantifier": "every unit-weight history, every class value", "why_tests_cant": "All histories and all class values, including never-seen ones.", "anchors": ["src/skmultiflow/metrics/_classification_performance_evaluator.pyx:ClassificationPerformanceEvaluator.precision_score", "src/skmultiflow/metrics/_classification_performance_evaluator.pyx:ClassificationPerformanceEvaluator.recall_score", "src/skmultiflow/metrics/_classification_performance_evaluator.pyx:ClassificationPerformanceEvaluator.f1_score"]}
{"id": "C10", "title": "Multi-label exact match, Jaccard and Hamming scores match their definitions", "statement": "exact_match_score() is the fraction of results whose label vectors are identical, jaccard_score() the mean of |intersection|/|union|, hamming_score() the fraction of labels predicted correctly. The code's Hamming score counts only correctly predicted positive labels; that violation is exhibited and what it does compute is proved.", "quantifier": "every sequence of equal-length binary label vectors", "why_tests_cant": "Holds or fails only across all label vectors; existing tests use one random sample.", "anchors": ["src/skmultiflow/metrics/_classification_performance_evaluator.pyx:MultiLabelClassificationPerformanceEvaluator", "src/skmultiflow/metrics/_confusion_matrix.pyx:MultiLabelConfusionMatrix"]}
{"id": "C11", "title": "Windowed regression errors are the errors of the last window_size results", "statement": "After any history, the windowed mean squared error and mean absolute error equal those of the last window_size results (0 when there are none), and the reported sample count is min(history length, window_size).", "quantifier": "every window_size >= 1 and every sequence of (true, predicted) numbers", "why_tests_cant": "Running totals with corrections must equal window sums after every prefix.", "anchors": ["src/skmultiflow/metrics/measure_collection.py:WindowRegressionMeasurements", "src/skmultiflow/metrics/measure_collection.py:RegressionMeasurements"]}
{"id": "C12", "title": "ADWIN's window is a contiguous suffix of the stream", "statement": "After any interleaving of add_element and detected_change calls, ADWIN's width is the length of a suffix of the elements added, its total is the sum of that suffix, estimation is the mean of that suffix, and reading the buckets from oldest to newest partitions the suffix into consecutive runs with the recorded run sums and power-of-two run lengths.", "quantifier": "every stream of numbers, every interleaving with detected_change, every outcome of the statistical cut test (log and sqrt arbitrary functions)", "why_tests_cant": "Exponential-histogram bookkeeping is only exercised by long adversarial streams and cut patterns.", "anchors": ["src/skmultiflow/drift_detection/adwin.py:ADWIN.add_element", "src/skmultiflow/drift_detection/adwin.py:ADWIN.delete_element", "src/skmultiflow/drift_detection/adwin.py:ADWIN.detected_change"]}
{"id": "C13", "title": "ADWIN uses logarithmic memory", "statement": "After any history every bucket row holds at most MAX_BUCKETS (5) buckets, row i holds buckets of exactly 2^i elements, and the number of rows is at most log2(width)+1 for non-empty windows.", "quantifier": "every stream and every interleaving of additions and change checks", "why_tests_cant": "The bound must hold at every moment of unbounded runs.", "anchors": ["src/skmultiflow/drift_detection/adwin.py:ADWIN", "src/skmultiflow/drift_detection/adwin.py:List", "src/skmultiflow/drift_detection/adwin.py:Item"]}
{"id": "C14", "title": "ADWIN's change check terminates, never empties the window and reports truthfully", "statement": "detected_change() returns True exactly when it dropped at least one element from the window, terminates for every window, drops only oldest elements, leaves a non-empty window, and never divides by zero. n_detections counts the checks that answered True since construction or the last reset.", "quantifier": "every reachable state and every behaviour of the cut test", "why_tests_cant": "Termination and absence of arithmetic exceptions for all reachable states.", "anchors": ["src/skmultiflow/drift_detection/adwin.py:ADWIN.detected_change", "src/skmultiflow/drift_detection/adwin.py:ADWIN.delete_element"]}
{"id": "C15", "title": "ADWIN's incremental variance is the variance of the window", "statement": "ADWIN.variance equals the mean squared deviation of the elements in the window. It holds until the first element is dropped; afterwards bucket variances lose a term on each merge (the first merged bucket's variance is dropped), so the property is violated; both facts are proved.", "quantifier": "every stream without drops; concrete witness for the violation", "why_tests_cant": "The missing merge term is only observable after merges of merged buckets followed by a drop.", "anchors": ["src/skmultiflow/drift_detection/adwin.py:ADWIN.__insert_element", "src/skmultiflow/drift_detection/adwin.py:ADWIN.__compress_buckets", "src/skmultiflow/drift_detection/adwin.py:ADWIN.delete_element"]}
{"id": "C16", "title": "DDM statistics restart after a drift and follow the error rate", "statement": "Between two drifts DDM's error probability is exactly the fraction of errors since the last drift (first-sample-weighted as documented), it never signals before min_num_instances samples since the restart, change and warning are never both raised, and the sample following a detected change starts from cleared statistics.", "quantifier": "every 0/1 stream, every parameter values, every square-root implementation", "why_tests_cant": "Behaviour depends on positions of all past drifts.", "anchors": ["src/skmultiflow/drift_detection/ddm.py:DDM"]}
{"id": "C17", "title": "EDDM never signals before 30 errors and only on errors", "statement": "EDDM's change flag is raised only by an erroneous prediction, only after more than 30 errors since the last restart, and its distance statistics are the running mean of the distances between consecutive errors.", "quantifier": "every 0/1 stream, every square-root implementation", "why_tests_cant": "History-dependent restart and counter logic.", "anchors": ["src/skmultiflow/drift_detection/eddm.py:EDDM"]}
{"id": "C18", "title": "Page-Hinkley statistics restart after detection and the statistic is non-negative", "statement": "The cumulative statistic is never negative and follows its recurrence over the values since the last change, the running mean is the mean of those values, a change is reported exactly when the statistic exceeds the threshold once enough values arrived, no warning is ever reported, and the value after a detection starts from scratch. 'Enough values' should be min_instances, but the code already reports after min_instances - 1 values (violated by one).", "quantifier": "every stream of numbers and all parameters", "why_tests_cant": "History-dependent; the off-by-one shows only at one position of particular streams.", "anchors": ["src/skmultiflow/drift_detection/page_hinkley.py:PageHinkley"]}
{"id": "C19", "title": "HDDM_A never raises and its estimate is a mean of recent values", "statement": "For every stream HDDM_A.add_element never divides by zero, and the published estimation is always an average of consecutive inputs (hence inside the range of the inputs); change and warning are never both set.", "quantifier": "every stream of numbers, every confidences, one- and two-sided mode, every log/sqrt implementation", "why_tests_cant": "Division guards depend on the cut-point history.", "anchors": ["src/skmultiflow/drift_detection/hddm_a.py:HDDM_A"]}
{"id": "C20", "title": "HDDM_W's two-sided option has no effect", "statement": "For every stream and all parameters HDDM_W with two_side_option=True produces the same change flags, warning flags, estimations, delays and widths as with two_side_option=False (contrary to its documentation: the decrease cut-point starts at +infinity and can never be set); with confidences in (0,1] it never raises.", "quantifier": "every stream of numbers, every parameters", "why_tests_cant": "Requires comparing two runs on all streams; no finite test can establish that the option is inert.", "anchors": ["src/skmultiflow/drift_detection/hddm_w.py:HDDM_W"]}
{"id": "C21", "title": "KSWIN's window is a bounded suffix of the stream", "statement": "For 1 <= stat_size <= window_size - 2: add_element never raises; KSWIN's window is a suffix of the values added, never longer than window_size; change is signalled exactly when the window was full and the test rejects; after a change only the newest stat_size values before the current one plus the current one remain. For stat_size equal to window_size - 1 or window_size, which the constructor accepts, the first value after the window has filled raises on every stream.", "quantifier": "every stream, every window and stat size, every random choice and every KS-test outcome", "why_tests_cant": "Depends on arbitrary random subsamples and test outcomes.", "anchors": ["src/skmultiflow/drift_detection/kswin.py:KSWIN"]}
{"id": "C22", "title": "Stream batches partition the data in order and restart replays them", "statement": "For DataStream/FileStream, concatenating the batches of any sequence of next_sample calls (until exhaustion) gives exactly the rows of the data set in order, without loss or repetition; has_more_samples() is true exactly while rows remain, and restart() makes the stream replay from the first row.", "quantifier": "every data set and every sequence of positive batch sizes, with restarts anywhere", "why_tests_cant": "All batch-size sequences and data lengths, including batches straddling the end.", "anchors": ["src/skmultiflow/data/data_stream.py:DataStream.next_sample", "src/skmultiflow/data/file_stream.py:FileStream.next_sample"]}
{"id": "C23", "title": "Delayed labels are delivered exactly once and never early", "statement": "For samples queued without weights, TimeManager hands every sample back exactly once; get_available_samples() returns, in order of availability, exactly the queued samples whose available_time has come (none early, none left behind), and next_sample(n) returns the n samples that become available first.", "quantifier": "every sequence of additions and queries with arbitrary timestamps", "why_tests_cant": "All timestamp patterns, ties and interleavings.", "anchors": ["src/skmultiflow/data/time_manager.py:TimeManager"]}
{"id": "C24", "title": "Balanced generators alternate the classes", "statement": "With balance_classes=True and no noise, the labels emitted by the synthetic generators (SEA, STAGGER, Sine, Mixed, AGRAWAL) strictly alternate, so in any prefix the class counts differ by at most one; each emitted label is the value of the selected classification function on the emitted features.", "quantifier": "every random source for which the rejection loop finds a sample, every batch split", "why_tests_cant": "Quantifies over all random streams.", "anchors": ["src/skmultiflow/data/sea_generator.py:SEAGenerator.next_sample", "src/skmultiflow/data/stagger_generator.py:STAGGERGenerator.next_sample", "src/skmultiflow/data/sine_generator.py:SineGenerator.next_sample", "src/skmultiflow/data/mixed_generator.py:MIXEDGenerator.next_sample", "src/skmultiflow/data/agrawal_generator.py:AGRAWALGenerator.next_sample"]}
{"id": "C25", "title": "Prequential evaluation tests every sample before training on it", "statement": "In EvaluatePrequential with at least 20 samples to evaluate, every sample after the pre-training block is predicted exactly once, by models that have been trained on exactly the samples that precede its batch, then trained on exactly once; samples are consumed in stream order and every (label, prediction) pair is scored exactly once.", "quantifier": "every stream length, batch size, pretrain size, max_samples and n_wait, every learner", "why_tests_cant": "Temporal ordering over whole runs; tests only look at final metric values.", "anchors": ["src/skmultiflow/evaluation/evaluate_prequential.py:EvaluatePrequential._train_and_test"]}
{"id": "C26", "title": "Holdout test samples never leak into training", "statement": "In EvaluateHoldout with a static test set (at least 20 samples to evaluate) no sample used for testing is ever passed to partial_fit, every other consumed sample is trained on exactly once in order, and every test phase scores the full test set.", "quantifier": "every stream, batch size, test size, evaluation frequency", "why_tests_cant": "Leakage is a property of complete runs.", "anchors": ["src/skmultiflow/evaluation/evaluate_holdout.py:EvaluateHoldout._periodic_holdout"]}
{"id": "C27", "title": "Prequential evaluation with delayed labels never trains on an unavailable label", "statement": "In EvaluatePrequentialDelayed a sample is predicted exactly once before it is trained on, and is trained on and scored only when its label is available with respect to the newest consumed timestamp, or after the main loop has ended; no sample is lost. (Unweighted streams, pretrain_size >= 1, at least 20 samples to evaluate.)", "quantifier": "every temporal stream, delay pattern and batch size", "why_tests_cant": "All delay patterns.", "anchors": ["src/skmultiflow/evaluation/evaluate_prequential_delayed.py:EvaluatePrequentialDelayed._train_and_test", "src/skmultiflow/data/time_manager.py:TimeManager"]}
{"id": "C28", "title": "Result file contains every line exactly once in order", "statement": "The evaluators' buffered output writing loses, duplicates or reorders no result line whatever the line lengths, once flushed at the end.", "quantifier": "every sequence of line lengths and every buffer size", "why_tests_cant": "Flush boundary conditions.", "anchors": ["src/skmultiflow/evaluation/base_evaluator.py:StreamEvaluator._update_file", "src/skmultiflow/evaluation/base_evaluator.py:StreamEvaluator._flush_file_buffer"]}
{"id": "C29", "title": "Missing-value cleaning removes every missing value and changes nothing else", "statement": "MissingValuesCleaner.transform replaces exactly the entries that are NaN or equal to one of the configured missing markers by the strategy value, leaves all other entries unchanged, and the result contains no missing value. (The last part is violated for the windowed strategies: the row being cleaned is itself in the window, so the substitute can be the marker or NaN.)", "quantifier": "every matrix, window history and strategy", "why_tests_cant": "All matrices and histories.", "anchors": ["src/skmultiflow/transform/missing_values_cleaner.py:MissingValuesCleaner"]}
{"id": "C30", "title": "Windowed min-max scaling maps the window onto the configured range", "statement": "Scaled values should lie in [0,1] relative to the window minimum and maximum. The code's transform is the identity on every feature whose window minimum and maximum differ; proved, hence the property is violated.", "quantifier": "every window content and every input", "why_tests_cant": "Universally quantified algebraic identity.", "anchors": ["src/skmultiflow/transform/windowed_minmax_scaler.py:WindowedMinmaxScaler"]}
{"id": "C31", "title": "kNN class probabilities form a distribution", "statement": "For every trained window with at least n_neighbors samples, predict_proba rows are non-negative, sum to 1, and equal the label frequencies among the reported neighbours; with fewer samples all-zero rows are returned.", "quantifier": "every window content, query and neighbour oracle returning n_neighbors valid indices", "why_tests_cant": "All windows and queries.", "anchors": ["src/skmultiflow/lazy/knn_classifier.py:KNNClassifier.predict_proba"]}
{"id": "C32", "title": "kNN regression predicts each row from its own neighbours", "statement": "Prediction for a row should depend only on that row's neighbours. In the code every row's prediction is the aggregate over the neighbours of all rows, so the property holds only for single-row queries; both facts are proved.", "quantifier": "every window, every query matrix", "why_tests_cant": "Requires comparing all multi-row queries with single-row queries.", "anchors": ["src/skmultiflow/lazy/knn_regressor.py:KNNRegressor.predict"]}
{"id": "C33", "title": "Gaussian estimator equals the weighted mean and variance of what it saw", "statement": "After any sequence of positively weighted observations the estimator's mean and variance are exactly the weighted mean and (weight-1 normalised) weighted squared deviation, independent of the order of observations.", "quantifier": "every sequence of finite values and positive weights", "why_tests_cant": "Order-independence and exactness over all sequences.", "anchors": ["src/skmultiflow/trees/gaussian_estimator.py:GaussianEstimator.add_observation", "src/skmultiflow/trees/gaussian_estimator.py:GaussianEstimator.get_variance"]}
{"id": "C34", "title": "Nominal observer split distributions conserve class weight", "statement": "For every observed attribute value, the branch class distributions returned by the nominal attribute observer (multiway and binary) sum, class by class, to the observed class weights, and the Laplace-smoothed conditional probabilities of the observed values of a class sum to 1.", "quantifier": "every sequence of non-negatively weighted updates", "why_tests_cant": "All update histories and attribute values.", "anchors": ["src/skmultiflow/trees/_attribute_observer/nominal_attribute_class_observer.py:NominalAttributeClassObserver"]}
{"id": "C35", "title": "The regression attribute observer's candidate splits are exact", "statement": "For every threshold stored by the regression attribute observer, the left statistics it evaluates are exactly the weight, sum and sum of squares of all observed targets whose attribute value is at most the threshold, and the right statistics the remainder; all distinct observed values are candidates.", "quantifier": "every sequence of updates (no pruning between them)", "why_tests_cant": "Binary-search-tree shape depends on insertion order; all orders must work.", "anchors": ["src/skmultiflow/trees/_attribute_observer/numeric_attribute_regression_observer.py:NumericAttributeRegressionObserver"]}
{"id": "C36", "title": "Split tests route every instance to the branch whose rule describes it", "statement": "For numeric and nominal split tests, branch_for_instance(x)=b exactly when x satisfies the rule reported for branch b; numeric and binary nominal tests have exactly two branches and route every present value; multiway tests give a fresh branch to every new value and never remap old ones.", "quantifier": "every instance, threshold, value and history of added branches", "why_tests_cant": "All instances.", "anchors": ["src/skmultiflow/trees/_attribute_test/numeric_attribute_binary_test.py:NumericAttributeBinaryTest", "src/skmultiflow/trees/_attribute_test/nominal_attribute_binary_test.py:NominalAttributeBinaryTest", "src/skmultiflow/trees/_attribute_test/nominal_attribute_multiway_test.py:NominalAttributeMultiwayTest"]}
{"id": "C37", "title": "Hoeffding tree node counters equal the actual tree", "statement": "After any sequence of training steps, splits, leaf deactivations and reactivations, the counters reported by get_model_measurements (active leaves, inactive leaves, decision nodes) equal the numbers of such nodes in the tree.", "quantifier": "every training history and every outcome of split decisions and memory estimates", "why_tests_cant": "Counter drift depends on long histories mixing splits with memory management.", "anchors": ["src/skmultiflow/trees/hoeffding_tree.py:HoeffdingTreeClassifier._partial_fit", "src/skmultiflow/trees/hoeffding_tree.py:HoeffdingTreeClassifier._attempt_to_split", "src/skmultiflow/trees/hoeffding_tree.py:HoeffdingTreeClassifier._enforce_tracker_limit"]}
{"id": "C38", "title": "Dynamic weighted majority keeps a bounded, normalised, non-empty ensemble", "statement": "After any history the ensemble has between 1 and n_estimators experts, all weights lie in (0,1], after an update period the largest weight is 1 and no weight is below theta, and training never raises an index error while replacing the weakest expert.", "quantifier": "every stream, every expert predictions, n_estimators >= 1, 0 < beta < 1, 0 <= theta <= 1, period >= 1", "why_tests_cant": "Index validity and bounds over all histories of deletions.", "anchors": ["src/skmultiflow/meta/dynamic_weighted_majority.py:DynamicWeightedMajorityClassifier.fit_single_sample"]}
{"id": "C39", "title": "Additive expert ensemble prunes the weakest expert", "statement": "With pruning='weakest' the expert removed when the ensemble is full should be the one of least weight. In the code the freshly created expert is inserted at the front and is the one removed whenever it outweighs the currently weakest one; the size bound holds but the pruning property is violated.", "quantifier": "every ensemble state; concrete witness for the violation", "why_tests_cant": "Needs the interplay of insertion position and pruning for all weights.", "anchors": ["src/skmultiflow/meta/additive_expert_ensemble.py:AdditiveExpertEnsembleClassifier.fit_single_sample", "src/skmultiflow/meta/additive_expert_ensemble.py:AdditiveExpertEnsembleClassifier._add_expert"]}
{"id": "C40", "title": "Accuracy weighted ensemble predicts each row independently", "statement": "The prediction for a row should be the weighted vote of the models on that row. Because the vote dictionaries are shared between rows, all rows of one call receive the same label; the property holds for single-row calls only.", "quantifier": "every ensemble, every batch of rows", "why_tests_cant": "Aliasing shows only for multi-row batches; quantified over all batches.", "anchors": ["src/skmultiflow/meta/accuracy_weighted_ensemble.py:AccuracyWeightedEnsembleClassifier.predict"]}
{"id": "C41", "title": "Batch-incremental training partitions the stream into windows", "statement": "However the stream is cut into partial_fit calls, the models trained are exactly those for the consecutive disjoint windows of window_size samples in order, the ensemble holds the newest n_estimators of them, and the samples waiting are the remainder.", "quantifier": "every stream and every segmentation into calls, window_size >= 1, n_estimators >= 1", "why_tests_cant": "Independence from call segmentation.", "anchors": ["src/skmultiflow/meta/batch_incremental.py:BatchIncrementalClassifier.partial_fit"]}
{"id": "C42", "title": "Leveraging bagging training terminates", "statement": "partial_fit should terminate. With output-code matrices enabled, an even number of ensemble members and an odd number of classes, the code-matrix generation loops forever for every random source; for the remaining configurations every accepted code row is balanced.", "quantifier": "every random source, every number of classes and ensemble size", "why_tests_cant": "Non-termination cannot be observed by a finite test and must be shown for all random sources.", "anchors": ["src/skmultiflow/meta/leverage_bagging.py:LeveragingBaggingClassifier.__init_output_codes"]}
{"id": "C43", "title": "Online boosting weights stay well defined", "statement": "During online boosting every Poisson rate passed to the sampler is positive, the error estimates stay in [0,1] and no division by zero happens.", "quantifier": "every stream, every prediction outcomes and every random draws", "why_tests_cant": "Invariant over all histories and ensemble positions.", "anchors": ["src/skmultiflow/meta/online_boosting.py:OnlineBoostingClassifier.partial_fit"]}
{"id": "C44", "title": "Chained predictors return labels in the original order", "statement": "ClassifierChain/RegressorChain.predict undoes the (possibly random) chain order: column k of the result is the prediction made by the chain member trained on target k, and during training chain member j sees exactly the features plus the true values of the preceding targets.", "quantifier": "every chain order (permutation), every number of targets, every base learners", "why_tests_cant": "All permutations.", "anchors": ["src/skmultiflow/meta/classifier_chains.py:ClassifierChain", "src/skmultiflow/meta/regressor_chains.py:RegressorChain"]}
{"id": "C45", "title": "Half-space trees classify each row separately", "statement": "predict should classify row i by row i's anomaly score. The code uses row 0's score for every row; the property holds for single-row calls only.", "quantifier": "every forest, every batch", "why_tests_cant": "Needs multi-row batches with differing scores.", "anchors": ["src/skmultiflow/anomaly_detection/half_space_trees.py:HalfSpaceTrees.predict"]}
{"id": "C46", "title": "Half-space tree masses count the samples of the window", "statement": "For every node, the reference/latest mass equals the number of samples of the current window routed through the node; masses of the children of an internal node add up to the mass of the node.", "quantifier": "every sequence of samples and every tree shape", "why_tests_cant": "Invariant over all histories.", "anchors": ["src/skmultiflow/anomaly_detection/half_space_trees.py:HalfSpaceTree.update_mass", "src/skmultiflow/anomaly_detection/half_space_trees.py:HalfSpaceTree.update_model"]}
{"id": "C47", "title": "Windowed default precision, recall and F1 are those of the last window_size results", "statement": "precision_score(), recall_score() and f1_score() of the sliding-window evaluator equal those of a fresh evaluator fed with the last window_size results. Violated once a class outside the declared ones has ever been seen: classes that left the window still count in the average; proved when all labels are declared classes.", "quantifier": "every window_size >= 1 and every history of positively weighted results", "why_tests_cant": "The effect only appears after a class has left the window; all histories must be covered.", "anchors": ["src/skmultiflow/metrics/_classification_performance_evaluator.pyx:WindowClassificationPerformanceEvaluator", "src/skmultiflow/metrics/_confusion_matrix.pyx:ConfusionMatrix"]}
{"id": "C48", "title": "Kappa-T and Kappa-M compare against the no-change and majority baselines", "statement": "kappa_t_score() compares the accuracy with that of the classifier that repeats the previous true label, kappa_m_score() with that of the majority-class classifier. The first holds; the second is violated because each label is counted into the majority before it is 'predicted'.", "quantifier": "every history of positively weighted results", "why_tests_cant": "The baselines are running totals over the whole history.", "anchors": ["src/skmultiflow/metrics/_classification_performance_evaluator.pyx:ClassificationPerformanceEvaluator.kappa_t_score", "src/skmultiflow/metrics/_classification_performance_evaluator.pyx:ClassificationPerformanceEvaluator.kappa_m_score", "src/skmultiflow/metrics/_classification_performance_evaluator.pyx:ClassificationPerformanceEvaluator.add_result"]}
{"id": "C49", "title": "Windowed multi-label scores are those of the last window_size results", "statement": "Exact-match score, Jaccard score and sample count of the sliding-window multi-label evaluator equal those of a fresh evaluator fed with the last window_size results.", "quantifier": "every window_size >= 1 and every history of equally long label vectors", "why_tests_cant": "Corrections on eviction must cancel exactly for all histories.", "anchors": ["src/skmultiflow/metrics/_classification_performance_evaluator.pyx:WindowMultiLabelClassificationPerformanceEvaluator"]}
{"id": "C50", "title": "HDDM_A never reports a decrease", "statement": "On a stream whose values never increase, HDDM_A reports neither a change nor a warning at any point, in one-sided and in two-sided mode (two_side_option only restarts the statistics silently).", "quantifier": "every non-increasing stream, every confidences in (0,1), every square-root implementation positive on positive numbers", "why_tests_cant": "Universal over streams; a test can only try a few drops.", "anchors": ["src/skmultiflow/drift_detection/hddm_a.py:HDDM_A.add_element", "src/skmultiflow/drift_detection/hddm_a.py:HDDM_A._mean_decr"]}
{"id": "C51", "title": "Loading a table never mixes targets into the features", "statement": "DataStream/FileStream with target_idx and n_targets addressing a range inside a table with distinct column names use exactly those n_targets columns as targets and all other columns, in order, as features; with n_targets > 1 and the default target_idx the last n_targets columns are the targets. (FileStream does this; DataStream with the default target_idx=-1 and n_targets > 1 takes no target at all and keeps the targets among the features: violated.)", "quantifier": "every table width, every positive or negative target index and number of targets inside the table", "why_tests_cant": "The slice arithmetic mixes negative and positive bounds; tests use one or two layouts.", "anchors": ["src/skmultiflow/data/data_stream.py:DataStream._load_data", "src/skmultiflow/data/file_stream.py:FileStream._load_data", "src/skmultiflow/data/file_stream.py:FileStream.__init__"]}
{"id": "C52", "title": "Reordering a temporal stream keeps every sample together", "statement": "TemporalDataStream with ordered=False and per-sample times and delays contains exactly the given samples sorted by time, each with its own features, label, weight, time and delay.", "quantifier": "every data set, every time column including ties, every argsort result that sorts the column", "why_tests_cant": "Five arrays are permuted by separate statements, one of them by an independent sort; ties make several permutations legal.", "anchors": ["src/skmultiflow/data/temporal_data_stream.py:TemporalDataStream.__init__"]}
{"id": "C53", "title": "Weighted delayed samples can never be drained", "statement": "Samples queued in a TimeManager with sample weights cannot be retrieved with next_sample: after any number of weighted update_queue calls (and before any call) next_sample raises KeyError for every batch size.", "quantifier": "every sequence of weighted batches and every batch size", "why_tests_cant": "The failure depends on every queued batch being weighted; the shipped tests never queue weights.", "anchors": ["src/skmultiflow/data/time_manager.py:TimeManager.next_sample", "src/skmultiflow/data/time_manager.py:TimeManager.update_queue"]}
{"id": "C54", "title": "AGRAWAL features stay in their documented ranges", "statement": "Every emitted AGRAWAL sample has each feature in the documented range, for every perturbation in [0,1]. Violated for commission (up to 85000, and drawn for the low salaries) and for the house value under perturbation (always 0 or exactly (9-zipcode)*100000); the other numeric ranges hold.", "quantifier": "every random source, every perturbation level, every classification function", "why_tests_cant": "Ranges must hold for all random draws; tests fix one seed.", "anchors": ["src/skmultiflow/data/agrawal_generator.py:AGRAWALGenerator.next_sample", "src/skmultiflow/data/agrawal_generator.py:AGRAWALGenerator._perturb_value"]}
{"id": "C55", "title": "generate_drift always changes the concept", "statement": "generate_drift of the SEA, STAGGER, Sine and AGRAWAL generators ends with a valid classification function different from the current one; for the Mixed generator (and sine functions 0/1 and 2/3) the old and new concept disagree on every possible sample.", "quantifier": "every random source, every current function, every feature vector", "why_tests_cant": "Needs all features and all random outcomes.", "anchors": ["src/skmultiflow/data/sea_generator.py:SEAGenerator.generate_drift", "src/skmultiflow/data/mixed_generator.py:MIXEDGenerator.generate_drift", "src/skmultiflow/data/sine_generator.py:SineGenerator.generate_drift"]}
{"id": "C56", "title": "Evaluations of fewer than 20 samples stop after one batch", "statement": "When fewer than 20 samples are to be evaluated, EvaluatePrequential predicts and scores exactly one batch and then stops without training on it, and EvaluateHoldout trains on one batch and stops without a single prediction (the progress report divides by zero and the exception is swallowed; no row has been written, so the summary fails as described in C193).", "quantifier": "every stream, learner, batch size, pretrain size, test size and n_wait with fewer than 20 samples to evaluate", "why_tests_cant": "The run ends normally and returns models; only a statement about all short runs shows that the models were never trained or tested.", "anchors": ["src/skmultiflow/evaluation/base_evaluator.py:StreamEvaluator._check_progress", "src/skmultiflow/evaluation/evaluate_prequential.py:EvaluatePrequential._train_and_test", "src/skmultiflow/evaluation/evaluate_holdout.py:EvaluateHoldout._periodic_holdout"]}
{"id": "C57", "title": "Delayed evaluation requires a pre-training block", "statement": "A new EvaluatePrequentialDelayed with pretrain_size=0 fails with AttributeError on every stream, because the time manager is only created after pre-training.", "quantifier": "every stream, learner, batch size and limit", "why_tests_cant": "Holds for every configuration, and the first failure is swallowed by the loop's exception handler.", "anchors": ["src/skmultiflow/evaluation/evaluate_prequential_delayed.py:EvaluatePrequentialDelayed._train_and_test"]}
{"id": "C58", "title": "Delayed evaluation does not respect sample weights", "statement": "On a weighted temporal stream EvaluatePrequentialDelayed trains delayed samples with the weights of the batch just read instead of their own, and every weighted run with something to evaluate ends in a KeyError.", "quantifier": "every weighted stream with at least 20 samples to evaluate, every learner and batch size", "why_tests_cant": "The shipped tests use no weights; that every run fails needs a proof that the queue is never empty after the main loop.", "anchors": ["src/skmultiflow/evaluation/evaluate_prequential_delayed.py:EvaluatePrequentialDelayed._train_and_test", "src/skmultiflow/data/time_manager.py:TimeManager.next_sample"]}
{"id": "C59", "title": "Windowed standard scaling uses only earlier rows", "statement": "WindowedStandardScaler.transform standardises every cell with the column mean and standard deviation of the last window_size rows seen before its row (its own row excluded, deviation 0 counted as 1); the very first row is unchanged.", "quantifier": "every window size, history and matrix", "why_tests_cant": "Look-ahead or self-inclusion is a property of all histories.", "anchors": ["src/skmultiflow/transform/windowed_standard_scaler.py:WindowedStandardScaler.transform"]}
{"id": "C60", "title": "One-hot decoding is right exactly when the row ends with a category block", "statement": "OneHotToCategorical keeps ordinary features in order and replaces each one-hot block by the position of its 1 (block length if there is none) when the last feature of the row belongs to the last block, and raises IndexError for every row with an ordinary feature after the last block.", "quantifier": "every layout of ordinary features and non-empty blocks, every cell content", "why_tests_cant": "All layouts; the shipped test uses one that ends with a block.", "anchors": ["src/skmultiflow/transform/one_hot_to_categorical.py:OneHotToCategorical._transform"]}
{"id": "C61", "title": "kNN-ADWIN keeps the newest samples after a change", "statement": "After partial_fit of KNNADWINClassifier, if ADWIN reported a change and at least n_neighbors samples are stored, the stored samples are exactly the newest adwin.width ones (all of them if fewer); otherwise the window is unchanged by the drift handling.", "quantifier": "every window content, every ADWIN width and detection outcome, every n_neighbors", "why_tests_cant": "Which samples survive must be right for every width relative to the window size.", "anchors": ["src/skmultiflow/lazy/knn_adwin.py:KNNADWINClassifier.partial_fit"]}
{"id": "C62", "title": "Pruning the regression attribute observer keeps the statistics exact", "statement": "remove_bad_splits removes only thresholds whose split is bad, the remaining thresholds keep exact statistics, and a best split that is not bad stays the best. Statistics should also stay exact for later observations: violated, thresholds first seen after a pruning miss the pruned observations; and once all thresholds are pruned asking for a split raises AttributeError.", "quantifier": "every history of observations, every criterion, every pruning test", "why_tests_cant": "The effect depends on tree shape and on what was observed after the pruning.", "anchors": ["src/skmultiflow/trees/_attribute_observer/numeric_attribute_regression_observer.py:NumericAttributeRegressionObserver.remove_bad_splits"]}
{"id": "C63", "title": "Gaussian observer splits conserve class weight", "statement": "For every split value the left and right class distributions of the Gaussian numeric observer are non-negative and add up, class by class, to the observed class weight, and the suggested thresholds are the equally spaced points strictly between the smallest and largest observed value. (For total class weight at most 1 the whole class may be put on the wrong side.)", "quantifier": "every history of positively weighted observations, every split value, every distribution function with values in [0,1]", "why_tests_cant": "All histories, thresholds and variances, including the zero-variance branches.", "anchors": ["src/skmultiflow/trees/_attribute_observer/numeric_attribute_class_observer_gaussian.py:NumericAttributeClassObserverGaussian", "src/skmultiflow/trees/gaussian_estimator.py:GaussianEstimator.estimated_weight_lessthan_equalto_greaterthan_value"]}
{"id": "C64", "title": "Nominal regression observer splits are exact", "statement": "The multiway split of the nominal regression observer has one branch per observed value, in increasing order, with exactly the weight, target sum and sum of squares of the observations having that value; every binary candidate is one observed value against the exact remainder.", "quantifier": "every history of observations", "why_tests_cant": "All histories and value orders.", "anchors": ["src/skmultiflow/trees/_attribute_observer/nominal_attribute_regression_observer.py:NominalAttributeRegressionObserver"]}
{"id": "C65", "title": "Hoeffding tree memory management keeps the most promising leaves", "statement": "Whenever memory management runs and is not switched off, afterwards exactly the k most promising leaves of the tree are active and all others inactive, where k is the largest number of active leaves for which the size estimate stays within max_byte_size (0 if none fits).", "quantifier": "every reachable tree, every size estimates and every promise order", "why_tests_cant": "needs every tree shape and every estimate; tests look at single trees under one limit", "anchors": ["src/skmultiflow/trees/hoeffding_tree.py:638-667", "src/skmultiflow/trees/hoeffding_tree.py:704-748", "src/skmultiflow/trees/hoeffding_tree.py:762-789"]}
{"id": "C66", "title": "Pre-pruning in Hoeffding trees", "statement": "When the null split wins a split attempt the leaf is deactivated, but the memory manager called right afterwards re-activates it whenever memory suffices; with stop_mem_management=True the same event stops the growth of the whole tree for ever (no split node is added by any later training).", "quantifier": "every reachable tree, every leaf, every later training history", "why_tests_cant": "about all later histories", "anchors": ["src/skmultiflow/trees/hoeffding_tree.py:611-667", "src/skmultiflow/trees/hoeffding_tree.py:327-337"]}
{"id": "C67", "title": "Removing poor attributes in Hoeffding trees", "statement": "With remove_poor_atts=True a split attempt should disable exactly the attributes whose merit trails the best one by more than the Hoeffding bound. With pre-pruning on (the default) every split attempt on an impure leaf with at least one candidate raises AttributeError instead, because the null split has no test; the property holds with no_preprune=True.", "quantifier": "every list of candidate merits, every bound", "why_tests_cant": "all candidate lists and bounds", "anchors": ["src/skmultiflow/trees/hoeffding_tree.py:576-610", "src/skmultiflow/trees/_nodes/base.py:449-480"]}
{"id": "C68", "title": "Hoeffding tree split decision", "statement": "A pure leaf is never split. An impure leaf with at least two candidates (null split included) is split exactly when a greatest-merit candidate leads every other by more than the Hoeffding bound or the bound is below tie_threshold; the candidate used has greatest merit, and the leaf is pre-pruned exactly if that candidate is the null split.", "quantifier": "every list of candidate merits, every bound and tie threshold", "why_tests_cant": "all candidate lists and bounds", "anchors": ["src/skmultiflow/trees/hoeffding_tree.py:576-615", "src/skmultiflow/trees/_nodes/base.py:449-480"]}
{"id": "C69", "title": "Expert ensembles predict the weighted majority class", "statement": "DynamicWeightedMajority.predict and AdditiveExpertEnsemble.predict return, for each row, a class that receives the largest total expert weight, in particular a class that some expert voted for.", "quantifier": "all ensembles, weights and expert predictions", "why_tests_cant": "tests use two classes coded 0 and 1, where rounding the weighted mean of labels happens to agree with the majority", "anchors": ["src/skmultiflow/meta/dynamic_weighted_majority.py:155-176", "src/skmultiflow/meta/additive_expert_ensemble.py:157-178"]}
{"id": "C70", "title": "Drift resets the worst member", "statement": "When a drift detector of an online bagging or boosting ensemble signals a change, the member that is reset is one with the lowest accuracy over its detector window.", "quantifier": "all contents of the members' detector windows", "why_tests_cant": "which member is reset is not observable through the API on a test stream, and both choices keep the ensemble working", "anchors": ["src/skmultiflow/meta/leverage_bagging.py:284-303", "src/skmultiflow/meta/oza_bagging_adwin.py:175-200", "src/skmultiflow/meta/online_boosting.py:227-250"]}
{"id": "C71", "title": "Batch-incremental ensemble predicts the majority class", "statement": "BatchIncrementalClassifier.predict returns, for each row, a class predicted by a largest number of members.", "quantifier": "all ensembles, numbers of classes and member predictions", "why_tests_cant": "tests run on binary streams where averaging labels and cutting at one half is a majority vote", "anchors": ["src/skmultiflow/meta/batch_incremental.py:144-185"]}
{"id": "C72", "title": "Online boosting: a member's vote counts, more so the smaller its error", "statement": "In OnlineBoosting.predict_proba the contribution of each member is its class probabilities times the log-odds of its error estimate; a member that has made no error is not ignored.", "quantifier": "all error estimates, numbers of members and member outputs", "why_tests_cant": "streams in tests make every member err early, so the zero-error case is never evaluated", "anchors": ["src/skmultiflow/meta/online_boosting.py:282-362"]}
{"id": "C73", "title": "Accuracy-weighted ensemble keeps the best models", "statement": "AccuracyWeightedEnsemble trains one model on each consecutive chunk of window_size samples, re-weighs all models on that chunk with weight max(0, baseline - score), and keeps at most n_kept_estimators of them; a dropped model never weighs more than a kept one.", "quantifier": "all streams, chunk sizes, pool sizes, training and scoring functions", "why_tests_cant": "depends on chunk boundaries over arbitrarily many calls and on ties among weights", "anchors": ["src/skmultiflow/meta/accuracy_weighted_ensemble.py:151-224", "src/skmultiflow/meta/accuracy_weighted_ensemble.py:316-458"]}
{"id": "C74", "title": "Chain probabilities are in target order", "statement": "Column k of ClassifierChain.predict_proba is the probability for target k, whatever the chain order.", "quantifier": "all chain orders, numbers of targets and base learners", "why_tests_cant": "with the default order the columns coincide; the random order is only visible when targets behave differently", "anchors": ["src/skmultiflow/meta/classifier_chains.py:207-237"]}
{"id": "C75", "title": "Probabilistic chain returns a most probable label vector", "statement": "ProbabilisticClassifierChain.predict returns a label vector of maximal joint probability among all label vectors, with the labels in target order.", "quantifier": "all member probability functions, numbers of targets, rows and chain orders", "why_tests_cant": "the maximum ranges over exponentially many vectors and all probability functions", "anchors": ["src/skmultiflow/meta/classifier_chains.py:248-275", "src/skmultiflow/meta/classifier_chains.py:327-361"]}
{"id": "C76", "title": "Monte Carlo chain is never worse than the greedy chain", "statement": "MonteCarloClassifierChain.predict returns the greedy chain prediction or one of the sampled vectors, and its joint probability is at least that of the greedy prediction and of every sampled vector.", "quantifier": "all member probability functions, samples and rows", "why_tests_cant": "quantifies over all random samples and ties", "anchors": ["src/skmultiflow/meta/classifier_chains.py:456-500"]}
{"id": "C77", "title": "Half-space trees halve the work space", "statement": "Every internal node of a half-space tree splits its own part of the work space in the middle.", "quantifier": "all random draws, depths and work spaces", "why_tests_cant": "the split values are hidden and random; a wrong split still gives plausible scores", "anchors": ["src/skmultiflow/anomaly_detection/half_space_trees.py:434-463"]}
{"id": "C78", "title": "Half-space trees can use every feature", "statement": "Every feature can influence the anomaly score.", "quantifier": "all streams, forests, random draws", "why_tests_cant": "absence of influence is a statement about all random draws and all rows", "anchors": ["src/skmultiflow/anomaly_detection/half_space_trees.py:434-463", "src/skmultiflow/anomaly_detection/half_space_trees.py:408-432"]}
{"id": "C79", "title": "Half-space trees return probabilities", "statement": "HalfSpaceTrees.predict_proba returns for a row two numbers in [0,1] that add up to 1; the second is the mean over the trees of the anomaly scores, or 1/2 while learning.", "quantifier": "all streams, window sizes, depths, size limits and forests with at least one tree", "why_tests_cant": "needs the bound on masses over all histories", "anchors": ["src/skmultiflow/anomaly_detection/half_space_trees.py:202-233", "src/skmultiflow/anomaly_detection/half_space_trees.py:344-432"]}
{"id": "C80", "title": "A concept drift stream interleaves its two streams", "statement": "ConceptDriftStream.next_sample returns an interleaving of the next samples of the two streams, each in its own order, none skipped or repeated; batch sizes do not matter; restart() replays the same samples.", "quantifier": "all pairs of streams, random numbers, positions, widths other than zero, batch sizes", "why_tests_cant": "which stream a sample comes from is random; a skipped sample is not visible in a test that checks shapes", "anchors": ["src/skmultiflow/data/concept_drift_stream.py:139-174"]}
{"id": "C81", "title": "The drift probability rises through one half at the drift position", "statement": "With a positive width the probability that ConceptDriftStream takes a sample from the drift stream is strictly between 0 and 1, grows with the sample index and is one half exactly at position.", "quantifier": "all positions, positive widths and sample indices", "why_tests_cant": "quantifies over all indices; a test sees only single random draws", "anchors": ["src/skmultiflow/data/concept_drift_stream.py:158-166"]}
{"id": "C82", "title": "A concept drift stream knows how many samples remain", "statement": "ConceptDriftStream.n_remaining_samples() is -1 if one of the streams is unbounded and otherwise the number of samples that can still be read while has_more_samples() is true.", "quantifier": "all pairs of bounded and unbounded streams", "why_tests_cant": "tests use two generators, which are both unbounded", "anchors": ["src/skmultiflow/data/concept_drift_stream.py:106-127"]}
{"id": "C83", "title": "Concept drift streams built with defaults are independent", "statement": "Two ConceptDriftStream objects built with the default streams do not influence each other.", "quantifier": "all sequences of calls on the two objects", "why_tests_cant": "needs interleaved use of two objects; the interference is through default argument objects", "anchors": ["src/skmultiflow/data/concept_drift_stream.py:61-66", "src/skmultiflow/data/concept_drift_stream.py:157-166"]}
{"id": "C84", "title": "LED noise inverts segments at the configured rate", "statement": "Without noise the first seven LED attributes are the segments of the digit and determine the label; with noise_percentage p a segment is inverted exactly when a uniform random number is at most p.", "quantifier": "all random draws and noise percentages", "why_tests_cant": "the rate is statistical; an offset of one percent is within the tolerance of any sampling test", "anchors": ["src/skmultiflow/data/led_generator.py:90-99", "src/skmultiflow/data/led_generator.py:198-218"]}
{"id": "C85", "title": "LED drift rearranges the columns", "statement": "LEDGeneratorDrift with n_drift_features moved attributes emits the undrifted sample with its 24 columns rearranged: n_drift_features relevant columns are exchanged with irrelevant ones.", "quantifier": "all random offsets, numbers of moved attributes and samples", "why_tests_cant": "a lost column still holds plausible zeros and ones", "anchors": ["src/skmultiflow/data/led_generator_drift.py:77-136"]}
{"id": "C86", "title": "LED drift generators do not disturb each other", "statement": "Constructing a second LEDGeneratorDrift does not change what an existing one returns.", "quantifier": "all pairs of generators and random draws", "why_tests_cant": "needs two live generators; the column map is a class attribute", "anchors": ["src/skmultiflow/data/led_generator_drift.py:74-96", "src/skmultiflow/data/led_generator_drift.py:117-136"]}
{"id": "C87", "title": "Finite generators hand out their table and know when it ends", "statement": "AnomalySineGenerator, MultilabelGenerator and RegressionGenerator return their rows in order for any batch sizes, replay them after restart(), and has_more_samples() is true exactly when next_sample() returns a row.", "quantifier": "all tables and sequences of batch sizes", "why_tests_cant": "tests stop before the end of the table and use sizes that divide it", "anchors": ["src/skmultiflow/data/anomaly_sine_generator.py:106-167", "src/skmultiflow/data/multilabel_generator.py:116-159", "src/skmultiflow/data/regression_generator.py:144-198", "src/skmultiflow/data/base_stream.py:249-269"]}
{"id": "C88", "title": "restart() replays a drifted generator from its first concept", "statement": "After restart() a generator returns the same samples as when it was created, also when generate_drift() was called in between.", "quantifier": "all generators with generate_drift, random sources and call sequences", "why_tests_cant": "tests of restart do not call generate_drift first", "anchors": ["src/skmultiflow/data/base_stream.py:242-247", "src/skmultiflow/data/stagger_generator.py:295-305", "src/skmultiflow/data/mixed_generator.py:216-218"]}
{"id": "C89", "title": "Hyperplane samples lie on the side their label says", "statement": "Without label noise a sample of HyperplaneGenerator has label 1 exactly when the weighted sum of its features is at least half the sum of the current weights; with noise the other label is handed out exactly when the uniform number drawn after the features is at most noise_percentage - 0.01, and nothing else changes; over k samples a weight moves by at most k*mag_change, and weights of features that do not drift never move.", "quantifier": "all weights, random draws, magnitudes and stream lengths", "why_tests_cant": "the weights are hidden state that drifts with every sample", "anchors": ["src/skmultiflow/data/hyper_plane_generator.py:182-243"]}
{"id": "C90", "title": "Drifting RBF centroids stay in the unit cube", "statement": "However many samples are drawn, every coordinate of every drifting centroid stays in [0,1], its speed keeps its magnitude, and one sample moves it by at most that speed times change_speed.", "quantifier": "all speeds, change speeds and stream lengths", "why_tests_cant": "needs an invariant over unbounded runs and reflections", "anchors": ["src/skmultiflow/data/random_rbf_generator_drift.py:123-141"]}
{"id": "C91", "title": "Weighted index choice follows the weights", "statement": "random_index_based_on_weights returns the index whose segment of the cumulated weights contains the scaled random number; an index of weight zero is never chosen.", "quantifier": "all weight lists with positive sum and all random numbers in [0,1)", "why_tests_cant": "boundary cases have probability zero in random tests", "anchors": ["src/skmultiflow/data/pseudo_random_processes.py:4-31"]}
{"id": "C92", "title": "Random tree generator: well-formed tree and labelled samples", "statement": "RandomTreeGenerator always builds a tree with leaves at permitted depths, thresholds inside their cells and no categorical feature tested twice on a path; every sample gets a label among the classes.", "quantifier": "all parameters and random draws", "why_tests_cant": "tree construction is random and depends on all parameters; tests fix one seed", "anchors": ["src/skmultiflow/data/random_tree_generator.py:139-360"]}
{"id": "C93", "title": "Expert ensembles charge exactly the experts that erred", "statement": "DynamicWeightedMajority leaves all weights alone inside an update period; at the end of a period an expert that mispredicted the sample has its weight multiplied by beta, the others keep theirs, all are divided by the largest, those below theta are removed and, if the weighted vote was right, nothing else changes. AdditiveExpertEnsemble multiplies the weight of every mistaken expert by beta after every sample, adds an expert of weight gamma times the total exactly when the vote was wrong, and then divides by the total (except after every 1000th sample). Every expert then learns the sample.", "quantifier": "for every base learner, legal ensemble state, sample and parameter values in the documented ranges (AdditiveExpertEnsemble: while the ensemble has room)", "why_tests_cant": "weights depend on the whole history of predictions of arbitrary base learners; tests see one learner on one stream", "anchors": ["src/skmultiflow/meta/dynamic_weighted_majority.py:181-249", "src/skmultiflow/meta/additive_expert_ensemble.py:185-249"]}
{"id": "C94", "title": "A split criterion's merit lies within the range it reports", "statement": "For every binary or multiway split of a node's weights, the merit returned by get_merit_of_split is between 0 (or the documented minimum) and get_range_of_merit; the Hoeffding bound computed from that range is meaningless otherwise.", "quantifier": "all class distributions before and after the split (and all regression statistics)", "why_tests_cant": "the bound concerns every real-valued distribution; tests evaluate a few tables", "anchors": ["src/skmultiflow/trees/_split_criterion/info_gain_split_criterion.py:21-72", "src/skmultiflow/trees/_split_criterion/gini_split_criterion.py:7-30", "src/skmultiflow/trees/_split_criterion/hellinger_distance_criterion.py:27-69", "src/skmultiflow/trees/_split_criterion/variance_reduction_split_criterion.py:19-48"]}
{"id": "C95", "title": "Splitting never looks worse than not splitting", "statement": "A split that merely distributes the weight of a node over its branches has a merit at least that of leaving the node alone (information gain and variance reduction are non-negative, the Gini merit does not fall).", "quantifier": "all distributions and all partitions of them", "why_tests_cant": "a convexity statement over all distributions", "anchors": ["src/skmultiflow/trees/_split_criterion/info_gain_split_criterion.py:21-72", "src/skmultiflow/trees/_split_criterion/gini_split_criterion.py:7-30", "src/skmultiflow/trees/_split_criterion/variance_reduction_split_criterion.py:19-48"]}
{"id": "C96", "title": "A split into pure branches has the best merit", "statement": "A split that separates the classes completely is rated at least as high as any other split of the same node.", "quantifier": "all class distributions and all competing splits", "why_tests_cant": "compares one split with all others", "anchors": ["src/skmultiflow/trees/_split_criterion/info_gain_split_criterion.py:21-72", "src/skmultiflow/trees/_split_criterion/gini_split_criterion.py:7-30", "src/skmultiflow/trees/_split_criterion/hellinger_distance_criterion.py:27-69"]}
{"id": "C97", "title": "Naive Bayes answers Bayes' rule over everything it was shown", "statement": "After any sequence of partial_fit calls, predict_proba gives for class c the class's share of the weight times the likelihoods its attribute observers assign to the values, divided by the sum over the classes seen; the observers have seen exactly the rows of non-zero weight, once and in order; predict returns the smallest label of largest posterior; an untrained model answers zeros; every label learned can be predicted.", "quantifier": "all training sequences, weights, batchings, attribute observers and query rows", "why_tests_cant": "depends on the whole training history and its batching", "anchors": ["src/skmultiflow/bayes/naive_bayes.py:63-184", "src/skmultiflow/bayes/utils.py:4-42"]}
{"id": "C98", "title": "NaiveBayes.partial_fit accepts the documented classes argument on every call", "statement": "Passing the array of class labels at the first call (as documented) does not prevent later calls from learning.", "quantifier": "all label arrays, batches and later calls", "why_tests_cant": "needs several calls with an array argument; tests pass lists or omit the argument", "anchors": ["src/skmultiflow/bayes/naive_bayes.py:98-112"]}
{"id": "C99", "title": "ClassificationMeasurements counts what it is given", "statement": "However many labels turn up, declared or not, the confusion matrix has each (truth, prediction) pair counted once, get_accuracy is the share of correct predictions, and get_kappa_t and get_kappa_m compare it with the share that the no-change and the majority classifier get right (hence never exceed 1); the same after reset.", "quantifier": "all target lists, label sequences and weights", "why_tests_cant": "the matrix grows while it is in use; statements about all histories", "anchors": ["src/skmultiflow/metrics/measure_collection.py:41-246", "src/skmultiflow/utils/data_structures.py:373-491"]}
{"id": "C100", "title": "WindowClassificationMeasurements describes exactly the last window_size samples", "statement": "The confusion matrix, the accuracy and the two baseline counts are those of the last window_size samples, for any weights.", "quantifier": "all window sizes, label sequences and weights", "why_tests_cant": "removal of old samples must match their addition over unbounded histories", "anchors": ["src/skmultiflow/metrics/measure_collection.py:375-512"]}
{"id": "C101", "title": "Two evaluators built from one list of targets do not disturb each other", "statement": "Passing the same targets list to two measurement objects gives two independent evaluators.", "quantifier": "all target lists and label sequences", "why_tests_cant": "aliasing appears only with two objects and an unforeseen label", "anchors": ["src/skmultiflow/metrics/measure_collection.py:41-51", "src/skmultiflow/metrics/measure_collection.py:149-185"]}
{"id": "C102", "title": "ConfusionMatrix update and remove are total", "statement": "update adds the weight to one entry, enlarging the matrix when the indices lie outside; remove takes one away from one entry; both report False, and change nothing, when they cannot act; removing undoes adding.", "quantifier": "all matrices, indices and whole-number weights", "why_tests_cant": "boundary indices are not exercised by tests", "anchors": ["src/skmultiflow/utils/data_structures.py:393-491"]}
{"id": "C103", "title": "Multi-target measurements are the Hamming score, exact match and Jaccard index", "statement": "After any non-empty sequence of binary multi-target results the per-target matrices count every label pair, get_hamming_score is the share of targets predicted right, get_exact_match the share of samples entirely right, and get_j_index the mean overlap of the label sets (1 when both are empty).", "quantifier": "all sequences of binary results of a fixed number of targets, whatever number was declared", "why_tests_cant": "the scores are accumulated incrementally over unbounded histories", "anchors": ["src/skmultiflow/metrics/measure_collection.py:741-870", "src/skmultiflow/utils/data_structures.py:624-839"]}
{"id": "C104", "title": "Windowed multi-target measurements describe the last window_size results", "statement": "Hamming score, exact match, Jaccard index and confusion matrix of WindowMultiTargetClassificationMeasurements are those of the last window_size results.", "quantifier": "all window sizes and sequences of binary results", "why_tests_cant": "needs more results than the window and a look at the matrix", "anchors": ["src/skmultiflow/metrics/measure_collection.py:924-1055", "src/skmultiflow/metrics/measure_collection.py:1576-1692"]}
{"id": "C105", "title": "Generator labels follow the documented concepts", "statement": "Without label noise every sample emitted by SEA, STAGGER, Sine and Mixed, balanced or not, carries the label that the documented concept gives to the emitted features, and the features lie in the documented ranges. AGRAWAL labels are those of the selected concept (age, income and education bands, disposable income) on the features before perturbation, and perturbation leaves the categorical attributes and a commission of zero alone.", "quantifier": "every classification function, every random source, every batch split, every perturbation", "why_tests_cant": "Each concept partitions an infinite feature space and the drawn features depend on the random source.", "anchors": ["src/skmultiflow/data/sea_generator.py:SEAGenerator", "src/skmultiflow/data/stagger_generator.py:STAGGERGenerator", "src/skmultiflow/data/sine_generator.py:SineGenerator", "src/skmultiflow/data/mixed_generator.py:MIXEDGenerator", "src/skmultiflow/data/agrawal_generator.py:AGRAWALGenerator"]}
{"id": "C106", "title": "AGRAWAL function 4 decides by the loan in every group", "statement": "Under AGRAWAL classification function 4 the label of a person depends, within each age and income group, on whether the loan lies in the band of that group.", "quantifier": "every generated person, every loan", "why_tests_cant": "Needs the whole range of generated salaries: a test sees the labels but not that a branch is dead.", "anchors": ["src/skmultiflow/data/agrawal_generator.py:AGRAWALGenerator._classification_function_four", "src/skmultiflow/data/agrawal_generator.py:AGRAWALGenerator.next_sample"]}
{"id": "C107", "title": "SEA noise switches the label below the noise level", "statement": "With noise_percentage p the label of a SEA sample is the concept's, switched exactly when the uniform number drawn for it falls below the noise level; level 0 switches no label and level 1 switches every label.", "quantifier": "every noise level, random source and batch split", "why_tests_cant": "The comparison is with a random number; an off-by-0.01 is invisible in a sample.", "anchors": ["src/skmultiflow/data/sea_generator.py:SEAGenerator.next_sample"]}
{"id": "C108", "title": "HDDM_W compares exponentially weighted averages around the best cut", "statement": "For non-negative values and lambda in [0, 1], HDDM_W never raises; its estimate is the exponentially weighted average of the values since the last reported change; a change (warning) is reported exactly when the weighted average after the first cut with the smallest upper confidence limit exceeds the one before it by the Hoeffding bound at the drift (warning) confidence; delay counts the values after the cut; a sequence that never increases is never reported.", "quantifier": "every sequence of non-negative values, every lambda in [0, 1], every confidence", "why_tests_cant": "An invariant over the whole history: incremental records must equal averages over a cut chosen retrospectively.", "anchors": ["src/skmultiflow/drift_detection/hddm_w.py:HDDM_W.add_element", "src/skmultiflow/drift_detection/hddm_w.py:HDDM_W._update_incr_statistics", "src/skmultiflow/drift_detection/hddm_w.py:HDDM_W._detect_mean_increment"]}
{"id": "C109", "title": "VFDR rules fire on the conjunction of their conditions and expanding narrows them", "statement": "A rule of VeryFastDecisionRulesClassifier covers a row exactly when all its conditions hold. Expanding a rule never makes it cover more rows; when the best suggestion is clear the rule afterwards covers exactly the rows it covered that also satisfy the suggested condition, and takes the class distribution of that side of the split; when it is not clear nothing changes.", "quantifier": "every rule, row, set of suggestions, merit (including -inf), Hoeffding bound and tie threshold", "why_tests_cant": "Conditions are merged with existing ones by min/max depending on operator; the claim is about all rows and all sequences of expansions.", "anchors": ["src/skmultiflow/rules/very_fast_decision_rules.py:VeryFastDecisionRulesClassifier._expand_rule", "src/skmultiflow/rules/base_rule.py:Rule.covers_instance", "src/skmultiflow/rules/base_predicate.py:Predicate.covers_instance"]}
{"id": "C110", "title": "VFDR: the rules that learn from an instance", "statement": "With ordered rules an instance is learned by the first rule that covers it, which is also the rule that predicts it, and changes nothing else; with unordered rules it is learned by every rule that covers it; an instance covered by no rule is learned by the default rule. This also holds while a drift detector removes rules.", "quantifier": "every rule set, row, label and weight; every observer, criterion and detector", "why_tests_cant": "Which rules change depends on coverage of the whole rule set and on list mutation during iteration.", "anchors": ["src/skmultiflow/rules/very_fast_decision_rules.py:VeryFastDecisionRulesClassifier._partial_fit", "src/skmultiflow/rules/very_fast_decision_rules.py:VeryFastDecisionRulesClassifier.first_hit"]}
{"id": "C111", "title": "VFDR: grace period between expansion attempts", "statement": "A rule is considered for expansion only after the instances it has learned since the last attempt (or since its creation) weigh at least grace_period, and then it is.", "quantifier": "every rule, every sequence of non-negatively weighted instances", "why_tests_cant": "A statement about arbitrary sequences between two attempts.", "anchors": ["src/skmultiflow/rules/very_fast_decision_rules.py:VeryFastDecisionRulesClassifier._partial_fit", "src/skmultiflow/rules/very_fast_decision_rules.py:VeryFastDecisionRulesClassifier._create_rule"]}
{"id": "C112", "title": "VFDR never has more than max_rules rules", "statement": "At any time the rule set has at most max_rules rules.", "quantifier": "every sequence of partial_fit calls and every configuration", "why_tests_cant": "An invariant over all streams.", "anchors": ["src/skmultiflow/rules/very_fast_decision_rules.py:VeryFastDecisionRulesClassifier._partial_fit", "src/skmultiflow/rules/very_fast_decision_rules.py:VeryFastDecisionRulesClassifier._create_rule"]}
{"id": "C113", "title": "VFDR: combination of the votes of the rules that fire", "statement": "first_hit returns the votes of the first rule that fires; weighted_max the normalised votes of a rule with the largest normalised vote among those that fire; weighted_sum the sum of the normalised votes of all rules that fire, each with the same share; without a rule that fires the default rule votes. predict_proba returns the votes divided by their sum.", "quantifier": "every rule set, row and vote distribution", "why_tests_cant": "The result must not depend on the order of the rules for weighted_sum; only a formula over any number of rules shows the shares.", "anchors": ["src/skmultiflow/rules/very_fast_decision_rules.py:VeryFastDecisionRulesClassifier.first_hit", "src/skmultiflow/rules/very_fast_decision_rules.py:VeryFastDecisionRulesClassifier.weighted_max", "src/skmultiflow/rules/very_fast_decision_rules.py:VeryFastDecisionRulesClassifier.weighted_sum", "src/skmultiflow/rules/very_fast_decision_rules.py:VeryFastDecisionRulesClassifier.predict_proba"]}
{"id": "C114", "title": "VFDR creates a rule exactly when its best suggestion is clear", "statement": "When the default rule has seen its grace period and at least two classes, a new rule is created exactly when the best suggested split is the only one, or beats every other one by more than the Hoeffding bound, or the bound is below the tie threshold; the new rule has just that condition and the statistics of its side, and the default rule starts again with the statistics of the other side. With foil_gain this holds for every class separately.", "quantifier": "every default rule, set of suggestions, bound and threshold", "why_tests_cant": "The decision is over arbitrary merits including ties and -inf.", "anchors": ["src/skmultiflow/rules/very_fast_decision_rules.py:VeryFastDecisionRulesClassifier._create_rule"]}
{"id": "C115", "title": "VFDR expands a rule towards the better side of the split", "statement": "The condition of a suggestion points to the side of its own split that the criterion prefers: the one with lower entropy for info_gain, the larger distance for hellinger, the larger class proportion for foil_gain.", "quantifier": "every list of split candidates of every attribute", "why_tests_cant": "One criterion object is shared by all candidates of an attempt, so state left by one candidate can influence another; any fixed example shows only one order.", "anchors": ["src/skmultiflow/rules/info_gain_rule_criterion.py:InfoGainExpandCriterion.get_merit_of_split", "src/skmultiflow/rules/hellinger_distance_criterion.py:HellingerDistanceCriterion.compute_hellinger", "src/skmultiflow/rules/foil_gain_rule_criterion.py:FoilGainExpandCriterion.get_merit_of_split", "src/skmultiflow/rules/numeric_attribute_class_observer.py:GaussianNumericAttributeClassObserver.get_best_evaluated_split_suggestion"]}
{"id": "C116", "title": "Equality of rules", "statement": "Two rules compare equal exactly when they have the same conditions (attribute, operator and value) in the same order.", "quantifier": "every pair of rules", "why_tests_cant": "Quantifies over all pairs of rules.", "anchors": ["src/skmultiflow/rules/base_rule.py:Rule.__eq__", "src/skmultiflow/rules/base_predicate.py:Predicate.__eq__"]}
{"id": "C117", "title": "Holdout tests take place every n_wait training samples", "statement": "EvaluateHoldout tests the models once for every n_wait samples used for training, and once more when the sample limit is reached; with a static test set the test comes right after the training step that completes a multiple of n_wait, with dynamic test sets right after the step that passes a further multiple of n_wait.", "quantifier": "every stream, batch size, n_wait, test size, limit and learner", "why_tests_cant": "The schedule interacts with batch size and test size; a test run sees one combination.", "anchors": ["src/skmultiflow/evaluation/evaluate_holdout.py:EvaluateHoldout._periodic_holdout"]}
{"id": "C118", "title": "OzaBagging trains each member by its own Poisson draws", "statement": "Over any sequence of partial_fit calls, member i of OzaBaggingClassifier is trained on each sample as often as its own Poisson draw says, however the stream is cut into batches; the ensemble has max(n_estimators, number of classes) members; classes are compulsory in the first call and must stay the same.", "quantifier": "every sequence of calls, every source of Poisson draws", "why_tests_cant": "Quantifies over all streams and all random sources; the order of draws depends on ensemble size and batch lengths.", "anchors": ["src/skmultiflow/meta/oza_bagging.py:OzaBaggingClassifier.partial_fit"]}
{"id": "C119", "title": "OzaBagging combines the members' probabilities", "statement": "predict_proba of OzaBaggingClassifier is the sum of the members' class probabilities, normalised to one, and predict its most probable class, whatever number of classes each member has seen so far.", "quantifier": "every ensemble state and every matrix of member probabilities", "why_tests_cant": "Members disagree on the number of columns only after particular partial streams.", "anchors": ["src/skmultiflow/meta/oza_bagging.py:OzaBaggingClassifier.predict", "src/skmultiflow/meta/oza_bagging.py:OzaBaggingClassifier.predict_proba"]}
{"id": "C120", "title": "OzaBaggingADWIN replaces the worst member when accuracy drops", "statement": "Each member's accuracy is watched by ADWIN; when a drop is detected the member with the highest error is replaced by a new one, and no member is replaced otherwise.", "quantifier": "every sequence of partial_fit calls, every base learner, detector and source of Poisson draws", "why_tests_cant": "Which member is replaced is not visible from accuracy on one stream.", "anchors": ["src/skmultiflow/meta/oza_bagging_adwin.py:OzaBaggingADWINClassifier.partial_fit"]}
{"id": "C121", "title": "reset() restores the initial state of Oza bagging ensembles", "statement": "After reset() an OzaBagging or OzaBaggingADWIN ensemble behaves as a newly built one.", "quantifier": "every state and every sequence of later calls", "why_tests_cant": "Leftover state shows only in calls made after the reset.", "anchors": ["src/skmultiflow/meta/oza_bagging.py:OzaBaggingClassifier.reset", "src/skmultiflow/meta/oza_bagging_adwin.py:OzaBaggingADWINClassifier.reset"]}
{"id": "C122", "title": "Pipeline trains the estimator on what prediction will hand it", "statement": "In a Pipeline of transformers that implement transform with partial_fit or partial_fit_transform, or None, partial_fit(X, y) lets every step learn from the data as transformed by the steps before it and trains the final estimator on exactly the data that predict(X) hands it afterwards; None steps are skipped.", "quantifier": "every list of steps, every estimator and every batch", "why_tests_cant": "Quantifies over all compositions of user-supplied steps.", "anchors": ["src/skmultiflow/core/pipeline.py:Pipeline.partial_fit", "src/skmultiflow/core/pipeline.py:Pipeline.fit", "src/skmultiflow/core/pipeline.py:Pipeline.predict", "src/skmultiflow/core/pipeline.py:Pipeline.partial_fit_predict", "src/skmultiflow/core/pipeline.py:Pipeline._validate_steps"]}
{"id": "C123", "title": "MultiOutputLearner is one independent estimator per target", "statement": "After any sequence of partial_fit calls column j of the prediction of MultiOutputLearner is what a single base estimator trained on target j alone would predict; classes and sample weights are handed to the base estimator as far as it takes them; predict_proba reports the probabilities of all labels of each task.", "quantifier": "every base estimator, number of targets and sequence of batches", "why_tests_cant": "Independence of the targets is a statement about all other columns.", "anchors": ["src/skmultiflow/meta/multi_output_learner.py:MultiOutputLearner.fit", "src/skmultiflow/meta/multi_output_learner.py:MultiOutputLearner.partial_fit", "src/skmultiflow/meta/multi_output_learner.py:MultiOutputLearner.predict", "src/skmultiflow/meta/multi_output_learner.py:MultiOutputLearner.predict_proba"]}
{"id": "C124", "title": "Hoeffding tree leaves account for exactly the instances routed to them", "statement": "Training a HoeffdingTreeClassifier on rows of a fixed length never fails. For every class, the weight held in the leaves of the tree equals the total weight of the training instances of that class, whatever splits, prunings, activations and deactivations happened on the way. One instance changes only the leaf it is routed to, and a leaf present since some moment has gained exactly the weight of the instances routed to it since.", "quantifier": "for every sequence of training instances, every outcome of split attempts, every memory management decision, every leaf kind", "why_tests_cant": "A test trains on one stream and compares predictions or a model dump; it cannot show conservation over all sequences of splits, prunings and (de)activations, nor that no other leaf is touched.", "anchors": ["src/skmultiflow/trees/hoeffding_tree.py:HoeffdingTreeClassifier._partial_fit", "src/skmultiflow/trees/hoeffding_tree.py:HoeffdingTreeClassifier._attempt_to_split", "src/skmultiflow/trees/hoeffding_tree.py:HoeffdingTreeClassifier._deactivate_learning_node", "src/skmultiflow/trees/_nodes/base.py:SplitNode.filter_instance_to_leaf"]}
{"id": "C125", "title": "Leaf prediction mode: adaptive leaves vote with the better of majority class and naive Bayes", "statement": "An active leaf of a tree with leaf_prediction 'nba' answers with the class weights if, over the instances it learned since it was created, the weight the majority class would have got right just before each of them is strictly larger than the weight naive Bayes would have got right; otherwise with naive Bayes. 'mc' leaves and inactive leaves answer with the class weights; 'nb' leaves answer with naive Bayes from weight nb_threshold on and with the class weights below.", "quantifier": "for every sequence of instances a leaf learns, every weight, every naive Bayes vote function", "why_tests_cant": "Tests compare final accuracies on one stream; the prequential bookkeeping of both candidates is not observable there.", "anchors": ["src/skmultiflow/trees/_nodes/htc_nodes.py:LearningNodeNBA.learn_one", "src/skmultiflow/trees/_nodes/htc_nodes.py:LearningNodeNBA.predict_one", "src/skmultiflow/trees/_nodes/htc_nodes.py:LearningNodeNB.predict_one", "src/skmultiflow/trees/_nodes/htc_nodes.py:InactiveLearningNodeMC"]}
{"id": "C126", "title": "Hoeffding tree predicts the class with the most votes in the leaf reached", "statement": "predict_proba answers each instance with one probability per class up to the largest class (of classes when given to partial_fit, else of the votes), the share of the votes for that class in the leaf the instance reaches (in the split node when the instance has an unseen value of a multiway split); rows sum to one. predict answers with the most voted class, the smallest on ties, independently of the other rows of the batch. An untrained tree answers class 0. This holds for every set of integer labels the tree was trained with.", "quantifier": "for every tree, batch, set of votes and list of classes", "why_tests_cant": "Tests use labels 0..k-1 that all appear; negative labels, labels outside classes and padding of ragged rows are not exercised.", "anchors": ["src/skmultiflow/trees/hoeffding_tree.py:HoeffdingTreeClassifier._get_votes_for_instance", "src/skmultiflow/trees/hoeffding_tree.py:HoeffdingTreeClassifier.predict", "src/skmultiflow/trees/hoeffding_tree.py:HoeffdingTreeClassifier.predict_proba"]}
{"id": "C127", "title": "The rules of a Hoeffding tree partition the instances as the tree does", "statement": "get_model_rules returns, for every tree, one rule per leaf with the class weights of the leaf and its majority class; an instance that reaches a leaf is covered by the rule of that leaf and by no other rule, and an instance that reaches no leaf is covered by none.", "quantifier": "for every reachable tree and every instance", "why_tests_cant": "The test compares the rule text of one tree with a literal; agreement of rules and routing for all instances and all trees, including trees with fresh leaves, cannot be tested.", "anchors": ["src/skmultiflow/trees/hoeffding_tree.py:HoeffdingTreeClassifier.get_model_rules", "src/skmultiflow/trees/_nodes/base.py:SplitNode.get_predicate"]}
{"id": "C128", "title": "SAM-kNN memories stay within max_window_size", "statement": "For every admissible stm_size_option (including None, a fixed window) and every ltm_size in [0,1], training SAMKNNClassifier never fails; the short-term memory always holds the newest samples in stream order; short-term and long-term memory together never hold more than max_window_size samples; the long-term memory holds only labels of the stream and stays empty without use_ltm.", "quantifier": "for every stream of samples, every number of neighbours, every distance, clustering and window size chosen by the sizer", "why_tests_cant": "Sizes are only exceeded for particular combinations of class count, long-term share and stream length.", "anchors": ["src/skmultiflow/lazy/sam_knn.py:SAMKNNClassifier._partial_fit", "src/skmultiflow/lazy/sam_knn.py:SAMKNNClassifier.size_check_STMLTM", "src/skmultiflow/lazy/sam_knn.py:SAMKNNClassifier.size_check_fade_out", "src/skmultiflow/lazy/sam_knn.py:SAMKNNClassifier.cluster_down"]}
{"id": "C129", "title": "SAM-kNN answers with the memory that was right most often lately", "statement": "The prediction histories cover exactly the samples now in the short-term memory, each judged just before it was learned. When both memories hold n_neighbors samples, predict answers with the memory (short-term, long-term, both, in this order on ties) that was right most often on these samples; otherwise the short-term memory answers. The answer is a label held in memory, for every integer label.", "quantifier": "for every stream, every state, every query and every voting function that answers with one of the labels it is given", "why_tests_cant": "Alignment of three histories with a shrinking window is invisible in predictions on one stream; tests use small labels.", "anchors": ["src/skmultiflow/lazy/sam_knn.py:SAMKNNClassifier._predict_by_all_memories", "src/skmultiflow/lazy/sam_knn.py:SAMKNNClassifier._predict_by_stm", "src/skmultiflow/lazy/sam_knn.py:SAMKNNClassifier._partial_fit_by_all_memories", "src/skmultiflow/lazy/sam_knn.py:SAMKNNClassifier.get_maj_label", "src/skmultiflow/lazy/sam_knn.py:SAMKNNClassifier.get_distance_weighted_label"]}
{"id": "C130", "title": "SAM-kNN removes exactly the contradicting long-term samples", "statement": "After a training sample the long-term memory loses exactly those of its n_neighbors samples nearest to the new sample that have another class and are no farther away than some sample of the same class among the n_neighbors nearest in the rest of the short-term memory; it loses none while the short-term memory holds at most n_neighbors samples, and never a sample of a class that the whole short-term memory has.", "quantifier": "for every pair of memories, every new sample, every distance and neighbour search", "why_tests_cant": "Which samples are dropped depends on the geometry of both memories; tests see only predictions.", "anchors": ["src/skmultiflow/lazy/sam_knn.py:SAMKNNClassifier.clean_samples"]}
{"id": "C131", "title": "Adaptive random forest: every tree has learned exactly the samples since its creation", "statement": "After any sequence of partial_fit and predict calls AdaptiveRandomForestClassifier has n_estimators members. The tree a member predicts with is an untrained tree that has learned, in order, exactly the samples after its creation, each with the weight of the member's own Poisson draw (none if it is 0). It is the original tree until the member's first drift; a drift replaces it by the background tree started at the latest warning since the drift before, or by an empty tree if there was no warning. The counters report the detectors' answers, and reset() starts anew.", "quantifier": "for every sequence of calls, every tree learner, every drift and warning detector, every outcome of the random draws", "why_tests_cant": "Which samples a replaced tree has learned is not visible in predictions, and the order of warnings and drifts of many members cannot be enumerated by tests.", "anchors": ["src/skmultiflow/meta/adaptive_random_forests.py:AdaptiveRandomForestClassifier._partial_fit", "src/skmultiflow/meta/adaptive_random_forests.py:ARFBaseLearner.partial_fit", "src/skmultiflow/meta/adaptive_random_forests.py:ARFBaseLearner.reset", "src/skmultiflow/meta/adaptive_random_forests.py:AdaptiveRandomForestClassifier.reset"]}
{"id": "C132", "title": "Adaptive random forest: members are judged by their predictions on unseen samples", "statement": "The performance that weighs a member's vote covers exactly its predictions for the samples since its last drift, each made before the sample was learned; the drift and warning detectors are fed with the errors of these predictions since they were last restarted.", "quantifier": "for every sequence of calls, every tree learner, every detector whose reset restores its initial state", "why_tests_cant": "A test sees accuracies, not the sequence of errors each detector was given.", "anchors": ["src/skmultiflow/meta/adaptive_random_forests.py:AdaptiveRandomForestClassifier._partial_fit", "src/skmultiflow/meta/adaptive_random_forests.py:ARFBaseLearner.partial_fit"]}
{"id": "C133", "title": "Adaptive random forest: votes are weighted by performance", "statement": "predict_proba answers with, for each class, the sum over the members of their normalised vote for the class times their performance (accuracy or kappa; 1 if disable_weighted_vote), divided by the total for all classes; the row is a probability distribution, and predict answers with the most probable class, the smallest on ties. A member without votes does not count; better performance means more influence.", "quantifier": "for every list of member votes and performances, every list of classes", "why_tests_cant": "Members of performance 0 or negative kappa appear only shortly after drifts.", "anchors": ["src/skmultiflow/meta/adaptive_random_forests.py:AdaptiveRandomForestClassifier._get_votes_for_instance", "src/skmultiflow/meta/adaptive_random_forests.py:AdaptiveRandomForestClassifier.predict_proba", "src/skmultiflow/meta/adaptive_random_forests.py:AdaptiveRandomForestClassifier.predict"]}
{"id": "C134", "title": "Adaptive random forest: max_features", "statement": "For every value of max_features between 1 and all n features are considered at a split: the given number, n minus the absolute value of a negative number, the given share of n, the rounded square root or logarithm, or all for None; the parameter keeps its meaning for the lifetime of the forest.", "quantifier": "for every value of the parameter and every number of features", "why_tests_cant": "Boundary cases (negative, above n, shares below 1/n) and retraining on data of another width.", "anchors": ["src/skmultiflow/meta/adaptive_random_forests.py:AdaptiveRandomForestClassifier._set_max_features"]}
{"id": "C135", "title": "Adaptive random forest: sample weights", "statement": "partial_fit accepts one weight per sample; a sample counts in training according to its weight, and not at all with weight 0.", "quantifier": "for every batch, every list of weights, every tree learner", "why_tests_cant": "Tests train without weights.", "anchors": ["src/skmultiflow/meta/adaptive_random_forests.py:AdaptiveRandomForestClassifier.partial_fit", "src/skmultiflow/utils/validation.py:check_weights"]}
{"id": "C136", "title": "Streaming random patches: distinct random subspaces", "statement": "At the first partial_fit every member gets a list of distinct, valid feature indices; no two members get the same subspace when there are enough different ones, the subspaces are drawn at random among all of their size, and the construction always returns.", "quantifier": "for every number of features and members, every subspace size, every random draw", "why_tests_cant": "With few features the construction enumerates subspaces and pads the list; tests use one data set.", "anchors": ["src/skmultiflow/meta/streaming_random_patches.py:StreamingRandomPatchesClassifier._init_ensemble", "src/skmultiflow/meta/streaming_random_patches.py:StreamingRandomPatchesClassifier._init_ensemble_members", "src/skmultiflow/meta/streaming_random_patches.py:get_all_k_combinations"]}
{"id": "C137", "title": "Streaming random patches: size of the subspaces", "statement": "For every subspace_mode and subspace_size the subspaces have the documented size: m features, the rounded square root plus 1 (or n minus it), or the given percentage of n, and n minus the number for negative sizes; 0 or a size of at least n means all features, and training_method stays as the user set it.", "quantifier": "for every mode, size, method and number of features", "why_tests_cant": "Each boundary (1, 2, n, negative) is a separate case of the code.", "anchors": ["src/skmultiflow/meta/streaming_random_patches.py:StreamingRandomPatchesClassifier._init_ensemble"]}
{"id": "C138", "title": "Streaming random patches: what a member is trained on", "statement": "At any time a member is an untrained estimator that has learned exactly the samples after its creation with positive weight, of each only the features of its subset, which never changes in its lifetime; it was created at the start, at the last drift, or at the latest warning between the drift before and that drift. The background learner exists iff there was a warning since the last drift. The counters report the number of warnings and drifts; reset starts anew.", "quantifier": "for every sequence of calls, every estimator, every detector, every random draw", "why_tests_cant": "The moments of warnings and drifts are decided by detectors; a test cannot enumerate their interleavings.", "anchors": ["src/skmultiflow/meta/streaming_random_patches.py:StreamingRandomPatchesClassifier._partial_fit", "src/skmultiflow/meta/streaming_random_patches.py:StreamingRandomPatchesBaseLearner.partial_fit", "src/skmultiflow/meta/streaming_random_patches.py:StreamingRandomPatchesBaseLearner._trigger_warning", "src/skmultiflow/meta/streaming_random_patches.py:StreamingRandomPatchesBaseLearner.reset", "src/skmultiflow/meta/streaming_random_patches.py:StreamingRandomPatchesClassifier.reset"]}
{"id": "C139", "title": "Streaming random patches: members are judged on unseen samples", "statement": "The evaluator of a member holds its predictions for all samples since its last drift, each made before the sample was learned; the drift and warning detectors are fed with the errors of predictions of samples that the member had not learned.", "quantifier": "for every sequence of calls, every estimator, every detector", "why_tests_cant": "A test sees accuracies, not the sequence of errors each detector was given.", "anchors": ["src/skmultiflow/meta/streaming_random_patches.py:StreamingRandomPatchesClassifier._partial_fit", "src/skmultiflow/meta/streaming_random_patches.py:StreamingRandomPatchesBaseLearner.partial_fit"]}
{"id": "C140", "title": "Streaming random patches: votes", "statement": "predict_proba answers with a probability distribution: for each class the members' normalised votes weighted by accuracy (disable_weighted_vote: equally); predict answers with the most probable class, the smallest on ties; a batch is predicted like its samples one by one.", "quantifier": "for every list of member votes and accuracies, every batch", "why_tests_cant": "Members of accuracy 0 and members that know different numbers of classes appear only in short phases.", "anchors": ["src/skmultiflow/meta/streaming_random_patches.py:StreamingRandomPatchesClassifier._predict_proba", "src/skmultiflow/meta/streaming_random_patches.py:StreamingRandomPatchesClassifier.predict", "src/skmultiflow/meta/streaming_random_patches.py:StreamingRandomPatchesClassifier.predict_proba"]}
{"id": "C141", "title": "Streaming random patches: nominal attributes follow the subspace", "statement": "Every estimator of the ensemble, including those created at warnings and drifts, is trained all the time with exactly those of the given nominal attributes that are in its subset, renumbered to positions in the subset.", "quantifier": "for every list of nominal attributes, every subspace, every sequence of calls", "why_tests_cant": "Needs drifts that replace subspaces, and a look at the estimators' own parameters.", "anchors": ["src/skmultiflow/meta/streaming_random_patches.py:StreamingRandomPatchesBaseLearner._remap_nominal_attributes", "src/skmultiflow/meta/streaming_random_patches.py:StreamingRandomPatchesBaseLearner._reset_subset", "src/skmultiflow/meta/streaming_random_patches.py:StreamingRandomPatchesBaseLearner.reset", "src/skmultiflow/meta/streaming_random_patches.py:StreamingRandomPatchesBaseLearner._trigger_warning"]}
{"id": "C142", "title": "Adaptive random forest regressor: what a member is trained and judged on", "statement": "At any time the tree of a member is an untrained tree that has learned exactly the samples after its creation (created_on) with positive weight, and its evaluator holds the tree's predictions for exactly these samples, each made before learning the sample. It was created at the start, at the last drift, or at the latest warning between the drift before and that drift; the same holds for the background tree, which exists iff there was a warning since the last drift. The counters report the number of warnings and drifts; reset starts anew.", "quantifier": "for every sequence of calls, every tree learner, every detector, every random draw", "why_tests_cant": "The moments of warnings and drifts are decided by detectors; a test cannot enumerate their interleavings.", "anchors": ["src/skmultiflow/meta/adaptive_random_forest_regressor.py:AdaptiveRandomForestRegressor.partial_fit", "src/skmultiflow/meta/adaptive_random_forest_regressor.py:ARFRegBaseLearner.partial_fit", "src/skmultiflow/meta/adaptive_random_forest_regressor.py:ARFRegBaseLearner.reset"]}
{"id": "C143", "title": "Adaptive random forest regressor: what the detectors are fed", "statement": "The detectors are fed with the monitored values (error or prediction, made before learning) since they were last restarted, each expressed in standard deviations from the mean of the values since the last drift and scaled to a number in [0, 1]; a constant value is fed as a constant.", "quantifier": "for every sequence of calls, every tree learner, every detector whose reset restores its initial state", "why_tests_cant": "The normalisation is an online algorithm whose state is restarted at drifts; a test sees at most when drifts are reported.", "anchors": ["src/skmultiflow/meta/adaptive_random_forest_regressor.py:ARFRegBaseLearner._normalize_drift_input", "src/skmultiflow/meta/adaptive_random_forest_regressor.py:ARFRegBaseLearner.partial_fit"]}
{"id": "C144", "title": "Adaptive random forest regressor: aggregation", "statement": "With the mean, the forest predicts a weighted average of the trees' predictions: the weights are not negative, sum up to 1 and are larger for trees with smaller error (equal if there is no error or no weighting), so that the prediction lies between the trees' predictions; with the median, half of the trees predict at most and half at least that value. The prediction is a number for every forest, and trees without experience do not dominate.", "quantifier": "for every list of predictions and errors", "why_tests_cant": "Forests of one tree and freshly reset trees are corner cases.", "anchors": ["src/skmultiflow/meta/adaptive_random_forest_regressor.py:AdaptiveRandomForestRegressor.predict", "src/skmultiflow/meta/adaptive_random_forest_regressor.py:ARFRegBaseLearner.get_error"]}
{"id": "C145", "title": "Adaptive random forest regressor: max_features", "statement": "For every accepted value of max_features between 1 and all n features are considered at a split, as the parameter says; exactly shares outside (0, 1] are refused with ValueError; the parameter keeps its meaning after reset.", "quantifier": "for every value of the parameter and every number of features, every sequence of resets", "why_tests_cant": "Boundary cases, and training after reset on a forest with a non-default value.", "anchors": ["src/skmultiflow/meta/adaptive_random_forest_regressor.py:AdaptiveRandomForestRegressor._set_max_features", "src/skmultiflow/meta/adaptive_random_forest_regressor.py:AdaptiveRandomForestRegressor.reset"]}
{"id": "C146", "title": "VFDR with a drift detector removes rules whose performance drops", "statement": "With drift_detector set, every instance a rule covers is scored against the majority class of the rule before the rule learns from it and the outcome is handed to the detector of that rule; when the detector reports a change and the rule has seen more than min_weight the rule is removed, and otherwise it stays. A rule is removed because its predictions have become worse, for each of the supported detectors.", "quantifier": "every rule set, instance, detector and history", "why_tests_cant": "Which rule goes depends on the sign convention between classifier and detector over long histories; accuracy on one stream does not show it.", "anchors": ["src/skmultiflow/rules/very_fast_decision_rules.py:VeryFastDecisionRulesClassifier._partial_fit", "src/skmultiflow/rules/very_fast_decision_rules.py:VeryFastDecisionRulesClassifier.Rule.predict", "src/skmultiflow/drift_detection/ddm.py:DDM.add_element"]}
{"id": "C147", "title": "VFDR remove_poor_atts disables exactly the poor attributes", "statement": "With remove_poor_atts=True an expansion attempt with at least two suggestions disables the attributes whose suggestion is worse than the best by more than the Hoeffding bound and no others; a disabled attribute makes no further suggestions until the rule is expanded, and predictions of the rule go on using the attributes that are left.", "quantifier": "every rule, set of suggestions, bound and instance", "why_tests_cant": "Quantifies over all merits and over every later prediction of the rule.", "anchors": ["src/skmultiflow/rules/very_fast_decision_rules.py:VeryFastDecisionRulesClassifier._expand_rule", "src/skmultiflow/rules/very_fast_decision_rules.py:VeryFastDecisionRulesClassifier.Rule.disable_attribute", "src/skmultiflow/bayes/utils.py:do_naive_bayes_prediction", "src/skmultiflow/trees/_attribute_observer/attribute_observer_null.py:AttributeObserverNull"]}
{"id": "C148", "title": "A deactivated leaf of a Hoeffding tree only counts classes", "statement": "A leaf of HoeffdingTreeClassifier that is deactivated, by the memory manager or because not splitting was the best choice, keeps adding the weight of the instances that reach it to their classes and answers with those weights; it is never split and nothing else in it changes until the memory manager activates it again, and then its class weights stay and everything else starts afresh.", "quantifier": "every tree, every sequence of instances and every decision of the memory manager about other leaves", "why_tests_cant": "Invariant over all training sequences and interleavings with memory management.", "anchors": ["src/skmultiflow/trees/hoeffding_tree.py:HoeffdingTreeClassifier._partial_fit", "src/skmultiflow/trees/hoeffding_tree.py:HoeffdingTreeClassifier._deactivate_learning_node", "src/skmultiflow/trees/hoeffding_tree.py:HoeffdingTreeClassifier._activate_learning_node", "src/skmultiflow/trees/_nodes/htc_nodes.py:InactiveLearningNodeMC"]}
{"id": "C149", "title": "Learn++.NSE: one member per window, pruning", "statement": "After any sequence of partial_fit calls the members of LearnPPNSEClassifier are learners trained each on one full window of window_size consecutive samples, oldest first: on every window without pruning, on the last n_estimators windows with pruning='age', on n_estimators windows with pruning='error', where the member dropped is the one with the largest error on the window just processed (the oldest on a tie). The samples after the last full window wait; how the samples are spread over calls does not matter.", "quantifier": "every base learner, every split of every stream into calls, every parameter setting", "why_tests_cant": "Invariant over all streams and all ways of cutting them into calls.", "anchors": ["src/skmultiflow/meta/learn_nse.py:LearnPPNSEClassifier.partial_fit"]}
{"id": "C150", "title": "Learn++.NSE: voting weights follow the errors", "statement": "The weight of a sample is larger if the ensemble gets it wrong, and the sample weights add up to one; the voting weight of a member is log(1/b) for the sigmoid weighted average b of its normalised errors on the windows since its creation, so a member whose errors are all below one half always votes, and a member that is wrong on part of a window is recorded with an error there.", "quantifier": "every base learner, stream and sigmoid; any number of windows", "why_tests_cant": "The weighted average is taken over an unbounded history; the failure needs many windows.", "anchors": ["src/skmultiflow/meta/learn_nse.py:LearnPPNSEClassifier.partial_fit"]}
{"id": "C151", "title": "Learn++.NSE: predict_proba adds up the members' votes by class", "statement": "The score of a class is the sum, over the members with a positive voting weight, of the weight times the probability the member gives to that class, where members that have seen only some of the classes give 0 to the others; predict answers the class with the highest score.", "quantifier": "every ensemble, sample and set of classes", "why_tests_cant": "Windows that miss classes occur on unbalanced or drifting streams only; the alignment must hold for every subset of the classes.", "anchors": ["src/skmultiflow/meta/learn_nse.py:LearnPPNSEClassifier.predict_proba", "src/skmultiflow/meta/learn_nse.py:LearnPPNSEClassifier._fill_missing_probs", "src/skmultiflow/meta/learn_nse.py:LearnPPNSEClassifier.predict"]}
{"id": "C152", "title": "Learn++.NSE: classes and reset", "statement": "partial_fit raises RuntimeError if the classes are not passed in the first call, or if they are passed in further calls and differ from the first ones; after reset the classifier behaves like a new one.", "quantifier": "every history, every list of classes", "why_tests_cant": "Quantifies over all histories before the second call or the reset.", "anchors": ["src/skmultiflow/meta/learn_nse.py:LearnPPNSEClassifier.partial_fit", "src/skmultiflow/meta/learn_nse.py:LearnPPNSEClassifier.reset"]}
{"id": "C153", "title": "Learn++: one ensemble per window, the newest are kept", "statement": "After any sequence of partial_fit calls that raise nothing LearnPPClassifier holds one ensemble for each of the last n_ensembles full windows of window_size consecutive samples, each trained on its window alone and with at most n_estimators learners; the samples after the last full window wait; how the samples are spread over calls does not matter.", "quantifier": "every base learner, every split of every stream into calls, every random draw", "why_tests_cant": "Invariant over all streams and all ways of cutting them into calls.", "anchors": ["src/skmultiflow/meta/learn_pp.py:LearnPPClassifier.partial_fit", "src/skmultiflow/meta/learn_pp.py:LearnPPClassifier.__fit_batch"]}
{"id": "C154", "title": "Learn++: only learners below the error threshold are kept, or training fails", "statement": "Training on a window ends: either every learner of the new ensemble has a test error below error_threshold and so has the vote of the learners up to it, with n_estimators learners unless the vote is right on the whole window; or RuntimeError is raised because the base estimator is too weak.", "quantifier": "every base learner, window, threshold and sequence of random draws", "why_tests_cant": "Termination, and an invariant over every sequence of draws.", "anchors": ["src/skmultiflow/meta/learn_pp.py:LearnPPClassifier.__fit_batch", "src/skmultiflow/meta/learn_pp.py:LearnPPClassifier.__compute_error"]}
{"id": "C155", "title": "Learn++: votes weighted by normalised error", "statement": "predict_proba gives each class the total weight log(1/(e + 1e-50)) of the learners of all ensembles that predict it, e being the normalised error of the learner, and predict answers the class with the largest weight, for every list of integer classes.", "quantifier": "every list of ensembles, every sample, every list of classes", "why_tests_cant": "Quantifies over the class labels and over all ensembles.", "anchors": ["src/skmultiflow/meta/learn_pp.py:LearnPPClassifier.predict_proba", "src/skmultiflow/meta/learn_pp.py:LearnPPClassifier.predict", "src/skmultiflow/meta/learn_pp.py:LearnPPClassifier.__vote_proba"]}
{"id": "C156", "title": "Learn++: usable after a failed window", "statement": "When training on a window raises, the classifier goes on learning from the windows that follow in later calls.", "quantifier": "every history of calls after the exception", "why_tests_cant": "The failure is silent and shows only in the absence of learning over all later calls.", "anchors": ["src/skmultiflow/meta/learn_pp.py:LearnPPClassifier.partial_fit", "src/skmultiflow/meta/learn_pp.py:LearnPPClassifier.reset"]}
{"id": "C157", "title": "Learn++: classes and reset", "statement": "partial_fit raises RuntimeError if the classes are not passed in the first call, or if a different set is passed later; passing the same set or none changes nothing; after reset the classifier behaves like a new one.", "quantifier": "every history, every list of classes", "why_tests_cant": "Quantifies over all histories before the second call or the reset.", "anchors": ["src/skmultiflow/meta/learn_pp.py:LearnPPClassifier.partial_fit", "src/skmultiflow/meta/learn_pp.py:LearnPPClassifier.reset"]}
{"id": "C158", "title": "EFDT: the root accounts for every training instance", "statement": "After any training of an ExtremelyFastDecisionTreeClassifier the class statistics of the root are those of all training instances, each counted once, whatever was split, re-evaluated, replaced or pruned; and unless the memory manager deactivated the root, the root's attribute observers have seen exactly the training instances.", "quantifier": "every sequence of weighted training instances and memory management decisions", "why_tests_cant": "A replacement hands statistics and observers on from node to node; a test sees one such chain.", "anchors": ["src/skmultiflow/trees/extremely_fast_decision_tree.py:ExtremelyFastDecisionTreeClassifier._partial_fit", "src/skmultiflow/trees/extremely_fast_decision_tree.py:ExtremelyFastDecisionTreeClassifier._process_nodes", "src/skmultiflow/trees/extremely_fast_decision_tree.py:ExtremelyFastDecisionTreeClassifier._sort_instance_into_leaf", "src/skmultiflow/trees/extremely_fast_decision_tree.py:ExtremelyFastDecisionTreeClassifier._reevaluate_best_split"]}
{"id": "C159", "title": "EFDT: when a node is split, kept, replaced or pruned", "statement": "A due leaf of several classes is split on the best suggestion exactly if that beats not splitting by more than the Hoeffding bound or the bound is below the tie threshold. A due split node is pruned if not splitting beats the best suggestion by more than the bound; otherwise it is replaced if the best suggestion beats the best one on its own attribute by more than the bound or the bound is below the tie threshold (a new test only, if on the same attribute), and kept in all other cases. With merits that are never below that of not splitting, a node is pruned only if no suggestion is admissible.", "quantifier": "every node, suggestions, bound and threshold", "why_tests_cant": "Quantifies over all real-valued merits; tests reach few combinations of the conditions.", "anchors": ["src/skmultiflow/trees/extremely_fast_decision_tree.py:ExtremelyFastDecisionTreeClassifier._reevaluate_best_split", "src/skmultiflow/trees/extremely_fast_decision_tree.py:ExtremelyFastDecisionTreeClassifier._attempt_to_split"]}
{"id": "C160", "title": "EFDT: min_samples_reevaluate instances between re-evaluations", "statement": "A split node is re-evaluated only after it has seen min_samples_reevaluate more weight since it was created or last re-evaluated.", "quantifier": "every node and every sequence of instances", "why_tests_cant": "A re-evaluation that keeps the node is not visible from outside; its frequency shows only over long runs.", "anchors": ["src/skmultiflow/trees/extremely_fast_decision_tree.py:ExtremelyFastDecisionTreeClassifier._process_nodes", "src/skmultiflow/trees/extremely_fast_decision_tree.py:ExtremelyFastDecisionTreeClassifier._reevaluate_best_split"]}
{"id": "C161", "title": "EFDT: node counters", "statement": "The counters of decision nodes, active leaves and inactive leaves of an EFDT always equal the numbers of such nodes in the tree.", "quantifier": "every sequence of training instances, splits, replacements, prunings and memory management decisions", "why_tests_cant": "The counters are updated by differences; an error needs a replacement of a particular subtree to show.", "anchors": ["src/skmultiflow/trees/extremely_fast_decision_tree.py:ExtremelyFastDecisionTreeClassifier._reevaluate_best_split", "src/skmultiflow/trees/extremely_fast_decision_tree.py:ExtremelyFastDecisionTreeClassifier._kill_subtree", "src/skmultiflow/trees/_nodes/efdtc_nodes.py:EFDTSplitNode.count_nodes"]}
{"id": "C162", "title": "EFDT: nodes have learned the instances that their tests send them", "statement": "At any time, every instance a node of an EFDT has learned from since it was created is one that the tests of the tree as it now stands send to this node.", "quantifier": "every sequence of training instances, all suggestions and thresholds", "why_tests_cant": "A statement about all past instances and the current tree, through all replacements.", "anchors": ["src/skmultiflow/trees/extremely_fast_decision_tree.py:ExtremelyFastDecisionTreeClassifier._reevaluate_best_split", "src/skmultiflow/trees/extremely_fast_decision_tree.py:ExtremelyFastDecisionTreeClassifier._sort_instance_into_leaf"]}
{"id": "C163", "title": "HAT: an alternate tree replaces a node only when it is better", "statement": "In a Hoeffding adaptive tree a node is replaced by its alternate tree only if the error rate of the alternate tree is lower than that of the node by more than the bound (both from more than 300 instances); it is dropped only if it is higher by more than the bound; a new one is started exactly on a detected change with an error rate that did not go down.", "quantifier": "every node, instance, detector behaviour and error rates", "why_tests_cant": "The rule relates two detectors, two trees and a bound; tests see a few streams with real ADWIN detectors.", "anchors": ["src/skmultiflow/trees/_nodes/hatc_nodes.py:AdaSplitNode.learn_one", "src/skmultiflow/trees/_nodes/hatc_nodes.py:AdaLearningNode.learn_one"]}
{"id": "C164", "title": "HAT: bootstrap sampling weights", "statement": "With bootstrap sampling each training instance counts at a leaf of a Hoeffding adaptive tree as often as the Poisson draw says; without it, once.", "quantifier": "every training sequence and every sequence of draws", "why_tests_cant": "A statement about all draws; a draw of 0 is as likely as a draw of 1 but leaves no trace in test scores.", "anchors": ["src/skmultiflow/trees/_nodes/hatc_nodes.py:AdaLearningNode.learn_one", "src/skmultiflow/trees/hoeffding_adaptive_tree.py:HoeffdingAdaptiveTreeClassifier.__init__"]}
{"id": "C165", "title": "HAT: votes", "statement": "The votes of a Hoeffding adaptive tree for an instance are those of the node of the main tree that its tests lead to (the leaf, or the split node if it has no branch for the instance), scaled for a leaf by the inverse of their sum and of its squared error rate; alternate trees do not vote.", "quantifier": "every tree, alternate trees and instances", "why_tests_cant": "The answer must be independent of all alternate trees and hold for values not seen in training.", "anchors": ["src/skmultiflow/trees/hoeffding_adaptive_tree.py:HoeffdingAdaptiveTreeClassifier._get_votes_for_instance", "src/skmultiflow/trees/hoeffding_adaptive_tree.py:HoeffdingAdaptiveTreeClassifier.filter_instance_to_leaves", "src/skmultiflow/trees/_nodes/hatc_nodes.py:AdaSplitNode.filter_instance_to_leaves"]}
{"id": "C166", "title": "HAT: reset gives a new tree", "statement": "After reset() a Hoeffding adaptive tree is as good as new: the same training gives the same tree, votes and counters as for a new tree.", "quantifier": "every state before the reset, every training sequence and instance afterwards", "why_tests_cant": "An equivalence of all continuations; a forgotten field shows only in particular ones.", "anchors": ["src/skmultiflow/trees/hoeffding_adaptive_tree.py:HoeffdingAdaptiveTreeClassifier.reset"]}
{"id": "C167", "title": "HAT: training and prediction never fail", "statement": "Training a Hoeffding adaptive tree on instances with a fixed number of attributes never raises an error, and neither does prediction.", "quantifier": "every sequence of training instances, split decisions, detected changes, prunings and draws, both settings of stop_mem_management", "why_tests_cant": "Errors need a particular combination of prunings, switches and alternate trees.", "anchors": ["src/skmultiflow/trees/hoeffding_adaptive_tree.py:HoeffdingAdaptiveTreeClassifier._partial_fit", "src/skmultiflow/trees/_nodes/hatc_nodes.py:AdaSplitNode.learn_one", "src/skmultiflow/trees/hoeffding_adaptive_tree.py:HoeffdingAdaptiveTreeClassifier._get_votes_for_instance"]}
{"id": "C168", "title": "HAT: node counters", "statement": "The counters of active leaves and decision nodes of a Hoeffding adaptive tree equal the numbers of such nodes in the main tree.", "quantifier": "every sequence of training instances, splits, prunings, alternate trees and switches", "why_tests_cant": "The counters are updated by differences at several places; an error needs a switch to show.", "anchors": ["src/skmultiflow/trees/_nodes/hatc_nodes.py:AdaSplitNode.learn_one", "src/skmultiflow/trees/_nodes/hatc_nodes.py:AdaSplitNode.kill_tree_children", "src/skmultiflow/trees/hoeffding_tree.py:HoeffdingTreeClassifier._attempt_to_split"]}
{"id": "C169", "title": "HAT: without change it is the Hoeffding tree", "statement": "As long as the detectors report no change, bootstrap sampling is off, no leaf is pruned and single instances weigh less than the grace period, the main tree of a Hoeffding adaptive tree is the Hoeffding tree (with adaptive naive Bayes leaves) grown from the same instances with the same split decisions.", "quantifier": "every sequence of training instances and split decisions", "why_tests_cant": "An equality of two different algorithms (recursive and path based) over all sequences.", "anchors": ["src/skmultiflow/trees/_nodes/hatc_nodes.py:AdaSplitNode.learn_one", "src/skmultiflow/trees/_nodes/hatc_nodes.py:AdaLearningNode.learn_one", "src/skmultiflow/trees/hoeffding_tree.py:HoeffdingTreeClassifier._partial_fit"]}
{"id": "C170", "title": "HTR: leaves carry all training rows", "statement": "The statistics (weight, sum and sum of squares of targets) of the leaves of a Hoeffding tree regressor add up to those of all training rows, whatever splits were made.", "quantifier": "every sequence of training rows, split decisions and memory checks", "why_tests_cant": "Needs trees that have grown by several splits, including multiway splits with rows of unseen values.", "anchors": ["src/skmultiflow/trees/hoeffding_tree_regressor.py:HoeffdingTreeRegressor._partial_fit", "src/skmultiflow/trees/hoeffding_tree_regressor.py:HoeffdingTreeRegressor._attempt_to_split", "src/skmultiflow/trees/_nodes/htr_nodes.py:ActiveLeafRegressor.update_stats"]}
{"id": "C171", "title": "HTR: a leaf summarises the rows it is responsible for", "statement": "The statistics of a leaf of a Hoeffding tree regressor are those of exactly the training rows that the tree routes to this leaf.", "quantifier": "every sequence of training rows, split decisions and memory checks", "why_tests_cant": "Children inherit statistics that observers collected before the split; which rows they stand for is not visible from outside.", "anchors": ["src/skmultiflow/trees/hoeffding_tree_regressor.py:HoeffdingTreeRegressor._attempt_to_split", "src/skmultiflow/trees/_attribute_observer/numeric_attribute_regression_observer.py:NumericAttributeRegressionObserver._find_best_split"]}
{"id": "C172", "title": "HTR: target-mean predictions stay in the range of the targets", "statement": "With leaf_prediction='mean', every prediction of a Hoeffding tree regressor lies between the smallest and the largest training target.", "quantifier": "every sequence of training rows, split decisions (with pruned observers too) and query rows", "why_tests_cant": "A claim about all histories of splits and observer prunings; a counterexample needs a particular one.", "anchors": ["src/skmultiflow/trees/_nodes/htr_nodes.py:InactiveLeafForRegression.predict_one", "src/skmultiflow/trees/_nodes/htr_nodes.py:ActiveLeafRegressor.predict_one", "src/skmultiflow/trees/hoeffding_tree_regressor.py:HoeffdingTreeRegressor.predict"]}
{"id": "C173", "title": "HTR: perceptron predictions are bounded", "statement": "After every update the weights of a leaf perceptron have unit L1 norm, hence a prediction for a row whose normalised attributes are at most B in absolute value (B at least 1) differs from the mean target by at most three standard deviations times B.", "quantifier": "every sequence of training rows of weight at least one, split decisions and query rows", "why_tests_cant": "Boundedness over all training sequences; tests see finitely many.", "anchors": ["src/skmultiflow/trees/_nodes/htr_nodes.py:ActiveLeafPerceptron._update_weights", "src/skmultiflow/trees/_nodes/htr_nodes.py:ActiveLeafPerceptron.learn_one", "src/skmultiflow/trees/hoeffding_tree_regressor.py:HoeffdingTreeRegressor.normalize_sample", "src/skmultiflow/trees/hoeffding_tree_regressor.py:HoeffdingTreeRegressor.normalize_target_value"]}
{"id": "C174", "title": "HTR: running sums are exact and no row makes it fail", "statement": "The sums of weights, targets, squared targets, attributes and squared attributes kept by a Hoeffding tree regressor are exactly those of the rows seen, and neither training nor prediction raises.", "quantifier": "every number of attributes, every sequence of training and query rows", "why_tests_cant": "Universally quantified over the number of attributes and over all sequences.", "anchors": ["src/skmultiflow/trees/hoeffding_tree_regressor.py:HoeffdingTreeRegressor._partial_fit", "src/skmultiflow/trees/hoeffding_tree_regressor.py:HoeffdingTreeRegressor.normalize_sample", "src/skmultiflow/trees/hoeffding_tree_regressor.py:HoeffdingTreeRegressor.predict"]}
{"id": "C175", "title": "HTR: rows count with their weight", "statement": "Training a Hoeffding tree regressor takes every row of positive weight into account, in proportion to its weight.", "quantifier": "every sequence of weighted rows", "why_tests_cant": "Weights other than one are hardly tested; the claim is about all of them.", "anchors": ["src/skmultiflow/trees/_nodes/htr_nodes.py:ActiveLeafPerceptron.learn_one", "src/skmultiflow/trees/_nodes/htr_nodes.py:ActiveLeafRegressor.update_stats"]}
{"id": "C176", "title": "HTR: one prediction per row", "statement": "Predict of a Hoeffding tree regressor returns one number per query row.", "quantifier": "every training sequence (also none) and all query rows", "why_tests_cant": "Needs all states of the tree, including the untrained one.", "anchors": ["src/skmultiflow/trees/hoeffding_tree_regressor.py:HoeffdingTreeRegressor.predict"]}
{"id": "C177", "title": "HTR: split decision", "statement": "A leaf of a Hoeffding tree regressor is split only along a suggestion of positive and largest merit whose branches all weigh at least 5, and exactly if the Hoeffding bound is below the tie threshold or all other merits stay below the fraction 1 - bound of the best; deciding never raises.", "quantifier": "every list of suggestions, bound, tie threshold and option", "why_tests_cant": "The decision depends on real-valued merits and bounds; boundary cases are not reachable by sampling.", "anchors": ["src/skmultiflow/trees/hoeffding_tree_regressor.py:HoeffdingTreeRegressor._attempt_to_split", "src/skmultiflow/trees/_split_criterion/variance_reduction_split_criterion.py:VarianceReductionSplitCriterion.get_merit_of_split"]}
{"id": "C178", "title": "Cost-sensitive boosting never fails", "statement": "Training OnlineAdaC2Classifier or OnlineCSB2Classifier with positive costs never raises, whatever is drawn and predicted, and every Poisson rate used is positive.", "quantifier": "every base learner, every sequence of batches, all draws, any number of members and classes", "why_tests_cant": "The rates are ratios of running sums that depend on all past draws and predictions; tests see a few runs.", "anchors": ["src/skmultiflow/meta/online_adac2.py:OnlineAdaC2Classifier.partial_fit", "src/skmultiflow/meta/online_csb2.py:OnlineCSB2Classifier.partial_fit"]}
{"id": "C179", "title": "AdaC2: weighted accuracy and error of a member", "statement": "In OnlineAdaC2Classifier, after a member was trained on a binary sample, its weighted accuracy and weighted error are the cost-weighted shares, of the weight of all samples shown to it, of those it predicted correctly and wrongly.", "quantifier": "every base learner, every sequence of batches, all draws, every member", "why_tests_cant": "An invariant over the whole history of a member, including samples it was not drawn for and resets after change.", "anchors": ["src/skmultiflow/meta/online_adac2.py:OnlineAdaC2Classifier.partial_fit"]}
{"id": "C180", "title": "CSB2: misses are charged with their cost", "statement": "In OnlineCSB2Classifier, epsilon of a member is the share of weight it predicted wrongly among all samples shown to it, misses are charged with the cost of their class, and a correctly predicted sample is handed to the next member with its weight scaled.", "quantifier": "every base learner, every sequence of batches, all draws, every member", "why_tests_cant": "The bookkeeping depends on the history of the member; a wrong cost only shows in rates of later draws.", "anchors": ["src/skmultiflow/meta/online_csb2.py:OnlineCSB2Classifier.partial_fit"]}
{"id": "C181", "title": "RUSBoost: training and error estimate", "statement": "Training OnlineRUSBoostClassifier with a positive sampling rate never raises, every Poisson rate is non-negative, every member is shown every sample once, and epsilon of a member is the share of the weight shown to it that it predicted wrongly.", "quantifier": "every base learner, algorithm, sequence of batches, all draws, every member", "why_tests_cant": "The rates contain nested ratios of running sums; division by zero depends on the history.", "anchors": ["src/skmultiflow/meta/online_rus_boost.py:OnlineRUSBoostClassifier.partial_fit"]}
{"id": "C182", "title": "RUSBoost: class counts", "statement": "OnlineRUSBoostClassifier bases its sampling rates on the proportions of the classes among the samples seen, including the current one.", "quantifier": "every sequence of batches and every number of members", "why_tests_cant": "The effect of miscounting is only a different Poisson rate.", "anchors": ["src/skmultiflow/meta/online_rus_boost.py:OnlineRUSBoostClassifier.partial_fit"]}
{"id": "C183", "title": "Under/over-bagging: rates", "statement": "Training OnlineUnderOverBaggingClassifier never raises; every member is shown every sample exactly once in order, and is trained on it as often as a Poisson draw of rate (i+1)/N, times the sampling rate for positive samples.", "quantifier": "every base learner, sequence of batches, all draws, every member", "why_tests_cant": "Quantifies over draws and number of members.", "anchors": ["src/skmultiflow/meta/online_under_over_bagging.py:OnlineUnderOverBaggingClassifier.partial_fit"]}
{"id": "C184", "title": "SMOTE bagging: synthetic samples", "statement": "OnlineSMOTEBaggingClassifier trains member i of N on a positive sample by a Poisson draw of rate a*sampling_rate and on synthetic samples by one of rate (1-a)*sampling_rate, a=(i+1)/N; a synthetic sample lies between the positive sample and one of its five nearest earlier positive samples; positive samples are remembered once.", "quantifier": "every sequence of batches, all draws, any distance", "why_tests_cant": "The synthetic samples go to the base learners and are never visible.", "anchors": ["src/skmultiflow/meta/online_smote_bagging.py:OnlineSMOTEBaggingClassifier.partial_fit", "src/skmultiflow/meta/online_smote_bagging.py:OnlineSMOTEBaggingClassifier.online_smote"]}
{"id": "C185", "title": "Ensembles for skewed classes: a member reset after a change starts afresh", "statement": "When an online ensemble for skewed classes detects a change, the member picked is reset: learner, detector and its error statistics.", "quantifier": "every state of the ensemble", "why_tests_cant": "Statistics that survive a reset only bias later rates.", "anchors": ["src/skmultiflow/meta/online_adac2.py:OnlineAdaC2Classifier.partial_fit", "src/skmultiflow/meta/online_csb2.py:OnlineCSB2Classifier.partial_fit", "src/skmultiflow/meta/online_rus_boost.py:OnlineRUSBoostClassifier.partial_fit"]}
{"id": "C186", "title": "Ensembles for skewed classes: sample weights", "statement": "partial_fit of the online ensembles for skewed classes accepts one weight per sample and trains the members with them.", "quantifier": "every batch size, every base learner that takes one weight per sample", "why_tests_cant": "Depends on the base learner and on batches of several samples.", "anchors": ["src/skmultiflow/meta/online_adac2.py:OnlineAdaC2Classifier.partial_fit", "src/skmultiflow/meta/online_under_over_bagging.py:OnlineUnderOverBaggingClassifier.partial_fit", "src/skmultiflow/trees/hoeffding_tree.py:HoeffdingTreeClassifier.partial_fit"]}
{"id": "C187", "title": "clone() preserves the parameters", "statement": "clone(estimator) gives an estimator of the same class, built with the same parameters (nested estimators likewise), that has learned nothing.", "quantifier": "every estimator, nested to any depth, in any state of training", "why_tests_cant": "Quantifies over nesting and classes; losing a parameter raises nothing.", "anchors": ["src/skmultiflow/core/base.py:clone", "src/skmultiflow/core/base.py:BaseEstimator.get_params", "src/skmultiflow/drift_detection/ddm.py:DDM.__init__", "src/skmultiflow/meta/online_boosting.py:OnlineBoostingClassifier.__init__", "src/skmultiflow/meta/online_smote_bagging.py:OnlineSMOTEBaggingClassifier.__init__", "src/skmultiflow/lazy/sam_knn.py:SAMKNNClassifier.__init__", "src/skmultiflow/meta/learn_nse.py:LearnPPNSEClassifier.__init__"]}
{"id": "C188", "title": "Metrics an evaluator accepts can be computed", "statement": "A metric list that passes the evaluator's configuration check can be evaluated: every measurement object of the inferred task has the method each metric needs, so no report fails with AttributeError.", "quantifier": "all metric name lists, numbers of targets, numbers of models, measurement values and earlier reports", "why_tests_cant": "The check and the computation are two separate chains of if/elif over 21 metrics, four tasks and a flag; tests evaluate a handful of lists.", "anchors": ["src/skmultiflow/evaluation/base_evaluator.py:170-239", "src/skmultiflow/evaluation/base_evaluator.py:320-470", "src/skmultiflow/evaluation/evaluation_data_buffer.py:6-44", "src/skmultiflow/utils/constants.py:1-73"]}
{"id": "C189", "title": "The evaluation task is inferred from the metrics", "statement": "For a single-target stream the evaluator takes the task to be classification (regression) exactly when all metrics are classification (regression) metrics and at least one of them is not neutral (true_vs_predicted, running_time, model_size); neutral metrics alone are refused with ValueError. For a multi-target stream the metrics running_time and model_size alone always select classification, also for regression streams. Metrics are only reordered, never dropped.", "quantifier": "all metric name lists in any letter case, all numbers of targets", "why_tests_cant": "Needs all subsets of the metrics, not the few combinations used in tests.", "anchors": ["src/skmultiflow/evaluation/base_evaluator.py:170-239", "src/skmultiflow/utils/constants.py:45-73"]}
{"id": "C190", "title": "Result rows match the result file header", "statement": "Every row of the result file has exactly one value per column of the header, and the value under a title is the one the title names: mean or current value of that metric for that model, prediction of that model, true value, times and size. Titles are pairwise distinct when the metrics and the model names are.", "quantifier": "all metric lists, numbers and names of models (without commas), earlier reports, measurement values", "why_tests_cant": "Header and rows are produced by two separate chains of if/elif joined by a buffer with its own keys; a misplaced column still looks like a valid file.", "anchors": ["src/skmultiflow/evaluation/base_evaluator.py:304-318", "src/skmultiflow/evaluation/base_evaluator.py:320-535", "src/skmultiflow/evaluation/base_evaluator.py:543-649", "src/skmultiflow/evaluation/evaluation_data_buffer.py:30-44"]}
{"id": "C191", "title": "Data points are shown with their true class", "statement": "With the data_points metric the class recorded for the plotted sample under 'predictions' is the true label of the last scored sample, not the prediction of the model (get_last returns the pair in the other order), and every report on a stream with fewer than two features fails.", "quantifier": "all reports, models, labels and predictions", "why_tests_cant": "True label and prediction agree on most samples of a good model, so a test that looks at the value passes.", "anchors": ["src/skmultiflow/evaluation/base_evaluator.py:438-454", "src/skmultiflow/evaluation/base_evaluator.py:484-496"]}
{"id": "C192", "title": "Prequential rows come every n_wait samples", "statement": "However the evaluation ends: with a batch size and a pre-training block of at most n_wait samples, u rows have been written after c samples (pre-training included) only if u*n_wait <= c <= (u+1)*n_wait; without pre-training and with a batch size dividing n_wait the rows are exactly those of the multiples of n_wait plus the last batch; but a pre-training block of k*n_wait samples is followed by a row after every one of the first k batches.", "quantifier": "all streams, learners, batch sizes, n_wait, pre-training sizes, limits and ways to end", "why_tests_cant": "The catch-up rule count/n_wait > update_count + 1 only shows with particular combinations of sizes.", "anchors": ["src/skmultiflow/evaluation/evaluate_prequential.py:286-381"]}
{"id": "C193", "title": "Errors of a learner end a prequential evaluation silently", "statement": "After pre-training, an exception raised by a learner is never passed to the caller of EvaluatePrequential.evaluate: the rows and the result are those of a stream that ended before the failing batch. The only exception evaluate raises is the TypeError of the summary, exactly when no row had been written and a metric of the summary was asked for.", "quantifier": "all learners, failures, streams, metric lists and sizes", "why_tests_cant": "Quantifies over the place of the failure and over every configuration.", "anchors": ["src/skmultiflow/evaluation/evaluate_prequential.py:290-394", "src/skmultiflow/evaluation/base_evaluator.py:674-780"]}
{"id": "C194", "title": "Reported running times add up", "statement": "In the rows of prequential and holdout evaluations the training and testing times are the time spent so far in partial_fit and predict, their total is the sum, and with a clock that never goes back they are non-negative and at most the time passed. In delayed evaluation the total of a row only includes what happened up to the last training, so it can be smaller than training plus testing time.", "quantifier": "all clock readings, numbers of batches, placements of rows", "why_tests_cant": "Timings differ from run to run and tests do not control the clock.", "anchors": ["src/skmultiflow/metrics/measure_collection.py:1489-1573", "src/skmultiflow/evaluation/evaluate_prequential.py:290-374", "src/skmultiflow/evaluation/evaluate_holdout.py:250-335", "src/skmultiflow/evaluation/evaluate_prequential_delayed.py:290-335", "src/skmultiflow/evaluation/evaluate_prequential_delayed.py:394-461"]}
{"id": "C195", "title": "LeveragingBagging trains each member as often as its algorithm says", "statement": "For one sample given to LeveragingBaggingClassifier.partial_fit, each member is trained: Poisson(w) times with 'leveraging_bag'; once with 'leveraging_bag_me' if the member has no prediction or a wrong one, and if it is right once with probability error/(1-error), never if its error is 1; 0 or 1 times with 'leveraging_bag_half'; 1+Poisson(1) times with 'leveraging_bag_wt'; once if Poisson(1) is not 0 with 'leveraging_subag'. The draws are taken one after the other. All trainings are on that sample, with its label and all classes, or with a code matrix on the member's bit for the label and the classes 0 and 1. A batch is the same as its samples one after the other, and afterwards at most one member is reset.", "quantifier": "all base learners, detectors, random generators, states and samples (non-negative labels with a code matrix)", "why_tests_cant": "the counts depend on random draws and on the history of each member", "anchors": ["src/skmultiflow/meta/leverage_bagging.py:209-282"]}
{"id": "C196", "title": "LeveragingBagging's detectors record the errors of their members", "statement": "After each sample, the change detector of each member of LeveragingBaggingClassifier is told whether the member mistakes what it is to learn: the label, or with a code matrix the member's bit for the label. Violated: with a code matrix a member that is not trained on the sample is compared with the label itself, so every sample of a label from 2 on counts as an error of each such member, and 'leveraging_bag_me' takes every such sample as misclassified.", "quantifier": "all base learners, detectors, random generators, states and samples", "why_tests_cant": "visible only in the detectors, for code matrices, three or more classes and zero weights", "anchors": ["src/skmultiflow/meta/leverage_bagging.py:238-291"]}
{"id": "C197", "title": "LeveragingBagging counts a drift once and replaces the worst member", "statement": "In every reachable state of LeveragingBaggingClassifier, a sample after which at least one member's detector reports a change with a larger error estimate than before raises n_detected_changes by one and replaces exactly one member: the first of those with the largest estimate is reset and gets a new detector. Any other sample replaces no member and leaves the count.", "quantifier": "all base learners, all detectors whose estimate is a mean of recent outcomes (ADWIN is one), all reachable states, all samples", "why_tests_cant": "drifts are rare events that depend on the whole history", "anchors": ["src/skmultiflow/meta/leverage_bagging.py:284-304"]}
{"id": "C198", "title": "A code-matrix ensemble whose members are all right is right", "statement": "With enable_code_matrix, the score of a class is the number of members that vote for the side the class is coded on, divided by the sum of these numbers over the classes; if all members answer their bit of the true class, the ensemble predicts that class. Violated: the rows of the matrix are drawn without regard to the columns, so classes may share all codes; the ensemble then predicts the first of them, and with more than 2^n classes for n members there always is a class that is never predicted however right the members are.", "quantifier": "all members, code matrices, samples and classes", "why_tests_cant": "the matrix is random and collisions depend on the numbers of classes and members", "anchors": ["src/skmultiflow/meta/leverage_bagging.py:306-349", "src/skmultiflow/meta/leverage_bagging.py:408-459"]}
{"id": "C199", "title": "reset makes a LeveragingBaggingClassifier as new", "statement": "With an integer random_state, after reset() a LeveragingBaggingClassifier gives for every sequence of partial_fit and predict_proba calls the same outcomes as a newly built one: the members, detectors, classes, change count, random draws and code matrix all start again.", "quantifier": "all earlier histories and all later sequences of calls", "why_tests_cant": "concerns every history before and after the reset", "anchors": ["src/skmultiflow/meta/leverage_bagging.py:170-179", "src/skmultiflow/meta/leverage_bagging.py:461-470"]}
{"id": "C200", "title": "A multi-target tree with mean leaves treats its targets apart", "statement": "iSOUPTreeRegressor with leaf_prediction='mean' predicts for each target exactly what a single-target HoeffdingTreeRegressor with the same parameters predicts that is trained on the same rows with that target alone and takes the same split decisions: no target influences another except through the choice of splits.", "quantifier": "all sequences of training rows and weights, split decisions, numbers of targets, observers and queried rows", "why_tests_cant": "The trees are two separate implementations; equality must hold for every stream and every shape of tree.", "anchors": ["src/skmultiflow/trees/isoup_tree.py:289-566", "src/skmultiflow/trees/hoeffding_tree_regressor.py:240-560"]}
{"id": "C201", "title": "Perceptron leaves of multi-target trees do not extrapolate beyond the input", "statement": "Asked about a row whose attributes are at most B >= 1 standard deviations away from their means, a perceptron leaf of iSOUPTreeRegressor or the stacked perceptrons of StackedSingleTargetHoeffdingTreeRegressor answer every target within B standard deviations of its mean (or nan), whatever the learning rate, the initial weights and the data.", "quantifier": "all training sequences with positive weights, initial weights, learning rates, queried rows, B >= 1", "why_tests_cant": "A bound over all streams and all gradient steps; it rests on the weights being normalised after every step.", "anchors": ["src/skmultiflow/trees/_nodes/isouptr_nodes.py:10-92", "src/skmultiflow/trees/_nodes/sst_htr_nodes.py:9-112", "src/skmultiflow/trees/isoup_tree.py:229-470"]}
{"id": "C202", "title": "The unit of a target only changes the unit of its predictions", "statement": "If every target is expressed in another unit (y*a+b with a > 0), the predictions of the multi-target trees are the old ones in the new units, for mean, perceptron, adaptive and stacked leaves. Violated: the intra-cluster criterion adds variances of different targets, so changing the unit of a single target can change which split is chosen; with a common unit for all targets the preferred split stays the same.", "quantifier": "all training sequences, units, kinds of leaves, queried rows", "why_tests_cant": "Relates two runs on different data; tests run one.", "anchors": ["src/skmultiflow/trees/isoup_tree.py:229-566", "src/skmultiflow/trees/_nodes/isouptr_nodes.py:10-157", "src/skmultiflow/trees/_nodes/sst_htr_nodes.py:9-208", "src/skmultiflow/trees/_split_criterion/intra_cluster_variance_reduction_split_criterion.py:8-38"]}
{"id": "C203", "title": "Adaptive leaves of multi-target trees answer with the predictor that has erred least", "statement": "An adaptive leaf answers each target with the predictor (mean, perceptron, and stacked perceptron) of least faded error; the faded error is the sum of its errors on the rows seen by the leaf, each weighted by 0.95 to the number of later rows and measured before the row was learnt. Violated for the mean: it is measured after the row has entered the mean, so the first row of a leaf costs the mean nothing whatever its targets.", "quantifier": "all sequences of rows of weight in [1,2) at a leaf, all weights and sums, all targets", "why_tests_cant": "The faded errors are never exposed, and which predictor answers depends on the whole history of the leaf.", "anchors": ["src/skmultiflow/trees/_nodes/isouptr_nodes.py:93-157", "src/skmultiflow/trees/_nodes/sst_htr_nodes.py:114-208"]}
{"id": "C204", "title": "reset makes a regression tree as new", "statement": "After reset() a regression tree behaves as a newly built one, and predict without training answers zeros. With mean leaves training after reset raises or answers as training of a new tree does. Violated: after training and reset, predict of the multi-target trees raises AttributeError (the number of targets is kept, the tree is not), so it does after training with rows of weight 0 only; and the sums by which perceptrons standardise survive reset, so that later predictions differ from those of a new tree (single-target tree as well).", "quantifier": "all earlier histories, all later sequences of partial_fit calls, all queried rows", "why_tests_cant": "Concerns every history before and after the reset.", "anchors": ["src/skmultiflow/trees/hoeffding_tree.py:235-247", "src/skmultiflow/trees/isoup_tree.py:146-199", "src/skmultiflow/trees/isoup_tree.py:323-470", "src/skmultiflow/trees/hoeffding_tree_regressor.py:148-230"]}
{"id": "C205", "title": "The intra-cluster merit is the reduction of the mean sample variance", "statement": "For rows partitioned into branches of at least five rows each, the merit of IntraClusterVarianceReductionSplitCriterion times the number of targets is the sum over the targets of the sample variance of the rows minus the weighted mean of the sample variances of the branches; not splitting has merit 0, a split with a branch of weight below five has merit 0, and a split that tells nothing apart has a negative merit as soon as some target varies.", "quantifier": "all numbers of targets, all rows and partitions", "why_tests_cant": "An identity between running sums and variances over all data.", "anchors": ["src/skmultiflow/trees/_split_criterion/intra_cluster_variance_reduction_split_criterion.py:8-38"]}
{"id": "C206", "title": "The label-combination tree predicts label combinations it has seen", "statement": "LabelCombinationHoeffdingTreeClassifier turns every row of n_labels binary labels into a number and back without loss, and each prediction is a row of n_labels zeros and ones that occurred in training. Violated: rows of float labels (0.0, 1.0) cannot be trained on (ValueError), an untrained tree predicts zeros, and with naive Bayes or adaptive leaves zeros are also predicted for instances to which no combination gives a vote (in particular right after a split) although no row of zeros was seen. With majority-class leaves and non-empty branches every prediction is a combination seen.", "quantifier": "all numbers of labels, label rows, training sequences, split decisions, observers and queried rows", "why_tests_cant": "Quantifies over all combinations and over trees of every shape; tests look at one stream.", "anchors": ["src/skmultiflow/trees/label_combination_hoeffding_tree.py:145-222", "src/skmultiflow/trees/_nodes/lc_htc_nodes.py:1-80"]}
{"id": "C207", "title": "A Hoeffding tree only predicts classes it was trained on", "statement": "Every prediction of a trained HoeffdingTreeClassifier is a class it has been trained on. Proved for majority-class leaves when no branch of a split is empty, and in general up to instances for which no class gets a vote, which are answered with class 0. Violated for naive Bayes and adaptive leaves: a branch of a split inherits class counts but no observers, so after its first row the leaf gives no vote to any other attribute value, and class 0 is predicted even if it never occurred.", "quantifier": "all training sequences with non-negative labels, split decisions, leaf prediction modes, queried rows", "why_tests_cant": "Needs leaves just after a split and classes other than 0; tests on balanced binary streams cannot tell class 0 from a default.", "anchors": ["src/skmultiflow/trees/hoeffding_tree.py:355-437", "src/skmultiflow/trees/_nodes/htc_nodes.py:60-170", "src/skmultiflow/bayes/utils.py:4-42"]}
{"id": "C208", "title": "Adaptive regression tree: what the drift detectors see", "statement": "In HoeffdingAdaptiveTreeRegressor the value a node passes to its ADWIN detector is the standard score of the absolute prediction error among all absolute errors the node has seen, mapped linearly so that a score of -3 gives 0 and 3 gives 1; the first error gives 0, and while all errors are equal the value is 1/2. It does not change when all targets and predictions are multiplied by the same positive constant. The values stay in the interval from 0 to 1, which ADWIN's bounds assume.", "quantifier": "all sequences of errors, all units of the target", "why_tests_cant": "the normalisation runs on Welford updates over an unbounded history; tests look at final scores of the tree, never at the detector input, and values outside the interval need a particular history of errors", "anchors": ["src/skmultiflow/trees/_nodes/hatr_nodes.py:242-270"]}
{"id": "C209", "title": "Adaptive regression tree: training and prediction never fail", "statement": "HoeffdingAdaptiveTreeRegressor.partial_fit accepts every sequence of rows with the same number of attributes and predict then returns one value per row, whatever drift detections, split decisions, bootstrap draws and weights occur.", "quantifier": "all numbers of attributes, all row sequences, all detector behaviours, all split decisions", "why_tests_cant": "a failure needs a combination of split nodes, alternate trees, unseen categories and attribute counts that example streams do not contain", "anchors": ["src/skmultiflow/trees/hoeffding_adaptive_tree_regressor.py:162-212", "src/skmultiflow/trees/_nodes/hatr_nodes.py:36-112", "src/skmultiflow/trees/_nodes/hatr_nodes.py:194-232", "src/skmultiflow/trees/hoeffding_tree_regressor.py:398-426"]}
{"id": "C210", "title": "Adaptive regression tree: life of alternate trees", "statement": "A split node of HoeffdingAdaptiveTreeRegressor starts a new alternate leaf exactly when its detector reports a change and its estimated error did not decrease. Otherwise the node is replaced by its alternate tree only if both error windows hold more than 300 values and the alternate's estimated error is lower by more than the bound, and the alternate tree is dropped only if it is higher by more than the bound. In every other case node and alternate tree stay, and the alternate tree learns the row.", "quantifier": "all trees, rows, detector states and split decisions", "why_tests_cant": "the replaced subtree depends on detector states hundreds of rows back; tests only compare scores at the end of one stream", "anchors": ["src/skmultiflow/trees/_nodes/hatr_nodes.py:36-112", "src/skmultiflow/trees/_nodes/hatr_nodes.py:194-224", "src/skmultiflow/trees/hoeffding_tree_regressor.py:428-505"]}
{"id": "C211", "title": "Adaptive regression tree without drift is the Hoeffding tree regressor", "statement": "As long as no detector reports a change, with bootstrap sampling off, rows lighter than the grace period and at least two attributes, HoeffdingAdaptiveTreeRegressor grows the same main tree as HoeffdingTreeRegressor trained on the same rows with the same split decisions and initial perceptron weights: same tests, statistics, observers and, for leaf_prediction='perceptron', same perceptron weights and same predictions.", "quantifier": "all row sequences, all split decisions, both leaf predictions", "why_tests_cant": "equality of two separately written recursive learners over all sequences; tests compare neither trees nor intermediate states", "anchors": ["src/skmultiflow/trees/hoeffding_adaptive_tree_regressor.py:162-212", "src/skmultiflow/trees/_nodes/hatr_nodes.py:36-112", "src/skmultiflow/trees/_nodes/hatr_nodes.py:194-224", "src/skmultiflow/trees/hoeffding_tree_regressor.py:361-396"]}
{"id": "C212", "title": "ARF tree: a leaf looks at max_features features drawn without replacement", "statement": "An active leaf of an adaptive random forest tree (remove_poor_atts off) that has learned something observes exactly max_features different features, all of them features of the data, drawn when its first instance arrived; it keeps these features until it is split or switched off, and the observer of each is given the values of that feature in all the instances the leaf learns. No other feature can be chosen for a split of the leaf. Training does not fail.", "quantifier": "all sequences of training instances of n features, all split decisions, all random generators that draw without replacement, all max_features", "why_tests_cant": "The features are drawn anew at each leaf and each run; tests check that accuracies of one seeded run match recorded numbers, on data with more features than max_features.", "anchors": ["src/skmultiflow/trees/arf_hoeffding_tree.py", "src/skmultiflow/trees/_nodes/arf_htc_nodes.py"]}
{"id": "C213", "title": "Trees of a classifier forest draw their features independently", "statement": "The trees of AdaptiveRandomForestClassifier draw their random subsets of features independently of each other, whatever is given as random_state.", "quantifier": "all numbers of trees, all seeds, all sequences of draws, warnings and drifts", "why_tests_cant": "Tests fix the seed and compare the final predictions; that all trees use the same subsets does not show in an accuracy.", "anchors": ["src/skmultiflow/meta/adaptive_random_forests.py", "src/skmultiflow/trees/arf_hoeffding_tree.py", "src/skmultiflow/utils/validation.py"]}
{"id": "C214", "title": "A tree that replaces a drifted tree of the regression forest is newly randomised", "statement": "When AdaptiveRandomForestRegressor replaces a tree after a drift (by its background tree, or by a reset), the tree that comes in draws random feature subsets that are not determined by those of the tree it replaces.", "quantifier": "all numbers of trees, all seeds, all sequences of draws, warnings and drifts", "why_tests_cant": "The seeds of the trees are not observable in predictions of a single run; tests compare predictions to recorded numbers.", "anchors": ["src/skmultiflow/meta/adaptive_random_forest_regressor.py", "src/skmultiflow/trees/arf_hoeffding_tree_regressor.py", "src/skmultiflow/utils/validation.py"]}
{"id": "C215", "title": "get_params / set_params round trip", "statement": "get_params() reports every constructor parameter of the estimator, and under name__subname those of nested estimators, with the values they have; passing all or some of what it reports back to set_params raises nothing and changes no estimator.", "quantifier": "all estimators and nestings of them, shared or not, with parameter names that contain no double underscore and do not end with an underscore; all subsets of the reported parameters", "why_tests_cant": "Nestings are unbounded; tests look at single flat estimators.", "anchors": ["src/skmultiflow/core/base.py"]}
{"id": "C216", "title": "set_params sets what is given and nothing else", "statement": "set_params(a=v, ...) gives the named parameters the values given and leaves all other parameters and all other estimators as they are; set_params(base__p=v) is base.set_params(p=v), where base is the new estimator if base is given in the same call, in whichever order.", "quantifier": "all estimators and nestings of them, shared or not, all names and values", "why_tests_cant": "Needs all combinations of parameters and nestings, and that nothing else changes.", "anchors": ["src/skmultiflow/core/base.py"]}
{"id": "C217", "title": "set_params with an unknown name raises ValueError and changes nothing", "statement": "A call of set_params in which some name is not a parameter of the estimator raises ValueError, and the estimator is as it was before the call.", "quantifier": "all estimators, all calls", "why_tests_cant": "Tests check that the exception is raised, not what the estimator looks like afterwards when the bad name is not the first.", "anchors": ["src/skmultiflow/core/base.py"]}
{"id": "C218", "title": "A parameter set by set_params is used", "statement": "After set_params(p=v) the estimator works with v as if it had been constructed with it.", "quantifier": "all estimators with parameters; shown for the settings of DDM", "why_tests_cant": "That a value is stored does not show that it is used; tests read the value back with get_params.", "anchors": ["src/skmultiflow/core/base.py", "src/skmultiflow/drift_detection/ddm.py"]}
{"id": "C219", "title": "RSLVQ predicts the class of the nearest prototype", "statement": "RobustSoftLearningVectorQuantization.predict answers for each row the class of the prototype with the smallest Euclidean distance to it (the first one if several are equally near).", "quantifier": "all prototypes, all rows, all sigma > 0", "why_tests_cant": "The code maximises a likelihood, not a distance, so this is a claim about all real vectors.", "anchors": ["src/skmultiflow/prototype/robust_soft_learning_vector_quantization.py"]}
{"id": "C220", "title": "RSLVQ learns only from mistakes, attracting the right prototype and repelling the wrong one", "statement": "Learning a row of class y changes nothing if the nearest prototype is of class y. Otherwise the nearest prototype of class y moves towards the row and the nearest prototype of another class moves away from it, every coordinate in proportion to its distance to the row (with vanilla gradient descent by one common factor of at most 1/sigma), and no other prototype changes.", "quantifier": "all prototypes, all rows and labels, both optimizers, all sigma > 0", "why_tests_cant": "The factors are differences of probabilities; that their sign is always right is a statement about all vectors.", "anchors": ["src/skmultiflow/prototype/robust_soft_learning_vector_quantization.py"]}
{"id": "C221", "title": "RSLVQ answers with known classes", "statement": "After training, RobustSoftLearningVectorQuantization answers every row with one of its classes, the classes declared or those of the first batch; and a batch with labels among the classes can be learned.", "quantifier": "all sequences of batches, all rows, all numbers of prototypes per class", "why_tests_cant": "Tests declare no class that is missing in the first batch; and what uninitialised memory holds is not reproducible.", "anchors": ["src/skmultiflow/prototype/robust_soft_learning_vector_quantization.py"]}
{"id": "C222", "title": "RSLVQ learns incrementally", "statement": "Every call of partial_fit continues from the prototypes the calls before have learned, so that learning two batches one after the other is learning them as one batch (once there are prototypes of all classes); and the caller's data is not changed.", "quantifier": "all batches, with and without initial prototypes, given as list or as array", "why_tests_cant": "Tests with initial prototypes make one call; a call that starts afresh still predicts well on the test data.", "anchors": ["src/skmultiflow/prototype/robust_soft_learning_vector_quantization.py"]}
{"id": "C223", "title": "RSLVQ rejects bad parameters and labels with ValueError", "statement": "The constructor raises ValueError exactly for sigma <= 0, prototypes_per_class <= 0, gamma outside [0, 1) or an unknown optimizer; partial_fit raises ValueError if the classes are not 0, ..., k-1, and for a label outside the classes after the first batch.", "quantifier": "all parameters, all batches", "why_tests_cant": "Tests try some bad values only; the boundary value sigma = 0 is not among them.", "anchors": ["src/skmultiflow/prototype/robust_soft_learning_vector_quantization.py"]}
{"id": "C224", "title": "normal_probability is a symmetric distribution function", "statement": "normal_probability(a), on which the Gaussian observers of the trees rest, is a probability for every a, is one half at 0 and more than one half exactly for positive a; its values at a and -a add up to one; and beyond sqrt(2) standard deviations its tail is at most exp(-a^2/2)/2. The error function behind it is odd and its complement symmetric about one, everywhere.", "quantifier": "all real arguments", "why_tests_cant": "The formula is pieced together from rational approximations chosen by range; a test compares a handful of values and cannot show that no argument, in any range or where they meet, leaves [0, 1] or breaks the symmetry.", "anchors": ["src/skmultiflow/utils/statistics.py"]}
{"id": "C225", "title": "calculate_object_size counts every part once", "statement": "calculate_object_size of an object ends however its parts are shared or refer to each other in circles, and answers the sum of the sizes of all objects that belong to it (keys, values, attributes, elements), each counted exactly once, in bytes, kB (1024) or MB (2^20); only if a part refuses to be iterated (a numpy array of dimension zero) it raises TypeError.", "quantifier": "all finite object graphs, all units", "why_tests_cant": "Tests measure a few containers; cycles and sharing of every shape cannot be enumerated.", "anchors": ["src/skmultiflow/utils/utils.py"]}
{"id": "C226", "title": "normalize_values_in_dict divides by the factor", "statement": "normalize_values_in_dict divides every value by the factor, by default the sum of the values (the result then adds up to one), and keeps the keys in order; with inplace the caller's dictionary is changed and returned, without it a new one is returned and nothing of the caller's changes; a factor of zero or nan raises ValueError and changes nothing.", "quantifier": "all dictionaries, factors and both values of inplace, whatever other dictionaries the caller has", "why_tests_cant": "Tests use one dictionary; aliasing and untouched inputs hold for all states of the caller's store.", "anchors": ["src/skmultiflow/utils/utils.py"]}
{"id": "C227", "title": "add_dict_values and get_max_value_key", "statement": "add_dict_values adds the values key by key, appending the keys that are new, in order, also when both arguments are the same dictionary; with inplace the result is the first dictionary, without it a new one and nothing of the caller's changes. get_max_value_key answers the first of the keys with the largest value, and 0 for an empty dictionary.", "quantifier": "all dictionaries with comparable values and both values of inplace", "why_tests_cant": "Tests use one pair of dictionaries without ties.", "anchors": ["src/skmultiflow/utils/utils.py"]}
{"id": "C228", "title": "Removing the header of a file", "statement": "clean_header (and RemoveHeader) writes to the new file exactly the lines of the base file that do not start with the ignored character, in order, and leaves the base file and every other file as it was; without a name given the new file is the base name with _no_header put before the extension.", "quantifier": "all files, file names and ignored characters", "why_tests_cant": "Tests use one file whose path has one dot; paths such as ./data.csv or the same file as output are never tried.", "anchors": ["src/skmultiflow/utils/file_scripts.py"]}
{"id": "C229", "title": "Measuring the generation speed", "statement": "EvaluateStreamGenerationSpeed asks the stream for batches of batch_size samples, as many as fit into n_samples and into what the stream has left and none more, unless the time limit ends it first; the progress it logs rises by five per cent and never exceeds 100 %.", "quantifier": "all sizes and batch sizes of at least one, streams with and without end, all clocks", "why_tests_cant": "Tests measure one stream with batches of one and do not look at the log; the relation of sizes is an arithmetic statement.", "anchors": ["src/skmultiflow/evaluation/evaluate_stream_gen_speed.py"]}
{"id": "C230", "title": "Waveform samples mix the two waves of their class", "statement": "WaveformGenerator answers as many rows as asked for, with 21 features (40 with noise) and labels 0, 1 or 2; the features of a row are a convex mixture of the two triangular base waves of its class plus one normal draw each, so without the draws they lie between the two waves and within [0, 6]; features 22 to 40 are normal draws only; different classes mix different pairs of waves.", "quantifier": "all batch sizes and all answers of the random number generator", "why_tests_cant": "Tests compare one seeded batch with stored numbers.", "anchors": ["src/skmultiflow/data/waveform_generator.py"]}
{"id": "C231", "title": "RBF samples lie around their centroid", "statement": "A sample of RandomRBFGenerator has the label of the centroid chosen for it and lies at a distance of |normal| * std_dev from it, in the direction drawn; its features are nan only if all uniform draws are exactly one half.", "quantifier": "all centroids, batch sizes and draws, in any dimension", "why_tests_cant": "Tests compare one seeded batch with stored numbers.", "anchors": ["src/skmultiflow/data/random_rbf_generator.py"]}
{"id": "C232", "title": "Drifting RBF samples lie around the moved centroid", "statement": "In RandomRBFGeneratorDrift every drifting centroid moves before each sample by at most change_speed and stays in the unit cube; centroids beyond the first num_drift_centroids never move; labels and spreads never change; and every sample lies around its centroid at the place it has moved to.", "quantifier": "all sequences of samples of any length, all speeds, all draws", "why_tests_cant": "Whether the invariant holds after any number of moves and reflections is a statement about unbounded runs.", "anchors": ["src/skmultiflow/data/random_rbf_generator_drift.py", "src/skmultiflow/data/random_rbf_generator.py"]}
{"id": "C233", "title": "Initial prototypes of RSLVQ are class means", "statement": "Without initial prototypes, a partial_fit call of RSLVQ in which a class occurs for the first time starts its training with prototypes_per_class prototypes labelled with that class, each the mean of the batch's rows of that class (one prototype per class) or within 1 of that mean in every feature (several); prototypes of classes seen before, or absent from the batch, start where they were.", "quantifier": "all reachable states, batches, numbers of prototypes and random draws in [0, 1)", "why_tests_cant": "Tests check the predictions of one seeded run.", "anchors": ["src/skmultiflow/prototype/robust_soft_learning_vector_quantization.py"]}
{"id": "C234", "title": "SAM-kNN with 'maxACC' keeps the window with the best test-then-train accuracy", "statement": "With stm_size_option='maxACC', after every sample the short-term memory of SAMKNNClassifier is cut to the one of its newest n, n/2, n/4, ... samples, down to min_stm_size, on which testing then training from scratch with n_neighbors neighbours gives the highest accuracy, the longest of them if several do; with fewer than 2 * min_stm_size samples it stays.", "quantifier": "all streams, distances, votes, sizes with n_neighbors < min_stm_size, with and without long-term memory", "why_tests_cant": "The accuracies come from cached prediction histories shifted at every cut; that the cache always belongs to the windows it stands for is an invariant of unbounded runs.", "anchors": ["src/skmultiflow/lazy/sam_knn.py"]}
{"id": "C235", "title": "SAM-kNN with 'maxACCApprox' cuts its memory only for a more accurate window", "statement": "With the default stm_size_option='maxACCApprox' and use_ltm, whenever SAMKNNClassifier cuts its short-term memory, testing then training from scratch gives a higher accuracy on the window it keeps than on the whole memory.", "quantifier": "all streams, distances, votes, sizes with n_neighbors < min_stm_size", "why_tests_cant": "The approximation reuses histories of earlier windows; the claim is about every cut in every stream.", "anchors": ["src/skmultiflow/lazy/sam_knn.py"]}
{"id": "C236", "title": "Sizes SAM-kNN chooses for its short-term memory", "statement": "Training SAMKNNClassifier with a size option always ends without error; at each sample a short-term memory of fewer than 2 * min_stm_size samples keeps its size, and a longer one keeps it or is cut to a half, a quarter, ... of it, rounded down, never below min_stm_size.", "quantifier": "all streams of any length, both size options, all distances, votes and cluster centres", "why_tests_cant": "Lookups in and deletions from the dictionary of histories can only be shown safe for all runs by an invariant on its keys.", "anchors": ["src/skmultiflow/lazy/sam_knn.py"]}
{"id": "C237", "title": "Ensembles for skewed classes replace a member only when accuracy falls", "statement": "With drift_detection=True, an online ensemble for skewed classes (OnlineUnderOverBagging, OnlineSMOTEBagging, OnlineCSB2, OnlineAdaC2, OnlineRUSBoost) resets a member during partial_fit only if the recent accuracy that some member's ADWIN recorded has fallen, and the member it resets is one of the lowest recorded accuracy. Every reset member is given a new ADWIN.", "quantifier": "for every base learner, change detector, sequence of Poisson draws, batch, and state of the ensemble", "why_tests_cant": "Whether a member is reset depends on the whole history of each detector; tests with fixed seeds on short streams rarely trigger a change and never compare the reset member with the others.", "anchors": ["src/skmultiflow/meta/online_under_over_bagging.py:200-238", "src/skmultiflow/meta/online_csb2.py:215-268", "src/skmultiflow/meta/online_adac2.py:222-276", "src/skmultiflow/meta/online_rus_boost.py:219-297", "src/skmultiflow/meta/online_smote_bagging.py:202-251"]}
{"id": "C238", "title": "AnomalySineGenerator yields the number of anomalies asked for", "statement": "AnomalySineGenerator(n_samples=n, n_anomalies=k) yields n samples of which exactly k are labelled 1 and the others 0.", "quantifier": "for every choice of parameters the constructor accepts and everything the random source can return", "why_tests_cant": "The number of labels depends on collisions among random positions; a test with a fixed seed compares with stored data and cannot tell a collision from the intended count.", "anchors": ["src/skmultiflow/data/anomaly_sine_generator.py:77-104"]}
{"id": "C239", "title": "Values of the samples of AnomalySineGenerator", "statement": "Attribute 1 of sample i is the sine of i/4 plus noise. Attribute 2 of a sample labelled 0 is the cosine of i/4 plus noise or, only with contextual=True, attribute 1 of the sample |shift| places earlier. Attribute 2 of a sample labelled 1 is 2 plus noise plus the sine of a number that is drawn once and shared by all anomalies. A negative shift acts like the positive one and never wraps around.", "quantifier": "for all functions in place of sine and cosine, all parameters, noise and drawn positions", "why_tests_cant": "Index arrays with repetitions and overlapping replacements make the table depend on the order of assignments; tests only compare with one stored table.", "anchors": ["src/skmultiflow/data/anomaly_sine_generator.py:59-104"]}
{"id": "C240", "title": "Contextual anomalies are labelled as anomalies", "statement": "With contextual=True, the samples of AnomalySineGenerator whose attribute 2 is replaced by a value of attribute 1 are labelled 1, like the other anomalies.", "quantifier": "for every choice of parameters and everything the random source can return", "why_tests_cant": "A test would have to know which rows are contextual anomalies, and the generator does not expose them.", "anchors": ["src/skmultiflow/data/anomaly_sine_generator.py:87-104"]}
{"id": "C241", "title": "Parameters that AnomalySineGenerator accepts", "statement": "As documented, AnomalySineGenerator accepts every n_anomalies not larger than n_samples and, with contextual=True, every n_contextual not larger than n_samples; otherwise it raises ValueError.", "quantifier": "for all parameters and random draws", "why_tests_cant": "The limits depend on four parameters together; tests check one value above each documented limit.", "anchors": ["src/skmultiflow/data/anomaly_sine_generator.py:46-104"]}
{"id": "C242", "title": "The binary-tree observer of numeric attributes accepts observations", "statement": "NumericAttributeClassObserverBinaryTree.update(value, label, weight) records the observation, and get_best_evaluated_split_suggestion then suggests the best cut among the values seen; missing values are ignored.", "quantifier": "for every sequence of values, labels and weights", "why_tests_cant": "The class is exported but used by no tree, so no test exercises it; the claim is about every sequence of updates.", "anchors": ["src/skmultiflow/trees/_attribute_observer/numeric_attribute_class_observer_binary_tree.py:14-86"]}
{"id": "C243", "title": "The default reset() keeps the parameters", "statement": "reset() of an object that does not override it (NaiveBayes, SAMKNNClassifier, RobustSoftLearningVectorQuantization, HalfSpaceTrees, Pipeline, PerceptronMask, the transforms and the streams) calls its constructor again with the present values of all parameters, whatever these are.", "quantifier": "for every class name and all parameter values: numbers, strings, lists, tuples and objects, nested to any depth, and every layout of the printed object", "why_tests_cant": "reset() prints the object and executes the text; whether that works depends on the text of every parameter, and tests reset objects with a few short parameters.", "anchors": ["src/skmultiflow/core/base.py:244-286", "src/skmultiflow/core/base.py:344-356", "src/skmultiflow/utils/_pprint.py:173-440"]}
{"id": "C244", "title": "VFDR: merit with foil_gain", "statement": "With expand_criterion='foil_gain' the merit of a candidate condition is its FOIL gain: the weight of the class among the instances that satisfy the condition, times the growth of the logarithm of the proportion of the class.", "quantifier": "all class distributions on the two sides of a split, every class", "why_tests_cant": "The sign and the side are wrong for almost all real-valued distributions, but every merit is a plausible number, so examples do not show it.", "anchors": ["src/skmultiflow/rules/foil_gain_rule_criterion.py:FoilGainExpandCriterion.get_merit_of_split", "src/skmultiflow/rules/foil_gain_rule_criterion.py:FoilGainExpandCriterion.compute_entropy"]}
{"id": "C245", "title": "VFDR: looking at the rules", "statement": "get_model_rules and get_model_description can be called at any time, name the majority class of every rule, and do not change what the classifier learns or predicts afterwards.", "quantifier": "every state of the classifier, every later sequence of instances, every row", "why_tests_cant": "The effect of a read access shows only in later expansions; equality of all later behaviour is not testable.", "anchors": ["src/skmultiflow/rules/very_fast_decision_rules.py:VeryFastDecisionRulesClassifier.get_model_rules", "src/skmultiflow/rules/very_fast_decision_rules.py:VeryFastDecisionRulesClassifier.get_model_description"]}
{"id": "C246", "title": "AWE: cross-validation of the new model", "statement": "The score that decides the weight of the newest model of AccuracyWeightedEnsemble is a cross-validation score: every fold of the chunk is scored by a copy of the base estimator that was trained on the other folds only.", "quantifier": "every base estimator, every chunk and every division into folds", "why_tests_cant": "Whether a model has seen a fold cannot be observed from the score; tests only compare final accuracies.", "anchors": ["src/skmultiflow/meta/accuracy_weighted_ensemble.py:AccuracyWeightedEnsemble.compute_score_crossvalidation", "src/skmultiflow/meta/accuracy_weighted_ensemble.py:AccuracyWeightedEnsemble.train_model"]}
{"id": "C247", "title": "AWE: the score uses the probability of the true label", "statement": "The score of a model on a chunk is the mean of (1 - p)^2 where p is the probability the model gives to the true label of the row (0 for labels it has never seen); a model that is always right with probability 1 has score 0.", "quantifier": "every set of class labels, every model and chunk", "why_tests_cant": "Depends on the labels in use; test streams have classes 0, 1, ..., where position and label coincide.", "anchors": ["src/skmultiflow/meta/accuracy_weighted_ensemble.py:AccuracyWeightedEnsemble.compute_score"]}
{"id": "C248", "title": "Ensembles for skewed classes: how the members vote", "statement": "predict_proba of OnlineAdaC2Classifier, OnlineCSB2Classifier and OnlineRUSBoostClassifier is the sum of the members' probabilities weighted by the log-odds of their (weighted) accuracy, that of OnlineUnderOverBaggingClassifier and OnlineSMOTEBaggingClassifier is the average of the members' probabilities; every member that answers has a vote, and the numbers returned are probabilities of the known classes.", "quantifier": "all numbers of members, weights, rows and answers of the members", "why_tests_cant": "the wrong cases need a member without any error, with an error above one half, with fewer columns than a later one, or one that warns", "anchors": ["src/skmultiflow/meta/online_adac2.py:317-387", "src/skmultiflow/meta/online_csb2.py:310-381", "src/skmultiflow/meta/online_rus_boost.py:338-409", "src/skmultiflow/meta/online_under_over_bagging.py:274-344", "src/skmultiflow/meta/online_smote_bagging.py:300-370"]}
{"id": "C249", "title": "Plotted curves are exactly the reported values", "statement": "With show_plot, after any sequence of reports the line of every model in the subplot of every performance metric is the sequence of its mean (respectively current) values, one per report and in order, over the sample ids of the reports; the true-vs-predicted subplot has the reported true values and the predictions of every model in the same way.", "quantifier": "for every task type, number of models, list of metrics without repetition and sequence of reports in which the metrics can be computed", "why_tests_cant": "A test looks at a figure after one evaluation; that no report is lost, doubled or attributed to another model or metric concerns all sequences of reports.", "anchors": ["src/skmultiflow/visualization/evaluation_visualizer.py:107-145", "src/skmultiflow/visualization/evaluation_visualizer.py:348-450", "src/skmultiflow/evaluation/evaluation_data_buffer.py", "src/skmultiflow/evaluation/base_evaluator.py:304-541"]}
{"id": "C250", "title": "Plotted values lie within the axes", "statement": "After every report, every value of the lines of a subplot lies within the limits of its axes.", "quantifier": "for every metric and every sequence of reports", "why_tests_cant": "Limits depend on the values reported; a test sees values of one run, usually between 0 and 1.", "anchors": ["src/skmultiflow/visualization/evaluation_visualizer.py:355-370", "src/skmultiflow/visualization/evaluation_visualizer.py:424-447"]}
{"id": "C251", "title": "Data points subplot shows the latest samples of every class", "statement": "The data points subplot shows, for every class, the last hundred samples reported with that label (first two features), in one cluster per class.", "quantifier": "for every set of labels and sequence of reports", "why_tests_cant": "Whether points are lost depends on the labels and on the order in which they arrive; tests use labels 0 and 1 and do not look into the clusters.", "anchors": ["src/skmultiflow/visualization/evaluation_visualizer.py:235-242", "src/skmultiflow/visualization/evaluation_visualizer.py:371-405"]}
{"id": "C252", "title": "Figure is redrawn regularly but not too often", "statement": "The first report redraws the figure; of any six consecutive reports at least one does; after a redraw the next one is at the sixth report or at the first report made more than a second later, whichever comes first.", "quantifier": "for every sequence of reports and of times at which they are made, even if the clock goes backwards", "why_tests_cant": "Redrawing depends on wall clock times, which a test does not control.", "anchors": ["src/skmultiflow/visualization/evaluation_visualizer.py:58-63", "src/skmultiflow/visualization/evaluation_visualizer.py:107-145"]}
{"id": "C253", "title": "Every plotted metric has a titled subplot of its own", "statement": "Whatever metrics are chosen, every one but running time and model size has a subplot of its own with its name as title, one above the other in the order of the metrics.", "quantifier": "for every list of metrics the evaluator accepts", "why_tests_cant": "Tests plot two or three metrics; the position code of a subplot has one digit for the number of rows.", "anchors": ["src/skmultiflow/visualization/evaluation_visualizer.py:175-325", "src/skmultiflow/evaluation/base_evaluator.py:543-640"]}
{"id": "C254", "title": "iSOUP: split decision", "statement": "A leaf of an iSOUP tree (or stacked single-target tree) is split exactly if the best suggestion has positive merit and the Hoeffding bound is below the tie threshold or the second merit below the fraction 1 - bound of the best; it is split along the best suggestion, whose branches all weigh at least 5, and never deactivated. With remove_poor_atts, attributes are disabled only when the leaf is not split: those whose merit is less than the second best by more than 2 * bound times the best. Deciding never raises.", "quantifier": "every leaf statistics, list of candidate splits, bound, tie threshold and options", "why_tests_cant": "The decision depends on real-valued merits and bounds; boundary cases are not reachable by sampling.", "anchors": ["src/skmultiflow/trees/isoup_tree.py:iSOUPTreeRegressor._attempt_to_split", "src/skmultiflow/trees/_nodes/base.py:ActiveLeaf.get_best_split_suggestions", "src/skmultiflow/trees/_split_criterion/intra_cluster_variance_reduction_split_criterion.py"]}
{"id": "C255", "title": "SAM-kNN finds the nearest samples", "statement": "libNearestNeighbor.nArgMin(n, distances), with which SAM-kNN finds neighbours, returns the positions of the n smallest distances: different positions, ordered by distance and by position on ties, and every other position comes after all of them; for every n and all distances, also infinite ones.", "quantifier": "for all arrays of distances, every n and whatever the memory allocated for the result holds", "why_tests_cant": "The result array is not initialised: whether entries are left as they are depends on the memory at hand, so a test usually sees zeros.", "anchors": ["src/skmultiflow/lazy/src/libNearestNeighbors/nearestNeighbor.cpp:nArgMin", "src/skmultiflow/lazy/src/libNearestNeighbors/nearestNeighbor.cpp:py_nArgMin", "src/skmultiflow/lazy/sam_knn.py:SAMKNNClassifier.get_maj_label"]}
{"id": "C256", "title": "SAM-kNN votes are counted right", "statement": "For 1 <= k <= number of samples and finite distances, get_maj_label answers with the most frequent label (as eight bit integer) of the k nearest samples and get_distance_weighted_label with the label of the largest sum of inverse distances, where distances below 1e-9 count as 1e-9; the smallest label on ties. With distance weights a query that equals one of the k nearest stored samples gets its label, if the others are farther away than (k - 1) * 1e-9.", "quantifier": "for all distances, labels, k, all contents of uninitialised memory and every square root function", "why_tests_cant": "The order of ties depends on the iteration order of the map; tests see few configurations of labels and distances.", "anchors": ["src/skmultiflow/lazy/src/libNearestNeighbors/nearestNeighbor.cpp:mostCommon", "src/skmultiflow/lazy/src/libNearestNeighbors/nearestNeighbor.cpp:linearWeightedLabels", "src/skmultiflow/lazy/sam_knn.py:SAMKNNClassifier.get_maj_label", "src/skmultiflow/lazy/sam_knn.py:SAMKNNClassifier.get_distance_weighted_label"]}
{"id": "C257", "title": "SAM-kNN distances are those to the stored samples", "statement": "libNearestNeighbor.get1ToNDistances(sample, samples), with which SAM-kNN compares a query with its memory, returns for each stored row the squared Euclidean distance to it; a query with another number of features is rejected.", "quantifier": "for all queries, stored rows and contents of the memory behind them", "why_tests_cant": "A query with too few features is answered silently from misaligned data, one with too many reads memory beyond the array, which no assertion shows.", "anchors": ["src/skmultiflow/lazy/src/libNearestNeighbors/nearestNeighbor.cpp:getDistance", "src/skmultiflow/lazy/src/libNearestNeighbors/nearestNeighbor.cpp:get1ToNDistances", "src/skmultiflow/lazy/src/libNearestNeighbors/nearestNeighbor.cpp:py_get1ToNDistances", "src/skmultiflow/lazy/sam_knn.py:SAMKNNClassifier.get_distances"]}
{"id": "C258", "title": "A stream describes the table it was loaded from", "statement": "DataStream and FileStream reject text, missing values (unless allowed), features and targets of different length and categorical features that do not exist. Otherwise n_samples, n_features and n_targets are those of the table, n_cat_features and n_num_features count the categorical and the other features, integer class labels are recognised as such, target_values lists the labels of every target in order and n_classes counts the different ones; get_info shows the parameters given.", "quantifier": "for all tables, target positions, lists of categorical features and both ways to pass the targets", "why_tests_cant": "Loaders are tested on a few well-formed files; floating point arrays, negative or repeated positions and the text of get_info of unusual calls are not.", "anchors": ["src/skmultiflow/data/data_stream.py:DataStream._load_data", "src/skmultiflow/data/data_stream.py:DataStream._load_X_y", "src/skmultiflow/data/data_stream.py:DataStream._get_target_values", "src/skmultiflow/data/data_stream.py:DataStream.get_info", "src/skmultiflow/data/data_stream.py:check_data_consistency", "src/skmultiflow/data/file_stream.py:FileStream._load_data", "src/skmultiflow/data/file_stream.py:FileStream.get_target_values"]}
{"id": "C259", "title": "make_logical returns the truth tables", "statement": "make_logical(n_tiles) returns 4 * n_tiles samples; each pairs two binary inputs with their OR, XOR and AND, and every combination of inputs occurs n_tiles times, whatever the random state.", "quantifier": "for every n_tiles and every shuffle of the rows", "why_tests_cant": "Features and labels are cut out of one shuffled table; that they still belong together for every shuffle is not visible in one seed.", "anchors": ["src/skmultiflow/data/synth.py:make_logical"]}
{"id": "C260", "title": "Evaluators tell learners the class labels", "statement": "At its first call of partial_fit in an evaluation a classifier is told the class labels of the stream as classes, each label once and in order (for several targets: the labels of all targets), and later calls leave classes out; a regressor never gets classes. This holds for prequential, delayed and holdout evaluation, with and without pre-training.", "quantifier": "for all loaded streams, tasks, pre-training sizes and numbers of batches", "why_tests_cant": "Most learners ignore or merely store classes, so a wrong value goes unnoticed until a label is missing.", "anchors": ["src/skmultiflow/evaluation/evaluate_prequential.py:EvaluatePrequential._train_and_test", "src/skmultiflow/evaluation/evaluate_holdout.py:EvaluateHoldout._periodic_holdout", "src/skmultiflow/evaluation/evaluate_prequential_delayed.py:EvaluatePrequentialDelayed._update_classifiers", "src/skmultiflow/evaluation/evaluate_prequential_delayed.py:EvaluatePrequentialDelayed._train_and_test"]}
{"id": "C261", "title": "Adaptive regression tree before its first split", "statement": "As long as HoeffdingAdaptiveTreeRegressor with leaf_prediction='mean' has not split, it predicts the weighted mean of the targets seen so far. With bootstrap sampling every row counts as its weight times its Poisson draw, so a row drawn 0 times does not count. The errors its drift detector sees are the distances between each target and the mean of the targets before it.", "quantifier": "all row sequences with positive weights, all draws, both settings of bootstrap_sampling", "why_tests_cant": "a Poisson draw of 0 is as likely as a draw of 1 but leaves no trace in test scores; tests do not look at the detector input", "anchors": ["src/skmultiflow/trees/_nodes/hatr_nodes.py:194-232", "src/skmultiflow/trees/_nodes/hatr_nodes.py:242-270", "src/skmultiflow/trees/hoeffding_adaptive_tree_regressor.py:181-212"]}
{"id": "C262", "title": "Summary of a prequential evaluation", "statement": "At its end EvaluatePrequential prints the number of processed samples and, for every model in order, the mean value of every chosen performance metric over exactly these samples, and the running times and the model size if chosen.", "quantifier": "all streams, models, metric lists, batch sizes, sample limits and reasons for the end of the evaluation", "why_tests_cant": "tests do not read what is printed; the difference only shows when the evaluation ends between two rows or with particular metrics", "anchors": ["src/skmultiflow/evaluation/base_evaluator.py:674-780", "src/skmultiflow/evaluation/evaluate_prequential.py:266-394", "src/skmultiflow/evaluation/evaluation_data_buffer.py"]}
{"id": "C263", "title": "Last row of a delayed evaluation covers every scored sample", "statement": "In EvaluatePrequentialDelayed the rows written to the report cover the whole evaluation: every row covers the results up to and including one scoring step, its id is the number of samples trained on before that step (pre-training included) less the batch size, a step adds a row exactly when that number is a multiple of n_wait, has reached max_samples or exceeds n_wait times one more than the rows so far, and the last row covers every scored sample. Violated for streams with no more than max_samples samples: nothing closes the report there, and with n_wait not smaller than the stream there is no row at all.", "quantifier": "every temporal stream, delay pattern, batch size, n_wait, pretrain_size and max_samples (at least 20 samples to evaluate)", "why_tests_cant": "Depends on the alignment of delays, batch size, n_wait and pretrain_size over a whole run.", "anchors": ["src/skmultiflow/evaluation/evaluate_prequential_delayed.py:EvaluatePrequentialDelayed._update_metrics_delayed", "src/skmultiflow/evaluation/evaluate_prequential_delayed.py:EvaluatePrequentialDelayed._train_and_test", "src/skmultiflow/evaluation/base_evaluator.py:StreamEvaluator._update_metrics"]}
{"id": "C264", "title": "Memory management of regression trees switches off the deepest leaves", "statement": "Whenever memory management of a Hoeffding tree regressor (or a tree built on it) runs and is not switched off, no leaf that is inactive afterwards is closer to the root than a leaf that is active.", "quantifier": "every reachable tree, every size estimates and limit", "why_tests_cant": "Needs every tree shape and every estimate; tests look at single trees under one limit.", "anchors": ["src/skmultiflow/trees/hoeffding_tree_regressor.py:516-519", "src/skmultiflow/trees/hoeffding_tree.py:638-667"]}
{"id": "C265", "title": "stop_mem_management stops growth as soon as the memory limit is hit", "statement": "With stop_mem_management=True a Hoeffding tree stops growing as soon as its estimated size exceeds max_byte_size, as documented. Violated: the estimate tested counts one active leaf only, so when the limit is first hit leaves are switched off and the tree grows on; it stops for good the next time memory management finds an inactive leaf.", "quantifier": "every reachable tree, every size estimates, limit and later training", "why_tests_cant": "Depends on size estimates over the whole history of a tree.", "anchors": ["src/skmultiflow/trees/hoeffding_tree.py:638-667"]}
{"id": "C266", "title": "Tree sizes are estimated every memory_estimate_period", "statement": "A Hoeffding tree compares its size with max_byte_size once every memory_estimate_period of training weight. With unit weights it does so exactly at the multiples of the period; violated for other weights: after one sample of weight one half and samples of whole weights the size is never estimated, and every leaf stays active however small max_byte_size is.", "quantifier": "every training history, period and limit", "why_tests_cant": "The failure is an absence over all later history.", "anchors": ["src/skmultiflow/trees/hoeffding_tree.py:293-353", "src/skmultiflow/trees/hoeffding_tree.py:669-693"]}
{"id": "C267", "title": "Former names of classes", "statement": "Calling a renamed class by its former name (KNN, HAT, VFDR, OnlineBoosting, BatchIncremental, InstanceWindow, ...) gives, after a warning, exactly the object that the same call of the class gives: every positional and keyword argument reaches the parameter it was meant for, the others have the defaults of the class.", "quantifier": "all 28 functions that stand for a renamed class, all positional and keyword arguments", "why_tests_cant": "a test calls a function with some arguments; swapped, dropped or unknown arguments show only for the combinations that use them", "anchors": ["src/skmultiflow/lazy/knn_classifier.py:10-16", "src/skmultiflow/meta/batch_incremental.py:12-17", "src/skmultiflow/meta/adaptive_random_forests.py:18-61", "src/skmultiflow/trees/hoeffding_tree.py:27-46", "src/skmultiflow/trees/hoeffding_adaptive_tree_regressor.py:14-37", "src/skmultiflow/rules/very_fast_decision_rules.py:32-49", "src/skmultiflow/utils/data_structures.py:870-875"]}
{"id": "C268", "title": "Metrics passed to an evaluator", "statement": "An evaluator reports the metrics in the list passed to its constructor, and data_points as well if data_points_for_classification is set, whatever other evaluators are constructed and used; the list of the caller keeps its contents.", "quantifier": "all lists, all sequences of constructions, evaluations and changes of lists by the caller", "why_tests_cant": "tests construct one evaluator per list", "anchors": ["src/skmultiflow/evaluation/evaluate_prequential.py:199-222", "src/skmultiflow/evaluation/evaluate_prequential_delayed.py:225-247", "src/skmultiflow/evaluation/evaluate_holdout.py:174-177", "src/skmultiflow/evaluation/base_evaluator.py:170-239"]}
{"id": "C269", "title": "The text of an estimator", "statement": "repr(estimator) and get_info() give, apart from white space, Name(p=v, ...) with every parameter in alphabetical order and its value, nested estimators likewise; lists, tuples and parameter lists show their first thirty elements. Of a text with more than 700 visible characters the first 350 and at least the last 350 are kept, with dots in between, continuing at the end of a line if lines are left out, unless that would save no space.", "quantifier": "all estimators: any number of parameters, any nesting and lengths of values (dictionaries and strings to be broken excepted)", "why_tests_cant": "the layout depends on the lengths of all texts; tests see some estimators, most of which fit", "anchors": ["src/skmultiflow/core/base.py:246-293", "src/skmultiflow/utils/_pprint.py:105-330", "src/skmultiflow/utils/_pprint.py:333-436"]}
{"id": "C270", "title": "PerceptronMask is the Perceptron of its parameters", "statement": "After any calls of fit, partial_fit, set_params and reset a PerceptronMask answers as the Perceptron of scikit-learn built with its present parameters and taught by the calls since construction or reset.", "quantifier": "all parameter values, all sequences of calls, any wrapped learner", "why_tests_cant": "depends on the order of calls; a test that sets parameters checks get_params", "anchors": ["src/skmultiflow/neural_networks/perceptron.py"]}
{"id": "C271", "title": "Using an evaluator again", "statement": "An evaluator can be used for several evaluations one after the other, also after its parameters were changed with set_params and after an evaluation ended with an exception: each evaluation measures, reports, writes to its result file, does to the models and raises exactly what a newly constructed evaluator with the current parameters would, and the result file holds the lines of that evaluation only. Violated: the window of the current measurements keeps the size given to the constructor when n_wait (test_size for holdout) is changed; when a delayed evaluation raises while the queue is emptied (as it does for every stream with sample weights) its lines end up in the file of the next evaluation; and with pretrain_size changed to 0 a delayed evaluation goes on with the queue of the previous one.", "quantifier": "every evaluator class, every history of evaluations, parameter changes and exceptions, every stream, model and set of parameters", "why_tests_cant": "Quantifies over histories of one object and over the places where exceptions leave an evaluation; tests construct a new evaluator each time.", "anchors": ["src/skmultiflow/evaluation/base_evaluator.py:37-74, 265-318, 543-672", "src/skmultiflow/evaluation/evaluate_prequential.py:176-394", "src/skmultiflow/evaluation/evaluate_holdout.py:154-345", "src/skmultiflow/evaluation/evaluate_prequential_delayed.py:202-496"]}
{"id": "C272", "title": "VFDR: what the class weights of a rule count", "statement": "With nominal attributes, the class weights of a rule of VeryFastDecisionRulesClassifier, on which its predictions rest, count training instances: exactly the instances learned by the rule, or by the default rule before the rule was made, that satisfy all its conditions, each once. The default rule counts the instances it has learned that did not go to a rule.", "quantifier": "for all training data in any batches, all parameters, criteria and detectors", "why_tests_cant": "the statistics of a rule are handed over at every expansion; tests train a few rules and check accuracy or the printed rules, not what has been counted", "anchors": ["src/skmultiflow/rules/very_fast_decision_rules.py:VeryFastDecisionRulesClassifier._expand_rule", "src/skmultiflow/rules/very_fast_decision_rules.py:VeryFastDecisionRulesClassifier._create_rule", "src/skmultiflow/rules/very_fast_decision_rules.py:VeryFastDecisionRulesClassifier.Rule.learn_from_instance", "src/skmultiflow/rules/nominal_attribute_class_observer.py:NominalAttributeClassObserver"]}
{"id": "C273", "title": "Switching the noise features of a generator after construction", "statement": "The attribute has_noise of LEDGenerator, LEDGeneratorDrift, WaveformGenerator and SineGenerator can be set at any time; from then on next_sample returns the samples of a generator constructed with that value: the relevant features, the noise features if asked for, and the class as label.", "quantifier": "every one of the generators, every history of settings of has_noise, every draw and every batch", "why_tests_cant": "The constructor derives n_features from has_noise once and next_sample reads both; tests construct generators and never set the attribute.", "anchors": ["src/skmultiflow/data/led_generator.py:101-122", "src/skmultiflow/data/led_generator.py:161-218", "src/skmultiflow/data/led_generator_drift.py:77-136", "src/skmultiflow/data/waveform_generator.py:92-190", "src/skmultiflow/data/sine_generator.py:89-116", "src/skmultiflow/data/sine_generator.py:181-259"]}
{"id": "C274", "title": "The description of a generator fits its samples", "statement": "n_features is the width of the samples, feature_names names each column once, n_num_features and n_cat_features count the numeric and the categorical columns, cat_features_idx lists the categorical columns, n_targets and target_names fit the targets and n_classes the classes.", "quantifier": "every generator and every choice of its constructor parameters", "why_tests_cant": "The parameters are unbounded, and tests compare the attributes they list with literals; cat_features_idx is never compared.", "anchors": ["src/skmultiflow/data/base_stream.py:19-33", "src/skmultiflow/data/agrawal_generator.py:102-114", "src/skmultiflow/data/anomaly_sine_generator.py:68-73", "src/skmultiflow/data/led_generator.py:106-120", "src/skmultiflow/data/random_tree_generator.py:113-131", "src/skmultiflow/data/mixed_generator.py:88-99", "src/skmultiflow/data/stagger_generator.py:88-101"]}
{"id": "C275", "title": "Renaming the features of AGRAWALGenerator", "statement": "feature_names is a settable attribute of a stream; setting it on an AGRAWALGenerator changes the names and not the samples.", "quantifier": "every list of names, every sample", "why_tests_cant": "The names are evaluated as Python expressions when a sample is made; no test sets them.", "anchors": ["src/skmultiflow/data/agrawal_generator.py:111-113", "src/skmultiflow/data/agrawal_generator.py:268-269", "src/skmultiflow/data/base_stream.py:142-160"]}
{"id": "C276", "title": "What a row of a prequential evaluation says", "statement": "Every row of a prequential evaluation carries the number of samples before its batch, pretrain_size + k * batch_size, and the scores of test-then-train: the mean accuracy of each model is the share of correct predictions among all samples from the end of the pre-training to the end of that batch, the current accuracy the share among the last n_sliding of them, each batch predicted by the model as it was after learning exactly the samples before the batch. For regression the same holds of the mean squared and mean absolute errors. Rows written before an exception are right as well.", "quantifier": "all streams, finite or endless, all models with one prediction per sample (any state, any exceptions), any number of models, all batch sizes, pre-training sizes, limits and n_wait, n_sliding at least 1", "why_tests_cant": "Combines the order of reading, predicting, scoring, training and reporting with the windowed statistics over all runs; tests compare the scores of a few runs with recorded values.", "anchors": ["src/skmultiflow/evaluation/evaluate_prequential.py:266-394", "src/skmultiflow/evaluation/base_evaluator.py:265-320", "src/skmultiflow/evaluation/base_evaluator.py:322-530", "src/skmultiflow/metrics/_classification_performance_evaluator.pyx:48-115", "src/skmultiflow/metrics/measure_collection.py:1079-1236"]}
{"id": "C277", "title": "What a row of a holdout evaluation says", "statement": "Every row of a holdout evaluation carries the number of samples used so far, and the scores of the models at that moment: the current accuracy of each model is the share of correct predictions for the test set of that row, made by the model after learning exactly the training batches before, and the mean accuracy the share among the predictions of all tests so far. With a static test set that set is the first test_size samples and every other sample is used for training, once and in order; with dynamic test sets every sample is used once, for training or for a test. Rows come exactly after the training steps that complete a multiple of n_wait training samples (static) or reach n_wait further training samples for each test so far (dynamic), or reach the limit. For regression the same holds of the mean squared and mean absolute errors. Rows written before an exception are right as well. Violated: when the end of the stream cuts a dynamic test set short, the current scores of that row include predictions from the test before.", "quantifier": "all streams, finite or endless, all models with one prediction per sample (any state, any exceptions), any number of models, all batch sizes, test sizes of at least 1, limits and n_wait", "why_tests_cant": "Combines the order of reading, training, predicting, scoring and reporting with the windowed statistics over all runs; tests compare the scores of a few runs with recorded values.", "anchors": ["src/skmultiflow/evaluation/evaluate_holdout.py:228-345", "src/skmultiflow/evaluation/base_evaluator.py:265-320", "src/skmultiflow/evaluation/base_evaluator.py:322-530", "src/skmultiflow/metrics/_classification_performance_evaluator.pyx:490-564", "src/skmultiflow/metrics/measure_collection.py:1150-1236"]}
{"id": "C278", "title": "The split a numeric attribute observer proposes", "statement": "For a numeric attribute the Gaussian observer proposes, if at least two different values were observed, one of the ten points dividing the range of the observed values (over all classes) into eleven equal parts: none of them has a larger merit, the smaller ones have a smaller merit, and the suggestion carries the branch distributions and the merit of that point. If all values are equal or nothing was observed there is no suggestion. In the branch distributions the weight expected of a class at or below the threshold is 0 below its smallest value, its whole weight from its largest value on, and grows with the threshold. Violated: for a class with a total weight of at most 1 it can fall from the whole weight to 0 as the threshold grows.", "quantifier": "all histories of observations, all merit functions (values or -inf), all numbers of bins, all densities and all monotone distribution functions into [0,1]", "why_tests_cant": "The loop over candidates, the per-class ranges and the estimators interact over all histories; tests look at one attribute with a handful of values.", "anchors": ["src/skmultiflow/trees/_attribute_observer/numeric_attribute_class_observer_gaussian.py:53-101", "src/skmultiflow/rules/numeric_attribute_class_observer.py:50-102", "src/skmultiflow/trees/gaussian_estimator.py:18-97"]}
{"id": "C279", "title": "What a row of a delayed evaluation says", "statement": "In a prequential evaluation with delayed labels that finishes, every row belongs to one scoring step and its id is the number of samples trained on before that step less the batch size. For each model the mean accuracy of the row is the share of correct results up to and including that step, and the current accuracy the share among the last n_sliding of them; for regression the same holds of the mean squared and mean absolute errors. The results up to a step pair the label of each sample with the predictions made for it when it arrived, each once; while the stream is read a step only adds predictions whose label is available at the newest arrival time, and leaves out none of those.", "quantifier": "all temporal streams without weights, finite or endless, all delays, all models with one prediction per sample, any number of models, all batch sizes, pre-training sizes, limits and n_wait, n_sliding at least 1, at least 20 samples to evaluate", "why_tests_cant": "Combines the queue of delayed samples, the transposed predictions, the windowed statistics and the reporting schedule over all runs and delay patterns; tests compare a few runs with recorded values.", "anchors": ["src/skmultiflow/evaluation/evaluate_prequential_delayed.py:290-372", "src/skmultiflow/evaluation/evaluate_prequential_delayed.py:374-496", "src/skmultiflow/data/time_manager.py:53-156", "src/skmultiflow/evaluation/base_evaluator.py:265-320", "src/skmultiflow/metrics/measure_collection.py:1150-1236"]}
{"id": "C280", "title": "What an ADWIN alarm means", "statement": "With the documented test (mean difference above epsilon), a check of ADWIN that is due answers True only if the window splits into an older and a newer part of at least five elements each whose means differ by more than epsilon, and it does answer True if such a split falls between two of its buckets. In particular it never answers True while only one value was fed. (Found: the scan leaves out the newest bucket of every size, so the parts compared are not contiguous; with the default delta, 34 zeros followed by 62 ones go unnoticed although the split after 32 is far above epsilon, and runs of zeros and ones raise an alarm although no split of the window is above it. What holds: an alarm means that the elements can be divided, contiguously or not, into two such parts; a split inside the buckets of the oldest size is noticed; a constant stream raises no alarm.)", "quantifier": "all sequences of add_element, detected_change, clock changes and resets, all delta (between 0 and 1 for the constant stream)", "why_tests_cant": "A test feeds one synthetic drift that is eventually found; which splits are compared, and what an alarm says about the window, concerns all windows and all ways the buckets can fall.", "anchors": ["src/skmultiflow/drift_detection/adwin.py:273-364", "src/skmultiflow/drift_detection/adwin.py:366-373"]}
{"id": "C281", "title": "What kNN-ADWIN tells its change detector", "statement": "KNNADWINClassifier.partial_fit tells its detector one value per row, in order: whether the label predicted for the row, from the window that already contains the row, is right (0 while there are fewer than n_neighbors samples); and it asks for a change once per call, after all rows. Hence fewer than 32 calls never shorten the window, however much data they bring; and with one neighbour, as long as equal rows carry equal labels, every row is its own neighbour, so no change is ever reported and the window is that of a plain KNNClassifier, whatever the drift.", "quantifier": "all calls, all data, all n_neighbors and window sizes; any exact search for the nearest sample in the one-neighbour part", "why_tests_cant": "Tests compare one accuracy on one stream; that the detector never reacts under these conditions is a statement about all streams.", "anchors": ["src/skmultiflow/lazy/knn_adwin.py:109-161"]}
{"id": "C282", "title": "Which estimators do not care how the rows are cut into calls of partial_fit", "statement": "For KNNClassifier, NaiveBayes (classes not given or a list), OzaBagging, LearnPPNSE, LearnPPClassifier, BatchIncrementalClassifier, AdaptiveRandomForestClassifier (no weights, parts not empty), and OnlineAdaC2 / OnlineCSB2 / OnlineRUSBoost / OnlineUnderOverBagging with drift detection off and no weights: once partial_fit(A) has succeeded, partial_fit(B) leaves the estimator exactly as a single partial_fit(A followed by B) would have left it, or raises what that would have raised (the random draws continuing where they were). It is not so for KNNADWINClassifier (the same rows can be all kept in one call and partly dropped in two), for OzaBaggingADWINClassifier and for the ensembles for skewed classes with drift detection (their change detectors are told different things).", "quantifier": "for all estimator states, all batches A and B, all base learners, all draws; witnesses with the default test of ADWIN for the exceptions", "why_tests_cant": "There are infinitely many ways to cut a stream into calls and infinitely many states to start from; a test compares a few, and the exceptions need particular histories (a check is made only at every 32nd call).", "anchors": ["src/skmultiflow/lazy/knn_classifier.py:126-133", "src/skmultiflow/bayes/naive_bayes.py:98-112", "src/skmultiflow/meta/oza_bagging.py:124-187", "src/skmultiflow/meta/learn_nse.py:124-263", "src/skmultiflow/meta/learn_pp.py:137-191", "src/skmultiflow/meta/batch_incremental.py:88-142", "src/skmultiflow/meta/adaptive_random_forests.py:276-331", "src/skmultiflow/meta/online_adac2.py:202-276", "src/skmultiflow/lazy/knn_adwin.py:109-161", "src/skmultiflow/meta/oza_bagging_adwin.py:106-202"]}
{"id": "C283", "title": "reset() of the online ensembles makes them as new", "statement": "With an integer random_state, an OnlineBoosting, OnlineAdaC2, OnlineCSB2, OnlineRUSBoost, OnlineUnderOverBagging, OnlineSMOTEBagging, AdaptiveRandomForest or StreamingRandomPatches classifier behaves after reset() like a newly built one. In fact the first six keep the classes of their first partial_fit: told the same classes they behave like new, told others they raise ValueError, and told none they go on where a new one would raise. The forest keeps them too, ignores those it is given later, and raises IndexError when a tree votes for a larger label. StreamingRandomPatches keeps the training method: after one use on data with no more features than the subspace size it never uses subspaces again.", "quantifier": "for all ensembles, base learners, detectors, draws, classes and sequences of calls before and after reset()", "why_tests_cant": "The effect shows only when an object is reused on data with other classes or another number of features; a test that resets and trains on the same data sees nothing.", "anchors": ["src/skmultiflow/meta/online_boosting.py:135-150", "src/skmultiflow/meta/online_adac2.py:142-161", "src/skmultiflow/meta/online_csb2.py:138-155", "src/skmultiflow/meta/online_rus_boost.py:140-159", "src/skmultiflow/meta/online_under_over_bagging.py:133-145", "src/skmultiflow/meta/online_smote_bagging.py:128-141", "src/skmultiflow/meta/adaptive_random_forests.py:299-300", "src/skmultiflow/meta/adaptive_random_forests.py:404-409", "src/skmultiflow/meta/streaming_random_patches.py:373-376", "src/skmultiflow/meta/streaming_random_patches.py:419-422"]}
{"id": "C284", "title": "Nearest neighbours: what predict and reset leave behind", "statement": "The predictions of a KNNClassifier depend only on the samples given since the last reset(): earlier calls of predict or predict_proba, the classes named in partial_fit and everything before the reset make no difference. The rows of predict_proba hold the label frequencies among the neighbours; their length is one more than the largest label ever named in a partial_fit, or in the window at any answered predict or predict_proba call up to now, and reset() does not shorten it. A KNNADWINClassifier has after reset() and any calls the window and detector of a new one.", "quantifier": "for all sequences of partial_fit, predict, predict_proba and reset calls, all window sizes and numbers of neighbours, and every neighbour search that returns as many places of the window as asked", "why_tests_cant": "That queries change nothing but the row length is a statement about all interleavings of calls; tests query once at the end.", "anchors": ["src/skmultiflow/lazy/knn_classifier.py:95-186", "src/skmultiflow/lazy/base_neighbors.py:32-36", "src/skmultiflow/lazy/knn_adwin.py:100-112", "src/skmultiflow/lazy/knn_adwin.py:114-166"]}
{"id": "C285", "title": "Online boosting: training", "statement": "Give a new OnlineBoostingClassifier its first batch with the classes, then any further batches, over a base learner whose partial_fit and predict do not fail. Then, whatever is drawn and whatever is predicted, no call fails; there are max(n_estimators, number of classes) members; each member is shown every sample once and in order. A member is trained on a sample as often as a Poisson draw tells whose rate is the weight of the sample. The first member is shown each sample with weight 1. A member that was not trained on the sample hands its weight on unchanged; one that was trained on it and predicts it correctly divides the weight by 2(1 - e) (leaves it if e is 0), one that predicts it wrongly by 2e, where e is the share of wrong weight among all samples the member was trained on so far, this one included. The epsilon of each member, from which the vote is weighted, is this share, or 0 for a member never trained.", "quantifier": "for all batches, class lists, ensemble sizes, draws of the sampler, detectors and base learners that do not fail", "why_tests_cant": "The weights depend on all draws and predictions so far; a test sees one random stream", "anchors": ["src/skmultiflow/meta/online_boosting.py:165-186", "src/skmultiflow/meta/online_boosting.py:188-253", "src/skmultiflow/meta/online_boosting.py:255-265"]}
{"id": "C286", "title": "Naive Bayes: only the total weight of each labelled row matters", "statement": "Train two NaiveBayes models (same nominal attributes) so that every labelled row (features and class) has the same total weight in the training data of both, with weights not negative. Then predict_proba and predict of the two agree on all rows: the order of the rows, how they were spread over calls of partial_fit, and whether a row came once with weight 3 or three times with weight 1 do not matter. The classes argument is the same list in all calls, or never given.", "quantifier": "for all training data of complete numeric rows, weights, calls, nominal attributes, density functions and rows to predict", "why_tests_cant": "A test compares a few orders and weights of one data set", "anchors": ["src/skmultiflow/bayes/naive_bayes.py:74-190", "src/skmultiflow/bayes/utils.py:8-42", "src/skmultiflow/trees/gaussian_estimator.py:18-79", "src/skmultiflow/trees/_attribute_observer/numeric_attribute_class_observer_gaussian.py:23-51", "src/skmultiflow/trees/_attribute_observer/nominal_attribute_class_observer.py:20-44"]}
{"id": "C287", "title": "Naive Bayes: the unit of a numeric attribute", "statement": "The unit in which a numeric attribute is measured does not matter to NaiveBayes: if all values of one attribute are replaced by a*x + b (a > 0), in the training rows and in the rows to predict, predict_proba and predict answer as before. (Holds if every class seen has weight more than 1 and two different values of the attribute. Violated otherwise: a class that has shown one value only gets the density 1 there in every unit, so that the unit decides the predicted class.)", "quantifier": "for all training data, rows to predict, units and attributes", "why_tests_cant": "A test tries one unit on one data set", "anchors": ["src/skmultiflow/trees/gaussian_estimator.py:56-79", "src/skmultiflow/bayes/naive_bayes.py:114-182", "src/skmultiflow/bayes/utils.py:28-42"]}
{"id": "C288", "title": "Hoeffding tree: the unit of a numeric attribute", "statement": "Giving one numeric attribute in another unit (x becomes a*x + b with a > 0, say Celsius to Fahrenheit) in every training row, and then in every row asked about, does not change what a HoeffdingTreeClassifier does: the tree splits at the same moments on the same attributes, the thresholds of that attribute being the old ones in the new unit, every leaf holds the same class weights, the same exceptions are raised, and predict and predict_proba answer the same.", "quantifier": "for every sequence of weighted training rows, every attribute position, every a > 0 and b, every split criterion and split decision based on class distributions, every memory limit, and every later query", "why_tests_cant": "A test tries one unit on one data set; that every threshold, every merit and every vote is unit free holds for all data and all trees", "anchors": ["src/skmultiflow/trees/hoeffding_tree.py:552-631", "src/skmultiflow/trees/_nodes/base.py:432-491", "src/skmultiflow/trees/_nodes/htc_nodes.py:1-230", "src/skmultiflow/trees/_attribute_observer/numeric_attribute_class_observer_gaussian.py:1-140", "src/skmultiflow/trees/gaussian_estimator.py:56-97", "src/skmultiflow/bayes/utils.py:28-42"]}
{"id": "C289", "title": "Hoeffding tree: the kind of leaves and the tree that grows", "statement": "leaf_prediction says how a leaf answers, not how the tree grows: HoeffdingTreeClassifiers that differ only in leaf_prediction ('mc', 'nb', 'nba') and nb_threshold, trained on the same rows, raise the same exceptions and have the same splits on the same attributes with the same thresholds, the same class statistics in every node and the same active leaves.", "quantifier": "for every two kinds of leaves, every two thresholds, every sequence of weighted rows, every mix of numeric and nominal attributes, every criterion, bound and tie threshold, with and without remove_poor_atts, as long as the memory manager activates the same leaves", "why_tests_cant": "A test compares trees on one data set with default parameters; that no counter or vote of a leaf reaches the split decision is about all data and all parameters", "anchors": ["src/skmultiflow/trees/_nodes/htc_nodes.py:63-201", "src/skmultiflow/trees/_nodes/base.py:444-491", "src/skmultiflow/trees/hoeffding_tree.py:472-487", "src/skmultiflow/trees/hoeffding_tree.py:552-631"]}
{"id": "C290", "title": "Models evaluated together do not influence one another's figures", "statement": "EvaluatePrequential can be given several models at once. What it reports about each of them (sample ids, mean and current value of every metric, row by row) is what it reports when it is given that model alone with the same stream and settings, provided each model can be evaluated alone to the end; then the joint evaluation reaches its end, too. If some model raises an exception, the joint evaluation stops there for all of them, and what is reported about each is a beginning of what is reported about it alone. Assumed: the models share no state (no common random generator), each returns one prediction per row, and the time limit is not reached earlier by the joint evaluation.", "quantifier": "every number of models, every learner, stream, pretraining size, batch size, list of metrics, n_wait and max_samples", "why_tests_cant": "an interaction through the shared loop (a prediction attributed to the wrong model, a list shared by two evaluators, a count taken from the first model) shows only for particular combinations of models; a test compares one pair of models on one stream", "anchors": ["src/skmultiflow/evaluation/evaluate_prequential.py:266-394", "src/skmultiflow/evaluation/base_evaluator.py:273-297", "src/skmultiflow/evaluation/base_evaluator.py:320-535"]}
{"id": "C291", "title": "ADWIN: level, direction and unit of the values", "statement": "Feeding ADWIN x + c in place of x, or c - x in place of x (hits instead of errors, say), does not change any answer of detected_change(), nor width, variance and n_detections; estimation changes accordingly. The unit, however, matters: a stream of at most N values within an interval of length 8/(3N) is never reported, whatever change it contains (delta at most 1/2), and there is a stream of zeros and ones that is reported, but not when its values are divided by 100.", "quantifier": "every sequence of calls (add_element, detected_change, set_clock with a positive clock, reset), every delta and every number c", "why_tests_cant": "a test feeds a few streams; the invariance concerns all streams and every state of the bucket structure, and a slip in one of the incremental variance formulas would show only after particular sequences of merges and deletions", "anchors": ["src/skmultiflow/drift_detection/adwin.py:167-271", "src/skmultiflow/drift_detection/adwin.py:273-373"]}
{"id": "C292", "title": "PageHinkley and HDDM_A: level and unit of the values", "statement": "Raising every value by the same number changes no change or warning flag of PageHinkley or HDDM_A (nor the delay of HDDM_A) at any point of the stream; the estimation is raised by that number. For PageHinkley, multiplying the values, delta and threshold by the same positive number changes no flag either; and PageHinkley, for delta and threshold not negative, reports nothing on a stream whose values never increase.", "quantifier": "every stream, all parameters (HDDM_A: confidences in (0, 1])", "why_tests_cant": "a statement about pairs of executions on all streams; tests compare the flags on a single recorded stream", "anchors": ["src/skmultiflow/drift_detection/page_hinkley.py:53-109", "src/skmultiflow/drift_detection/hddm_a.py:79-190"]}
{"id": "C293", "title": "HDDM_W: level of the values", "statement": "HDDM_W compares weighted averages, so raising or lowering every value by the same number should not change its flags, delay and width. This holds as long as no value is negative before and after. It fails otherwise: a negative average is taken for 'no average yet', so a stream of negative values is never reported; for all parameters there is a stream with a reported change that goes unreported when all its values are lowered.", "quantifier": "every stream; lambda in [0, 1] (violation: in (0, 1]), confidences in (0, 1]", "why_tests_cant": "tests feed zeros and ones; the failure needs negative values", "anchors": ["src/skmultiflow/drift_detection/hddm_w.py:65-222"]}
{"id": "C294", "title": "Nearest neighbours: what the predictions depend on", "statement": "For a row to which no two samples of the window are equally near, the predictions of KNNClassifier and KNNRegressor are determined by the samples that have fewer than n_neighbors nearer ones: label frequencies and most frequent label, or the aggregate of the targets. The order in which the samples of the window arrived makes no difference, and of the distances only their order matters; so with the Euclidean metric the predictions do not change when a constant is added to a feature, when all features are given in another common unit or when the features are permuted. The unit of a single feature does matter, and with equally near samples the answer depends on which of them the search returns.", "quantifier": "every sequence of partial_fit, predict and reset calls, every metric, every exact neighbour search, every n_neighbors > 0 and max_window_size, all rows without ties, all rewritings of the rows that preserve the order of distances", "why_tests_cant": "a relation between pairs of executions over all windows, metrics and transformations; tests compare predictions on one data set", "anchors": ["src/skmultiflow/lazy/base_neighbors.py:26-36", "src/skmultiflow/lazy/knn_classifier.py:126-186", "src/skmultiflow/lazy/knn_regressor.py:134-171"]}
{"id": "C295", "title": "The numbers that stand for the classes do not matter to HoeffdingTreeClassifier if order and 0 are kept", "statement": "Rename the classes in all training rows of a HoeffdingTreeClassifier so that their order is kept. With information gain or Gini, numeric and nominal attributes and every kind of leaves, training ends with the same exception or the same splits, with the class weights under the new names. If the renaming also keeps label 0, every row gets the same votes under the new names, and predict returns the new name of what it returned before. The label 0 has to be kept: where no class gets a vote, predict answers 0, whether or not there is a class 0. split_criterion='hellinger' is tied to the labels 0 and 1: if there is no class called 1, every split has merit 0 or minus infinity.", "quantifier": "for all training sequences, trees, order-preserving renamings, leaf kinds, rows to predict", "why_tests_cant": "Tests use data sets whose labels are already 0..k-1; no test trains a second tree on renamed labels, and a test could only compare a few trees.", "anchors": ["src/skmultiflow/trees/hoeffding_tree.py", "src/skmultiflow/trees/_nodes/htc_nodes.py", "src/skmultiflow/trees/_split_criterion/hellinger_distance_criterion.py", "src/skmultiflow/trees/_attribute_observer/nominal_attribute_class_observer.py", "src/skmultiflow/trees/_attribute_observer/numeric_attribute_class_observer_gaussian.py", "src/skmultiflow/bayes/utils.py"]}
{"id": "C296", "title": "Learning a row brings a leaf perceptron's answer for that row closer to its target", "statement": "In a regression tree with perceptron leaves, one learning step moves the answer of the leaf for the row it learns towards the target of the row: with r the learning ratio (learning_ratio_perceptron, or that divided by 1 + learning_ratio_decay times the weight of the leaf, which lies between 0 and the parameter and never grows with the weight) and x the normalised row, the fraction r * |x|^2 of the way. Violated: after each step the weights are divided by the sum c of their absolute values, which divides the distance of the answer from the mean target by c; an answer that is too high can thereby become higher, and the error on the row just learnt grow, with the default learning ratio. A perceptron of unit norm that already answers the target keeps its answer. As long as the tree has seen a weight of at most one, learning leaves the perceptrons of a multi-target tree as they are.", "quantifier": "every leaf, row of weight at least 1 and below 2, learning ratio and tree sums with a varying target; single-target and multi-target trees", "why_tests_cant": "The direction of a single step depends on all weights and on the unit of the attributes; tests look at errors averaged over a stream.", "anchors": ["src/skmultiflow/trees/_nodes/htr_nodes.py:88-136", "src/skmultiflow/trees/_nodes/isouptr_nodes.py:28-90"]}
{"id": "C297", "title": "Hoeffding tree: what a numeric split hands to its branches", "statement": "When a HoeffdingTreeClassifier splits a leaf on a numeric attribute, the new node has exactly two branches; the threshold lies strictly between two values the leaf has seen; a row goes to the first branch if its value is at most the threshold and to the second otherwise; and the class weights the two branches start with share out, class by class, the weight of the rows the leaf has learnt since it was made, a class seen only at or below (only above) the threshold going wholly to the first (second) branch.", "quantifier": "every active leaf, sequence of rows with positive weights it has learnt, number of attributes, leaf kind, criterion and split decision, and distribution function with values in [0, 1]", "why_tests_cant": "The branch weights come from normal approximations per class; a test checks a tree on one data set and cannot see a class credited to the wrong branch in general.", "anchors": ["src/skmultiflow/trees/_attribute_observer/numeric_attribute_class_observer_gaussian.py:45-101", "src/skmultiflow/trees/_attribute_test/numeric_attribute_binary_test.py:12-18", "src/skmultiflow/trees/hoeffding_tree.py:576-631"]}
{"id": "C298", "title": "KSWIN reacts to the order of the values only, and to values before the current call", "statement": "KSWIN runs the two-sample Kolmogorov-Smirnov test between stat_size values drawn from the older part of its window and the newest stat_size values. (a) Sending all values of the stream through a strictly increasing map, or through a strictly decreasing one, changes no report and no exception, and the window holds the images of the same values. (b) The value given to add_element takes no part in the test of that same call: whatever the value is, detected_change() answers the same. (c) A reported change means that at some value the share of the drawn older values at or below it and the same share of the newest stat_size values differ by more than 0.1; a stream that repeats one value is never reported, however large alpha is.", "quantifier": "for all window sizes, statistic sizes, alpha, positions drawn, tables of p-values, streams and strictly monotone maps", "why_tests_cant": "A test feeds one stream with one seed; that every monotone rescaling of every stream gives the same alarms is a statement about all streams, all maps and all draws.", "anchors": ["src/skmultiflow/drift_detection/kswin.py:77-128"]}
{"id": "C299", "title": "DDM: a reported change means more errors than before", "statement": "A user of DDM, told 1 for every wrong and 0 for every right prediction of a learner, relies on a reported change meaning that the learner has become worse: (a) a right prediction is never reported as a change; (b) when a change is reported, the share of wrong predictions since the last change is larger than it was at an earlier moment since then, at least min_num_instances - 1 predictions after that change; (c) as long as no change is reported, that share never exceeds out_control_level times the sum of the share and its deviation at any such earlier moment; (d) a learner that errs at a steady rate is not reported. (d) is false: after min_num_instances - 1 right predictions the first wrong one is reported at once, whatever the levels, so a learner that errs exactly once in every 30 predictions is reported at every one of its errors.", "quantifier": "for all sequences of right and wrong predictions, all min_num_instances, all warning levels, all out-of-control levels of at least 1 in (a) to (c) and all of them in (d)", "why_tests_cant": "Tests feed one sequence of predictions; that no sequence makes a right prediction an alarm, or makes an alarm while the rate falls, is a statement about all of them and about the real square root.", "anchors": ["src/skmultiflow/drift_detection/ddm.py:80-153"]}
{"id": "C300", "title": "EDDM: a reported change means that errors come faster", "statement": "A user of EDDM relies on a reported change meaning that the errors of the learner come faster than before. What holds: (a) if all distances between consecutive errors (and the one from the start to the first error) are equal, neither a change nor a warning is ever reported; (b) when a change is reported, more than 30 errors were made since the last change, and the mean distance between these errors, or the spread of the distances, is less than 0.9 of what it was at an earlier one. What fails: there are predictions at which EDDM reports a change although the mean distance between errors is larger than it was at every earlier error, because a smaller spread alone can be reported.", "quantifier": "for all sequences of predictions and all non-negative square roots in (b), those with root of 0 equal to 0 in (a); the counterexample is reported with every square root that is exact to 1/1000", "why_tests_cant": "Tests feed one sequence of predictions and look at where the alarms are; what an alarm says about the errors is a statement about all sequences.", "anchors": ["src/skmultiflow/drift_detection/eddm.py:64-155"]}
{"id": "C301", "title": "PageHinkley: alarms are rises, and lasting rises are reported", "statement": "With a forgetting factor between 0 and 1 and delta and threshold not negative, a value that PageHinkley reports as a change exceeds the mean of all values since the last change (itself included) by more than delta, unless it is the first value at which the detector may report. Conversely, when n values with mean m, none of them reported, are followed by k values v of at least m, and (1 + alpha + ... + alpha^(k-1)) * (n (v - m) / (n + k) - delta) exceeds the threshold, the rise is reported by the last of these values (provided n + k is at least min_instances - 1).", "quantifier": "for all parameters, streams, levels before and after the rise and lengths", "why_tests_cant": "Tests look at one stream with one rise; a guarantee that no lasting rise is missed, with a bound on the delay, is about all of them.", "anchors": ["src/skmultiflow/drift_detection/page_hinkley.py:53-109"]}
{"id": "C302", "title": "WindowedStandardScaler takes the unit and the level out of every column", "statement": "Give a new WindowedStandardScaler the same rows once as they are and once with every column in another positive unit and from another zero point (value -> a*value + b, own a and b per column). The transformed rows are the same, so that what is learned after the scaler does not depend on the units. This holds for every cell after the first row whose column was not constant over the window before it. Not for the first row, which is passed on unchanged, and not after a constant window: there the result is the distance from the constant, in the column's own unit.", "quantifier": "for every window size >= 1, number of columns, rows, positive units and zero points, cut into calls anyhow", "why_tests_cant": "A test standardises one sample in one unit; that the unit cancels is a statement about pairs of whole streams and all units, and the cells where it does not are those of a constant window.", "anchors": ["src/skmultiflow/transform/windowed_standard_scaler.py:30-63"]}
{"id": "C303", "title": "HDDM_A: lasting rises are reported", "statement": "As long as HDDM_A reports no change, the values since it last started afresh average less than the average of their first k plus sqrt(log(1/drift_confidence)/(2k)) plus sqrt(log(2/drift_confidence)/2) - sqrt(log(1/drift_confidence)/2), for every k. So a rise that lasts is reported: if the k values seen so far average at most p and the m values that follow at least q, and (q-p)*m is at least k+m times that margin, one of the m is reported as a change; with two_side_option the only other possibility is that one of them makes the detector start afresh because of a fall. It starts afresh after a reported change, and otherwise with two_side_option only. It never fails.", "quantifier": "for every drift_confidence and warning_confidence between 0 and 1, both values of two_side_option, and all real values", "why_tests_cant": "That a detector must react is a statement about every stream with such a rise, however it wavers; a test shows one stream on which it does. How late the reaction may come follows from an invariant of the minimum kept.", "anchors": ["src/skmultiflow/drift_detection/hddm_a.py:79-144", "src/skmultiflow/drift_detection/hddm_a.py:146-160"]}
{"id": "C304", "title": "Naive Bayes does not depend on the order of the columns, nor on columns that never vary", "statement": "Train NaiveBayes on rows with positive weights, no call giving classes as a numpy array. Rearrange the columns of all training rows and of the rows to predict in the same way, with the numbers in nominal_attributes following their columns, and leave out any columns that hold one and the same value in all these rows. Then predict_proba and predict give the same answers as before, whether the columns left out are numeric or nominal. Read the other way round: adding columns that never vary, anywhere, changes no answer.", "quantifier": "for every choice of nominal attributes, every normal density function, every sequence of partial_fit calls, every arrangement of the columns, every set of constant columns left out, and all rows to predict", "why_tests_cant": "A test can permute the columns of one data set; that no order and no constant column ever matters is a statement about every data set, and for constant columns depends on the special cases of a zero variance and of the Laplace correction.", "anchors": ["src/skmultiflow/bayes/naive_bayes.py:74-190", "src/skmultiflow/bayes/utils.py:8-42", "src/skmultiflow/trees/gaussian_estimator.py:18-79", "src/skmultiflow/trees/_attribute_observer/numeric_attribute_class_observer_gaussian.py:23-51", "src/skmultiflow/trees/_attribute_observer/nominal_attribute_class_observer.py:20-44"]}
{"id": "C305", "title": "HDDM_W: which rises it can see", "statement": "HDDM_W works with exponentially weighted averages whose uncertainty never falls below a limit set by lambda_option (L) and drift_confidence. (1) If L / (2 - L) * ln(1 / drift_confidence) is at least 1, no sequence of values between 0 and 1 is ever reported as a change, however the error rate moves; with the default drift_confidence this is so for every lambda_option from 0.26 to 1. The same with warning_confidence holds for warnings. (2) If the detector has kept a stretch of non-negative values, and all values that follow are at least h, where h exceeds the weighted average of the stretch plus its deviation plus the square root of L / (2 - L) * ln(1 / drift_confidence) / 2, then a change is reported once enough of them have come, and how many suffice follows from the parameters.", "quantifier": "for all drift and warning confidences in (0, 1], all lambda_option in (0, 1], with and without two_side_option, and all sequences of values (in [0, 1] for the first part, non-negative for the second)", "why_tests_cant": "That a setting makes a detector blind, and that a lasting rise is found for certain, are statements about all sequences of unbounded length; a test sees a change reported or not reported on one of them.", "anchors": ["src/skmultiflow/drift_detection/hddm_w.py:70-182"]}
{"id": "C306", "title": "ADWIN notices differences at the oldest bucket sizes and finds every lasting change", "statement": "Which differences a due `detected_change()` is certain to notice can be told from the width alone: with between (5+j)*2^R - 4 and 10*2^R - 5 values in the window (j at least 1, more than ten values), it returns True if the mean of the oldest j*2^R values differs from the mean of the others by more than the threshold of the test. And a lasting change is found: if the values in the window lie in one range and all later ones in another, higher or lower, whose gap exceeds a seventh of the first range's length, then for every positive `delta` and every bound on the variance there is a width N such that from any state with at least N values in the window (and a clock of at most 32) some check returns True while at most nine times as many new values are fed, each followed by a check. Before the first drop no bound on the variance is needed.", "quantifier": "for all delta, all histories of add_element / detected_change / set_clock / reset calls, all values", "why_tests_cant": "A test feeds one stream with one jump; which splits the bucket structure lets the detector see, and that a change of any size is found after any long enough history, concern all windows and all positions of the change relative to the buckets.", "anchors": ["src/skmultiflow/drift_detection/adwin.py"]}
{"id": "C307", "title": "DDM: which rises of the error rate are certain to be reported", "statement": "Let r be the share of wrong predictions since DDM last reported a change, at least min_num_instances - 1 predictions ago, T = r + sqrt(r(1-r)/n) and L = T + (out_control_level - 1) * sqrt(T / (min_num_instances - 1)). As long as no change is reported, the share of wrong predictions (plus its deviation) stays at most L. So if the next predictions contain more than L times (n + their number) wrong ones, a change is reported on one of them; and if a share b > L of them is wrong, it is reported before there are n L / (b - L) of them, whatever their order. Below L a rise can stay unreported for ever: with the default parameters, after 26 right and 6 wrong predictions, an error rate of 1/6 for 360 or more predictions that then rises to 1/4 is never reported, however long it lasts.", "quantifier": "for all out_control_level >= 1, all min_num_instances and warning levels, all sequences of right and wrong predictions", "why_tests_cant": "A test feeds one sequence with one jump of the error rate; that every lasting rise beyond the limit is reported, within a stated number of predictions, concerns all sequences and all histories before them.", "anchors": ["src/skmultiflow/drift_detection/ddm.py"]}
{"id": "C308", "title": "KSWIN reports every complete change, or none at all", "statement": "Let p1 be the p-value the Kolmogorov-Smirnov test gives two samples of stat_size values that are entirely separated (the smallest it can give). If p1 <= alpha, then once the window is full and the next stat_size values all lie above, or all below, the values in it, detected_change() answers True after one of them or after the value that follows, whatever is drawn at random. If p1 > alpha, detected_change() never answers True on any stream. With the exact p-value 2/C(2s, s), the defaults (alpha 0.005, window 100, stat_size 30) are of the first kind, and with the default alpha every stat_size of 5 or less is of the second kind, without any message.", "quantifier": "for all streams, window sizes of at least stat_size + 2, alpha, random draws and p-value tables", "why_tests_cant": "A test draws once with one seed and one stream; that no draw can miss a complete change, and that some parameters make the detector mute on all streams, are statements about all draws and all streams.", "anchors": ["src/skmultiflow/drift_detection/kswin.py"]}
{"id": "C309", "title": "EDDM: errors that come lastingly faster are reported", "statement": "Let M be the mean plus two deviations of the distances between errors, taken at any error since EDDM last reported a change (at the 29th prediction or later). If after a wrong prediction that is not reported the distances between errors stay between lo and hi for good, where hi + 2 * (hi - lo) < 0.9 * M, then a change is reported: there is a number N such that one of the next predictions is reported as soon as they contain N more errors, whatever the distances were before and however the errors lie within that range.", "quantifier": "for all sequences of right and wrong predictions, all ranges of distances", "why_tests_cant": "A test feeds one sequence in which errors become more frequent; that the old, longer distances are outweighed after every history and for every later sequence in the range concerns sequences of unbounded length.", "anchors": ["src/skmultiflow/drift_detection/eddm.py:64-157"]}
{"id": "C310", "title": "PageHinkley: how soon it can report, and when it is mute", "statement": "Let all values lie between a and b, alpha not be negative, and delta and threshold not be negative. A change is reported only when, with k values since the beginning or since the previous report, (b - a - delta) * (1 + alpha + ... + alpha^(k-2)) exceeds threshold. So if alpha < 1 and b - a - delta <= (1 - alpha) * threshold, no stream of such values is ever reported, without any message. On errors coded 0 and 1 with the default delta and threshold: every alpha of at most 0.98 makes the detector mute, and with any alpha up to 1 and any min_instances (default 30) a report needs at least 52 values, also after a report.", "quantifier": "for all parameters (alpha, delta, threshold not negative), all streams of values in a range", "why_tests_cant": "A test feeds one stream; that a setting makes the detector silent on all streams, and that no stream can raise an alarm sooner than a bound, quantify over all streams of all lengths.", "anchors": ["src/skmultiflow/drift_detection/page_hinkley.py:53-109"]}
{"id": "C311", "title": "MissingValuesCleaner: what the window strategies put in place of NaN", "statement": "With strategy mean or median, missing_value=nan and a window of at least two rows, a cell comes out of MissingValuesCleaner as a number exactly if its column had a number in that row or any earlier one (however far back, also outside the window), and it lies between the smallest and the largest of those numbers; NaN before the first number stays NaN. With window_size=1 nothing is ever replaced, without any message. With strategy mean, rows in other units (a*value + b, own a and b per column) come out as the old results in those units. How the rows are divided over calls of transform does not matter.", "quantifier": "for all window sizes, all matrices of numbers and NaN, all divisions into calls (mean and median: any column statistic that ignores NaN and lies between the numbers)", "why_tests_cant": "A test cleans one matrix; that substitutes are never outside what was seen although they are computed from earlier substitutes, and never missing once a number was seen, concerns all sequences of rows.", "anchors": ["src/skmultiflow/transform/missing_values_cleaner.py:72-145"]}
{"id": "C312", "title": "Models in one holdout evaluation do not influence one another's figures", "statement": "EvaluateHoldout can be given several models at once. What it reports about each of them (sample ids, mean and current value of every metric, row by row) is what it reports when it is given that model alone with the same stream and settings, with a static test set and with dynamic ones, provided each model can be evaluated alone to the end; then the joint evaluation reaches its end, too. If some model raises an exception, the joint evaluation stops there for all of them, and what is reported about each is a beginning of what is reported about it alone. Assumed: the models share no state (no common random generator), each returns one prediction per row, and the time limit is not reached earlier by the joint evaluation.", "quantifier": "for all streams, numbers of models, learners, metrics, batch sizes, test sizes and waiting times", "why_tests_cant": "A test compares one pair of models on one stream; that no figure of one model ever depends on the presence of another quantifies over all learners, streams and settings.", "anchors": ["src/skmultiflow/evaluation/evaluate_holdout.py:228-345"]}
{"id": "C313", "title": "Models in one delayed prequential evaluation do not influence one another's figures", "statement": "Comparing several models with EvaluatePrequentialDelayed gives every model the rows it would get in an evaluation of it alone: for each of them the predictions, the batches it is trained on, the moment each of its predictions is scored, its final state, the position in the stream and the exception, if any, are those of the evaluation of that model alone with the same settings, and each row holds at the same id the same measurements. No model makes the scores of the others raise if they would not raise alone.", "quantifier": "for every number of models, every model that gives one prediction for each row, every stream with or without weights, every order in which the queue's ties are sorted (by the times alone), every batch size, pretrain size, n_wait and max_samples, and any measurement objects", "why_tests_cant": "Tests evaluate one or two fixed models on one stream and compare with stored figures; the claim compares all joint evaluations with the evaluations of each model alone.", "anchors": ["src/skmultiflow/evaluation/evaluate_prequential_delayed.py:290-372", "src/skmultiflow/evaluation/evaluate_prequential_delayed.py:374-496", "src/skmultiflow/data/time_manager.py:37-40"]}
{"id": "C314", "title": "One label above the declared classes silences OzaBagging for good, and nothing less does", "statement": "partial_fit of OzaBaggingClassifier accepts samples whose label is larger than every class declared in the first call. As soon as one member has been trained on one such sample, and has enough samples to answer for its labels, predict answers class 0 and predict_proba a single 0 for every row, whatever the other members say, whatever came before and whatever samples follow; no exception is raised, although predict_proba documents a ValueError. As long as no member is trained on such a label, every row gets the first class with the largest sum of the members' probabilities.", "quantifier": "for every sequence of accepted partial_fit calls on a new ensemble, every number of members, every outcome of the Poisson draws, every batch of rows to predict, and every base learner whose rows have an entry for each label it was trained on and none beyond those and the classes it was told of (such as KNNClassifier between n_neighbors and max_window_size samples)", "why_tests_cant": "Tests give labels that were declared; that a single sample among arbitrarily many disables the ensemble for all later calls is a statement about all histories and all random draws.", "anchors": ["src/skmultiflow/meta/oza_bagging.py:124-194", "src/skmultiflow/meta/oza_bagging.py:196-278", "src/skmultiflow/lazy/knn_classifier.py:126-186"]}
{"id": "C315", "title": "get_measurements covers every prediction of a delayed evaluation", "statement": "After EvaluatePrequentialDelayed has run, get_measurements(i) gives the measurements of model i, counted from the front or, if negative, from the back: the mean accuracy (for regressors the mean squared and absolute errors) is that of all predictions of the model, exactly one for every sample taken from the stream after the pre-training block, also those scored after the last row was written; the current figures are those of the last n_sliding results scored. Any other index gives (None, None), although an IndexError is documented.", "quantifier": "for every finite unweighted stream, all models that give one prediction per row, every sort of the queue by available time, all batch, pre-training and window sizes, n_wait and max_samples with at least 20 samples to evaluate, every time limit, and every index", "why_tests_cant": "Tests look at the figures of one run; that no prediction is missing from the final figures or counted twice is a statement about all delays, batch sizes and stopping points.", "anchors": ["src/skmultiflow/evaluation/base_evaluator.py:781-859", "src/skmultiflow/evaluation/evaluate_prequential_delayed.py:320-335", "src/skmultiflow/evaluation/evaluate_prequential_delayed.py:374-496"]}
