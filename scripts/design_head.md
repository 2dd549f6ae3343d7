# Formal model of scikit-multiflow: design

Lean 4.33.0 with Mathlib. All sources are under `lean/Verif/`. This file is
generated by `scripts/design.py` from `scripts/design_head.md`,
`scripts/how.json`, `properties.jsonl` and `MANIFEST.json`.

Definitions that mirror Python code carry a comment with the file and the
lines they model. Specification functions (the right-hand sides of the
theorems) are written separately and do not use the model's own helpers.
Beside each theorem an `example` shows a concrete case that meets the
hypotheses.

## Trusted base

* The Lean kernel. Every theorem depends only on (a subset of) the axioms
  `propext`, `Classical.choice` and `Quot.sound`. There is no `sorry`, no
  added axiom, no `native_decide` and no `bv_decide`. Concrete witnesses are
  evaluated with `decide +kernel`, that is by the kernel.
* The transcription from Python to Lean, done by hand. Each definition cites
  its lines and states its simplifications.
* The statements themselves, including the small specification functions.

## Modelling conventions

* Numbers are exact rationals. Floating-point rounding, overflow, NaN and
  infinities are outside the model unless a definition mentions them (for
  example a division by zero that numpy would turn into NaN or a warning).
* Exceptions are values (`PyErr`). Where Python would raise, the model returns
  an error, and theorems say so. Divisions that can raise are modelled as
  partial.
* Loops are folds or structural recursions. Loops without an obvious bound
  (rejection sampling, ADWIN's change check) take fuel, and `none` means that
  the fuel ran out; termination is then a theorem or a refuted claim.
* External functions are arbitrary parameters: random draws, `sqrt`, `log`,
  `exp`, the KS test, split criteria, base learners, clocks, sorting (any
  sorted permutation). Theorems hold for all of them.
* A claim that the code does not satisfy is kept as a property; its negation
  is proved (`..._violated`) and the part that does hold is proved under a name
  ending in `_partial`. Such properties have status `partial`.

## What is modelled

| Python (src/skmultiflow) | Lean |
| --- | --- |
| utils/data_structures.py: FastBuffer; utils/sliding_window.py | Buffers |
| metrics: _confusion_matrix.pyx, _classification_performance_evaluator.pyx (single- and multi-label, cumulative and windowed), measure_collection.py (classification, multi-target classification, regression and multi-target regression, cumulative and windowed); utils/data_structures.py: ConfusionMatrix, MOLConfusionMatrix | Metrics |
| drift_detection: adwin.py (its cut expression as a parameter; over the real numbers in Adwin/CutTest), ddm.py, eddm.py, page_hinkley.py, hddm_a.py, hddm_w.py, kswin.py | Adwin, Drift |
| data: data_stream.py, file_stream.py (with what they know about a table), synth.py, temporal_data_stream.py, time_manager.py, the generators (sea, stagger, sine, mixed, agrawal, LED, hyperplane, random tree, drifting RBF centroids, finite tables), concept_drift_stream.py | Streams |
| evaluation: prequential, holdout, prequential with delayed labels (loops), result file buffering; base_evaluator.py configuration check, data buffer, reports, header and rows, summary; running time measurements | Evaluation |
| transform: missing values, windowed min-max and standard scaler, one-hot encoder | Transform |
| lazy: kNN classifier and regressor, kNN with ADWIN window, SAM-kNN with its window sizer and distance matrix (clustering as parameter), its C++ library libNearestNeighbors/nearestNeighbor.cpp (neighbour search, votes, distances; without the conversions and reference counts of the Python interface) | Lazy |
| trees: Gaussian estimator, numeric/nominal observers (classification, regression), E-BST, split tests, split criteria, Hoeffding tree structure, memory management and split decision, Hoeffding tree learning, leaf predictions, predict/predict_proba, model rules; learning with Gaussian observers and naive Bayes leaves in full (Units) | Trees |
| meta: DWM, additive experts, leveraging bagging codes, batch incremental, online boosting, drift reaction of the online ensembles, accuracy-weighted ensemble (chunks, pool, votes; scores and cross-validation), chains | Meta |
| bayes: naive_bayes.py, utils.py | Bayes |
| anomaly_detection/half_space_trees.py | Anomaly |
| rules: very_fast_decision_rules.py, base_rule.py, base_predicate.py, side selection of the expand criteria, FOIL gain, reading the rules, nominal observers of rules | Rules |
| meta: adaptive_random_forests.py (over any tree and detectors), check_weights | Meta (Life, Forest, ForestProps) |
| core: base.py get_params, set_params (heap of estimators) | Core.Params |
| prototype: robust_soft_learning_vector_quantization.py (over any ordered field, exponential and root as parameters) | Prototype (RSLVQ, RSLVQRun) |
| trees: arf_hoeffding_tree.py, _nodes/arf_htc_nodes.py (leaves with random features, over the Hoeffding tree model) | Trees.ARFTree |
| random generators of the forests: _init_ensemble, reset, partial_fit, check_random_state (which tree draws from which generator, over any generator) | Meta.ForestSeeds |
| meta: adaptive_random_forest_regressor.py (over any tree, detectors, ordered field and square root) | Meta (ForestReg, ForestRegRun, ForestRegProps) |
| meta: streaming_random_patches.py (over any base estimator and detectors; random draws as parameters) | Meta (LifeRun, Patches, PatchesProps, PatchesLife, PatchesStep, PatchesRun, PatchesVotes) |
| trees: extremely_fast_decision_tree.py, _nodes/efdtc_nodes.py (observers, criterion and bound as parameters) | Trees (EFDT, EFDTProps, EFDTCount, EFDTRoute) |
| trees: hoeffding_adaptive_tree.py, _nodes/hatc_nodes.py (detector, observers, bound, split decisions and draws as parameters) | Trees (HAT, HATProps, HATVotes, HATSafe, HATRefine) |
| meta: online_boosting.py, online_adac2.py, online_csb2.py, online_rus_boost.py, online_under_over_bagging.py, online_smote_bagging.py (training, voting, reset; learner, detector, draws, distances, logarithm as parameters) | Meta (Skew, SkewProps, SkewCost, SkewRows, SkewRus, SkewVotes, Smote, BoostRun, ResetAll) |
| core/base.py: get_params, clone (constructors as what they do with each argument) | Core (Clone) |
| trees: hoeffding_tree_regressor.py, _nodes/htr_nodes.py, _nodes/base.py (observers and bound as parameters; observers as row memories for C170-C172; split decision over a list of suggestions) | Trees (Grow, HTR, HTRProps, HTRPerc, HTRMean, HTRLeaf, HTRSplit, EBSTPrune) |
| trees: hoeffding_adaptive_tree_regressor.py, _nodes/hatr_nodes.py (detector, observers, square root, split decisions and draws as parameters) | Trees (HATR, HATRNorm, HATRSafe, HATRRefine, HATRLeaf) |
| trees: label_combination_hoeffding_tree.py, _nodes/lc_htc_nodes.py; naive Bayes votes of leaves with one numeric attribute | Trees (LC, Known) |
| trees: isoup_tree.py, _nodes/isouptr_nodes.py, stacked_single_target_hoeffding_tree_regressor.py, _nodes/sst_htr_nodes.py, _split_criterion/intra_cluster_variance_reduction_split_criterion.py (observers, bound and square root as parameters) | Trees (GrowMap, MTR, MTRProps, MTRPerc, MTRUnits, MTRMerit, MTRAdapt, MTRReset, MTRSplit) |
| meta: learn_nse.py, learn_pp.py (over any base learner, random draws, logarithm and ordered field) | Meta (Windows, LearnNSE*, LearnPP*) |
| meta: oza_bagging.py, oza_bagging_adwin.py (over any base learner; the detector a parameter, instantiated with ADWIN), multi_output_learner.py | Meta (Oza, OzaProps, OzaAdwin, MultiOutput) |
| meta: leverage_bagging.py (training, drift, code-matrix voting, reset; learner, detector, generator as parameters) | Meta (Leverage, LevBag, LevBagProps) |
| core/pipeline.py | Core/Pipeline |
| utils: statistics.py (over the reals), utils.py (dictionary helpers over a store of dictionaries; calculate_object_size over a heap), file_scripts.py (over a file system) | Utils |
| data: waveform_generator.py, random_rbf_generator.py, random_rbf_generator_drift.py (draws as parameters; RBF over the reals) | Streams (Waveform, RBF) |
| evaluation/evaluate_stream_gen_speed.py | Evaluation.StreamSpeed |
| visualization/evaluation_visualizer.py: values of lines, axis limits, data points, redrawing, positions and titles | Evaluation (Plot, PlotProps, PlotLimits) |
| evaluate_prequential.py `_train_and_test` and evaluate_holdout.py `_periodic_holdout` from the stream to the rows: models, measurement objects and reports together | Evaluation (Honest, HoldoutRows) |
| evaluation: attributes an evaluator keeps between evaluations, set_params in between, exceptions that leave an evaluation | Evaluation.Reuse |
| data/anomaly_sine_generator.py (table of samples; sine, cosine and draws as parameters) | Streams.AnomalySine |
| data: setting `has_noise` after construction; attributes the generator constructors set; names of AGRAWAL features (constructors and the writing loops of next_sample) | Streams (Switches, Description) |
| trees/_attribute_observer/numeric_attribute_class_observer_binary_tree.py (up to the search below the root, which is unreachable) | Trees.BinaryTreeObserver |
| core/base.py default reset, __repr__, utils/_pprint.py (up to white space; literals, lists, tuples, objects) | Core.Reset |
| core/base.py `__repr__`, utils/_pprint.py with the layout (and pprint's `_format` of the standard library) | Core.Repr |
| the functions keeping former class names (28 signatures, Python's binding of arguments) | Core.Renamed |
| neural_networks/perceptron.py (wrapped learner arbitrary) | Neural |

## What is not modelled

* numpy broadcasting, dtype conversion and memory layout.
* Drawing by matplotlib (only the data handed to it is modelled), colours and annotation texts of plots, console output, progress bars, file formats.
* Parameter validation in constructors, except where a property mentions it.
* Learners listed in no property; the learners of scikit-learn that are wrapped.
* Dictionaries and broken strings in the printed text of estimators.
* Probability distributions of the random sources: only statements that hold
  for every draw, or for some draw, are made.

## Mutation tests

`seeded/LOG.jsonl` records edits of model definitions in a scratch copy, the
claims they break, the theorems that stopped compiling and any theorem that
was tightened as a result.
