{
"C01": [
"proved",
"For max_size >= 1."
],
"C02": [
"proved",
"For max_size >= 1; max_size = 0 makes the buffer unbounded (C02_zero_capacity_unbounded)."
],
"C03": [
"partial",
"Proved for single-row adds with a fixed target width; violated by multi-row adds (C03_multirow_violated) and by a target row of the wrong width (C03_bad_target_misaligns)."
],
"C04": [
"proved",
"All histories; weights of any sign."
],
"C05": [
"partial",
"Proved for unit weights (C05_accuracy_partial) and in closed form for positive weights; with other weights the value leaves [0,1] (C05_weighted_violated)."
],
"C06": [
"proved",
"Positive weights, window_size >= 1."
],
"C07": [
"proved",
""
],
"C08": [
"proved",
"Unit weights."
],
"C09": [
"partial",
"Precision and recall proved for every class; f1_score(c) ignores c when there are two classes (C09_f1_violated)."
],
"C10": [
"partial",
"Exact match and Jaccard proved; hamming_score counts true positives only (C10_hamming_violated)."
],
"C11": [
"proved",
"window_size >= 1; window_size = 0 raises on the first result (C11_window_zero). Number of targets fixed per evaluator."
],
"C12": [
"proved",
"Every call sequence (adds, checks, resets, clock changes) and every cut predicate; the buckets partition a suffix."
],
"C13": [
"proved",
"Rows of at most 5 buckets of 2^i elements (C12 gives the sizes), at most log2(width)+1 rows."
],
"C14": [
"proved",
"Termination measured by fuel width+1; the numpy division by zero is modelled as an error and shown unreachable."
],
"C15": [
"partial",
"Exact until the first drop, never too small in any reachable state; C15_variance_violated shows it is too large after a merged bucket is dropped (the first bucket's variance is lost in the merge)."
],
"C16": [
"proved",
"Square root is an arbitrary function (non-negative where stated)."
],
"C17": [
"proved",
"For every non-negative square root."
],
"C18": [
"partial",
"Everything proved except the intended minimum: the guard is off by one (C18_min_instances_violated)."
],
"C19": [
"proved",
"Confidences such that the logarithms are non-negative."
],
"C20": [
"proved",
"The option is inert on every stream."
],
"C21": [
"proved",
"KS test and random choice are arbitrary functions."
],
"C22": [
"proved",
"Every data set, batch sizes and restarts."
],
"C23": [
"proved",
"Unweighted queue; the sort is any sorting permutation. next_sample before anything was queued raises (C53)."
],
"C24": [
"proved",
"Generic rejection loop instantiated for SEA, STAGGER, Sine, Mixed and AGRAWAL; conditional on the loop finding a sample."
],
"C25": [
"proved",
"Learners are arbitrary state machines; exceptions raised by learners are not modelled."
],
"C26": [
"proved",
"Static and dynamic test sets."
],
"C27": [
"proved",
"Unweighted finite temporal streams; the list of models is one product learner, with the transposition proved separately."
],
"C28": [
"proved",
"Line text and sizes arbitrary."
],
"C29": [
"partial",
"Replacement rule proved for all strategies and absence of missing values for zero/custom; for the windowed strategies the last part is refuted by C29_windowed_violated."
],
"C30": [
"proved",
"The identity is proved, so scaling is refuted (C30_scaling_violated)."
],
"C31": [
"proved",
"Neighbour search is an arbitrary function returning n_neighbors valid positions; labels are natural numbers; also the majority/tie rule of predict and the cold start."
],
"C32": [
"partial",
"Holds for single-row queries (C32_single_row); violated for several rows (C32_multirow_violated), and several rows raise ValueError before n_neighbors samples are known (C32_cold_start)."
],
"C33": [
"proved",
"Exact rational arithmetic; None and infinite values are ignored."
],
"C34": [
"proved",
"Multiway and binary distributions, Laplace probabilities and the choice of the best candidate."
],
"C35": [
"proved",
"Candidates and the returned best split; an arbitrary criterion."
],
"C36": [
"proved",
"Also the off-by-one of the bounds check (C36_index_boundary)."
],
"C37": [
"proved",
""
],
"C38": [
"proved",
"step, size bound, normalised weights, weakest expert replaced"
],
"C39": [
"partial",
"code prunes the wrong expert under 'weakest' (violations proved); size bound, weights and oldest-first pruning proved"
],
"C40": [
"partial",
"all rows of a call share one dictionary (violation proved for every pool); single-row voting and empty pool proved"
],
"C41": [
"proved",
""
],
"C42": [
"partial",
"non-termination witness proved; rows balanced whenever the loop ends"
],
"C43": [
"proved",
"rates, error estimates and absence of division by zero"
],
"C44": [
"proved",
""
],
"C45": [
"partial",
"every row gets the class of the first row (violation proved in general and by a reachable witness); single-row calls proved"
],
"C46": [
"partial",
"exact characterisation of the masses proved; in the second window the reference profile is a single row and the first row is lost (violation proved)"
],
"C47": [
"partial",
"Proved when all labels are declared classes; violated otherwise (C47_window_macro_violated)."
],
"C48": [
"partial",
"Kappa-T proved; the Kappa-M baseline peeks at the label (C48_majority_baseline_violated)."
],
"C49": [
"proved",
"Equal vector lengths, window_size >= 1."
],
"C50": [
"proved",
""
],
"C51": [
"partial",
"Holds for every range inside the table and for FileStream's default; DataStream's default with several targets is the proved violation."
],
"C52": [
"proved",
"Per-sample delays and times; argsort any permutation that sorts."
],
"C53": [
"proved",
"The property states the failure."
],
"C54": [
"partial",
"Salary, age, education, zip code, years and loan proved in range; house value and commission violated."
],
"C55": [
"proved",
"Termination of the redraw loop is conditional on the random source."
],
"C56": [
"proved",
""
],
"C57": [
"proved",
""
],
"C58": [
"proved",
""
],
"C59": [
"proved",
"The standard deviation is an arbitrary function of the column."
],
"C60": [
"proved",
""
],
"C61": [
"proved",
"ADWIN's answers are arbitrary."
],
"C62": [
"partial",
"Proved for the state right after pruning; violated for later observations (C62_stats_after_prune_violated), where the statistics are still those of some of the observations below the threshold (C62_subset_partial)."
],
"C63": [
"proved",
"Density and distribution function are arbitrary (values of the latter in [0,1])."
],
"C64": [
"proved",
"Single-target statistics."
],
"C65": [
"proved",
""
],
"C66": [
"proved",
""
],
"C67": [
"partial",
"violated with pre-pruning on; proved with no_preprune"
],
"C68": [
"proved",
""
],
"C69": [
"partial",
"rounded weighted mean can be an unvoted class (violation proved); binary case proved"
],
"C70": [
"partial",
"accuracy-fed detectors reset a most accurate member (violation proved for all states); leveraging bagging correct"
],
"C71": [
"partial",
"multi-class violation proved; binary case proved"
],
"C72": [
"partial",
"members with error 0 or 1 are ignored (violation proved); otherwise the log-odds weighted vote is proved"
],
"C73": [
"proved",
"pool update, chunking for arbitrary streams, weight bounds"
],
"C74": [
"partial",
"columns of predict_proba are in chain order (violation proved for every non-identity order); default order proved"
],
"C75": [
"partial",
"maximality proved in chain order for all chains; target order violated for non-default orders"
],
"C76": [
"proved",
""
],
"C77": [
"partial",
"lower bounds not restored (violation proved); every split lies in the upper half of its region"
],
"C78": [
"partial",
"last feature never used (violation proved for all streams and draws); every other feature can matter"
],
"C79": [
"proved",
""
],
"C80": [
"proved",
""
],
"C81": [
"proved",
""
],
"C82": [
"partial",
"false when exactly one stream is unbounded, and for two bounded streams has_more_samples ends earlier than n_remaining_samples says"
],
"C83": [
"partial",
"false: the default streams are shared; what holds is that both objects together see one interleaving"
],
"C84": [
"partial",
"the noise-free part is proved; the rate is p - 0.01, so the claim about p is false"
],
"C85": [
"partial",
"proved for up to seven moved attributes; false for eight or more"
],
"C86": [
"partial",
"false: the column map is shared by all generators; proved for generators without moved attributes"
],
"C87": [
"partial",
"order and replay proved; has_more_samples is right for the regression generator only"
],
"C88": [
"partial",
"false after generate_drift; proved without it"
],
"C89": [
"proved",
""
],
"C90": [
"proved",
""
],
"C91": [
"proved",
""
],
"C92": [
"partial",
"proved with at least one numeric feature; without, construction can raise"
],
"C93": [
"proved",
""
],
"C94": [
"partial",
"proved for information gain and Gini; the Hellinger distance reaches the square root of 2 and variance reduction is unbounded while both report 1"
],
"C95": [
"partial",
"proved for information gain and Gini, and for variance reduction with unit weights; false for variance reduction with fractional weights because the count is truncated"
],
"C96": [
"partial",
"proved for information gain and Gini; the Hellinger criterion rates a pure split 0"
],
"C97": [
"partial",
"everything proved except that a label above the declared classes can be predicted: predict_proba then raises IndexError"
],
"C98": [
"partial",
"proved for lists; with an array of two or more labels every later call raises ValueError"
],
"C99": [
"partial",
"counts, accuracy and baselines proved for all weights; kappa bounded by 1 proved for unit weights and false otherwise, because the matrix ignores the weight"
],
"C100": [
"partial",
"proved for unit weights; false for other weights (entered with the weight, removed as one; fractions truncated)"
],
"C101": [
"partial",
"proved when the list already has every label; otherwise the second evaluator raises"
],
"C102": [
"partial",
"proved inside the matrix and for growth through column 0; growth raises for other columns, remove raises just outside"
],
"C103": [
"proved",
""
],
"C104": [
"partial",
"scores proved; the matrix is never reduced"
],
"C105": [
"proved",
"Concepts written separately from the class documentation; sin is an arbitrary function. AGRAWAL function 4 is C106."
],
"C106": [
"partial",
"Violated: the middle age group and the younger people outside the income band always get class 1. Proved for the other groups."
],
"C107": [
"partial",
"Violated at level 1: 0.01 is added to the drawn number. Proved: the exact switching rule, and no switching below level 0.01."
],
"C108": [
"proved",
"Exact rational arithmetic; math.sqrt is an arbitrary function, log(1/confidence) an arbitrary non-negative number."
],
"C109": [
"partial",
"Violated for nominal conditions: a rule with a `!=` (`=`) condition on an attribute ignores a further one on it."
],
"C110": [
"partial",
"Violated with a drift detector: removing a rule during the loop makes the next rule miss the instance."
],
"C111": [
"partial",
"Violated for rules just created: the statistics they start with count towards the grace period."
],
"C112": [
"partial",
"Holds for info_gain and hellinger; violated for foil_gain, which can add one rule per class at once."
],
"C113": [
"partial",
"weighted_sum renormalises after every rule, so shares are 1/2^(n-1), 1/2^(n-1), 1/2^(n-2), ..., 1/2 and depend on the order; the rest holds."
],
"C114": [
"partial",
"Holds for info_gain and hellinger; with foil_gain a passed test for one class carries over to later classes."
],
"C115": [
"partial",
"Violated for info_gain, whose lowest entropy is never reset between candidates, for foil_gain when a class is missing on one side (C115_foil_missing_violated) and for hellinger when a class is missing on some side (C115_hellinger_pure_violated: the side of the previous candidate). Holds for hellinger and foil_gain when the classes are listed on both sides (and enough weight is there)."
],
"C116": [
"partial",
"Values of the conditions are ignored: characterised exactly, full statement violated."
],
"C117": [
"partial",
"static: a test follows step j iff n_wait divides j*batch or the limit is reached, so tests are skipped unless batch_size divides n_wait (violated with witness); dynamic: proved for endless streams and batch <= n_wait; with larger batches one test per batch"
],
"C118": [
"proved",
""
],
"C119": [
"partial",
"Proved when no member has more columns than there are classes. Violated otherwise: one such member makes the whole answer zeros."
],
"C120": [
"partial",
"Violated: the detector is fed accuracy but used as error, so the member with the highest accuracy is replaced, and drops of accuracy replace nobody. Proved: what each member is trained on and what its detector records."
],
"C121": [
"partial",
"Violated: OzaBagging keeps its class list, the ADWIN variant keeps its trained learners. Proved: OzaBagging after reset equals a fresh ensemble that knows the classes."
],
"C122": [
"partial",
"Proved for steps with the methods the code really calls. Violated: None steps raise, the documented streaming transformers are rejected or raise."
],
"C123": [
"partial",
"Proved for a fixed number of targets and bases that take weights whenever they take classes. Violated for other bases, for a growing number of targets and for predict_proba."
],
"C124": [
"partial",
"Proved: training never fails, instances only change the leaf they are routed to, leaves gain exactly what is routed to them; weight is conserved if every split shares out the whole class weights of the leaf; with splits that share out what the observers have seen (as C34, C63 prove) the leaves never hold more than was trained. Violated: a leaf that came out of a split or was reactivated has fresh observers, and when it splits, its inherited weight is lost."
],
"C125": [
"proved",
"Naive Bayes votes are an arbitrary function of statistics and observers."
],
"C126": [
"partial",
"Holds for votes on labels 0..m with m the largest class. Violated for negative labels (numpy wraps the index, so class -1 of {-1, 1} is never predicted) and for a label above all declared classes (IndexError)."
],
"C127": [
"partial",
"Holds once every leaf has seen weight. Violated for the untrained tree (AttributeError) and while a leaf is empty (ValueError from max of an empty dictionary)."
],
"C128": [
"partial",
"Proved when stm_size_option is not None, the whole part of ltm_size * max_window_size is below max_window_size and no smaller than the number of classes. Violated for stm_size_option=None (AttributeError after max_window_size samples), ltm_size=1.0 (ValueError) and ltm_size=0.0 (limit exceeded, then IndexError)."
],
"C129": [
"partial",
"Histories, choice and fallbacks proved; violated for labels outside -128..127 (wrapped to eight bits), and a memory not asked is credited with class 0."
],
"C130": [
"proved",
""
],
"C131": [
"proved",
""
],
"C132": [
"partial",
"The evaluator holds the prequential results since the last drift and the detectors' histories are as claimed, but the errors fed to the detectors are judged after the tree has learned the sample (C132_errors_after_learning_violated)."
],
"C133": [
"partial",
"Proved for positive performances; violated for performance 0 (counts like 1) and for negative kappa (probabilities outside [0,1], wrong class wins)."
],
"C134": [
"partial",
"Range and meaning proved; violated after reset() with another number of features, because the computed number replaces the parameter."
],
"C135": [
"partial",
"Weight 0 is proved; violated otherwise: one weight per sample raises ValueError for two or more samples, and weights other than 0 do not influence training."
],
"C136": [
"partial",
"Proved: valid distinct features, no two members alike (up to 20 features), construction ends if there are as many subspaces as members. Violated: with fewer subspaces than members (e.g. the defaults with 5 features) partial_fit never returns; the subspaces are the lexicographically first ones, so that all members share their first features."
],
"C137": [
"partial",
"Proved for sizes from 2 to n-1, for 0 and from n on, and the meaning of the modes. Violated: size 1 gives two features; leaving out more features than there are ends in RecursionError; random subspaces of all features turn into resampling."
],
"C138": [
"proved",
""
],
"C139": [
"partial",
"Proved: evaluator prequential; detectors hold the errors since their last restart. Violated: these errors are measured after the member has learned the sample."
],
"C140": [
"partial",
"Proved for members of positive accuracy: weighted sums, predict, batches with rows of one length. Violated: the row is not normalised (sums to the total weight); accuracy 0 counts like 1; rows of different lengths raise for a batch."
],
"C141": [
"partial",
"Proved while warning and drift do not come at the same sample. Violated: without subspaces the nominal attributes never reach the estimators; a drift together with a warning leaves the nominal attributes of the old subspace."
],
"C142": [
"proved",
""
],
"C143": [
"partial",
"Proved: which values are fed since which restart, the normalisation, and the range for the first ten values after a drift. Violated: later values can exceed any bound; a constant is fed as 0 once and 1/2 from then on."
],
"C144": [
"partial",
"Proved for at least two members (mean) and for the median. Violated: a forest of one tree predicts nan after the first error; a tree that was never judged has the largest weight."
],
"C145": [
"partial",
"Proved for the first training. Violated: after reset one feature is considered, whatever the parameter."
],
"C146": [
"partial",
"The feedback and removal rule is proved for every detector. Violated with DDM, which takes 1 for an error while the rule reports 1 for a right prediction: a rule that is always wrong is kept, and removed the first time it is right."
],
"C147": [
"partial",
"Which observers are disabled, and that they stay disabled, is proved. Violated: with naive Bayes prediction one disabled attribute makes all votes of the rule zero."
],
"C148": [
"proved",
"Leaf statistics, activation flags and observers modelled; which leaves the memory manager switches is an arbitrary input."
],
"C149": [
"proved",
"Base learner, logarithm and sigmoid are parameters; exceptions of the base learner itself are not modelled."
],
"C150": [
"partial",
"Formula for the voting weight and sample weights proved. Violated: the sigmoid weights are not renormalised, so every member with errors bounded away from 0 falls silent; a window on which the vote is right records error 0 for every member."
],
"C151": [
"partial",
"Holds for increasing classes and learners that know at least two of them. Violated: a learner that knows one class adds its weight to every class, so an ensemble of such learners answers class 0. predict answers positions, which are labels for classes 0..n-1."
],
"C152": [
"partial",
"Missing classes in the first call raise. Violated: differing classes later are ignored without error; reset keeps the classes."
],
"C153": [
"proved",
"Base learner and random draws are parameters."
],
"C154": [
"partial",
"Acceptance, early stop, the bound of 1001 attempts and the error proved. Violated: an attempt whose error equals the threshold counts neither way, and with the default threshold one half training can go on for ever."
],
"C155": [
"partial",
"Holds for classes 0..n-1. Violated: other labels raise IndexError, and -1 votes for the last class."
],
"C156": [
"partial",
"Violated: after an exception the buffer holds a full window and is never trained on or emptied again. reset repairs it."
],
"C157": [
"partial",
"The checks of classes hold. Violated: reset keeps the classes, so other classes are refused afterwards."
],
"C158": [
"proved",
"Observers, suggestions, bound and memory management decisions are arbitrary parameters."
],
"C159": [
"proved",
"Suggestions, merits and bound are arbitrary parameters; merits are rationals or -inf."
],
"C160": [
"partial",
"Proved for a fresh split node until its first re-evaluation. Violated: re-evaluation does not restart the count, so from then on the node is re-evaluated at every instance."
],
"C161": [
"partial",
"Proved: decision nodes; active plus inactive leaves; all three without memory management; splits on an attribute having a fixed number of branches. Violated: a replaced subtree's inactive leaves are subtracted from the active counter; children with ids beyond the number of branches of the current test are not counted."
],
"C162": [
"partial",
"Proved if the tie threshold is at most the bound. Violated: a node that takes over a new test on its own attribute keeps its children."
],
"C163": [
"partial",
"False: an alternate leaf learns with the parent and branch of the node, so when it splits it replaces the node whatever the error rates are (C163_takeover_violated, with a run in which the alternate is worse). Proved when split attempts change nothing."
],
"C164": [
"partial",
"False for draws of 0: the instance is learned with its full weight (C164_zero_violated). Proved without bootstrap and for positive draws, in a tree of one leaf."
],
"C165": [
"partial",
"False for instances that reach a split node without a branch for them: no votes at all (C165_unseen_violated). Proved for all instances that reach an active leaf."
],
"C166": [
"partial",
"False for the counters of decision nodes and inactive leaves and the training weight (C166_counters_violated). Proved for tree, votes and the other counters."
],
"C167": [
"partial",
"False for stop_mem_management=True: a leaf pruned below a split makes training raise TypeError and prediction AttributeError (C167_pruned_violated). Proved for stop_mem_management=False."
],
"C168": [
"partial",
"False after a change: a switch subtracts the replaced leaves twice and leaves the decision counter alone (C168_switch_violated, C168_negative_violated), a split of an alternate leaf subtracts nothing (C168_takeover_violated). Proved as long as no change is reported; what each switch, deletion and pruning adds to the counters is stated exactly (C168_kill, C168_prune)."
],
"C169": [
"proved",
"Detectors, observers, split decisions and draws are parameters."
],
"C170": [
"partial",
"Proved for trees without multiway splits (pruned observers, deactivated leaves and unseen categories included); a multiway split of a leaf that inherited statistics loses them (C170_multiway_violated)."
],
"C171": [
"partial",
"Proved when only leaves that observed all they carry are split (e.g. the root); a second split misplaces inherited rows (C171_second_split_violated)."
],
"C172": [
"partial",
"Proved when every branch of a split has positive weight (which C177 gives for two suggestions or more); an empty branch predicts nan (C172_empty_branch_violated)."
],
"C173": [
"proved",
"For any square root function; rows of weight at least one."
],
"C174": [
"partial",
"Proved for two attributes or more; with one numeric attribute and perceptron leaves training raises IndexError by the second row (C174_single_attribute_violated)."
],
"C175": [
"partial",
"Weighted mean proved for mean leaves before the first split; rows of weight below one never train a perceptron (C175_fractions_violated)."
],
"C176": [
"partial",
"Proved after training; untrained, predict returns a single 0.0 (C176_untrained_violated)."
],
"C177": [
"partial",
"Proved for two suggestions or more when deciding does not raise; a single suggestion is followed whatever its merit (C177_single_violated), and with remove_poor_atts a best merit of Python 0.0 raises ZeroDivisionError (C177_poor_violated)."
],
"C178": [
"partial",
"Proved for CSB2 (C178_csb2) and for AdaC2 with at least as many members as classes; with fewer, AdaC2 raises IndexError on the first sample an added member is drawn for (C178_adac2_index_error_violated)."
],
"C179": [
"proved",
""
],
"C180": [
"partial",
"epsilon is exact; false alarms are charged cost_positive instead of cost_negative (C180_cost_negative_ignored_violated) and the weight of a correctly predicted sample is forgotten (C180_weight_forgotten_violated)."
],
"C181": [
"proved",
""
],
"C182": [
"partial",
"Right after complete rows; during a row the counters grow once per member, so the first member's rate for the first positive sample is about 1/N of what it should be (C182_first_positive_violated)."
],
"C183": [
"proved",
""
],
"C184": [
"partial",
"Rates proved; the neighbour is always the first positive sample of the stream (C184_neighbour_violated), the point lies beyond the sample, not between (C184_beyond_violated), and positives are stored once per member (C184_memory_violated)."
],
"C185": [
"partial",
"Learner and detector are reset; the error statistics survive (C185_entries_survive_violated, C185_entries_kept_violated)."
],
"C186": [
"partial",
"Single samples with a single weight work; a batch of two or more weighted samples raises ValueError with learners that check the number of weights (C186_sample_weight_violated)."
],
"C187": [
"partial",
"Holds for classes that store parameters under their names; DDM, online boosting, SMOTE bagging lose one, SAM-kNN and Learn++.NSE cannot be cloned."
],
"C188": [
"partial",
"Proved without data_points_for_classification; with the flag a regression or multi-target metric is accepted and every report fails with AttributeError (C188_violated)."
],
"C189": [
"proved",
""
],
"C190": [
"proved",
""
],
"C191": [
"proved",
""
],
"C192": [
"proved",
""
],
"C193": [
"proved",
""
],
"C194": [
"proved",
""
],
"C195": [
"proved",
"Labels are assumed non-negative when a code matrix is used."
],
"C196": [
"partial",
"Without a code matrix, and with one for members trained on the sample, proved; for untrained members with a code matrix the claim fails."
],
"C197": [
"proved",
""
],
"C198": [
"partial",
"The scores and the first-of-equal-codes answer are proved; that the right class is answered fails when codes collide, which is shown unavoidable with more than 2^n classes."
],
"C199": [
"proved",
"An integer random_state is assumed: the generator starts again."
],
"C200": [
"proved",
""
],
"C201": [
"proved",
""
],
"C202": [
"partial",
"The units are proved for the same split decisions, and preferences between splits for a common unit; the full property is false (C202_splits_violated: merits of two splits of ten rows change order with the unit of one target)."
],
"C203": [
"partial",
"The choice and the faded errors of perceptrons are proved for rows of weight in [1,2) and non-zero standard deviations; for the mean the property is false (C203_own_row_violated)."
],
"C204": [
"partial",
"Proved for mean leaves after at least one partial_fit call; false for predict right after reset, after rows of weight 0 only, and for perceptron leaves (C204_predict_violated, C204_zero_weights_violated, C204_sums_violated, C204_single_target_violated)."
],
"C205": [
"proved",
""
],
"C206": [
"partial",
"Round trip proved in full; predictions seen proved with majority-class leaves, otherwise up to rows without votes; false for float labels, untrained trees and naive Bayes leaves after a split (C206_float_violated, C206_unseen_violated)."
],
"C207": [
"partial",
"Proved for majority-class leaves without empty branches and otherwise up to rows without votes; false for naive Bayes and adaptive leaves after a split (C207_new_branch_violated, C207_class_zero_violated)."
],
"C208": [
"partial",
"The formula and its independence of the unit hold for every sequence; the range is proved for the first ten errors of a node, and fails after ten or more equal errors followed by a different one (C208_outlier_violated)."
],
"C209": [
"partial",
"Proved for two or more attributes; with a single numeric attribute training raises IndexError at the second row at the latest, even with leaf_prediction='mean' (C209_single_attribute_violated)."
],
"C210": [
"partial",
"Proved for rows at which no split is made. An alternate leaf that splits replaces the node whatever the error estimates (C210_takeover_violated), and so does the leaf of a new category that splits at its first row (C210_new_category_violated)."
],
"C211": [
"proved",
""
],
"C212": [
"partial",
"Proved for data of at least max_features features; with fewer (one feature and the default max_features=2) the first training instance raises ValueError (C212_too_few_violated). That splits test a feature of the subset is by the suggestions coming from the observers (the outcome of an attempt is a parameter)."
],
"C213": [
"partial",
"Violated with an int seed: all trees start from equal generators and draw the same subsets in the same order until one of them is replaced after a drift. Proved: with a RandomState object, or None, the trees draw from one shared generator, each draw once."
],
"C214": [
"partial",
"Violated: background trees and reset trees repeat the seeds of the tree they replace. Proved: the trees of one regression forest have their own seeds."
],
"C215": [
"proved",
""
],
"C216": [
"proved",
""
],
"C217": [
"partial",
"ValueError is proved for every position of the unknown name; the parameters given before it stay changed (C217_half_done_violated)."
],
"C218": [
"partial",
"Violated for DDM: min_num_instances is kept under another name, so setting it has no effect, and get_params reports None before (C218_ddm_violated); holds for the two levels (C218_used_partial). Other classes are not modelled here."
],
"C219": [
"proved",
""
],
"C220": [
"proved",
""
],
"C221": [
"partial",
"Proved without initial prototypes once every class has occurred; a class declared but not yet seen has prototypes of uninitialised memory, which can answer with any label (C221_garbage_violated). Learning known labels without error is proved in full (C221_learns)."
],
"C222": [
"partial",
"Proved without initial prototypes; with initial prototypes given as a list every call starts from them again (C222_forgets_violated), given as a float array the caller's array is overwritten (C222_overwrites_violated)."
],
"C223": [
"partial",
"All but sigma = 0, which raises ZeroDivisionError (C223_zero_violated)."
],
"C224": [
"proved",
"Over the reals with the constants of the source; rounding not modelled. erf and erfc add up to one except at |a| = 1, where two formulas meet."
],
"C225": [
"proved",
"The heap is fixed during the call: reuse of the id of temporary objects is not modelled."
],
"C226": [
"proved",
""
],
"C227": [
"proved",
""
],
"C228": [
"partial",
"Names with more than one dot lose everything from the second dot on (./data/iris.csv becomes _no_header./data/iris), so different files are cleaned into one; with new_file equal to base_file the file is emptied. The rest is proved."
],
"C229": [
"partial",
"The samples asked for are as claimed; the progress logged exceeds 100 % whenever all samples are measured in at most twenty batches."
],
"C230": [
"proved",
""
],
"C231": [
"proved",
""
],
"C232": [
"proved",
""
],
"C233": [
"proved",
""
],
"C234": [
"partial",
"false after a cut of an odd number of samples (C234_odd_cut_violated); proved as long as all earlier cuts were exact halves, quarters, ..."
],
"C235": [
"partial",
"false after a cut of an odd number of samples (C235_odd_cut_violated); proved as long as all earlier cuts were exact halves, quarters, ..."
],
"C236": [
"partial",
"false for min_stm_size=0 (C236_zero_violated); proved for n_neighbors < min_stm_size under the conditions of C128"
],
"C237": [
"partial",
"C237_when_partial says exactly when a member is reset; C237_best_reset_violated: the detectors record right predictions, so it is a rise that leads to a reset and the best member that is reset"
],
"C238": [
"partial",
"C238_count_partial: with replace=False exactly n_anomalies, otherwise between 1 and n_anomalies; C238_replacement_violated: with the default replace=True any repeated draw gives fewer"
],
"C239": [
"proved",
""
],
"C240": [
"partial",
"C240_labels_partial says which samples are labelled; C240_contextual_violated: contextual anomalies are labelled 0"
],
"C241": [
"partial",
"C241_accepted_partial characterises the accepted parameters; C241_none_violated: n_anomalies=0 raises; C241_contextual_violated: without replacement n_contextual above n_samples-|shift| raises"
],
"C242": [
"partial",
"C242_update_violated and C242_always_empty_violated: the constructor of a node adds to a missing dictionary entry, so every update with a value raises KeyError and the observer stays empty; C242_missing_partial: missing values are ignored. The search below the root is not modelled because no root ever exists"
],
"C243": [
"partial",
"C243_reset_partial: holds for numbers, truth values, None, strings without white space and sequences of at most thirty elements, if the class name does not occur in them; violated for objects (exception), longer sequences (cut off), strings with white space (removed) and strings with the class name (replaced)"
],
"C244": [
"partial",
"False for almost all splits: with the class on both sides the merit is negative where the gain is positive (C244_both_sides_violated); with the class on one side the side without it is kept with merit 0 (C244_one_side_violated). Proved for equal proportions and for a class alone on the left (C244_gain_partial). Listed weights positive."
],
"C245": [
"partial",
"Both raise ValueError when a rule has seen nothing, e.g. a new classifier (C245_untrained_violated) or after rules were made with foil_gain (C245_foil_description_violated); get_model_rules overwrites the class of every rule, which changes later expansions with foil_gain (C245_foil_violated). Proved for info_gain and hellinger, and for rules that have seen something."
],
"C246": [
"partial",
"False for estimators whose fit goes on from what they have learned, as that of all classifiers of the package does: one copy is trained on all training sets in turn, so from the second fold on it has been trained on the test set (C246_incremental_violated, C246_rote_violated). Proved for estimators whose fit starts anew."
],
"C247": [
"partial",
"False when labels are not 0, 1, ...: the position of the label among the labels of the chunk is used as column, so a perfect model gets the worst score (C247_perfect_violated); a class that only occurs in the first test set raises IndexError (C247_rare_class_violated). Proved for labels 0, ..., k-1 and for columns in the order of the labels."
],
"C248": [
"partial",
"Votes are the weighted sums when all members know the same classes; members without errors have no vote, negative weights give negative probabilities, classes unknown to the first member are unweighted, AdaC2 members without wacc add columns, a warning raises."
],
"C249": [
"proved",
"Theorem over all sequences of reports for the model of data buffer and visualizer; matplotlib drawing itself is outside the model, metric values are rational (no nan)."
],
"C250": [
"partial",
"Violated: limits follow only the latest report, so earlier points of an error curve are cut off when the error falls, and kappa below -1/10 is cut off at once. Proved: values of the latest report in their usual ranges, and latest true and predicted values, are within the limits."
],
"C251": [
"partial",
"Violated: points whose label is not less than the number of clusters are lost, and every report adds clusters again because clusters_initialized is never set. Proved: for labels less than the number of classes of the first report the cluster holds the last hundred points with that label."
],
"C252": [
"proved",
"Proved for every sequence of reports and times."
],
"C253": [
"partial",
"Violated: ten or more plotted metrics raise ValueError, and the geometric mean is titled 'Unknown metric'. Proved: up to nine plotted metrics get consecutive rows in order."
],
"C254": [
"partial",
"Violated: a single suggestion (one attribute, no_preprune=True) is followed whatever its merit and branches, and with remove_poor_atts=True the attempt raises ZeroDivisionError when no attribute admits a split into branches of weight 5. Proved: everything else of the statement with two suggestions or more."
],
"C255": [
"partial",
"Holds if at least n distances are below the largest double; otherwise the remaining positions are whatever the uninitialised result array holds (C255_memory_violated)."
],
"C256": [
"proved",
""
],
"C257": [
"partial",
"Holds for queries with as many features as the rows stored; other queries are not rejected: shorter ones are compared with misaligned data, longer ones with memory behind the rows."
],
"C258": [
"partial",
"Holds for categorical features given once each by their position. Violated: labels inside a floating point array are taken as regression targets, negative and repeated positions are accepted and counted, DataStream.get_info swaps n_targets and target_idx."
],
"C259": [
"proved",
""
],
"C260": [
"partial",
"Holds for one integer target, for regression, and for several targets with equally many labels in holdout evaluation or with pre-training. Violated: without pre-training several targets give a list of lists, as do targets with different numbers of labels; a floating point array gives the type float as only class."
],
"C261": [
"partial",
"Proved if no draw is 0 (or bootstrap sampling is off); violated: rows drawn 0 times are learned with their full weight."
],
"C262": [
"partial",
"The printed values are those of the last row, and include all samples when the evaluation reaches its sample limit without exceptions; otherwise samples after the last row are missing (C262_lag_violated). The metric gmean is never printed (C262_gmean_violated)."
],
"C263": [
"partial",
"Rows as id and number of results covered. Proved: what each row covers, and the closing row when at least max_samples + batch_size samples are counted. Violated on shorter streams: no closing row, and no row at all when n_wait is at least the stream length."
],
"C264": [
"proved",
"Sizes are parameters; depth is the length of the path to the leaf."
],
"C265": [
"partial",
"Proved: once an inactive leaf is found growth stops for good. Violated in general when the limit is first hit: the test multiplies the size of an active leaf by nothing."
],
"C266": [
"partial",
"Proved for unit weights. Violated for any history that starts with weight one half and continues with whole weights."
],
"C267": [
"partial",
"All names but two forward faithfully: C267_former_names_partial. Violated: BatchIncremental always raises TypeError (unknown argument nominal_attributes), InstanceWindow has a parameter self."
],
"C268": [
"partial",
"Violated: with data_points_for_classification the constructor appends to the caller's list, which other evaluators share. Holds as long as nobody else changes the list before the first evaluation; afterwards always."
],
"C269": [
"proved",
"Layout and shortening for any nesting and lengths; dictionaries and strings that pprint breaks are not modelled."
],
"C270": [
"partial",
"Violated: the wrapped Perceptron is built in the constructor only, set_params has no effect until reset. Holds from construction or reset on."
],
"C271": [
"partial",
"Proved for every history of evaluations and parameter changes as long as n_wait (test_size for holdout) keeps its constructed value and, for delayed evaluation, pretrain_size is positive and no earlier evaluation raised; the three other cases are shown to fail."
],
"C272": [
"partial",
"Proved: every instance counted is a training instance, counted at most once, that satisfies the conditions; exactly which instances an expansion or a creation takes over. Violated: an expansion drops what the rule counted before its last change (C272_forgets_violated)."
],
"C273": [
"partial",
"Proved for LED, waveform and sine generators whenever has_noise ends at the value given to the constructor. Switching it on later makes every next_sample raise IndexError; switching it off leaves zero columns, and for SineGenerator makes all labels 0 with the class as third feature: all proved."
],
"C274": [
"partial",
"Width, feature names, targets and numeric counts proved for all generators and parameters. cat_features_idx is empty in all generators with categorical columns except MixedGenerator; LEDGenerator has no target names; RandomTreeGenerator counts features before one-hot coding; AnomalySineGenerator reports no classes: proved."
],
"C275": [
"partial",
"Proved for the default names and names added behind them. Names decide which value a column holds, and a name of one's own raises NameError: proved."
],
"C276": [
"proved",
""
],
"C277": [
"partial",
"proved for test sets of test_size samples, as static test sets always are; a dynamic test set cut short at the end of the stream is mixed with the test before (witness)"
],
"C278": [
"partial",
"C278_best, C278_none: which threshold is proposed, with which distributions, for every history and merit. C278_left_weight_partial: monotone in the threshold for classes with a total weight above 1. C278_light_class_violated: values 0 and 10 with weight 1/2 each."
],
"C279": [
"proved",
"C279_results: which results a scoring step covers. C279_classification, C279_regression: the ids and scores of all rows; the metrics never raise."
],
"C280": [
"partial",
"Violated: the scan of detected_change skips the last bucket of each row (line 317). C280_missed_change_violated and C280_false_alarm_violated are about the real cut expression at the default delta, over the reals. The parts that hold are C280_alarm_partial, C280_oldest_partial and C280_constant."
],
"C281": [
"proved",
"C281_told, C281_few_calls for every cut test; C281_one_neighbour for the real cut expression."
],
"C282": [
"proved",
"SameInParts for each of the named estimators; the exceptions by witnesses (for kNN-ADWIN with the real cut expression at the default delta)."
],
"C283": [
"partial",
"Fails: the remembered classes (boosting and bagging ensembles, forest) and the replaced training method (random patches) survive reset. Proved: with the same classes, and without such a life before, everything else is as new."
],
"C284": [
"proved",
"Labels are natural numbers. The neighbour search is arbitrary but must return k places of the window."
],
"C285": [
"proved",
"The base learner, the sampler and the detector are arbitrary; sums in exact arithmetic."
],
"C286": [
"proved",
"Exact arithmetic; density function arbitrary."
],
"C287": [
"partial",
"Holds for classes that vary; C287_one_value_violated: with one class showing a single value, the unit decides the prediction. The density is a parameter with the law of the normal density, which is proved for the real one."
],
"C288": [
"partial",
"Splits, class weights and exceptions for every kind of leaves; predictions for majority class leaves. C288_naive_bayes_violated: with naive Bayes leaves ('nb', and 'nba', the default) the unit decides the prediction where a class has shown one value only. Criterion, decision, normal distribution function are parameters (scale freeness of the real one is proved)."
],
"C289": [
"partial",
"Holds without remove_poor_atts, and between 'nb' and 'nba'. C289_remove_poor_violated: with remove_poor_atts=True (and no_preprune=True) majority class leaves disable poor attributes, naive Bayes leaves ignore it (disable_attribute is overridden with pass), so one tree splits on an attribute that the other has dropped."
],
"C290": [
"proved",
"Model of Honest.lean (prequential loop over stream, learners, evaluators and result rows). Learners are pure state machines, so a random generator shared between models is outside the statement, as is a time limit that the joint evaluation reaches earlier (timeOk is the same function of the iteration in both)."
],
"C291": [
"proved",
"Rational arithmetic; the logarithm and square root of the cut expression are those of the reals (realCut). The unit part is worded as what the code does."
],
"C292": [
"proved",
"Rational arithmetic; square root and logarithms of HDDM_A are parameters."
],
"C293": [
"partial",
"Holds for values that are not negative (C293_level_partial); violated for negative ones, for all parameters (C293_level_violated)."
],
"C294": [
"proved",
"the KDTree is any search that returns n_neighbors different places with none of the others nearer (an implementation is given); distances in any linear order"
],
"C295": [
"proved",
""
],
"C296": [
"partial",
"Step formula with the divisor c and its bound, ratio bounds and fixed point proved for the single-target leaf and for every target of the multi-target perceptron leaf; the claim itself is refuted by a reachable tree whose error on the row grows."
],
"C297": [
"proved",
""
],
"C298": [
"proved",
"The statistic of ks_2samp is written out; the p-value is an arbitrary function of the statistic and the two sizes; the drawn positions are arbitrary."
],
"C299": [
"partial",
"(a) and (b) hold over the reals with the real square root, (c) for every non-negative root; (d) fails (C299_first_error_violated, C299_steady_violated)."
],
"C300": [
"partial",
"Regular errors are never reported and an alarm means a smaller mean distance or spread; C300_rarer_violated: an alarm while errors become rarer."
],
"C301": [
"proved",
""
],
"C302": [
"partial",
"The unit and the zero point are proved to cancel in every cell after the first row whose column has a non-zero deviation over the window (C302_units_partial, which also gives the other cells exactly). Missing, because false in the code: the first row and cells after a constant window, which keep the unit (C302_constant_violated). The deviation is a parameter known to ignore the level and follow the unit; rounding is not modelled."
],
"C303": [
"proved",
"Real numbers, real square root and logarithm; floating-point rounding is not modelled. \"Starts afresh\" is read off the attribute total_n."
],
"C304": [
"proved",
"C304_columns: for every list of distinct column numbers pos whose missing columns are constant, training and predicting on the columns pos gives the same predict_proba and predict. Exact arithmetic; positive weights; classes not a numpy array (that raises, C97)."
],
"C305": [
"proved",
"C305_blind and C305_blind_default: blind settings. C305_found: explicit length after which a rise is reported; C305_lasting: every rise above the stated limit is reported. Real numbers, exact arithmetic, real square root and logarithm."
],
"C306": [
"proved",
"Test over the reals (logarithm and root exact); sums and the variance are rational, rounding is not modelled. N is shown to exist, not computed."
],
"C307": [
"proved",
"Real arithmetic with the exact square root; rounding is not modelled. Predictions are told as 0 or 1."
],
"C308": [
"proved",
"The statistic of ks_2samp is modelled; the table from statistic and sizes to p-values is a parameter, with its value for separated samples as a hypothesis where numbers are stated. Rational values."
],
"C309": [
"proved",
"exact rationals; the root is any non-negative function that does not exceed r where its argument does not exceed r squared"
],
"C310": [
"proved",
"exact rationals"
],
"C311": [
"proved",
"exact rationals; strategy mode is not covered (what scipy gives for a column of NaN only is not modelled)"
],
"C312": [
"proved",
"the model of C277; an exception of a model ends the evaluation, as in the code"
],
"C313": [
"proved",
"Models share no state, give one prediction per row and do not raise; numpy's conversion of the predictions of several models to one type is not modelled."
],
"C314": [
"proved",
"The base learner is any that satisfies the stated width condition; the model of KNNClassifier is shown to (its predict_proba also stores the classes it has met, which is not modelled). KNNADWINClassifier, the default, may forget a label when its window shrinks and is not covered."
],
"C315": [
"proved",
"Accuracy, and for regressors the mean squared and absolute errors; learners do not raise; unweighted streams (with weights the evaluation raises, C58)."
]
}