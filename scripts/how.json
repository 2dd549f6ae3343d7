{
 "C01": "FastBuffer as a list-valued state machine; induction over batches.",
 "C02": "Refinement of a bounded FIFO queue spec over arbitrary op sequences.",
 "C03": "SlidingWindow rows as a list of (x,y); induction; multi-row violation by witness.",
 "C04": "Sparse dict matrix as an association function with incremental marginals; invariant over adds.",
 "C05": "Evaluator state over histories; closed form; weighted violation by witness.",
 "C06": "Window evaluator with its deque; simulation: the matrix after any history is the matrix of the last window_size results; margins and scores follow.",
 "C07": "Loop over sorted classes; argmax specification.",
 "C08": "ℚ arithmetic on the modelled formula; inequality po≤1, pc≤1.",
 "C09": "Closed forms from confusion counts.",
 "C10": "Multi-label matrix model; closed forms; Hamming violation.",
 "C11": "Running sums with negated evictions = window sums.",
 "C12": "Bucket rows as lists with a ghost partition of the stream into runs; simulation invariant preserved by insert, compress and delete.",
 "C13": "Structural invariant on rows; arithmetic bound.",
 "C14": "Loop with fuel = width, shown to suffice; guards proved.",
 "C15": "Welford identity without drops; violation by a concrete stream.",
 "C16": "DDM step machine, sqrt a parameter.",
 "C17": "EDDM step machine.",
 "C18": "Page-Hinkley step machine; statistics since the last restart in closed form by induction; the missing min-instances guard is refuted by a witness.",
 "C19": "HDDM_A step machine with error values for division.",
 "C20": "HDDM_W step machine with an error value for every division; equality of the two runs for every input sequence.",
 "C21": "KSWIN step machine, KS test and sampling are parameters; induction over the stream.",
 "C22": "Stream cursor machine over a list of rows.",
 "C23": "TimeManager queue machine; `sort_values` is any function that returns a sorted permutation; invariant over all operation histories.",
 "C24": "Balanced rejection loop over an infinite sample source with fuel.",
 "C25": "Evaluator loop as a producer of an event trace (predict / train / record); the trace is compared with the expected interleaving.",
 "C26": "Holdout loop as event trace.",
 "C27": "Delayed evaluator loop as an event trace together with the label queue; induction over the main and the final loop.",
 "C28": "Line buffer machine.",
 "C29": "Entry-wise cleaner over matrices, strategies as parameters; the windowed strategy is refuted by a witness.",
 "C30": "Algebra on the transform formula.",
 "C31": "Vote counting; sums.",
 "C32": "Model of the double loop; witness.",
 "C33": "Welford recurrence; closed form over ℚ.",
 "C34": "Per-class association maps; conservation sums.",
 "C35": "E-BST as binary tree; invariant over inserts.",
 "C36": "Branch function versus rule predicate.",
 "C37": "Tree datatype with counters; invariant over steps.",
 "C38": "Expert list machine; invariant.",
 "C39": "Expert list machine; witness.",
 "C40": "Shared dict fold; witness.",
 "C41": "Buffer machine; closed form by induction on samples.",
 "C42": "Rejection loop; parity argument for all random sources.",
 "C43": "Per-sample update machine; invariant.",
 "C44": "Permutation algebra.",
 "C45": "Row loop; witness.",
 "C46": "Tree with masses; invariant.",
 "C47": "Closed forms of the default (averaged) window scores; witness where classes that left the window still count.",
 "C48": "Baseline weights as folds over the history; kappa-T in closed form; kappa-M compared with a predictor that may only use the past.",
 "C49": "Windowed multi-label evaluator simulated by the cumulative one on the window.",
 "C50": "HDDM_A runs that see only decreasing means never signal; induction with the cut invariant.",
 "C51": "Column selection on rows; permutation statement for explicit targets, witness for the default of DataStream.",
 "C52": "Stable sorting of the four parallel lists; the multiset of tuples is preserved.",
 "C53": "Direct execution of the modelled method with a weight column present.",
 "C54": "Rejection-free generator loops with arbitrary random sources; interval arithmetic for each attribute; witnesses for the violated ranges.",
 "C55": "Drift switches as functions on the classification-function index; complement identities by case analysis.",
 "C56": "Trace model run on streams shorter than requested; loop bounds by induction.",
 "C57": "`Evaluation/NoPretrain.lean` on the model of `Reuse.lean`, where the time manager is an attribute that may be missing and is read where the code reads it: the main loop catches the error, the loop that empties the queue does not; by induction every evaluation in the life of the object raises. `C57_no_pretrain_raises` states it for the model of `Delayed.lean`.",
 "C58": "Trace model with a weight per sample; the weights passed are those of other samples, then a length mismatch raises.",
 "C59": "Algebra on the windowed standardisation; mean and variance of the transformed window.",
 "C60": "Column expansion as list surgery with decreasing indices; induction over the categorical columns.",
 "C61": "Window shrink loop; closed form.",
 "C62": "Pruned E-BST compared with the unpruned one; statistics after pruning refuted by a witness; sublist invariant over updates and prunings.",
 "C63": "Per-class Gaussian model with an arbitrary cumulative distribution function; sums over classes.",
 "C64": "Per-category statistics as sorted association lists; closed form by induction over observations.",
 "C65": "Heartbeat procedure over the learning nodes; ordering argument on promises.",
 "C66": "Attempt-to-split with pre-pruning on the tree datatype; counters and flags followed through the next calls.",
 "C67": "Poor-attribute removal loop on the merit list; general violation from the aliasing of the index test, and what is removed.",
 "C68": "Decision function compared with the Hoeffding criterion stated on the sorted merits.",
 "C69": "Rounded weighted mean versus weighted vote; witness with three classes; binary case by ordering of the two weights.",
 "C70": "Search loop for the largest estimation; detector windows as lists of outcomes; compared with accuracies.",
 "C71": "Mean of member labels cut at one half; binary case counts votes, multi-class violation for every larger label.",
 "C72": "Row accumulation loop with skipped and appended entries; closed form when all members know the same classes.",
 "C73": "Chunk array with pointer simulated by consecutive chunks; pool update shown to be a multiset minus a minimum.",
 "C74": "Output loop of the chain in closed form; for every non-identity order a pair of learners that exposes the permutation.",
 "C75": "Exhaustive search over bit vectors; surjectivity of the binary representation; running-maximum invariant.",
 "C76": "Running-maximum invariant.",
 "C77": "Construction with threaded work space; invariant true bound ≤ used bound ≤ upper bound; witness.",
 "C78": "Relational induction over two streams that agree on all features but the last.",
 "C79": "Masses bounded by the window size; running mean equals the mean; normalisation is the identity.",
 "C80": "Loop over abstract streams; induction gives the choice sequence and the interleaving; batches by induction.",
 "C81": "Algebra over any strictly monotone positive exp with exp 0 = 1.",
 "C82": "answers of the two streams combined by the code; `C82_too_many_violated` reads sample by sample until has_more_samples() is false: by induction on what is left in both streams the reader always gets fewer samples than announced, whatever the random numbers",
 "C83": "Two objects over one pair of streams; induction over call sequences; witness of interference.",
 "C84": "Segment loop; noise-free rows by induction, distinct digits by evaluation; threshold by case analysis.",
 "C85": "Loop invariant of the map: the swapped pairs and the untouched rest; for eight or more, pigeonhole.",
 "C86": "Writes with an arbitrary class map; IndexError by induction over the writes.",
 "C87": "Closed forms of the index and the returned slices by induction over batch sizes.",
 "C88": "Restart resets the random state only; witness with STAGGER.",
 "C89": "Drift loop invariant (lengths, signs, step bound); induction over samples.",
 "C90": "Invariant under reflection; induction over samples.",
 "C91": "Loop specification by induction; uniqueness from monotone partial sums.",
 "C92": "Well-formedness predicate with cell bounds and unused features; induction over the remaining depth; classification by induction over the predicate.",
 "C93": "one training step unfolded to an explicit list of experts (permutation for the sorted variant)",
 "C94": "Real analysis: Jensen/log-sum inequality for entropy, elementary bounds for Gini; explicit witnesses for the violated ranges.",
 "C95": "Log-sum and Cauchy-Schwarz inequalities over arbitrary partitions; explicit witness for truncated counts.",
 "C96": "Entropy and Gini of pure branches computed; compared with the bound over all partitions.",
 "C97": "Invariant relating the class distribution and the observers to the effective training rows, by induction over calls and rows; loop specification of the vote vector.",
 "C98": "Case analysis of the truth value of the stored argument.",
 "C99": "Invariant: matrix entry = number of samples with these positions in the target list, by induction over samples; first-maximum specification of the majority loop.",
 "C100": "Same invariant over the last w samples; the correction buffers hold the negated marks of the window.",
 "C101": "Target list passed in and out as shared state; explicit run of two evaluators.",
 "C102": "Case analysis of the index tests; np.max(i, j) modelled with j as the axis.",
 "C103": "Induction over rows and results; sums over targets exchanged with counts over positions.",
 "C104": "Queue refinement to the last w rows; remove without its third argument is the identity.",
 "C105": "Every emitted sample is traced to a draw (induction over the batches); each classification function is shown equivalent to the separate concept.",
 "C106": "Case analysis on age and salary; the violation uses the proved range of drawn salaries.",
 "C107": "Every emitted sample is traced to a draw; witness source for level 1.",
 "C108": "Invariant by induction over the values, refinement to a separate inductive trace with explicit weights; the monotone case by bounding both averages.",
 "C109": "Case analysis of the decision via the sorted suggestions, induction over the conditions for the merge; witness for nominal conditions.",
 "C110": "Induction over the rule set for the loop; general theorem for the skipped rule and a concrete rule set.",
 "C111": "Induction over the instances learned since the attempt; reachable counterexample by evaluation in the kernel.",
 "C112": "Invariant by induction over instances and batches; reachable counterexample for foil_gain.",
 "C113": "Induction over the rules that fire, for weighted_sum with explicit shares; counterexample with two orders of the same rules.",
 "C114": "Decision expressed over the candidates up to permutation; reachable counterexample for foil_gain.",
 "C115": "Invariant of the criterion over the candidates seen so far; counterexample with two candidates of one attribute.",
 "C116": "Induction over the conditions; counterexample with disjoint rules.",
 "C117": "One invariant of the holdout loop (counters as a function of the step number), by induction on fuel, instantiated for static and dynamic test sets; the log of each learner is read off as a list of step numbers.",
 "C118": "induction over the rows, members and calls; the position in the stream of draws is computed in closed form",
 "C119": "case analysis on the row lengths, sums over members by induction",
 "C120": "invariant linking every detector to the record of outcomes given to it, carried through the loop over members",
 "C121": "bisimulation with a fresh ensemble that already knows the classes",
 "C122": "induction over the steps; each violation for all steps of the named kind",
 "C123": "refinement to a family of stand-alone estimators, by induction over the calls",
 "C124": "Structural induction over mutually inductive trees for routing, replacement and weight; induction over the training sequence. The observed weight is specified by filtering the training sequence. Upper bound: invariant that each leaf holds at least what its observers have seen.",
 "C125": "Induction over the instances a leaf learns; the two counters equal the prequential weights defined from the leaf's earlier states.",
 "C126": "Assignment into a zero row is characterised pointwise; normalisation and argmax follow; padding with zeros keeps the first maximum. Violations: general families of votes.",
 "C127": "Mutual induction over the tree with the predicates collected so far; branch and rule of a test agree by C36. Violations by the untrained tree and by a two-instance training run.",
 "C128": "Invariant of `_partial_fit` by induction over the stream (suffix, size, histories, labels), with the number of classes bounding what `cluster_down` leaves; violations for every stream of the given kind.",
 "C129": "The same invariant for the histories; case analysis of the choice; general violations for labels beyond eight bits and for memories that were not asked.",
 "C130": "`cleanOne` characterised as a filter by a relation `Contradicts` stated with neighbours and distances only; the loop by induction.",
 "C131": "Life cycle of a member as an invariant over all answers of the detectors (`Meta/Life.lean`), refined by the model of `ARFBaseLearner`; the ensemble is shown to be its members living side by side.",
 "C132": "The same induction, with the evaluator's results and the detectors' inputs read off the prefixes of the run.",
 "C133": "Dictionary sums characterised by class; reuse of the theorem on rows of Hoeffding tree probabilities; concrete violations.",
 "C134": "Case analysis of the parameter with integer and rational arithmetic.",
 "C135": "Case analysis of `check_weights`; simulation between runs that differ only in weights.",
 "C136": "Counting of the enumerated combinations and of the padding loop; pigeonhole for the endless loop; induction on the recursion of the enumeration for the shared prefix.",
 "C137": "Case analysis of the parameters with integer and rational arithmetic.",
 "C138": "Generic induction over runs of a learner with warnings and drifts (LifeRun), instantiated with one-step case analysis of the member.",
 "C139": "The same induction, with the evaluator's results and the detectors' inputs read off the prefixes of the run.",
 "C140": "Induction over the members for sums of rows of different lengths; argmax characterised.",
 "C141": "Invariant over the run: the nominal attributes of member and background learner are those of their subsets.",
 "C142": "The generic induction of LifeRun, with the evaluator as part of the model that is replaced at drifts.",
 "C143": "Algebraic identity of Welford's update with mean and squared deviations; induction over the run for the detectors' inputs.",
 "C144": "Sums over the list of members in an ordered field; counting in the sorted list for the median.",
 "C145": "Case analysis of the parameter with integer and rational arithmetic.",
 "C146": "decision logic of scan/check with an independent majority specification; induction on DDM's state for all-zero inputs",
 "C147": "decision logic through the sorted suggestions; product with a zero factor by induction over the attributes",
 "C148": "one-step frame lemma over tree paths, induction over the training sequence",
 "C149": "fold of `feed` over windows (append law), Forall₂ invariant over the windows; argmax specification for the dropped member",
 "C150": "invariant relating the stored lists to the errors; unbounded partial sums by the Archimedean property",
 "C151": "per-member refinement to a sum over classes, insertion positions of a sorted list, argmax specification",
 "C152": "frame lemmas on partial_fit and reset; induction over the stream for the fresh classifier",
 "C153": "run as a fold over windows, Forall₂ invariant with lastN",
 "C154": "invariant of the inner and outer loops over the weights; induction on fuel for non-termination and for the bound",
 "C155": "induction over learners and ensembles, argmax specification",
 "C156": "error leaves a full buffer; induction over the later calls",
 "C157": "decision logic of the set comparison",
 "C158": "Induction over the training sequence with the invariant that the root's statistics and observers are folds over the instances so far.",
 "C159": "Case analysis of the decision functions; the sorted suggestions are characterised by a largest element, independently of the sort.",
 "C160": "Induction over the instances seen by the root; a general one-step theorem shows the violation.",
 "C161": "Mutual structural induction: each step changes counters and node counts by the same difference; concrete runs for the violations.",
 "C162": "Invariant over the mutually inductive trees, preserved by sorting, splitting, replacing and pruning; concrete run for the violation.",
 "C163": "Case analysis of one training step at a split node; concrete run for the violation",
 "C164": "Induction over the training sequence of a single leaf",
 "C165": "Induction over the route of the instance (inductive predicate Reaches)",
 "C166": "Lock step induction over the training after the reset",
 "C167": "Invariant (branch ids, active leaves) by mutual structural induction over the tree, then over the sequence",
 "C168": "Same induction with the differences of the counters; concrete runs and a general formula for the violations",
 "C169": "Refinement: both trees equal a recursive growth function, by mutual structural induction, then over the sequence",
 "C170": "Sum over leaves as an invariant of learning steps, split by split; multiway loss by a concrete history.",
 "C171": "Every leaf records its path; statistics compared with the rows following it, by induction over rows.",
 "C172": "Invariant: the statistics of a leaf are those of some sublist of the training rows (using C62_subset_partial for pruned observers); means of sublists are in range.",
 "C173": "Unit norm as an invariant over leaves; Hoelder inequality for the prediction.",
 "C174": "Invariant for sums and shapes over all learning steps; IndexError by following the code.",
 "C175": "Induction over rows; invariance of the initial weights for fractional weights.",
 "C176": "Case analysis with the invariant of C174.",
 "C177": "Stable sort by merit, permutation and order arguments; error propagation through the poor-attribute loop.",
 "C178": "Invariant over all rows and members for any safe bookkeeping (Safe, run_fresh_ok), instantiated for both ensembles.",
 "C179": "Entries of a member are a fold over its visits (run_fresh_hist); sums by induction over the visits.",
 "C180": "As C179; counterexamples from the update formula.",
 "C181": "As C178 and C179, for rusBoost.",
 "C182": "Row-by-row induction (run_ind); the violation is proved for every number of members >= 2 and every block of negatives.",
 "C183": "run_fresh_ok with row-by-row induction.",
 "C184": "Induction over rows, members and synthetic draws; the distance row used has a single entry.",
 "C185": "Direct from the reaction; concrete run as counterexample.",
 "C186": "run_fresh_takes; the violation for every batch of at least two weighted samples.",
 "C187": "Mutual induction over nested estimators; counterexamples for the constructors of the library.",
 "C188": "Case analysis of the check gives the metric lists; every metric on a list has its method; induction over the metrics of a report shows that it succeeds from any buffer reached.",
 "C189": "Membership reasoning about the metric lists; reordering is a permutation.",
 "C190": "Invariant of the data buffer over the writes of a report (each metric's entries survive the later ones), refinement of header and line to one list of columns, unique decoding of the text between commas and of the titles.",
 "C191": "The same buffer invariant for the data_points entries.",
 "C192": "Induction over the loop with the invariant n_wait*u <= c <= n_wait*(u+1), and two exact invariants.",
 "C193": "Induction over the loop: the data buffer is fresh or filled; simulation by the run cut off at the failing iteration.",
 "C194": "Induction over the acts of a run; blocks of acts end with the total up to date.",
 "C195": "induction over the members (visitAll_spec) against an independent relation for the weighting rules (Draws) and the labels (Lesson); batches by induction over the rows",
 "C196": "from the same per-member relation; the violation is proved for all states, labels from 2 on and 0/1 learners",
 "C197": "invariant over reachable states that every detector is a run of recorded outcomes, so estimates are non-negative; then the scan for the largest estimate by induction",
 "C198": "counting by induction over the members; the answer by argmax; collision by the pigeonhole principle",
 "C199": "bisimulation between the reset and the new ensemble, equal up to a code matrix that is not read",
 "C200": "refinement: the multi-target tree maps to the single-target tree leaf by leaf; simulation by induction over the rows",
 "C201": "invariants by induction over the rows: rows of weights have 1-norm 1 (or are nan), sums are those of the rows; then the dot-product bound",
 "C202": "simulation between two runs with rescaled rows for all kinds of leaves; the criterion by algebra; the violation by evaluating two merits",
 "C203": "induction over the rows of a leaf; the choice by cases; the violation for all sums and targets",
 "C204": "simulation of two runs that differ in their sums only; the violations in general or by evaluating a run",
 "C205": "algebra over rational sums of squares",
 "C206": "refinement of the Hoeffding tree on the encoded labels by induction over the rows; positional notation by injectivity of digits",
 "C207": "invariant over all nodes that class counts are non-negative and of trained classes only, by induction over the rows; then the prediction lemma of C126",
 "C208": "Welford's updates are shown to compute mean and sum of squared deviations of the whole history by induction; the value is then the specification's standard score, for any square root function that squares back. The range uses that a value is at most sqrt(n-1) deviations from the mean of n values; the violation is a general family of histories.",
 "C209": "Invariant of the tree (children numbered, perceptron weights of matching length, sums of matching length) kept by every step, by mutual induction over tree and children; the violation follows the IndexError of normalisation through all nodes.",
 "C210": "Case analysis of the reaction to the detectors, then of learning at a split node; the violations are general theorems with a concrete run beside them.",
 "C211": "Simulation: erasing monitors and alternate trees commutes with every training step, by mutual induction over tree and children, lifted to runs by induction.",
 "C212": "Invariant over the training instances: every leaf has seen a sublist of them, and its observers are the fold of the update over that log, for exactly the features drawn.",
 "C213": "Heap of generators with who draws from which; the draws of two trees are shown equal by simulation, for every seed and every generator.",
 "C214": "The same heap; the draws of the replacing tree are shown to be those of its predecessor.",
 "C215": "A parameter path relation (Reads) on a heap of estimators; get_params is shown to list only pairs of it, and set_params to be the identity on such pairs, by induction on the depth.",
 "C216": "Loop invariant of the first loop; the nested loop reduces to the call on the nested estimator.",
 "C217": "Induction over the call; the state at the exception is the state after the assignments before the bad name.",
 "C218": "Instances of C216 with the attributes that add_element reads.",
 "C219": "argmax of the negated squared distance over 2 sigma, by the loop invariant of argmax.",
 "C220": "Loop invariant of the search for the two nearest prototypes; the sign of the factor from sums of positive exponentials.",
 "C221": "Invariant: ppc prototypes per class, labelled with it as soon as it has occurred; witness with arbitrary memory.",
 "C222": "A call is the fold of single rows; folds compose. Non-interference for initial prototypes.",
 "C223": "Case analysis; pigeonhole for the labels.",
 "C224": "bounds of the four quotients of polynomials coefficient by coefficient, then case distinction over the ranges",
 "C225": "loop invariant of the breadth-first search (seen is closed up to the queue), termination by lexicographic induction, permutation of the parts",
 "C226": "induction over the items",
 "C227": "induction over the items of the second dictionary; first-maximum invariant",
 "C228": "unique division into lines by induction; split lemmas; counterexamples for all names with two dots and for equal files",
 "C229": "closed form of the inner loop by induction, invariant of the outer loop; counterexample for all measurements of at most twenty batches",
 "C230": "triangles compared with the table of waves, then algebra of convex combinations",
 "C231": "algebra over the reals with the square root",
 "C232": "invariant over all moves by induction",
 "C233": "per-class invariant of the initialisation fold, then the exact content of each block of prototypes before training",
 "C234": "Invariant over runs: the distance matrix is right, the keys of the histories are the first samples of the windows of the memory (or of a window one longer), and after exact cuts every history is a prefix of the test-then-train flags of its window; `pass` extends them to exactly these flags and argmax picks the first maximum.",
 "C235": "Same invariant, for the history of the whole memory; windows that look better are judged from scratch before the final argmax.",
 "C236": "The keys are two apart or more, so lookups find the history of their window or of the one before, no popped history is empty and `adaptHistories` never runs out of keys; memories by C128.",
 "C237": "induction over the members of one pass, following the alarm flag; the reset member by the specification of the search for the largest estimate",
 "C238": "labels after a list of assignments by induction; positions of ones are a permutation of the different positions drawn",
 "C239": "values after assignments through an index array by induction (the last assignment to a position wins)",
 "C240": "from the characterisation of labels and values",
 "C241": "case analysis of all checks and of the conditions under which RandomState.choice raises",
 "C242": "induction over the updates: the root is never made",
 "C243": "a printer and a reader of Python literals; reading back the printed text by mutual induction over values and sequences, with enough fuel",
 "C244": "Real logarithms; the proportion before the split lies between those of the sides.",
 "C245": "Bisimulation: learning and voting commute with erasing the class labels of the rules.",
 "C246": "Induction over the folds with the state of the shared copy; membership of test sets in earlier training sets.",
 "C247": "Position of a label in the sorted labels against the column it is read from.",
 "C248": "Model of the voting loop with weights that are numbers, warn or are missing; induction over members and columns for the weighted sum and the average; link to the training model (C181) for members without errors; general witnesses for the violations.",
 "C249": "Evaluation/Plot.lean models visualizer and reports, PlotProps.lean: a report with computable metrics writes everything the plots read (induction over metrics), its effect on the plots is a pure function, each part of the state is changed by one metric only; induction over reports.",
 "C250": "Evaluation/PlotLimits.lean: invariant of the loop over models for the limits; violations for any error falling from above 3/2 to at most 1 and any kappa below -1/10.",
 "C251": "Evaluation/PlotLimits.lean: invariant that every cluster is a full buffer of the points kept so far, by induction over reports; violations for every label not less than the number of classes and for every number of reports.",
 "C252": "Evaluation/PlotLimits.lean: the redraw flags are a function of times and frame counter; induction over reports.",
 "C253": "Evaluation/PlotLimits.lean: positions of the subplots by induction over the metrics, digits of the position code by arithmetic; violations for every list with at least ten plotted metrics and by cases over metrics for titles.",
 "C254": "Trees/MTRSplit.lean: stable sort gives the two best suggestions; cases of the decision; loop over suggestions for poor attributes by induction; the null split and light branches have merit 0 by C205; violations for every single suggestion and every list of light candidates.",
 "C255": "the passes of nArgMin with an arbitrary initial memory; invariant of a pass (smallest of the entries not used, leftmost on ties), induction over the passes with the finite set of entries left",
 "C256": "ordered map and scan of the C++ code; the map holds the totals in the order of labels, the scan keeps the first largest; bound on the votes of other labels for recognised samples",
 "C257": "flat memory of the stored rows, read with the width of the query; equality with the squared Euclidean distances for equal widths, witness and general formula for others",
 "C258": "columns with types and missing values; the split of columns of C51, distinct sorted values, case analysis of the loaders; general theorem for floating point arrays and witnesses for the other violations",
 "C259": "table, tiling and an arbitrary permutation; counts are kept by permutations and multiplied by tiling, membership in the four rows by cases",
 "C260": "the flag first_run over all batches; values of target_values from the loading model of C258; induction over batches, general theorems for the violations",
 "C261": "Invariant over the training run: statistics of the leaf, Welford attributes and detector after the rows seen so far; the scores come from C208.",
 "C262": "Invariant of the evaluation loop: the data buffer holds the last row, and at the sample limit the last row belongs to the last batch; the printed lines are then read off the buffer. The lag is shown on a concrete run.",
 "C263": "Reporting is a fold over the event log of the delayed evaluator; the log is shown to pair every score with training on the same samples, and the final loop ends with a chunk of at most one batch; the violation uses C27 for the number of results.",
 "C264": "Corollary of C65: the order in which leaves are switched off is a stable sort by depth, so inactive leaves precede active ones in a list sorted by depth.",
 "C265": "Case analysis of the memory manager; growth never resumes by C66; the violation uses C65 for the number of active leaves.",
 "C266": "Prefix sums of the weights; with zero estimates the memory manager only activates leaves, an invariant over the run.",
 "C267": "28 signatures and forwarded arguments transcribed; Python's binding of arguments; induction on the parameter list",
 "C268": "shared list objects; induction on the sequence of operations; checking twice is idempotent",
 "C269": "mutual induction on values and element lists of the pretty printer with an invariant on the remaining width; lemmas on the regular expressions",
 "C270": "arbitrary wrapped learner; induction on the sequence of calls",
 "C271": "evaluator object with the attributes the three evaluate methods read and write (measurements, window size, file buffer, time manager, test set) and the three loops over arbitrary streams, models and exceptions; invariants of the loops (Good) give what waits in the file buffer after every evaluation, then the evaluation is compared with that of a new object",
 "C272": "Rules/Nominal.lean: nominal observers plugged into the rule model. Invariant over all batches: the weights of a rule are those of a sublist of the training data whose members meet the conditions, and its observers have been shown the tail of that sublist (C272_counts_partial). C272_expansion_partial and C272_creation_partial say exactly which instances are taken over; C272_forgets_violated shows that instances counted before are lost.",
 "C273": "Rows as lists, assignments as List.set with IndexError past the end; induction on runs of consecutive assignments gives the row; histories of settings by induction on the list.",
 "C274": "One record of attributes per generator, compared with a separate table of the columns of its samples; case analysis, and induction for the names of RandomTreeGenerator.",
 "C275": "The loop over nine names as recursion with lookup and evaluation; induction on the number of columns left.",
 "C276": "`Evaluation/Honest.lean`: the iteration of `_train_and_test` with stream, models and measurement objects put into the loop of `Run.lean`; invariant over the loop that every bundle follows test-then-train of the first k batches, then C05, C06 and C11 for the scores",
 "C277": "`Evaluation/HoldoutRows.lean`: the loop of `_periodic_holdout` with stream, models, measurement objects and rows; invariant that every bundle follows the replay of the training and test events and that the events use up the stream, then C05, C06 and C11 for the scores; witness for a short test set",
 "C278": "The loop is shown to return the first candidate of largest merit (induction); the candidates come from C63. For the left weight the class record is tied to the history, its variance is positive between two different values, and the three ranges are compared.",
 "C279": "The rows are folded over the log of the evaluator with measurement objects per model; the fold keeps the objects equal to a run over the results so far (C05, C06, C11 give the scores). Which results those are follows from the queue invariant of C27, carried through the main loop and the draining loop.",
 "C280": "`threshold` and `realCut` model lines 366-373 over the reals. `answer_iff` characterises the answer by what the scan visits, `scanned` relates that to the elements of the window by induction on the rows. The two counterexamples are streams of 96 values: bounds on the logarithm (`dd_bounds`) turn the real test into a rational one decided by the kernel.",
 "C281": "Induction on rows and calls with the ADWIN model inside; the few-calls part uses that the counter of checks stays below the clock 32, the one-neighbour part uses `C31_predict_is_majority` and `C280_constant`.",
 "C282": "Loops over an appended list split; what the checks of `classes` accept they accept again and the size of the ensemble is right after the first part. The kNN-ADWIN witness is 30 calls, then 98 rows in one call (the 31st, no check due) or in two (the 32nd call checks and finds a cut by rational bounds on the real expression).",
 "C283": "`Meta/ResetAll.lean`. Online boosting is added as a fifth scheme of `Skew`. The state apart from the classes does not depend on which list of the same classes is remembered (simulation over the rows and the calls); a different set is refused by `checkClasses`. The forest's classes are an invariant of all calls, and a vote beyond them ends in the `IndexError` of the row. The training method is carried through successive lives.",
 "C284": "`Lazy/KNNLife.lean`. The window is that of the samples since the last reset and the list of classes holds exactly the labels met, both by induction on the calls; a prediction is the smallest most frequent label (C31), which leaves no room for the list of classes. For kNN-ADWIN the same lemma shows that the detector is told the same.",
 "C285": "The training loop is the one of the skewed ensembles (Skew.lean) with the bookkeeping of this class; a relation between consecutive visits, by induction over the members and then over the rows; the entries of a member are the fold over its visits.",
 "C286": "Sums over rows of weight times any function of the row depend on the total weights only; the estimators (C33) and counts (C34) are functions of such sums; a permutation of the class dictionary does not change the row of probabilities.",
 "C287": "The estimator of a rescaled column (mean a*m + b, sum of squares times a squared) by induction; all numerators are divided by a, which normalisation cancels; general witness for the violation.",
 "C288": "Functional homomorphism between trees (LearnMap): leaf learning, split attempts, branching and memory management commute with the map that rescales observers and thresholds, under the invariant that the attribute's observers are Gaussian or switched off; induction over the rows. The structure does not depend on the kind of leaves (run_plain).",
 "C289": "Functional homomorphism (LearnMap) forgetting the counters of adaptive leaves; without remove_poor_atts the decision never names attributes to disable, so the choosers are equal. Violation: six weighted rows, three nominal attributes, Gini, the exact Hoeffding bound for split_confidence exp(-1/8), evaluated in the kernel.",
 "C290": "Each iteration of the joint evaluation is characterised as a pointwise relation between the models before and after (iteration_iff); the joint loop then runs in step with the loop of each model alone (InStep, solo_step), as long as the joint one raises nothing; conversely, if all run alone to the end, the joint iterations succeed (solos_joint). Induction on the iterations left.",
 "C291": "The state after the moved calls is the image of the state (bucket totals of row i moved by c * 2^i, total by c * width; variances unchanged), call by call (moveS, step_move), since merging, deletion and the scan commute with it; the cut expression depends on the difference of means only (realCut_blind). Small units: the last term of the threshold alone is at least 8/(3 width) (threshold_large). Witness: flicker of C280, divided by 100.",
 "C292": "Page-Hinkley: a relation (level) and a function (unit) between the states, preserved by every value; on a stream that never increases the mean stays above the next value, so that the statistic stays 0. HDDM_A: the state is mapped by adding k times the respective count to each sum; every part of add_element commutes with it.",
 "C293": "The state is mapped by raising all averages and cut points by k; ewma and detection commute with it as long as averages are not negative. Violation: on negative values every average restarts and detection answers False (negative_never), while two values far enough apart above zero are reported.",
 "C294": "`Lazy/KNNOrder.lean`: the places an exact search returns are, up to order, the samples with fewer than k nearer ones (counting argument on duplicate-free lists), a description that sees only comparisons of distances; then C284 and C31 give frequencies and majority, and C32 the regressor. Euclid: squared distances scale by a². Witnesses for the unit of one feature (for every exact search) and for ties.",
 "C295": "`Trees/Names.lean`: the tree of `Trees/Units.lean` commutes with an order-preserving renaming of the labels (homomorphism through routing, learning, split attempts, memory management, naive Bayes votes and the array of `predict_proba`); the observers and split decision of the code are shown to treat labels as names; information gain and Gini by their values only; Hellinger by its literal keys 0 and 1",
 "C296": "The dot product of the adjusted weights with the row is expanded by linearity, the division by the L1 norm commutes with the dot product and the L1 norm of the adjustment is bounded by the reverse triangle inequality; the violation is a run of three rows evaluated by the kernel.",
 "C297": "The observer of the attribute is the fold over the rows of the leaf; the proposal lies inside the range by C278, its distributions conserve weight by C63, and the keys of the sorted records are unique, so each class has one entry; the life of the observers (made, learning, kept, disabled) is proved separately.",
 "C298": "Drift/KSOrder.lean: the statistic is bounded by c iff all differences of the two distribution functions are; under a decreasing map the share at or below turns into one minus the share strictly below, and neighbours in the pooled sample give the same maximum; induction over the stream.",
 "C299": "Drift/DDMErrors.lean, Drift/DDMFound.lean: the detector's definitions are taken at the reals; rate plus deviation does not rise at a right prediction and does not rise while the rate does not (two square-root inequalities); invariant over the predictions since the last change; the state after right predictions only has all minima 0; the bound follows from C16_decision.",
 "C300": "Drift/EDDMErrors.lean: derived from C17_decision; with equal distances all levels are equal and by strong induction on prefixes nothing is reported; the counterexample has distances 1, 9 (15 times) and then 6.",
 "C301": "Drift/PHRise.lean: from C18_decision_partial and the recurrence of the cumulative statistic; the statistic before a reported value was at most the threshold; after a jump every increment is at least n (v - m) / (n + k) - delta.",
 "C302": "Each cell is the closed form of C59 over the window before it; mean and deviation of a re-scaled window are the re-scaled mean and deviation, and the unit cancels when the deviation is not 0.",
 "C303": "Invariant: the stored cut has the least mean plus deviation of all cuts since the restart. Together with the failed test of line 117 and 1/n_min - 1/n <= 1/n_min <= 1 this bounds the mean; the detection theorem follows by contradiction.",
 "C304": "`Bayes/NBColumns.lean`: the joint weight of a class is its share times the product of one likelihood per column (`joint_eq`); the columns are a permutation of those kept and the constant ones, whose likelihood is 1 for every class seen (zero variance at the mean; Laplace correction with one value).",
 "C305": "`Drift/HDDMWRise.lean`: the sum of squared weights decreases to L / (2 - L) (`sqw_ge`, `sqw_anti`, `sqw_formula`); on the trace of C108, either enough of the high values lie behind the best cut, and the test fails only if they are low, or enough lie before it, and the cut was not best (`quiet_bound`).",
 "C306": "`Adwin/Lasting.lean`: from the shape of the bucket rows the width bounds the index and length of the oldest row, so `C280_oldest_partial`'s lemma applies to splits named by width; for the lasting change a due check with between 9·2^R and 10·2^R - 5 values is picked, the means of the oldest 2^R values and of the rest are bounded apart, the variance stays bounded (its excess over the exact value is constant while nothing is dropped) and the threshold tends to 0.",
 "C307": "`Drift/DDMLasting.lean`, `Drift/DDMMissed.lean`: invariant over the segment since the last change: the recorded minimum of rate + deviation is at most its value at every checked moment, its deviation is at most the root of its rate over min_num_instances - 1, and while nothing is reported the current rate + deviation is within the control limit; counting errors gives the rest.  The missed rise is by induction over the blocks of six and of four predictions: the minimum stays that of the first check and rate + deviation stay between it and the limit.",
 "C308": "`Drift/KSFound.lean`: the statistic of separated samples is 1 and no statistic exceeds 1; while nothing is reported a full window slides, so after stat_size values the drawn sample comes from the old values and the newest part is the new ones.",
 "C309": "Drift/EDDMLasting.lean (`C309_lasting`): if nothing is reported the segment keeps growing and its distances are the old ones followed by the new ones; squared deviations about the mean are at most those about `lo`, so mean + 2 deviations falls below `hi + 2 (hi - lo) + ε`; C17 then gives a report. Not shown: a formula for N in the statement (the proof gives one).",
 "C310": "Drift/PHMute.lean (`C310_gap`, `C310_mute`, `C310_forgetful`, `C310_default`): a value exceeds the mean of the values so far by at most b - a (the first by 0), so by induction the statistic of C18 is at most (b - a - delta) times a geometric sum; the sum is at most 1 / (1 - alpha) and at most its number of terms; `C18_restart` carries it to streams after a report.",
 "C311": "Transform/Filled.lean (`C311_filled`, `C311_window_one`, `C311_units`, `C311_calls`): on the specification of C29; by induction over the rows all returned cells of a column stay between bounds of its numbers, and the row returned last, which is in the window of the next one, keeps the column known. `central_nanmean` shows that the mean is such a statistic.",
 "C312": "Evaluation/HoldoutTogether.lean (`C312_beginning`, `C312_same_reports`): an iteration succeeds exactly if it succeeds for every model (`step_iff`), so that a state of the joint evaluation and one of the evaluation of model j stay in step; whether a metric can be computed does not depend on the number of models.",
 "C313": "Evaluation/DelayedTogether.lean (`C313_alone`, `C313_same_rows`, `C313_no_exception`): projecting the tuple of states and predictions on one model commutes with every function of the evaluator and of the time manager (`evaluate_map`), whose sort looks at the times alone; the measurement objects of a model are then fed the same pairs (`boardRun_solo`), and the scores can be computed if they can be for every model alone (`boardRun_all`).",
 "C314": "Meta/OzaSilenced.lean (`C314_silenced`, `C314_heard`, `C314_knn`): by C118 every member is a base learner trained on its own copies of the samples, so the length of its rows tells whether it met an undeclared label; the first member whose rows are too long raises the ValueError that predict_proba swallows (C119), and without one the votes are summed. The model of KNNClassifier (Lazy/KNN.lean) meets the condition on base learners.",
 "C315": "Evaluation/DelayedFinal.lean (`C315_index`, `C315_everything`, `C315_regression`): the measurement objects at the end hold all results scored (`boardRun_ok`), which are a permutation of the predictions (C27), and the figures do not depend on the order; Python indexing by cases."
}