# Formal model of CORSET (DiverseMultiLabelClassificationRules) in Lean 4

## Layout

* `lean/Verif/Py.lean` – Python primitives (exceptions as values, negative indexing, slices, stable sort, `max`).
* `lean/Verif/Model/*.lean` – the code, function by function; every definition cites file and lines in `/repo`.
* `lean/Verif/Spec/*.lean` – small specifications that do not use the model's helpers.
* `lean/Verif/Lemmas/*.lean` – auxiliary lemmas.
* `lean/Verif/Props/*.lean` – one theorem (or a few) per property, with a concrete instance beside it.
* `seeded/LOG.jsonl` – results of testing the theorems against wrong programs.

## Modelling decisions

* Python exceptions are values of `PyErr` in `Except PyErr`; where the code would raise, the model returns that error.
* A scipy CSR/CSC matrix is the triple `indptr/indices/data` plus its two dimensions. Well-formedness is an explicit
  hypothesis. Explicitly stored zeros are representable.
* Python sets are `Finset`s. Where the code iterates over a set the model iterates in increasing order or, where the
  order could matter, over an arbitrary order passed as a parameter.
* Floating point numbers are exact rationals or reals. Rounding is not modelled, except in the clique enumeration, which
  is generic in the multiplication, in the weighted draws of the tail sampler (C128), in two comparisons of ratios
  (C129), in the construction of the sample space (C130), in the objectives of the learners and a whole fit (C131, C133), in the head sampler with the
  tight proposal (C132), in the Boley sampler and in the greedy tail sampler (C134, C139, with overflow).
* Randomness: random code is a program in a free monad `Rand` whose only effects are "draw an index with these weights"
  and "draw a uniform real in [0,1)". It has two semantics: the set of possible outcomes (for "every execution" claims)
  and the expectation (for exact probabilities). That numpy's generator realises these laws is trusted.
* `while True` loops carry fuel, and a theorem says how much fuel is always enough.

## Plan per property

* **C01** Conjunctive column query is exact. Model: CSC matrix with `indptr/indices/data`, `conjunctiveCollapseV2` with Python indexing. Proof: unfold, sorted-by-size list is a permutation, membership.
* **C02** Two conjunctive-query implementations agree. Model `conjunctiveCollapse` (column sums). Proof: a sum of k 0/1 values equals k iff all are 1.
* **C03** Matrix rows to sets: both converters agree and are exact. Model both converters; theorem + witness with an explicit zero.
* **C04** Set/matrix conversion round-trips. Model `convertSetsToMatrix` (lil -> csr). Proof by segment lemma for concatenated rows.
* **C05** Binding a rule computes its exact supports or rejects it. Model `Rule.bindDataset` in `Except`. Proof: case split on each check, C01 for the supports.
* **C06** Rule statistics are proportions of the same counts. Counts of nested finsets.
* **C07** Rule identity ignores item order. `mergeSort` of permutations is equal; sorted permutations are equal.
* **C08** Rule distance is the Jaccard distance of label areas. Cells as `Finset (Nat x Int)` products; card of products and intersections.
* **C09** Rule distance satisfies the triangle inequality. Jaccard triangle inequality for finsets (Steinhaus argument), then C08.
* **C10** Marginal coverage counts exactly the newly covered cells. Fold of set differences = difference of union.
* **C11** Marginal coverage has diminishing returns. Antitonicity of C10.
* **C12** KL score is finite, non-negative and zero exactly when the rule does not beat the base rate. scipy `entropy` with `rel_entr` in EReal; Gibbs inequality via log x <= x-1.
* **C13** Pickling a rule keeps its identity. get/set state functions and re-bind.
* **C14** Prediction is exactly rule firing. Model of predict as fold over rules with cell writes and `PyErr`.
* **C15** Prediction is monotone, order independent and row local. Corollaries of C14 stated directly on predict.
* **C16** A saved model predicts identically. get/set state of the classifier.
* **C17** Coverage ratio is the covered fraction of label occurrences. Model zeroing of cells in a copy of Y, then nnz after eliminating; = card of union.
* **C18** Marginal gains telescope to total coverage. Induction on list.
* **C19** Coverage lower-bounds training recall. C14 + C17.
* **C20** Candidate generation is bounded, duplicate free and bound. Model generator with arbitrary sampler environment; induction over the loops.
* **C21** The chosen candidate maximises the objective. Python `max` as left fold; induction.
* **C22** First fitting round terminates within the coverage budget. Loop with fuel; potential = uncovered cells; fuel bound theorem.
* **C23** The rule budget is respected. Loop invariant on length.
* **C24** Every selected rule is a greedy choice that met the stopping test. Inductive trace of the loop.
* **C25** Second round re-selects greedily from all candidates with the same budget. Induction over the second-round loop, witness for repetition.
* **C26** The comparison objective of a selection only measures diversity. C10 with self in refs.
* **C27** fit keeps the round with the larger objective but reports the smaller. Case split on the final comparison.
* **C28** Refitting does not start afresh. One-iteration unfolding.
* **C29** InsufficientCandidates is raised exactly when nothing was sampled. Case analysis of fit.
* **C30** Greedy selection is a constant-factor approximation. Greedy max-sum diversification argument (Borodin et al.), pairing argument on sums, using C09.
* **C31** GreedySubmod ignores rules that add nothing. Case split.
* **C32** Row weights always equal the uncovered area. Invariant on Counter state over update histories.
* **C33** Coverage updates are idempotent and commute. Consequence of C32 + extensionality of the abstract state.
* **C34** The sampler's internal consistency check never fires and NoMoreSamples is exact. Invariant relates history-scan and weight.
* **C35** A sampled tail is supported and contributes something new. Possible-outcome semantics of the random program.
* **C36** Tails are sampled exactly proportionally to uncovered area. Expectation semantics of the random program.
* **C37** Row probabilities always form a distribution. Sum of normalised weights.
* **C38** Naive and fast weight updates agree only on first coverage. Direct computation + witness.
* **C39** Refitting a used tail sampler breaks it. Invariant with stale history + strict inequality.
* **C40** Trie-based assignment equals naive assignment. Via C43.
* **C41** PRETTI assignment equals naive assignment. Trie path invariant: v_list = rows containing the path.
* **C42** Set trie exact search. Trie as nested inductive type; induction on the inserted list.
* **C43** Set trie subset search. Induction on query.
* **C44** Set trie superset search. Induction on trie.
* **C45** Trie content is independent of insertion order and repetition. Canonical form of sorted tries.
* **C46** Binary search is correct. Loop invariant with interval length measure.
* **C47** Confidence graph is exactly co-occurrence confidence. Model of loops over rows/co-occurring labels.
* **C48** Connectivity graph conversion never fails and combines probabilities correctly. Model of dictionary lookups.
* **C49** Probable-clique enumeration is sound, complete and duplicate free. Well-founded recursion of the DFS; induction.
* **C50** Edge pruning does not change the sample space. From C49.
* **C51** Sample space is monotone in the threshold and closed under subsets. From C49.
* **C52** Sampled cliques are cliques and sampling terminates. Loop measure + possible-outcome semantics.
* **C53** CFTP result is stable under extending the horizon. Monotone coupling induction over draws.
* **C54** CFTP coalescence. Same coupling.
* **C55** CFTP samples pairs exactly proportionally to discriminativity. Stationarity of the Metropolis step + geometric recursion + horizon stability.
* **C56** A CFTP pair is one positive and one negative record that can be separated. Possible outcomes.
* **C57** Proposal weights dominate target weights. Inequalities.
* **C58** Heads are sampled exactly proportionally to discriminativity. C55 + double counting.
* **C59** Boley discriminative sampler draws patterns exactly proportionally to discriminativity. Boley instance of the generic CFTP + count of subsets.
* **C60** Boley area sampler is exact. Finite sums with binomials.
* **C61** Boley frequency sampler is exact. Finite sums, geometric retry.
* **C62** Random subset drawing is uniform. Powers of two.
* **C63** Powerset enumeration is complete and duplicate free. Mathlib sublists lemmas.
* **C64** Counts to probabilities. Sums.
* **C65** Train/test split mirrors instead of complementing. Python negative indexing of ~i.
* **C66** Seeded batch sampling is reproducible but cycles. Deterministic seed chain; pigeonhole.
* **C67** Evaluation metrics are consistent. Counting models of the sklearn metrics.
* **C68** Tail evaluator statistics are exact. C01-style counting.
* **C69** Configured hyperparameters reach the classifier. Dictionary lookup model.
* **C70** End-to-end: candidate heads always have support. Composition of C35, C56, C05; the learners with real samplers are random
  programs (`Model/Learner.lean`) whose outcomes are characterised by an invariant of the loop.
* **C71** Recursive and stack-based clique enumeration. Both refine the C49 set specification; permutation of results.
* **C72** Node-set statistics. Model of the counting loops; soundness lemma against the clique specification.
* **C73** Refitting the head sampler. State model with cached space; reachable-state induction.
* **C74** CFTP details. Case analysis of the return value of the random program.
* **C75** Rows with 64 or more labels. int64 wrap-around modelled with `Int.bmod`-like arithmetic; `2^64 ∣ 2^k`.
* **C76** Frequency sampling in reduced space. Expectation semantics, double counting.
* **C77** Dropping unlabelled rows. List filter model.
* **C78** Data set objects. State model of `set_data`; splits as permutations of row positions.
* **C79** Unseeded tail sampling. Generator and entropy stream as an explicit state; functional independence.
* **C80** Parameter changes. Attribute dictionaries; pickling state.
* **C81** Early stops. From the loop invariant of C70 and C17.
* **C82** Fitting the same classifier twice can crash. The tail sampler keeps its history when fitted again (C39); lift one bad draw through candidate generation, the loop and fit.
* **C83** For which data fit can raise. Coupling from the past gives up iff an arc of positive proposal weight can be rejected forever; characterise this for the head sampler, then induct over candidate generation and the loop; the converse constructs an execution.
* **C84** Viewer shows every row and column once. Model the constructor, the ADVISER ordering and the permutations (Model/Biclus); grouping lemmas for dicts of lists give the partition into blocks; insertion keeps a permutation.
* **C85** Blocks. Two rounds of grouping: by index, then by list of cluster numbers; invariants of append-to-dict.
* **C86** Pictures. Induct over the painting loops; translate positions to indices through the permutation.
* **C87** Threshold between the densities. Both bounds are strict positivity of a relative entropy, from log x < x - 1; the vote is a filter.
* **C88** Grid search. Loop invariant: first minimiser so far, strictly better than everything before it.
* **C89** PCV end to end. The labels of k-means are an arbitrary list; grouping lemmas, then the constructor's condition.
* **C90** Order of the blocks. Similarity and importance restated as sums over biclusters; invariant of the loop over gaps; stability of the sort.
* **C91** Thresholds. Invariant of the learner's loop: candidate heads come from the head sampler's space, tails from the tail sampler's space, and both spaces are the probable cliques (C50, C58).
* **C92** Refitting. Invariant of the loop for an arbitrary starting object; on data without labels the tail sampler can only give up, whatever its history.
* **C93** Co-occurrence counts. Dictionaries as association lists; reading after an increment; induct over the rows.
* **C94** Greedy tail sampler. Expectation semantics; loop invariant: the solution is a greedy run; reindex the sums over sizes and first labels.
* **C95** Files are lists of lines, lines lists of characters; splitting, stripping and slicing are modelled on characters. Independent predicates say what a header and a data line list. Proved by induction over attribute lines, entries and data lines.
* **C96** The two in-place assignments with the quantile recomputed between them are modelled as maps; the quantile is specified independently by order statistics (IsQuantile), and the model's sorted interpolation is proved to meet it.
* **C97** Same quantile specification; counting arguments over order statistics.
* **C98** Slicing and splitting on characters; the number parser is a parameter of the theorem.
* **C99** The header loop, the cell matrix, the in-place thresholding and the one-hot step are modelled; induction over attributes and rows.
* **C100** Random program over lists of rows; an invariant over the loop of rules (what is covered, what is left, which cells are set) gives the outcomes; a converse shows they are all reachable; the law of the rules follows by induction over the loop with a product quantity.
* **C101** As C100, with an equivalence for the outcomes; the probability of a column follows from the law of draws without replacement.
* **C102** Model/ArffFiles.lean (readGenbase); the specification says what the lines say (NamedRow, HasGenbaseShape). Proved with the same lemma about numeric columns and dummy columns as C99, for a general comparison.
* **C103** Model/ArffFiles.lean (readArff) with the directory as a list of names and `open` as a function; Spec/ArffFiles.lean says what a file says in both formats without using the readers. Proved from C95, C99, C65 and C102.
* **C104** Spec/SampleClique.lean defines step and order probabilities; the loop is unrolled by induction on the remaining iterations, with the law of the kept candidates proved by induction on the out edges.
* **C105** (table to zeros and ones) `Model/Preprocess.lean` models `preprocessing` on a table with missing cells; `Spec/Preprocess.lean` states the one-hot code by a sorted header of (column, value) pairs and the cells; `Props/Preprocess.lean` proves that the result is that code, when it fails, and the consequences (one 1 per cell, injectivity, complementary labels). pandas.read_csv and the conversion to csr in `read_data` are not modelled.
* **C106** (`Model/Load`, `Spec/Load`, `Props/Load`) `Dataset.load` as a random computation over a world (readable files, library answers). Post-conditions are stated by `LoadedFrom`, `LastAt`, `total`; proved by following each branch. The library `mlrl.testbed` is abstract.
* **C107** composes the models of load, hyperparameter creation, fit, predict, coverage_ratio and the evaluator; the outcome theorem is proved from C70, C83, C78, C67 and C17 after showing that the CSR form of a table has a one where the table has; the specification counts positions of tables and knows neither sparse matrices nor samplers; the greedy theorem uses C24.
* **C108** The store as a list of experiments, the calls of its interface as atomic steps; processes as a four-state machine interleaved by an arbitrary schedule (`Model/Mlflow`). Invariant: before the first creation every process has only looked, afterwards exactly one process is on the way to its AttributeError. Deleted experiments, runs and tags are not modelled.
* **C109** `Model/GreedyHead` follows both greedy samplers with set traversal orders as a parameter. `Spec/GreedyHead` defines greedy sequences (`GreedySeq`, `GreedyBest`) over the matrix alone. The loop is proved to build such a sequence by an invariant (`Fits`, `greedyLoop_spec`).
* **C110** The coupling that `fit` builds is shown to satisfy the domination condition of C56, whose law is then pushed through the greedy choice (`coupled_choose`, an instance of the invariant of C109).
* **C111** `Model/Tune` builds the trial from the models of C107 and C108, with the state of the data set object and the runs written. `Spec/Tune` says what a fair round is and what should be reported. Induction over the rounds, using C107 for each.
* **C112** `summarizeRows` groups runs by the texts of their hyperparameters. Uniqueness, completeness and order are proved for every list of runs; the agreement with the trials uses the shape of their runs from C111 and that averages do not depend on the order.
* **C113** (nodes as objects) heap of node records with every attribute of both classes; an invariant (children sorted, complete, dictionary consistent, parents older, cache right) is kept by every call; the subtree below a node is abstracted to the tree value of `Model/Trie.lean` and every trie operation is proved to refine the operation there, so that C42-C45 carry over; binary search is shown to find all elements of a list of distinct items only if it is sorted.
* **C114** (`Verif/Model/Scripts.lean`, `Verif/Spec/Scripts.lean`, `Verif/Props/Scripts.lean`): the scripts on top of the models of C107, C108 and C111, with the binding of arguments of a Python call. A job is a random computation on the tracking store; C107 gives the outcomes of training. The jobs of a script are computed from its argument; `ray` is represented by giving every job its own copy of the arguments, and the order of jobs is not modelled. `log_model` is taken to succeed.
* **C115** `Model/GreedyTruth.lean` models the two loops over the product of the sorted lists and the batch. `Spec/GreedyTruth.lean` counts separating attributes and separated pairs over the matrix. The laws reuse the expectation of the coupling (C55, C110).
* **C116** `Model/Dummy.lean` models the samplers over the abstract generator of C66 and as an instance of the learners' sampler interface. The learners' claims follow from the traces of C20 to C25 and C31.
* **C117** Model/Batch: list comprehensions as recursion on the number of calls over the model of one call; the Boley batch is `none` while one of its retry loops still runs. Product laws: one call depends on the results only through the unchanged state (expectation formulas of C55, C59, or `expect_congr` over the outcomes of C74). Law of the iterations: induction over the rounds of the loop with the transition operator of C55, the value of round j being a difference of two powers of the operator.
* **C118** Model/Files.lean: a disk as a map from locations to directories and files, `makedir` and `os.makedirs` as processes making one system call a step, a system of processes run by a schedule. Invariant over schedules: the disk is sound (every parent is a directory) and only directories on the way to a target are added. `.`/`..`, symbolic links, permissions and deletions are not modelled.
* **C119** On the same disk: opening for writing truncates, each write appends, `saveStates` lists the disk after each step of a save, i.e. all crash points. Pickle is an abstract codec: decoding inverts encoding, a proper beginning of a pickle is not a pickle (pickles end with STOP). `mkdtemp` tries candidate names until one does not exist. Full disks and reordered writes after a power cut are not modelled.
* **C120** The model of C01/C05/C14 already indexes as Python does; the theorems drop the hypothesis that labels are natural numbers. Specification `RowReads`: row i has column k for each listed c with c = k or c = k-(n+1).
* **C121** model: `wrapGraph` (matrix of the graph in another precision, nodes replaced by positions), `enumerateCliquesV2`. Proof: the wrapped graph is isomorphic to the graph, so C49 for any arithmetic transfers; in exact arithmetic the product does not depend on the order.
* **C122** `Model/PcFreq.lean` composes the graph, clique, trie and frequency models into the class, with `fit` returning the attributes also when it raises. The law follows from C76 on the space of C50; the statements about histories by case analysis of `fit` and induction over the list of fits.
* **C123** The loop of `generate_candidate_rules` with its real samplers (`learnGen`): expectation of combinations of containment events by induction over the tails, with the tail law (C36) and the head law (C58) at every step; events differ only on outcomes that cannot occur.
* **C124** From C123: the probability of the event is `a^n - b^n` with `0 <= b < a`, where `b` belongs to the rounds that avoid all best rules.
* **C125** `Model/Compare.lean`: scipy's `!=` as the matrix that stores the differing positions, `nnz` of it. The number of stored positions is zero iff all entries agree; sets and predictions by C03, C04 and C14 (a rule with one feature reads one column).
* **C126** Props/Malformed.lean. Each outcome of the first rule generation is followed through `learnGen`: the constructor of the coupling (`headFit_too_long`), the binding of a rule to columns of different lengths (`bind_mismatch`).
* **C127** Theorems `C127_*` (Props/Ideal.lean). `RandR.Discrete` (Spec/Discrete.lean) says that a program has a finite law; it is closed under bind, choice and the exception handling of the samplers, which gives it for the whole fit, including the 1024 rejection rounds and the retry limits. `IdealGreedy` and `leastChance` are in Spec/Ideal.lean. One iteration misses the best rule only if none of its tails brings it (C123), at most `(1 - delta)^n`; a union bound over the iterations gives the finite-sample bound. The guarantee is the exchange argument on the ideal list: a rule not drawable any more has nothing left to cover.
* **C128** `Model/Float` defines rounding to 53 bits (ties to even), numpy's `cumsum`, the compensated sum and tolerance of `RandomState.choice` (numpy 1.23.5, pinned), the binary search, and the sampler on top. Relative error of one rounding at most 2^-53; monotone rounding gives sorted cumulated probabilities ending in exactly 1, so every variate finds an index, and adding a zero weight changes nothing, so covered samples are never drawn. Error bounds by induction over the sums; the share of variates in an interval is within 2^-53 of its length.
* **C129** Model the quotients as the nearest doubles and the two tests on them (`Model/FloatGraph.lean`). Rounding is monotone, and two different fractions that round to the same double would differ by at most 2⁻⁵³ of their sum, which cross-multiplied is less than one, impossible for integers. The tests of the model in exact arithmetic are then the tests in doubles.
* **C130** Model the graph construction with every operation rounded and the two back ends with their precisions (`Model/FloatGraph.lean`). Rounded multiplication on [0,1] never increases and is monotone, so the enumeration theorems for any arithmetic (C49, C121) say which sets are listed. The weight of an edge is within 6·2⁻⁵³ of the exact one and each product adds its own rounding error; induct along the order of the multiplications. An edge of a set whose probability clears the slack survives pruning because it is at least as probable as the set. The example at the threshold is evaluated digit by digit.
* **C131** `Model/FloatObjective.lean` evaluates divergence, distance, sums and objectives with every operation rounded; `rel_entr` is a parameter with an assumed accuracy. Relative errors of the normalised probabilities give the error of the divergence, an induction over the sum gives that of the diversity; the greedy choice is then near-greedy for the exact objective and the exchange argument of C30 is repeated with a slack.
* **C132** `Model/FloatCftp.lean` repeats the coupling in doubles, reading 53-bit numbers from a list. A run that needs longer sequences only prepends draws, so the result after all doublings is the result of one chain of 1024 steps on the same numbers. One step's law is within (p(10p+11)+q(10q+11)+2)/2^53 of the exact one, because each index is chosen with nearly its probability (C128's bounds) and the acceptance ratio has a few roundings; the errors of 1024 steps add up. Averages over sequences factor over blocks.
* **C133** Model/FloatLearner repeats the loop of the learners (Model/Learner) with tailOnceF and headSampleF, the samplers in doubles of C128 and C132, whose 53-bit numbers are drawn uniformly. Lemmas/Near defines when two random programs have nearly the same law and no new outcome, and proves that this is preserved by sequencing, with errors adding; the per-draw errors come from C128 and C132, and the loop is an induction over the fuel. The ideal search: apply the theorem behind C127 to the learner whose objective is in doubles, translate its list with the error bound of C131, and add the distance of the laws. The objective that `fit` reports and the second round, which draw nothing, are computed exactly in this model.
* **C134** Wide rows in the Boley sampler. `Model/FloatBoley.lean` repeats the sampler with doubles that round and overflow to infinity and NaN, and with sums in any order. For rows of at most 511 features no product overflows; the rounded chain is coupled to the exact chain driven by the same generator outputs, and the probability that they ever decide differently is bounded; the exact chain on 53-bit outputs is compared with the exact law as in C132. From 1024 features on a weight is infinite, the proposal distribution is NaN, and numpy rejects it. With at most 995 features products may overflow, but a pair that no pattern separates keeps the ratio 0, so nothing wrong is returned and nothing raises; no claim about the probabilities is made from 512 features on.
* **C135** models update_row_weights as a machine with one step per statement; an invariant identifies every point with a prefix of the pairs in loop order (closed forms of weights and counters from C32); recovery because covering is idempotent, and a shift lemma for the points between the two statements; the machine is proved equivalent to the function model.
* **C136** the points of a call of `sample` are an inductive relation with one rule per assignment (`Model/InterruptCftp`); it is shown equivalent to the program of `Model/Cftp` (returns and exceptions agree), and the consequences of stopping at a point are proved from the lengths of the lists.
* **C137** the points of the loop are an inductive relation with one rule per statement that assigns (`Model/InterruptFit`), nested with the points of `update_row_weights`; it is shown equivalent to `learnRun` (results and exceptions), then the invariant of the loop is carried to every point.
* **C138** `fit` is modelled as a relation of points with the attributes assigned so far (`HeadFitPoint`, `HeadFitRaises`); an invariant describes the object at each point, from which agreement with `headFit`, the unchanged sampling state, the unrepairable state (by induction over later calls) and the harmlessness of the other points follow.
* **C139** Greedy tail sampler in floating point. `Model/FloatGreedyArea.lean` repeats the sampler with doubles, `itertools.accumulate`, `bisect` and the checks of `random.choices`. A drawn index is characterised by the rounded running sums (`Lemmas/FloatChoices.lean`); counting the variates below each sum bounds the error of the law; a summand below 2^-54 of a running sum is absorbed.
* **C140** The CFTP object in doubles is shared with the Boley sampler (C134). Every weight, product and sum is shown to be a number with a bounded relative error; the chain driven by the rounded numbers follows the exact chain except with small probability; the exact law is C58.
* **C141** numpy.random.choice in doubles is the model of C134; its law is shown close to the exact weights for any normalised 64-bit weights. Mixtures of close laws are close; the binomial weights go through any summation tree. The exact laws are C60, C61 and C76. Events are arbitrary sets, so the bounds are in total variation.
* **C142** Model/Plot.lean: a figure is the list of its panels, a panel the list of matrices drawn on it; the screen holds files, open and shown figures. Theorems by the results of C84 and C86 and by evaluating the drawing steps for each combination of panels; matplotlib itself is not modelled
* **C143** Model/Projection.lean with the outcome of the singular value decomposition and the labels of k-means as parameters; C89 gives the clusters and votes, C142 the figure; classes of rows are disjoint, so the last bicluster of a cell is its only one
* **C144** Model/FloatEvaluation.lean repeats the metrics of Model/Evaluation.lean with fl around every conversion, quotient, product and sum, and sums in any order. Counts below 2^53 convert exactly, so quotients of counts are correctly rounded; F1 and the means are bounded with the relative-error calculus RelClose; gaps between different exact scores (multiples of one over the denominators) give the statements on 1.0 and on rankings; doubling a double is exact, hence the symmetry of F1. The reversed relation is a concrete 10x2 example.
* **C145** Model/TailSummary.lean: describe of each column of the report, with the quantile of Model/Quantile.lean. Spec/TailSummary.lean says what a table entry must be in terms of the numbers (place in increasing order by counting, sums); the relations and the uniqueness up to permutation are proved from the specification alone, the counts with C68.
* **C146** `Model/Printing.lean` models the decimal text of integers, the format `.2f` (exact value of the double rounded half to even), `Rule.summary`, the node attributes of the confidence graph and `show_subgraph` with an arbitrary order of edges. `Spec/Printing.lean` says what a decimal numeral is and what the lines look like. Nearest decimals: a quotient of counts below 2^45 that is not a tie is further from a tie than the rounding error of a double. Reading back: maximal blocks of digits are unique.
* **C147** `Model/Abstract.lean` models the base classifier as an object with calls, the abstract sampler, and `ReducedSpaceSampler.fit` as a template over arbitrary steps. Proof by induction on the history and by cases on the steps.
* **C148** Model/FloatTail.lean repeats the three statistics with doubles, on top of the double confidence graph and the unspecified summation order of numpy. Relative-error calculus for closeness; monotone rounding and exact integers for the ranges; the gap 1/rows below a confidence of 1 for the characterisation of a reported 1.0.
* **C149** Model/ReadData.lean adds read_data (after read_csv) to the model of preprocessing, with the CSR form of a table shared with the training pipeline. Proved from C105 and the lemmas on that CSR form.
* **C150** `M[order]` as a matrix; two runs are related by a relation on their states (same rules, supports carried by the permutation, updates that cover the same records, head samplers between calls). The one-step laws of C123 depend on the data only through counts of rows, which the permutation preserves; a coupling lemma for bind carries the relation through candidate generation, choice, update, the loop and the second round by induction, without a bound on the rounds. Exact arithmetic.
* **C151** Same coupling as C150 with the identity permutation and two environments. Samples that use an empty column are singletons without area and without pairs, so they drop out of all sums; the edges of the confidence graph are the same. Rules sort their heads and tails, which removes the traversal order.
* **C152** `Cmp.renumber` replaces every stored column index; `Rule.renumber` renumbers head and tail and sorts them again. Coupling proof as for C150: the confidence graph, the clique probabilities, the sample space, the uncovered areas and the chances of heads and tails are equivariant (`Renamed.*`), bound rules have the same supports (`RTwin.facts`), and the loop keeps corresponding states (`StateRTwin`). `predict` by C14.
* **C153** The coupling of C150 for a map from the rows of the copies to the rows of the data with k rows over each: areas and coverage are multiplied by k, numbers of pairs by k squared, so that all chances, confidences, divergences and distances stay the same and every objective is multiplied by a positive factor, which the maximum does not see.
* **C154** The chosen rule maximises gain + lambd * distance over the candidates (C21), so two choices give two inequalities whose sum orders the distances. For large lambd a bound over the finite set of pairs of candidates. Budget of one: the programs for two values of lambd are equal, as the objective is independent of lambd while no rule is selected, its exceptions always are, and afterwards the loop stops whatever it chose. Rounds: C26 gives the objectives of the rounds as lambd times their diversity.
* **C155** From the trade-off of C154: the repeated rule has gain 0, so its distance must make up for every other candidate's gain; with at most two selected rules the triangle inequality of C09 leaves no room. (1) from the stopping rule (C24). (3) a concrete family of data. (4) the batch has one rule, so the choice is the law of C123 for that batch.
* **C156** Induction over the rules: one iteration selects H -> T with the law of C123 for one tail and one head (C155), and the state after it is again one to which C123 applies; the uncovered area is written in terms of the heads and tails selected so far. At the end: C70's cases for the last iteration.
* **C157** One iteration does not raise with the probability of C123; induction over the at most k + 1 iterations gives (1), Bernoulli's inequality and 1 - x <= exp(-x) the rate; monotonicity of the expectation gives (2); for (3) each of the three flaws yields a tail that occurs and for which not every proposed pair is accepted, so the sum in (2) is less than 1.
* **C158** The best of a batch has objective at most c exactly if all candidates have; this is an event of C123. The rest is arithmetic of powers of L(c)/S <= 1.
* **C159** Props/ManyHeads.lean on top of C123 (law of a batch): the tail law is the C123 law with a set that ignores heads; the limits divide every term by the largest base (1 - q)^n_heads and let every other base tend to 0. The three-row data set threeX/threeY shows a tail without rejections beside a tail with rejections.
* **C160** Props/RaiseThreshold.lean on top of C123 (law of a batch): the sample space shrinks with the threshold (samplesOf_anti), so both laws are sums over the smaller space and differ by the factor of normalisation. The extremes follow from the weights of the graph lying in (0, 1] (C48). Concrete case: pairY, where threshold 2 removes the tail {0, 1}.
* **C161** Spec/Unlabelled.lean states by a placement of the old records among the new ones that only unlabelled records were added. Props/Unlabelled.lean: co-occurrence counts, hence the graph and the probable label sets, and the uncovered areas are equal; the weights of heads split into the pairs whose negative record is old and those where it was added. C161_filter shows that filter_rows_with_no_labels is an instance. Concrete case: threeX/threeY is eyeData with one such record.
* **C162** Spec/Equivalent.lean defines derivability of a rule's label and the record of a head; Props/Equivalent.lean derives everything from C14 (prediction is rule firing): the record of a head fires exactly the rules with a smaller head.
* **C163** Spec/Gap.lean defines when a rule is wholly right, partly wrong or never wrong on records. The label occurrences that are predicted are split into those in the area of some rule (C17) and the others; the redundant rule uses C10 and the derivation relation of C162.
* **C164** Props/Budget.lean compares the two loops iteration by iteration (loop_budget): while fewer than k rules are selected the iterations are the same random program; when k are selected, the smaller budget returns, and every outcome of the greater one extends the same list. The comparison is for expectations of arbitrary functions, from which the two inequalities follow; equality follows from both inequalities for an event and its complement.
* **C165** Props/Tolerance.lean compares the loops of two learners of which one stops later (loop_later), as in C164 but with beginnings of lists instead of a fixed length. The claims are for the first round, as the second one chooses again from all candidates; (3) follows from (1) for the complement, as every execution returns (C22, C83).
* **C166** Compare the stored cells of the prediction (C14) with those of the labels, using the characterisation of support and head support of bound rules; the micro precision is the share of C67.

## Trusted base

* **Kernel and axioms.** Lean's kernel. Every theorem listed in `MANIFEST.json` depends on `propext`,
  `Classical.choice` and `Quot.sound` at most; `AXIOMS.md` says for each theorem which. No axiom is added; there is no `sorry`, `native_decide`
  or `bv_decide`.
* **Reading of the code.** The definitions in `Verif/Model/*` were written from the text of `/repo`; nothing
  checks them mechanically against Python. Each carries the file and lines it models. The semantics of
  Python, numpy and scipy that they rely on is stated in `Verif/Py.lean` and in the comments.
* **Numbers.** Floating point numbers are exact rationals or reals, except in the clique enumeration, where
  the multiplication is arbitrary (C49, C121), and in the weighted draws of the tail sampler, which C128 repeats in
  double precision (without overflow and underflow, which the sizes exclude). C129 and C130 repeat comparisons of
  ratios and the construction of the sample space in doubles and C `float`s, again with unbounded exponents: a
  product that underflows in the program is below any threshold of at least 2⁻¹²⁶ in the model too. That CPython's
  quotient of two integers is correctly rounded and that C `float` products are rounded once per operation is
  trusted. C131 evaluates the objectives in doubles; that `rel_entr` is accurate up to a stated bound is a hypothesis
  of its theorems (met by correctly rounded operations), and `sum` is taken to round after each addition
  (Python 3.12 and later compensate); C133 runs a whole fit with these objectives. C132 repeats the head sampler with
  the tight proposal in doubles, C140 with the original proposal and its square roots (trusted to be correctly rounded). C134 repeats the Boley
  sampler in doubles that overflow to infinity and NaN, with sums in any order, and the pair weights of its ground truth
  in 64-bit integers that wrap around (C59, C134). C139 repeats the greedy tail sampler in doubles that overflow, with
  Python's `random.choices` and `bisect`. Other rounding, `nan` and wrap-around are not modelled; where
  numpy gives `nan` elsewhere the model reports `ZeroDivisionError` and the comment says so. Weights of the form
  `2 ** n` of the other samplers are exact (doubles overflow from 1024 items on).
* **Random numbers.** A random call returns a value with the law documented by numpy: `random.choice`,
  `random.rand`, permutations and shuffles. Uniform real numbers enter through the events
  `u < threshold` only. Seeds are modelled where a property is about seeds (C66, C79, C116); the quality
  of the generator is assumed.
* **Loops that need not end.** Retry loops are modelled by a number of rounds, with the outcome `none`
  ("still running"), so no theorem assumes that they end; laws are then stated in the limit or
  conditionally on having ended.
* **Objects after an exception.** That attributes assigned before an exception stay assigned is modelled
  for `Dataset`, the greedy head samplers, `PCFrequencySampler` and trie nodes.
  Other classes return no object when they raise.

### Modelled

| Code | Files under `Verif/Model` |
| --- | --- |
| `corset/utils.py` | `Sparse`, `Files`, `Mlflow`, `Head`, `Local` |
| `corset/rule.py` | `Rule`, `Printing` |
| `corset/greedy/*` | `Greedy`, `Learner`, `Seeds`, `Abstract` |
| `corset/samplers/surs.py`, `base.py`, `freq.py`, `area.py`, `uncovered_area.py`, `dummy.py` | `Local`, `Uncovered`, `Seeds`, `Dummy`, `Abstract` |
| `corset/samplers/cftp.py`, `boley_cftp.py`, `discrim.py`, `boley_discrim.py` | `Cftp`, `Head`, `Local`, `Batch` |
| `corset/samplers/greedy_area.py`, `cftp_and_greedy.py`, `prune_and_greedy.py` | `GreedyArea`, `GreedyHead`, `GreedyTruth` |
| `corset/samplers/pc.py`, `dfs.pyx`, `assignment.py`, `corset/graph.py` | `Graph`, `PcFreq`, `Trie`, `Printing` |
| `corset/trie/*`, `corset/PRETTI/*` | `Trie`, `TrieHeap` |
| `corset/evaluation.py` | `Evaluation`, `FloatEvaluation`, `TailSummary`, `FloatTail` |
| `corset/data.py`, `corset/utils_data.py` | `Data`, `Load`, `ReadData`, `Preprocess`, `Quantile`, `Arff`, `ArffFiles`, `Synthetic` |
| `corset/exp.py`, `scripts/*` | `Exp`, `Pipeline`, `Tune`, `Scripts` |
| `biclus_viz` (ordering, blocks, pixel matrix, PCV grouping and thresholds; panels of the figure; clustering step and script) | `Biclus`, `Plot`, `Projection` |
| interrupted calls, statement by statement | `Interrupt`, `InterruptCftp`, `InterruptFit`, `InterruptHead` |
| the same in double precision: ratios, sample space, objectives, tail draws, head sampler, whole fit, Boley sampler | `Float`, `FloatGraph`, `FloatObjective`, `FloatCftp`, `FloatLearner`, `FloatBoley`, `FloatGreedyArea`, `FloatOriginal`, `FloatLocal` |

`Rand` and `RandR` are the two monads of random computations.

### Not modelled

* How matplotlib renders a matrix (`biclus_viz.PlotCreator`: only which matrices are drawn on which panel is
  modelled), `viz_utils`, the singular value decomposition and the k-means of PCV (their
  answer is a parameter), the notebooks.
* `pc_auc.py` (does not parse) and `settrie.py` (empty).
* `__repr__` methods, log messages, progress bars, timing columns.
* `pandas.read_csv`, the library `mlrl.testbed` (its answer is a parameter), the number parser of the ARFF
  readers (a parameter), the text form of hyperparameters (a parameter).
* `sklearn` metrics and `train_test_split` are modelled by their documented formulas.
* `ray` and `optuna`: every job gets its own copy of the arguments; order of jobs and choice of trials are
  not modelled. Deleted experiments of mlflow are not modelled; `log_model` is taken to succeed.
* Files: `.`/`..`, symbolic links, permissions, full disks, deletions and reordered writes after a power
  cut are not modelled.
* Tries: aliasing of one node under two parents and `None` as an item are not modelled.
* Data types of numpy buffers (`dfs_v2` on integer weights) are not modelled.
