{"id": "C01", "title": "Conjunctive column query is exact", "statement": "conjunctive_collapse_v2(M, cols) on a CSC matrix returns a boolean vector of length M.shape[0] that is True at row i exactly when every listed column stores an entry in row i; the answer does not depend on the order or repetition of the columns. An empty column list is rejected with AssertionError and a column index >= M.shape[1] with IndexError.", "quantifier": "every well-formed CSC matrix, every list of column indices, every row", "why_tests_cant": "the input space of matrices and column lists is unbounded; tests use 3x3 matrices", "anchors": ["corset/utils.py:conjunctive_collapse_v2"]}
{"id": "C02", "title": "Two conjunctive-query implementations agree", "statement": "On every 0/1 matrix without explicitly stored zeros, conjunctive_collapse (sum of columns equals number of columns) and conjunctive_collapse_v2 (set intersection) return the same vector for every non-empty list of valid columns.", "quantifier": "every 0/1 matrix, every non-empty list of in-range columns", "why_tests_cant": "equivalence of two algorithms over all inputs; the unit tests compare four column lists on one matrix", "anchors": ["corset/utils.py:conjunctive_collapse", "corset/utils.py:conjunctive_collapse_v2"]}
{"id": "C03", "title": "Matrix rows to sets: both converters agree and are exact", "statement": "convert_matrix_to_sets_v2 and convert_matrix_to_sets return, for every row, exactly the set of columns holding a non-zero value, whenever the matrix stores no explicit zeros; when it does store an explicit zero the two functions differ.", "quantifier": "every well-formed sparse matrix", "why_tests_cant": "must hold for all sparsity patterns; the test only tries the identity matrix", "anchors": ["corset/utils.py:convert_matrix_to_sets", "corset/utils.py:convert_matrix_to_sets_v2"]}
{"id": "C04", "title": "Set/matrix conversion round-trips", "statement": "Converting a list of sets over {0..L-1} to a matrix and back gives the same list of sets, and converting a binary matrix to sets and back gives a matrix with the same entries. A set element >= L is rejected.", "quantifier": "every list of sets, every L, every binary matrix", "why_tests_cant": "round-trip law over an unbounded domain", "anchors": ["corset/utils.py:convert_sets_to_matrix", "corset/utils.py:convert_matrix_to_sets"]}
{"id": "C05", "title": "Binding a rule computes its exact supports or rejects it", "statement": "Rule.bind_dataset(X, Y) succeeds exactly when every head feature is in range, head and tail are non-empty, every tail label is in range and at least one row contains the whole head; afterwards head_support, tail_support and support are exactly the rows containing all head features, all tail labels, and both. Otherwise it raises (ValueError for an out-of-range head feature or an unsupported head).", "quantifier": "every pair of binary training matrices, every head and tail (non-negative tail labels)", "why_tests_cant": "all datasets and all rules", "anchors": ["corset/rule.py:Rule.bind_dataset", "corset/rule.py:Rule._check_head", "corset/rule.py:Rule.set_support"]}
{"id": "C06", "title": "Rule statistics are proportions of the same counts", "statement": "For every bound rule precision, recall (when some row carries the tail) and base rate lie in [0,1], support_size = precision * |head support| = recall * |tail support|, and support is contained in both supports.", "quantifier": "every rule successfully bound to any dataset", "why_tests_cant": "numeric range claim over all datasets", "anchors": ["corset/rule.py:Rule.true_positive_rate", "corset/rule.py:Rule.recall", "corset/rule.py:Rule.base_rate"]}
{"id": "C07", "title": "Rule identity ignores item order", "statement": "Two rules compare equal (and hash equally, so a Python set keeps one of them) exactly when their heads are permutations of each other and their tails are permutations of each other.", "quantifier": "every pair of head/tail collections in any iteration order", "why_tests_cant": "quantifies over all orders in which a Python set may be iterated", "anchors": ["corset/rule.py:Rule.__init__", "corset/rule.py:Rule.__eq__", "corset/rule.py:Rule.__hash__"]}
{"id": "C08", "title": "Rule distance is the Jaccard distance of label areas", "statement": "distance(r1, r2) equals 1 - |A1 \u2229 A2| / |A1 \u222a A2| where Ai is the set of (row, label) cells in support \u00d7 tail; it is symmetric, lies in [0,1], is 0 exactly when the areas coincide and 1 exactly when they are disjoint; it raises ZeroDivisionError exactly when both areas are empty.", "quantifier": "every pair of bound rules with duplicate-free tails", "why_tests_cant": "the code computes the union by inclusion-exclusion on sizes; correctness must hold for all overlapping products", "anchors": ["corset/rule.py:jaccard_distance", "corset/rule.py:Rule.distance"]}
{"id": "C09", "title": "Rule distance satisfies the triangle inequality", "statement": "For any three rules whose pairwise distances are defined, distance(r1,r3) <= distance(r1,r2) + distance(r2,r3), so the diversity term is a metric, as the approximation analysis needs.", "quantifier": "every triple of bound rules, with duplicate-free tails", "why_tests_cant": "an inequality over all triples of finite sets", "anchors": ["corset/rule.py:jaccard_distance"]}
{"id": "C10", "title": "Marginal coverage counts exactly the newly covered cells", "statement": "rule.marginal_coverage(refs) is the number of cells of the rule's label area not in the area of any reference rule; it is independent of the order and repetition of refs, lies between 0 and the rule's label area, is the full label area for no refs and 0 when the rule itself is among the refs.", "quantifier": "every rule and every list of reference rules, with duplicate-free tails", "why_tests_cant": "all lists, all orders, all multiplicities", "anchors": ["corset/rule.py:Rule.marginal_coverage", "corset/rule.py:Rule.label_area"]}
{"id": "C11", "title": "Marginal coverage has diminishing returns", "statement": "Adding reference rules never increases a rule's marginal coverage (submodularity of coverage): refs1 contained in refs2 implies marginal_coverage(refs2) <= marginal_coverage(refs1).", "quantifier": "every rule, every pair of nested reference collections", "why_tests_cant": "universally quantified inequality", "anchors": ["corset/rule.py:Rule.marginal_coverage"]}
{"id": "C12", "title": "KL score is finite, non-negative and zero exactly when the rule does not beat the base rate", "statement": "Rule.KL() of any bound rule is a finite non-negative real, and it is 0 exactly when the rule's precision is at most the base rate of its tail; for fixed base rate it is strictly increasing in precision above the base rate.", "quantifier": "every bound rule", "why_tests_cant": "involves the Gibbs inequality over all real pairs and excludes infinities for every dataset", "anchors": ["corset/rule.py:Rule.KL"]}
{"id": "C13", "title": "Pickling a rule keeps its identity", "statement": "Unpickling a pickled rule gives a rule with the same head and tail (hence equal and equally hashed), and carries no dataset; re-binding it to the same data restores every statistic.", "quantifier": "every rule and dataset", "why_tests_cant": "round-trip over all values", "anchors": ["corset/rule.py:Rule.__getstate__", "corset/rule.py:Rule.__setstate__"]}
{"id": "C14", "title": "Prediction is exactly rule firing", "statement": "predict(X)[i, l] is 1 exactly when some selected rule's head is contained in the features of row i and l is in that rule's tail; the shape is (rows of X, number of training labels); a tail label outside the label range makes it raise IndexError exactly when such a rule fires.", "quantifier": "every rule list, every test matrix, every cell", "why_tests_cant": "all rule sets and inputs", "anchors": ["corset/greedy/base.py:GreedyBase.predict"]}
{"id": "C15", "title": "Prediction is monotone, order independent and row local", "statement": "Predictions do not depend on the order or repetition of the selected rules, never lose a label when rules are added or when a row gains features, and row i of the result depends only on row i of the input.", "quantifier": "every rule list, every pair of test matrices", "why_tests_cant": "metamorphic laws over all inputs", "anchors": ["corset/greedy/base.py:GreedyBase.predict"]}
{"id": "C16", "title": "A saved model predicts identically", "statement": "Pickling and unpickling a fitted classifier preserves its parameters, rules, number of labels and features, and predict gives the same result (or the same error) on every input.", "quantifier": "every classifier state, every test matrix", "why_tests_cant": "round-trip over all states", "anchors": ["corset/greedy/base.py:GreedyBase.__getstate__", "corset/greedy/base.py:GreedyBase.__setstate__"]}
{"id": "C17", "title": "Coverage ratio is the covered fraction of label occurrences", "statement": "coverage_ratio() equals |union of the selected rules' label areas| / (number of label occurrences in Y), lies in [0,1], is 0 for no rules, and never decreases when rules are added.", "quantifier": "every binary Y with at least one label, every list of rules bound to it", "why_tests_cant": "the code mutates a copy cell by cell; exactness must hold for all overlaps", "anchors": ["corset/greedy/base.py:GreedyBase.coverage_ratio"]}
{"id": "C18", "title": "Marginal gains telescope to total coverage", "statement": "For rules r1..rk selected in order, the sum of marginal_coverage_ratio(ri | r1..r(i-1)) equals the final coverage_ratio.", "quantifier": "every sequence of rules of any length", "why_tests_cant": "sequences of unbounded length", "anchors": ["corset/greedy/base.py:GreedyBase.marginal_coverage_ratio", "corset/greedy/base.py:GreedyBase.coverage_ratio"]}
{"id": "C19", "title": "Coverage lower-bounds training recall", "statement": "On the training data, every covered label occurrence is predicted, so the micro recall of predict(trn_X) is at least coverage_ratio().", "quantifier": "every dataset and every list of rules bound to it", "why_tests_cant": "relates two independent code paths for all datasets", "anchors": ["corset/greedy/base.py:GreedyBase.predict", "corset/greedy/base.py:GreedyBase.coverage_ratio", "corset/evaluation.py:micro_recall"]}
{"id": "C20", "title": "Candidate generation is bounded, duplicate free and bound", "statement": "generate_candidate_rules returns pairwise distinct rules, at most n_tails_per_iter * n_heads_per_tail of them, each made of a sampled tail and a head sampled for that tail and bound to the training data; any sampler failure (including NoMoreSamples, or a head sampler that gave up and returned None) propagates as an exception and no partial set is returned.", "quantifier": "every sequence of sampler outcomes", "why_tests_cant": "samplers are random; the claim is for every outcome sequence", "anchors": ["corset/greedy/base.py:RuleSampler.generate_candidate_rules"]}
{"id": "C21", "title": "The chosen candidate maximises the objective", "statement": "select_best_candidate returns a member of the candidate set whose objective is >= that of every candidate, whatever the iteration order of the set; it raises ValueError on an empty set.", "quantifier": "every candidate set in every iteration order, every already selected rule list", "why_tests_cant": "set iteration order is unspecified; all orders must work", "anchors": ["corset/greedy/base.py:GreedyBase.select_best_candidate"]}
{"id": "C22", "title": "First fitting round terminates within the coverage budget", "statement": "With n_max_rules unset and tolerance t >= 0, the first round of GreedyDivMax started from an empty selection stops after at most (number of label occurrences)+1 iterations whatever the samplers return, and the number of selected rules k satisfies k * t < 1 when k > 0.", "quantifier": "every dataset, every sampler behaviour, every tolerance >= 0", "why_tests_cant": "termination over all random executions", "anchors": ["corset/greedy/diversity_maximization.py:GreedyDivMax.fit_1st_round", "corset/greedy/diversity_maximization.py:GreedyDivMax.should_stop"]}
{"id": "C23", "title": "The rule budget is respected", "statement": "With n_max_rules = k, GreedyDivMax's first round, GreedyDivMaxV2/V3.fit and GreedySubmod.fit from an empty selection terminate within k+1 iterations, select at most k rules, and select exactly k unless a sampler raised.", "quantifier": "every sampler behaviour, every k", "why_tests_cant": "all random executions", "anchors": ["corset/greedy/divmax_v2.py:GreedyDivMaxV2.fit", "corset/greedy/submod.py:GreedySubmod.fit", "corset/greedy/diversity_maximization.py:GreedyDivMax.fit_1st_round"]}
{"id": "C24", "title": "Every selected rule is a greedy choice that met the stopping test", "statement": "In every completed fit, the i-th selected rule belongs to the i-th candidate batch, maximises the objective relative to the i-1 rules selected before it, and (tolerance mode) newly covers more than the tolerance fraction of the label occurrences. The rules and the objective that fit stores are those of this run.", "quantifier": "every completed execution of the fitting loop", "why_tests_cant": "loop invariant over unbounded executions", "anchors": ["corset/greedy/diversity_maximization.py:GreedyDivMax.fit_1st_round", "corset/greedy/divmax_v2.py:GreedyDivMaxV2.fit"]}
{"id": "C25", "title": "Second round re-selects greedily from all candidates with the same budget", "statement": "fit_2nd_round selects exactly as many rules as the first round, each from the union of all candidate batches and each maximising the objective relative to the ones chosen before it; the same rule may be chosen repeatedly.", "quantifier": "every candidate pool and every first-round result", "why_tests_cant": "loop invariant; the repetition is a corner case tests do not reach", "anchors": ["corset/greedy/diversity_maximization.py:GreedyDivMax.fit_2nd_round"]}
{"id": "C26", "title": "The comparison objective of a selection only measures diversity", "statement": "objective(selected_rules) evaluated on the classifier's own selected rules equals lambda times the sum of pairwise distances: the quality term is always 0, because each rule's marginal coverage is computed against a list that contains it.", "quantifier": "every selection of bound rules", "why_tests_cant": "an algebraic identity over all selections; the test computes the expected value with the same helper and cannot see it", "anchors": ["corset/greedy/diversity_maximization.py:GreedyDivMax.objective", "corset/greedy/diversity_maximization.py:GreedyDivMax.quality_of_rule"]}
{"id": "C27", "title": "fit keeps the round with the larger objective but reports the smaller", "statement": "GreedyDivMax.fit ends with the second round's rules unless the first round's objective is strictly larger, so the kept rules attain max(obj1, obj2); the reported attribute obj is min(obj1, obj2), hence it equals the objective of the kept rules exactly when the rounds tie.", "quantifier": "every outcome of the two rounds", "why_tests_cant": "all real pairs of objectives", "anchors": ["corset/greedy/diversity_maximization.py:GreedyDivMax.fit"]}
{"id": "C28", "title": "Refitting does not start afresh", "statement": "Calling fit again on a classifier that already holds n_max_rules rules (V2/V3/Submod, or the first round of GreedyDivMax) leaves the selected rules unchanged, whatever the new data and samplers, provided the call returns.", "quantifier": "every prior selection of size >= n_max_rules, every new dataset and sampler behaviour", "why_tests_cant": "history property: all second calls", "anchors": ["corset/greedy/divmax_v2.py:GreedyDivMaxV2.fit", "corset/greedy/base.py:GreedyBase.__init__"]}
{"id": "C29", "title": "InsufficientCandidates is raised exactly when nothing was sampled", "statement": "GreedyDivMax.fit raises InsufficientCandidates exactly when the first round ended without any candidate rule having been generated; in that case no rule had been selected either (fresh classifier).", "quantifier": "every sampler behaviour", "why_tests_cant": "all executions", "anchors": ["corset/greedy/diversity_maximization.py:GreedyDivMax.fit_2nd_round"]}
{"id": "C30", "title": "Greedy selection is a constant-factor approximation", "statement": "For a fixed candidate pool and budget k, the list greedily selected by fit_2nd_round with rule quality = kappa * marginal coverage (all candidate KL scores equal kappa >= 0) has 2*kappa*coverage + lambda*diversity at least half that of every k-subset of the pool.", "quantifier": "every pool, every k, every competitor subset, every lambda >= 0", "why_tests_cant": "an approximation bound against all exponentially many subsets", "anchors": ["corset/greedy/diversity_maximization.py:GreedyDivMax.fit_2nd_round", "corset/greedy/diversity_maximization.py:GreedyDivMax.objective_of_rule"]}
{"id": "C31", "title": "GreedySubmod ignores rules that add nothing", "statement": "GreedySubmod's objective of a rule is KL + lambda * marginal coverage if the rule covers something new and 0 otherwise; with lambda >= 0 it is non-negative, and a rule adding nothing is selected only if no candidate scores above 0.", "quantifier": "every rule, every selection", "why_tests_cant": "all inputs", "anchors": ["corset/greedy/submod.py:GreedySubmod.objective_of_rule"]}
{"id": "C32", "title": "Row weights always equal the uncovered area", "statement": "After fitting and any sequence of update_row_weights calls, the weight of row i is the total number of (sample, label) incidences among the samples contained in row i whose label has not been covered for row i by any update so far; weights never go negative.", "quantifier": "every sample space, every history of updates of any length", "why_tests_cant": "history property over unbounded update sequences", "anchors": ["corset/samplers/uncovered_area.py:UncoveredAreaMixin.update_row_weights", "corset/samplers/uncovered_area.py:UncoveredAreaMixin._assign_row_weights"]}
{"id": "C33", "title": "Coverage updates are idempotent and commute", "statement": "Repeating an update changes nothing and the order of updates is irrelevant for the row weights and the sampling distribution.", "quantifier": "every state, every pair of updates, every permutation of a history", "why_tests_cant": "all histories", "anchors": ["corset/samplers/uncovered_area.py:UncoveredAreaMixin.update_row_weights"]}
{"id": "C34", "title": "The sampler's internal consistency check never fires and NoMoreSamples is exact", "statement": "On a freshly fitted sampler with any update history, sampling from a row never raises the 'sum does not equal' exception; it raises NoMoreSamples exactly when every label of every sample of the row is covered; sample_once raises NoMoreSamples exactly when all rows are fully covered.", "quantifier": "every reachable sampler state, every random draw of positive probability", "why_tests_cant": "all histories and all random draws", "anchors": ["corset/samplers/uncovered_area.py:UncoveredAreaMixin._sample_itemset_from_row", "corset/samplers/surs.py:ReducedSpaceSampler.sample_once"]}
{"id": "C35", "title": "A sampled tail is supported and contributes something new", "statement": "Every tail returned by UncoveredAreaSampler.sample_once is a member of the sample space contained in some training row and contains a label not yet covered for that row.", "quantifier": "every reachable sampler state, every random draw of positive probability", "why_tests_cant": "all histories and draws", "anchors": ["corset/samplers/uncovered_area.py:UncoveredAreaMixin._sample_itemset_from_row"]}
{"id": "C36", "title": "Tails are sampled exactly proportionally to uncovered area", "statement": "The probability that sample_once returns sample s is its uncovered area (sum over rows containing s of the number of its labels uncovered for that row) divided by the total uncovered area.", "quantifier": "every reachable sampler state with positive total uncovered area, every sample", "why_tests_cant": "an exact probability; tests only estimate three frequencies", "anchors": ["corset/samplers/uncovered_area.py:UncoveredAreaSampler", "corset/samplers/surs.py:ReducedSpaceSampler.sample_once"]}
{"id": "C37", "title": "Row probabilities always form a distribution", "statement": "row_probas is non-negative and sums to 1 after fit and after every update (uniform when everything is covered), so numpy.random.choice never rejects it.", "quantifier": "every reachable state with at least one row", "why_tests_cant": "all histories", "anchors": ["corset/samplers/uncovered_area.py:UncoveredAreaMixin._update_row_probas"]}
{"id": "C38", "title": "Naive and fast weight updates agree only on first coverage", "statement": "On a freshly fitted sampler the naive and fast updates produce the same weights for any duplicate-free list of rows; repeating the same update, the fast version is unchanged while the naive one keeps decreasing.", "quantifier": "every sample space and update", "why_tests_cant": "equivalence over all inputs plus a counterexample", "anchors": ["corset/samplers/uncovered_area.py:UncoveredAreaMixin.update_row_weights_naive"]}
{"id": "C39", "title": "Refitting a used tail sampler breaks it", "statement": "UncoveredAreaSampler.fit does not clear the update history: after refitting (on any data), sampling from a row raises the consistency exception exactly when the (sample, label) incidences of the row covered by the earlier updates exceed numpy's closeness tolerance; in particular always when an earlier update had touched the row with a label of one of the row's samples and the row's weight is below 99999, and then sample_once raises it with positive probability.", "quantifier": "every sample space, every non-trivial earlier history", "why_tests_cant": "history property", "anchors": ["corset/samplers/uncovered_area.py:UncoveredAreaSampler.fit"]}
{"id": "C40", "title": "Trie-based assignment equals naive assignment", "statement": "For every list of distinct non-empty samples, the Trie-based assignment gives each row exactly the ids of the samples contained in it, the same set as the naive assignment and with no id twice.", "quantifier": "every sample space, every data matrix", "why_tests_cant": "equivalence of an indexed algorithm and a scan for all inputs", "anchors": ["corset/samplers/assignment.py:TrieSampleAssignmentMixin", "corset/samplers/assignment.py:NaiveSampleAssignmentMixin"]}
{"id": "C41", "title": "PRETTI assignment equals naive assignment", "statement": "For every list of samples over valid columns (duplicates and empty samples included) and every matrix without stored zeros, the PRETTI trie assignment produces exactly the same lists of ids as the naive assignment. For arbitrary samples and matrices it raises IndexError exactly when an item lies outside -L..L-1 (L columns), and otherwise lists for each row, in increasing order, the ids of the samples all of whose items name a column (negative items count from the end) holding a non-zero value in the row.", "quantifier": "every sample space, every matrix, every frequency order", "why_tests_cant": "the trie is built on the fly and shares nodes; equality must hold for every insertion history", "anchors": ["corset/samplers/assignment.py:PRETTISampleAssignmentMixin", "corset/PRETTI/PRETTI_Trie.py:PTrie.ProcessRecord"]}
{"id": "C42", "title": "Set trie exact search", "statement": "After inserting any sequence of sets, search(q) is True exactly when q is non-empty and is one of the inserted sets.", "quantifier": "every insertion sequence, every query", "why_tests_cant": "all histories", "anchors": ["corset/trie/_trie.py:SetTrie.search", "corset/trie/_trie.py:_trie_insert"]}
{"id": "C43", "title": "Set trie subset search", "statement": "After insert_batch, search_subsets(q) returns exactly the inserted non-empty sets that are contained in q (as sorted tuples).", "quantifier": "every sequence of batches, every query", "why_tests_cant": "all histories and queries", "anchors": ["corset/trie/_trie.py:SetTrie.search_subsets"]}
{"id": "C44", "title": "Set trie superset search", "statement": "After insert_batch, search_supersets(q) for non-empty q returns exactly the inserted sets that contain q; the early break never loses a result; an empty query raises ValueError.", "quantifier": "every sequence of batches, every query", "why_tests_cant": "the pruning and break must be sound for all tries", "anchors": ["corset/trie/_trie.py:_trie_search_supersets"]}
{"id": "C45", "title": "Trie content is independent of insertion order and repetition", "statement": "Inserting the same collection of sets in any order, with any repetitions, gives tries that compare equal, and insertion of a set never raises.", "quantifier": "every permutation of every insertion sequence", "why_tests_cant": "all permutations", "anchors": ["corset/trie/_trie.py:SetTrie.insert", "corset/trie/node.py:Node.__eq__"]}
{"id": "C46", "title": "Binary search is correct", "statement": "binary_search(arr, x) on a sorted list returns an index holding x if x occurs and -1 otherwise, and always terminates.", "quantifier": "every strictly increasing list and every x", "why_tests_cant": "all lengths", "anchors": ["corset/trie/utils.py:binary_search"]}
{"id": "C47", "title": "Confidence graph is exactly co-occurrence confidence", "statement": "The confidence graph has an edge u->v (u != v) exactly when some row contains both labels, so edges are bidirectional, and its weight is |rows(u) \u2229 rows(v)| / |rows(u)|, in (0,1].", "quantifier": "every binary label matrix", "why_tests_cant": "all matrices", "anchors": ["corset/graph.py:construct_confidence_graph"]}
{"id": "C48", "title": "Connectivity graph conversion never fails and combines probabilities correctly", "statement": "For a confidence graph the undirected conversion never raises KeyError; the edge set is the symmetric one and each weight is 1-(1-p)(1-q), which lies in (0,1] and is at least both directed weights.", "quantifier": "every binary label matrix", "why_tests_cant": "all matrices", "anchors": ["corset/graph.py:convert_to_connectivity_graph"]}
{"id": "C49", "title": "Probable-clique enumeration is sound, complete and duplicate free", "statement": "enumerate_probable_cliques returns every single node and exactly those larger node sets that are cliques whose product of edge probabilities is at least alpha, each once, as an increasing tuple, with its probability when requested.", "quantifier": "every graph with weights in [0,1], every alpha, every neighbour iteration order", "why_tests_cant": "exponentially many cliques, unbounded graphs", "anchors": ["corset/samplers/pc.py:enumerate_probable_cliques", "corset/samplers/pc.py:dfs", "corset/samplers/dfs.pyx:dfs_v2_aux"]}
{"id": "C50", "title": "Edge pruning does not change the sample space", "statement": "Removing edges lighter than alpha before enumeration leaves the set of probable cliques unchanged.", "quantifier": "every graph with weights in [0,1], every alpha", "why_tests_cant": "equivalence over all graphs; the test uses one", "anchors": ["corset/samplers/pc.py:prune_edges", "corset/samplers/pc.py:PCSampleSpaceConstructor"]}
{"id": "C51", "title": "Sample space is monotone in the threshold and closed under subsets", "statement": "Lowering alpha only adds cliques, and every non-empty subset of a probable clique is itself enumerated.", "quantifier": "every graph, every pair of thresholds, every clique", "why_tests_cant": "all graphs", "anchors": ["corset/samplers/pc.py:enumerate_probable_cliques"]}
{"id": "C52", "title": "Sampled cliques are cliques and sampling terminates", "statement": "sample_clique returns a sorted tuple containing the start node in which every two nodes are joined (in order of addition), after at most as many iterations as nodes, for every sequence of random draws.", "quantifier": "every digraph without self loops, every random execution", "why_tests_cant": "termination and safety over all random draws", "anchors": ["corset/graph.py:sample_clique", "corset/graph.py:forms_clique"]}
{"id": "C53", "title": "CFTP result is stable under extending the horizon", "statement": "If backward simulation over a list of draws ends in a pair, then prepending any older draws leaves the result unchanged; so a returned sample does not depend on when the doubling loop stopped.", "quantifier": "every list of draws and every older prefix, every dominated weighting", "why_tests_cant": "all random executions", "anchors": ["corset/samplers/cftp.py:CFTP.simulate_backwards", "corset/samplers/cftp.py:CFTP.add_data", "corset/samplers/boley_cftp.py:BoleyCFTP"]}
{"id": "C54", "title": "CFTP coalescence", "statement": "If backward simulation from the undetermined state ends in a pair, then the same draws started from any valid pair end in that same pair.", "quantifier": "every list of draws, every start pair", "why_tests_cant": "all random executions", "anchors": ["corset/samplers/cftp.py:CFTP.simulate_backwards"]}
{"id": "C55", "title": "CFTP samples pairs exactly proportionally to discriminativity", "statement": "The probability that CFTP.sample returns (p, n) is |D_p \\ D_n| / sum over all pairs, times the probability of not giving up within max_iters; conditionally on success the sample is exact.", "quantifier": "every dataset, every split into positives and negatives with a discriminative pair, every pair", "why_tests_cant": "exact probability over a continuous random source; tests only estimate frequencies to 10%", "anchors": ["corset/samplers/cftp.py:CFTP.sample", "corset/samplers/discrim.py:CFTPDiscriminativitySampler.get_ground_truth_proba_for_pairs"]}
{"id": "C56", "title": "A CFTP pair is one positive and one negative record that can be separated", "statement": "Every pair returned by CFTP.sample consists of a positive and a negative record with D_p \\ D_n non-empty, so the following random.choice never fails; the horizon lists have equal length, never exceed max_iters, and are empty again after every call that ran.", "quantifier": "every random execution", "why_tests_cant": "all random draws", "anchors": ["corset/samplers/cftp.py:CFTP.sample", "corset/samplers/discrim.py:CFTPDiscriminativitySampler.sample_once"]}
{"id": "C57", "title": "Proposal weights dominate target weights", "statement": "For the tight, original and Boley proposals the proposal weight of every pair is at least its true weight, which is what makes the undetermined start state an upper bound.", "quantifier": "every pair of records", "why_tests_cant": "inequalities over all sets", "anchors": ["corset/samplers/discrim.py:CFTPDiscriminativitySampler._compute_weight_dict", "corset/samplers/boley_discrim.py:BoleyCFTPDiscriminativitySampler._compute_weight_dict"]}
{"id": "C58", "title": "Heads are sampled exactly proportionally to discriminativity", "statement": "The probability that CFTPDiscriminativitySampler.sample_once returns sample s equals get_ground_truth_proba_for_samples()[s] times the success probability: proportional to the number of (positive, negative) record pairs where s is in the positive and not in the negative record. Sampling before the first fit raises AttributeError.", "quantifier": "every dataset and every sample", "why_tests_cant": "exact probability", "anchors": ["corset/samplers/discrim.py:CFTPDiscriminativitySampler.sample_once", "corset/samplers/discrim.py:CFTPDiscriminativitySampler.get_ground_truth_proba_for_samples"]}
{"id": "C59", "title": "Boley discriminative sampler draws patterns exactly proportionally to discriminativity", "statement": "The probability that BoleyCFTPDiscriminativitySampler.sample_once returns pattern F is proportional to the number of (positive, negative) row pairs with F contained in the positive and not in the negative row; F is never empty.", "quantifier": "every binary matrix and label vector, every pattern", "why_tests_cant": "exact probability", "anchors": ["corset/samplers/boley_discrim.py:BoleyCFTPDiscriminativitySampler.sample_once", "corset/samplers/boley_cftp.py:BoleyCFTP"]}
{"id": "C60", "title": "Boley area sampler is exact", "statement": "BoleyAreaSampler.sample_once returns itemset F with probability |F| * support(F) / sum over all itemsets of the same, and never returns an empty set.", "quantifier": "every binary matrix with a non-empty row whose total area is below 2^63 (beyond that the 64-bit weights wrap around, C75), every itemset", "why_tests_cant": "exact probability", "anchors": ["corset/samplers/area.py:BoleyAreaSampler"]}
{"id": "C61", "title": "Boley frequency sampler is exact", "statement": "BoleyFrequencySampler.sample_once returns non-empty itemset F with probability support(F) / sum over non-empty itemsets of support, conditionally on the retry loop having finished.", "quantifier": "every binary matrix with a stored entry whose total support is below 2^63 (beyond that the 64-bit weights wrap around, C75), every itemset, every number of retries", "why_tests_cant": "exact probability over an unbounded retry loop", "anchors": ["corset/samplers/freq.py:BoleyFrequencySampler"]}
{"id": "C62", "title": "Random subset drawing is uniform", "statement": "draw_bernoulli_elementwise(S) returns each (non-empty) subset of S with equal probability; with exclude_empty on an empty S it never returns.", "quantifier": "every set S, every subset, every number of retries", "why_tests_cant": "exact probability", "anchors": ["corset/utils.py:draw_bernoulli_elementwise"]}
{"id": "C63", "title": "Powerset enumeration is complete and duplicate free", "statement": "powerset(S) yields every (non-empty) subset of S exactly once.", "quantifier": "every duplicate-free list S", "why_tests_cant": "exponential domain", "anchors": ["corset/utils.py:powerset"]}
{"id": "C64", "title": "Counts to probabilities", "statement": "counter2proba returns values in [0,1] summing to 1 and proportional to the counts whenever the total is positive, and raises ZeroDivisionError when keys exist but the total is 0.", "quantifier": "every counter of non-negative counts", "why_tests_cant": "all counters", "anchors": ["corset/utils.py:counter2proba"]}
{"id": "C65", "title": "Train/test split mirrors instead of complementing", "statement": "shuffle_split_data returns as test rows exactly the mirror images n-1-i of the drawn training indices i (with repetitions), so train and test have the same size and a test row can also be a training row.", "quantifier": "every matrix size and every drawn index list", "why_tests_cant": "all draws", "anchors": ["corset/utils_data.py:shuffle_split_data"]}
{"id": "C66", "title": "Seeded batch sampling is reproducible but cycles", "statement": "Sampler.sample(k) with a fixed random_state returns the same list on every call, sample(k) is a prefix of sample(k+m), and the stream of per-sample seeds is eventually periodic with pre-period plus period at most 100000.", "quantifier": "every sampler whose sample_once reseeds, every seed, every k", "why_tests_cant": "history property for unbounded k", "anchors": ["corset/samplers/base.py:Sampler.sample"]}
{"id": "C67", "title": "Evaluation metrics are consistent", "statement": "For all prediction/ground-truth matrices of equal shape all eight reported metrics lie in [0,1] and equal 1 on perfect predictions; swapping predictions and ground truth exchanges precision and recall and leaves hamming accuracy, subset accuracy and F1 unchanged; subset accuracy never exceeds hamming accuracy.", "quantifier": "every pair of equally shaped binary matrices", "why_tests_cant": "all matrices", "anchors": ["corset/evaluation.py:Evaluator.report"]}
{"id": "C68", "title": "Tail evaluator statistics are exact", "statement": "TailEvaluator.support_size/area/frequency are the number of training rows containing the tail, that times its length, and that over the number of rows; edge_density = edge_ratio * (|S|-1).", "quantifier": "every dataset and every tail", "why_tests_cant": "all inputs", "anchors": ["corset/evaluation.py:TailEvaluator", "corset/utils.py:support_size"]}
{"id": "C69", "title": "Configured hyperparameters reach the classifier", "statement": "create_greedy_clf_from_config_by_version(config, version) builds a classifier whose every hyperparameter is the configured value when the config has that key and the documented default otherwise; versions other than v2 and v3 are rejected.", "quantifier": "every configuration dictionary and version string", "why_tests_cant": "all configurations", "anchors": ["corset/exp.py:create_greedy_clf_from_config_by_version"]}
{"id": "C70", "title": "End-to-end: candidate heads always have support", "statement": "In GreedyCFTPDivMax(V2/V3), every candidate rule built from a tail sampled by UncoveredAreaSampler and a head sampled by CFTPDiscriminativitySampler for that tail has at least one supporting row, so bind_dataset never rejects its head and no pairwise distance divides by zero; a tail carried by every training row makes the head sampler's fit raise AssertionError.", "quantifier": "every dataset, every reachable sampler state, every random draw", "why_tests_cant": "crosses four modules for all random executions", "anchors": ["corset/greedy/base.py:RuleSampler.generate_candidate_rules", "corset/samplers/discrim.py:CFTPDiscriminativitySampler", "corset/rule.py:jaccard_distance"]}
{"id": "C71", "title": "The two clique enumeration back ends agree", "statement": "enumerate_probable_cliques with backend 'dfs' and with backend 'dfs_v2' return the same tuples with the same probabilities (up to order when sets are traversed differently), in the same arithmetic, on graphs whose nodes are 0..n-1 with n > 0. On a graph without nodes 'dfs' returns an empty list and 'dfs_v2' raises. Any other backend is a ValueError.", "quantifier": "every graph, every threshold, every set traversal order", "why_tests_cant": "The space of weighted graphs and of hash orders is infinite, and disagreement would show only for particular missing edges or thresholds.", "anchors": ["corset/samplers/pc.py:enumerate_probable_cliques", "corset/samplers/pc.py:dfs", "corset/samplers/dfs.pyx:dfs_v2_aux"]}
{"id": "C72", "title": "subgraph_stat never reports a non-clique", "statement": "For distinct nodes of a digraph without self loops subgraph_stat either raises KeyError, when some ordered pair is not an edge, or returns the number of nodes, the sum of the weights of all ordered pairs over the number of nodes, and is_clique True; it never returns is_clique False.", "quantifier": "every digraph without self loops and every list of distinct nodes", "why_tests_cant": "A test can only show the flag for particular graphs; that the flag carries no information is a statement about all of them.", "anchors": ["corset/graph.py:subgraph_stat"]}
{"id": "C73", "title": "Refitting the head sampler keeps the first matrix's sample space", "statement": "Once CFTPDiscriminativitySampler.fit has succeeded, every later fit reuses the sample space and the row-to-sample assignment built from the first feature matrix; the matrix passed later matters only through its number of rows, so refitting with other features gives the very same sampler.", "quantifier": "every fitted sampler, every later matrix and label vector", "why_tests_cant": "A test can show staleness for chosen matrices; that nothing of the later matrix is ever used is a statement about all of them.", "anchors": ["corset/samplers/discrim.py:CFTPDiscriminativitySampler.fit", "corset/samplers/discrim.py:CFTPDiscriminativitySampler.build_sample_space_and_generate_rows"]}
{"id": "C74", "title": "Requesting CFTP details", "statement": "With return_cftp_details=True, sample_once on a fitted head sampler draws the same distribution as without details, and attaches a number of iterations that is a power of two not exceeding max_iters; when the sampler gives up it returns None alone; when the proposal weights of one side sum to zero it raises TypeError, because the underlying sampler returns a bare None that is unpacked; with max_iters below one CFTP.sample with details raises UnboundLocalError.", "quantifier": "every fitted sampler, every random draw", "why_tests_cant": "Giving up is a rare random event that a test does not hit on demand, and the set of possible outcomes ranges over all draw sequences.", "anchors": ["corset/samplers/discrim.py:CFTPDiscriminativitySampler.sample_once", "corset/samplers/cftp.py:CFTP.sample"]}
{"id": "C75", "title": "Rows with 64 or more labels are never drawn by the frequency sampler", "statement": "The frequency sampler computes 2^|row| in 64-bit integers. A row with 64 or more labels therefore gets weight zero and is never drawn, a row with exactly 63 labels gets a negative weight, and if every row has at least 64 labels no sample can be drawn (ValueError). The area sampler's weight |row|*2^(|row|-1) vanishes or changes sign in the same way.", "quantifier": "every label matrix with at least one such row", "why_tests_cant": "The effect is silent: the sampler keeps returning valid-looking itemsets, and which rows are lost depends on sizes no test data reach.", "anchors": ["corset/samplers/freq.py:BoleyFrequencySampler.fit", "corset/samplers/area.py:BoleyAreaSampler.fit"]}
{"id": "C76", "title": "Frequency sampling in a reduced sample space is exact", "statement": "SURSFrequencySampler draws an itemset of its sample space with probability proportional to the number of rows that contain it; itemsets contained in no row are never drawn, and if no row contains any itemset sampling raises ValueError.", "quantifier": "every sample space, every assignment of samples to rows and every random draw", "why_tests_cant": "A distribution over all inputs; a test estimates it on one input.", "anchors": ["corset/samplers/surs.py:ReducedSpaceSampler.sample_once", "corset/samplers/freq.py:SURSFrequencySamplerMixin"]}
{"id": "C77", "title": "Dropping unlabelled rows keeps features and labels aligned", "statement": "filter_rows_with_no_labels keeps exactly the rows with at least one label, in order, with their features and labels unchanged. It does not compare the lengths of the two matrices: if they differ it raises IndexError exactly when a labelled row lies beyond the feature matrix.", "quantifier": "every feature matrix and 0/1 label matrix", "why_tests_cant": "All matrices.", "anchors": ["corset/utils.py:filter_rows_with_no_labels"]}
{"id": "C78", "title": "Data set objects split and report what they were given", "statement": "Dataset.set_data accepts four matrices exactly when their shapes agree and, if a development split is requested, the ratio leaves both parts non-empty; it then holds the given test data and either the given training data or a partition of its rows into a training part of floor(ratio*n) rows and a development part of the rest, with features and labels kept together. Which rows go where depends only on n and the ratio. shape reports the resulting sizes; ndev is missing without a split. When set_data raises (AssertionError on shapes, ValueError on the ratio) the new unsplit data is already in place next to the old development data. Calling the split again splits the already split training part.", "quantifier": "every data set object, matrices and ratio", "why_tests_cant": "All sizes and ratios, and the state after each failure.", "anchors": ["corset/data.py:Dataset.set_data", "corset/data.py:Dataset.shape", "corset/data.py:Dataset.ndev"]}
{"id": "C79", "title": "Tail sampling without a seed cannot be made reproducible by the caller", "statement": "A sampler call without a seed re-seeds the generator from the operating system, so its result does not depend on the state in which numpy's global generator was left: the tails drawn in a fitting run are a function of the entropy read and of how many items were read before, not of any np.random.seed (or random_state) the caller set.", "quantifier": "every generator, sampler body, generator state, number of calls and code run between the calls", "why_tests_cant": "Absence of an influence for all states.", "anchors": ["corset/samplers/surs.py:ReducedSpaceSampler.sample_once", "corset/samplers/base.py:Sampler.sample"]}
{"id": "C80", "title": "Which parameter changes take effect", "statement": "set_params with constructor parameter names sets exactly these attributes (the last assignment wins), and raises ValueError on any other name. Changing min_feature_proba or min_label_proba of a GreedyCFTPDivMaxV2 (or V3) after construction changes the attribute but not the thresholds used by fit; cloning the changed classifier does apply them. After pickling and unpickling, a GreedyCFTPDivMaxV2 (or V3) keeps its parameters but has no samplers, so fit raises AttributeError, whereas a GreedyDivMaxV2 keeps its samplers.", "quantifier": "every parameter value and every list of assignments", "why_tests_cant": "All values and assignment sequences.", "anchors": ["corset/greedy/divmax_v2.py:GreedyCFTPDivMaxV2", "corset/greedy/base.py:GreedyBase"]}
{"id": "C81", "title": "The learners stop early only when there is nothing worthwhile left to cover", "statement": "If GreedyCFTPDivMaxV2.fit or GreedyCFTPDivMaxV3.fit on a new classifier returns fewer than n_max_rules rules, every label occurrence of the training data is covered and the coverage ratio is 1. With n_max_rules unset, the first round of GreedyCFTPDivMax.fit leaves label occurrences uncovered only if the best candidate of its last batch would newly cover at most the tolerance share of all label occurrences.", "quantifier": "every dataset, every parameter setting, every random draw", "why_tests_cant": "an early stop is a rare random event whose cause is invisible from outside", "anchors": ["corset/greedy/divmax_v2.py:GreedyDivMaxV2.fit", "corset/greedy/diversity_maximization.py:GreedyDivMax.fit_1st_round", "corset/samplers/uncovered_area.py:UncoveredAreaSampler"]}
{"id": "C82", "title": "Fitting the same classifier twice can crash", "statement": "After a call of fit on a new GreedyCFTPDivMaxV2 or V3 (or a first round of GreedyCFTPDivMax) that selected a rule, calling fit again on the same object and the same data raises the tail sampler's consistency Exception in some execution, provided the probable label sets carried by a row supporting the rule have together at most 99999 elements (always so when no row has more than 12 labels).", "quantifier": "every dataset, every parameter setting of either call, every outcome of the first call", "why_tests_cant": "the crash depends on which row the second call happens to draw", "anchors": ["corset/greedy/divmax_v2.py:GreedyDivMaxV2.fit", "corset/samplers/uncovered_area.py:UncoveredAreaSampler.fit", "corset/samplers/uncovered_area.py:UncoveredAreaSampler.sample_itemset_from_row"]}
{"id": "C83", "title": "For which data fit can raise, and for which it never does", "statement": "fit of a new GreedyCFTPDivMaxV2, V3 or GreedyCFTPDivMax raises TypeError in some execution exactly when two training rows share a feature while some label is carried by only one of them, or some probable label set occurs in some but not all rows and only in rows without features. Together with C70: fit of V2 and V3 returns in every execution exactly when in addition no label is carried by every row, and otherwise some execution raises.", "quantifier": "every dataset, every parameter setting with at least one tail and one head per iteration, every random draw", "why_tests_cant": "the failing executions can be arbitrarily rare, so that a test suite that passes says nothing about them", "anchors": ["corset/greedy/base.py:generate_candidate_rules", "corset/samplers/cftp.py:CFTP.sample", "corset/samplers/discrim.py:CFTPDiscriminativitySampler.sample_once", "corset/greedy/divmax_v2.py:GreedyDivMaxV2.fit"]}
{"id": "C84", "title": "The bicluster viewer shows every row and column exactly once", "statement": "Constructing a BlockBlockMatrix raises (an IndexError) exactly when some non-empty left cluster has no right counterpart, and otherwise keeps the pairs of which neither is empty. Before and after order(), if all cluster indices lie in the matrix, the row and column orders list each row and each column exactly once, the rows of a block are next to each other, rows in no cluster come last in increasing order, and the matrix returned is the original one in these orders; if some index lies outside, showing the matrix raises IndexError.", "quantifier": "every list of clusters (repeated, overlapping, nested, empty), every matrix, every outcome of the initial shuffles", "why_tests_cant": "row orders depend on shuffles and on the overlap structure of the clusters; a lost or doubled row shows up only for some of them", "anchors": ["biclus_viz/PlotCreator.py:BlockBlockMatrix.__init__", "biclus_viz/PlotCreator.py:BlockBlockMatrix.getLeftPermutation", "biclus_viz/PlotCreator.py:BlockBlockMatrix.getRightPermutation", "biclus_viz/PlotCreator.py:BlockBlockMatrix.adviser", "biclus_viz/PlotCreator.py:BlockBlockMatrix.returnOriginalMatrix"]}
{"id": "C85", "title": "Blocks are the classes of indices with the same clusters", "statement": "createBlocks returns non-empty, pairwise disjoint lists without repetition whose union is the set of clustered indices; every cluster is a union of blocks; and if clusters do not repeat an index, two clustered indices share a block exactly when they belong to the same clusters. createBlockedClusters lists for each cluster, in increasing order, the numbers of the blocks inside it, and every index of the cluster is in exactly one of them.", "quantifier": "every list of clusters", "why_tests_cant": "there are exponentially many overlap patterns", "anchors": ["biclus_viz/PlotCreator.py:createBlocks"]}
{"id": "C86", "title": "What the cluster and block pictures show", "statement": "If all cluster indices lie in the matrix, the cluster picture shows in each cell one plus the number of the last kept bicluster that contains the displayed row and column, and zero if there is none. The block picture is nonzero in exactly the same cells, and its value encodes the parities of the positions of the row block and of the column block.", "quantifier": "every list of clusters, every matrix, before and after order(), every outcome of the shuffles", "why_tests_cant": "overlapping biclusters are painted over each other in an order that depends on the input", "anchors": ["biclus_viz/PlotCreator.py:BlockBlockMatrix.plotMatrix", "biclus_viz/PlotCreator.py:BlockBlockMatrix.createBlockBlockAdj"]}
{"id": "C87", "title": "The rounding threshold separates the two densities; the vote is exact", "statement": "For 0 < q < p < 1, roundingThreshold(p, q) is defined and lies strictly between q and p. BinaryMajorityVoteSingleCluster returns exactly the columns of which more than the given share of entries is not zero, each once.", "quantifier": "all densities, all matrices, all thresholds", "why_tests_cant": "an inequality over the reals; no finite sample of p, q settles it", "anchors": ["biclus_viz/includes/pcv/Heuristic.py:roundingThreshold", "biclus_viz/includes/pcv/MajorityVote.py:BinaryMajorityVoteSingleCluster"]}
{"id": "C88", "title": "The density grid search returns a first best fit", "statement": "estimatePQ never raises on parameters in (0,1); it returns the first pair with q < p of smallest discrepancy |p - density inside| + |q - density outside|, together with the columns voted at its threshold; if no pair has q < p it returns 1, 0 and no columns. On 0/1 matrices the columns chosen have density above the threshold and the rest have density at most the threshold.", "quantifier": "all grids, all matrices", "why_tests_cant": "minimality and tie-breaking range over every matrix", "anchors": ["biclus_viz/includes/pcv/Heuristic.py:estimatePQ", "biclus_viz/includes/pcv/Heuristic.py:estimatePQSingleCluster"]}
{"id": "C89", "title": "PCV returns usable biclusters for every labelling", "statement": "Whatever labels k-means assigns to the rows, PCV returns: the row clusters partition the rows by label, each is paired with the vote on its rows (at a threshold between two grid parameters with the heuristic, which ignores the threshold passed; at the threshold passed without), and BlockBlockMatrix accepts the result, with all indices in the matrix.", "quantifier": "every matrix, every labelling, every threshold, both heuristics settings, every shuffle", "why_tests_cant": "k-means and the shuffles are random", "anchors": ["biclus_viz/includes/pcv/PCV.py:PCV", "biclus_viz/includes/pcv/ProjCluster.py:kmeans", "biclus_viz/includes/pcv/MajorityVote.py:BinaryMajorityVote"]}
{"id": "C90", "title": "How order() arranges the blocks", "statement": "On clusters without repeated indices, order() changes only the two block orders. Blocks are placed by decreasing total area of their biclusters, ties by number; the first two in that order, each later one at the end, at the front or in a gap other than the first whose neighbours are no more similar to each other than to it, where its similarity to the better neighbour is highest, with ties to the end, then the front, then the earliest gap. Hence of three blocks the strictly least important one is never displayed between the others, however similar it is to both.", "quantifier": "every list of clusters without repetition, every matrix, every shuffle", "why_tests_cant": "the order depends on all pairwise similarities", "anchors": ["biclus_viz/PlotCreator.py:BlockBlockMatrix.adviser", "biclus_viz/PlotCreator.py:BlockBlockMatrix.sortSet", "biclus_viz/PlotCreator.py:BlockBlockMatrix.jacc", "biclus_viz/PlotCreator.py:BlockBlockMatrix.importanceScore"]}
{"id": "C91", "title": "Selected rules respect both probability thresholds", "statement": "Every rule that a new GreedyCFTPDivMaxV2, V3 or GreedyCFTPDivMax holds after fit (and, for the latter, every rule of either round) joins a feature set that is a single feature or a clique of probability at least min_feature_proba in the confidence graph of the training features with a label set that is a single label or a clique of probability at least min_label_proba in the confidence graph of the training labels.", "quantifier": "all 0/1 training matrices, thresholds, parameters and random draws", "why_tests_cant": "rules are drawn at random from exponentially large spaces; a test sees a few draws on a few data sets", "anchors": ["corset/greedy/divmax_v2.py:GreedyCFTPDivMaxV2", "corset/greedy/diversity_maximization.py:GreedyCFTPDivMax", "corset/samplers/surs.py:ReducedSpaceSampler.fit"]}
{"id": "C92", "title": "Fitting again keeps the rules already held", "statement": "Whenever fit of GreedyDivMaxV2 or V3 returns, the rules the object held before the call are still held, in the same order, followed by the rules added. In GreedyDivMax the same is true of its first round; its second round replaces them by as many rules taken from the candidates of this call only. Fitting on data without labels changes nothing but obj, which becomes the objective of the rules held.", "quantifier": "all classifier objects (any history), data, parameters and random draws", "why_tests_cant": "it ranges over all histories of an object and all random executions", "anchors": ["corset/greedy/divmax_v2.py:GreedyDivMaxV2.fit", "corset/greedy/diversity_maximization.py:GreedyDivMax.fit"]}
{"id": "C93", "title": "Co-occurrence counts", "statement": "compute_frequencies(X, Y) raises IndexError if Y has fewer rows than X. Otherwise, whatever order Python visits its sets in, the counts it returns are exact over the rows of X: for two different labels (attributes) the number of rows with both, for a label and an attribute the number of rows with both, for a label its number of rows; and the formatted dictionary has one entry for each label that shares a row with an attribute, listing exactly these attributes with their counts, by increasing count.", "quantifier": "all matrices and all set iteration orders", "why_tests_cant": "counts must be right for every matrix and independent of the hash order of sets", "anchors": ["corset/samplers/greedy_area.py:compute_frequencies"]}
{"id": "C94", "title": "Law of the greedy tail sampler", "statement": "For 0/1 labels with at least one 1, GreedyAreaSampler.sample_once draws row i with probability proportional to m_i 2^(m_i - 1) (m_i its number of labels), a size k in 1..m_i with probability (k-1)/(m_i choose 2), a uniform first label, and returns the k labels of a greedy run: each added label is at least as well linked (smallest number of shared rows with those already chosen) as any other label of the row. So a single label is returned only for a row with exactly one label; from Python 3.9 on such a row raises ValueError instead, with probability the number of such rows over the total weight. Without labels: ValueError (3.9+), a pair of empty sets instead of a set (3.8), IndexError without rows.", "quantifier": "all label matrices, attribute matrices, set iteration orders and draws", "why_tests_cant": "a law over random draws for every data set", "anchors": ["corset/samplers/greedy_area.py:GreedyAreaSampler"]}
{"id": "C95", "title": "Sparse ARFF files are read back cell by cell", "statement": "For a sparse ARFF file with a well-formed header and body, read_data_arff_sparse returns one row per data line; a cell is 1 exactly when its column is listed on the line (whatever value is listed, even 0); the last n_labels columns are the labels and all others the features; the label names are the last n_labels declared names (all names when n_labels is 0). A blank or '{}' data line raises ValueError, a listed column that was not declared raises IndexError, and a file without data section raises an exception. More exactly, for every data section: a line is read without its first and last character, in pieces between commas; each piece must be an integer, one blank, one more word, else ValueError; the integer is a column, counted from the end if negative, else IndexError; the first such fault decides. If n_labels exceeds the number n of attributes, the last n_labels - n columns are called labels and all names are label names.", "quantifier": "every header, every list of data lines, every n_labels", "why_tests_cant": "a test reads a handful of files; the claim is about every file of the format", "anchors": ["corset/utils_data.py:read_data_arff_sparse"]}
{"id": "C96", "title": "Thresholding synthetic counts", "statement": "generate_synthetic_dataset returns zeros and ones. A cell is 1 exactly when its count is below the quantile, unless some count not below the quantile is 0 or 1, in which case every cell is 0. At most ceil((n-1) * density) of the n cells are 1. A density outside [0,1] raises ValueError and an empty matrix an error.", "quantifier": "every matrix of counts, every density", "why_tests_cant": "the degenerate case depends on how counts tie at the quantile", "anchors": ["corset/utils_data.py:generate_synthetic_dataset"]}
{"id": "C97", "title": "Binarisation of a numeric attribute", "statement": "A numeric column read by the dense reader becomes 0 up to the sparsity-quantile of that column and 1 above it. More than sparsity*(n-1) of the n cells are 0, and at most one more than that when the values are distinct. A constant column becomes all 0.", "quantifier": "every non-empty column, every sparsity in [0,1]", "why_tests_cant": "counting bounds for every multiset of values", "anchors": ["corset/utils_data.py:read_data_arff_dense"]}
{"id": "C98", "title": "Characters lost by the dense reader", "statement": "The dense reader drops the first character of every data line, so the first attribute is read without its first character and is read as 0 when its cell has only one character; the last line of a file without a final newline also loses its last character. All other cells are read as written.", "quantifier": "every data line", "why_tests_cant": "holds for every line and number parser", "anchors": ["corset/utils_data.py:read_data_arff_dense"]}
{"id": "C99", "title": "Dense ARFF files end to end", "statement": "For a well-formed dense file, read_data_arff_dense returns the last n_labels columns, truncated to integers, as labels; each numeric attribute becomes its column thresholded at its own sparsity-quantile in that file; a non-numeric attribute with at most two different values is kept, truncated towards 0, so it need not be 0 or 1; one with more values is replaced by indicator columns placed after all kept columns. A numeric attribute among the labels raises IndexError. More exactly, for every data section: a line with as many cells as attributes gives their numbers (an empty cell 0), a line with a single cell gives its number to every attribute, any other number of cells raises ValueError, and a cell that is not a number raises what float raises; the first such fault decides.", "quantifier": "every dense file, every n_labels and sparsity in [0,1]", "why_tests_cant": "claims about every file", "anchors": ["corset/utils_data.py:read_data_arff_dense"]}
{"id": "C100", "title": "Synthetic data from diverse rules", "statement": "generate_synthetic_dataset_from_diverse_generating_rules with more than two features and labels and at most 2n/5 rules never raises. It returns rules whose heads and tails are non-empty proper column sets; before noise a cell is 1 exactly when some rule covers its row and names its column; each rule covers fewer than n/R rows and no row is covered twice; at most int(cells * noise) cells of each matrix are flipped, and the number flipped has the same parity. The test matrices have n rows too, but only rows among the first int(0.4 n) are covered. Everything so described can occur. The 'diversity' weights have no effect: rules are independent and identically distributed, a column used before is as likely to be used again. With at most two features or labels it raises IndexError, with fewer than R rows in the test part ValueError.", "quantifier": "every number of examples, features, labels, rules, every noise proportion, every outcome of the random draws", "why_tests_cant": "the claims range over all random outcomes, and the law over their probabilities", "anchors": ["corset/utils_data.py:generate_synthetic_dataset_from_diverse_generating_rules"]}
{"id": "C101", "title": "Synthetic data from generating rules", "statement": "generate_synthetic_dataset_from_generating_rules with more than two features, more than one label and at most 3n/10 rules returns exactly: R rules with 2..nf-1 features and 1..nl-1 labels, matrices in which before noise a cell is 1 exactly when some rule covers its row and names its column, with fewer than n/R rows per rule, overlaps allowed, and at most int(cells * noise) flipped cells although noise is drawn once per rule. Rules are independent; a feature is in a head with probability (nf+1)/(2 nf), a label in a tail with probability 1/2. Without rules it raises UnboundLocalError; with too few features, labels or examples ValueError.", "quantifier": "every number of examples, features, labels, rules, every noise proportion, every outcome of the random draws", "why_tests_cant": "the claims range over all random outcomes, and the law over their probabilities", "anchors": ["corset/utils_data.py:generate_synthetic_dataset_from_generating_rules"]}
{"id": "C102", "title": "The genbase reader loses the first label", "statement": "Reading a genbase file (two lines, the declaration of the protein name, the declarations of the attributes, two lines, rows of a name and YES/NO/number cells) with n_labels labels returns only the last n_labels - 1 label columns; the first label is returned as a feature. For 0/1 values the features are exactly the feature columns followed by the first label. A declaration `numeric` is applied to the column after it, which becomes 0 strictly below its quantile and 1 from it on; if a label is declared numeric, IndexError.", "quantifier": "every file of this shape, every number of attributes, rows and labels, every sparsity in [0, 1]", "why_tests_cant": "that a label is always among the features is a statement about every file, whatever its size and content", "anchors": ["corset/utils_data.py: read_data_arff_dense_genbase"]}
{"id": "C103", "title": "Which files an ARFF data set is read from", "statement": "read_data_arff: if some regular file in the directory has `train` anywhere in its name, or the proportion is 0, the files <name>-train.arff and <name>-test.arff are read, nothing is drawn, the proportion is ignored, each file is binarised with its own quantiles and its own set of values, so that the two parts may have different numbers of columns, and the label names are those of the second file. Otherwise <name>.arff is read, binarised with the quantiles of all rows, and divided into rows drawn with replacement and their mirror images. The dense data set genbase with given split can never be loaded: if both files are readable, UnboundLocalError.", "quantifier": "every directory listing, path, content of the files, number of labels, sparsity and proportion, both formats, every sequence of draws", "why_tests_cant": "it ranges over all directories, contents and random draws", "anchors": ["corset/utils_data.py: read_data_arff, shuffle_split_data"]}
{"id": "C104", "title": "Law of sample_clique", "statement": "From a given start node, sample_clique returns a set T with probability equal to the sum, over all orders of T that begin with the start node and in which every node has an edge from all nodes before it, of the product of the step probabilities and the probability that no further node is added. The step probability from u to v is the sum over all sets O of neighbours containing v of the probability that exactly the edges to O are kept (each independently with its weight) times weight(u,v) divided by the sum of the weights to O. In particular the start node alone is returned with probability the product of 1 - weight over its out edges. Without a start node, every node is equally likely to be first.", "quantifier": "every digraph without loops with weights in [0,1], every start node, every set, every number of nodes", "why_tests_cant": "it is an equation between probabilities; tests can only estimate them on samples", "anchors": ["corset/graph.py: sample_clique, forms_clique"]}
{"id": "C105", "title": "A table of categories becomes its one-hot code; no example is confused with another", "statement": "preprocessing returns, for the columns with 3 to 14 different values (features) and for those with at most two (labels), the one-hot code: one output column for each pair of a column and a value occurring in it, ordered by column and value; the entry of a row is 1 if its cell has that value and 0 otherwise. Hence every cell that is present gives exactly one 1, a missing cell only zeros, two rows have the same code exactly when they agree in all coded columns, and a yes/no column gives two complementary labels. Columns with 15 or more values contribute nothing. It fails, with ValueError, exactly when there is no column of one of the kinds.", "quantifier": "all tables (any number of rows and columns, any linearly ordered values, missing cells allowed), rows, columns", "why_tests_cant": "The thresholds, the order of the output columns and injectivity concern every table; a test sees one table with one pattern of missing values.", "anchors": ["corset/utils_data.py: preprocessing", "corset/utils_data.py: read_data"]}
{"id": "C106", "title": "Loading a data set by name: where the data come from, what the object holds, and which names cannot be loaded", "statement": "When Dataset.load succeeds, train and test features and labels have matching shapes; the label frequencies are the column sums of the training labels as read, including records later held out for development; label2id and feature2id map a name to the last position it occurs at, and so invert the list of names when names are distinct. 'toy' uses the built-in table, the five ARFF sets use their own files (two files, or one file whose records are drawn with replacement), every other name goes to the library. 'genbase' never loads: it raises TypeError even when its files are readable. Two ARFF files whose one-hot encodings differ in width raise AssertionError. Loading twice gives the same object as loading once when nothing is drawn. The confidence graph is built from the training part only, and any 'which' other than 'X' and 'Y' raises UnboundLocalError.", "quantifier": "every data set name, every content of the files and of the library, every random draw, with and without a development split", "why_tests_cant": "a test loads the particular files on disk; it cannot range over file contents, name collisions and random splits", "anchors": ["corset/data.py: Dataset.load", "corset/data.py: load_toy_dataset", "corset/data.py: build_confidence_graph"]}
{"id": "C107", "title": "Training and evaluating a data set reports the true scores of greedily chosen rules", "statement": "train_greedy_and_eval(ds, config, version, validation), for a data set of zeros and ones and a configuration with positive numbers of tails and heads, either returns or raises, and its outcomes are these. It raises what loading raises. It raises TypeError only if two training records share a feature but not all labels, or some training record has no feature; it can do so whenever the former holds. It raises AssertionError only if some label is true of every training record, and can do so whenever that holds. It raises AttributeError only if validation was asked for on a data set not told to split. Otherwise it returns at most n_max_rules rules that occur in the training part, and fewer only if they cover every label occurrence; each rule is the greedy choice of the requested version with the configured hyperparameters; and the dictionary holds the eight scores of these rules on the held-out records (validation) or the test records, their coverage of the training part, and their number. In validation mode, the records trained on and the records evaluated partition the training records as read. A version other than 'v2' and 'v3' never returns. train_and_eval with such a classifier is the same without validation. A trial of scripts/tune_and_eval.py, in contrast, evaluates on records it trained on, so that coverage 1 forces every true label of an evaluated record to be predicted; and its final evaluation passes a number as version and never returns.", "quantifier": "all worlds of files and library results, all data sets of zeros and ones, all sensible configurations, both versions, with and without validation, all random choices", "why_tests_cant": "The outcomes depend on all data and all random draws of three samplers; that no other exception can occur and that the reported numbers are always those of the returned rules is a statement about all runs.", "anchors": ["corset/exp.py: train_greedy_and_eval, train_and_eval, create_greedy_clf_from_config_by_version", "scripts/tune_and_eval.py: one_run, main", "corset/data.py: Dataset.load", "corset/greedy/divmax_v2.py: GreedyDivMaxV2.fit", "corset/greedy/base.py: predict, coverage_ratio", "corset/evaluation.py: Evaluator.report"]}
{"id": "C108", "title": "Asking for a tracking experiment that does not exist yet fails but creates it", "statement": "get_experiment_id_by_name returns the id of the experiment of that name when there is one and changes nothing. When there is none, the first request raises AttributeError although the experiment is created (the code looks the new experiment up by its id instead of its name); the second request returns its id; and if the new id happens to be the name of an older experiment, the first request silently returns the id of that older experiment. create_experiment_if_needed itself never raises. Several processes: if the experiment was created beforehand, as train_greedy_and_eval.py and tune_greedy.py do, every process gets its id under every schedule; if not, as in effect_of_min_feature_proba.py, exactly one process fails with AttributeError, having created the only experiment of that name, and every other gets its id or fails because the name is in use. No process waits for another.", "quantifier": "all tracking stores with distinct names, all names, all ids the store may choose, any number of processes, all schedules", "why_tests_cant": "the outcome depends on the state of a shared store and on the interleaving of several processes", "anchors": ["corset/utils.py:create_experiment_if_needed", "corset/utils.py:get_experiment_id_by_name", "scripts/train_greedy_and_eval.py:one_run", "scripts/effect_of_min_feature_proba.py:one_run", "scripts/tune_greedy.py:main"]}
{"id": "C109", "title": "The pruning greedy head sampler returns the best beginning of a greedy attribute sequence", "statement": "PruneGreedy.fit succeeds exactly when the labels are 0 and 1 and both occur. sample_once then builds a sequence: each attribute is one of maximal discriminativity (records labelled 1 that have all attributes so far, minus gamma times the records labelled 0 that have them) among the remaining attributes of the positive records; the sequence ends when candidates run out or the next attribute would leave fewer records than the fraction eps of the number of positives. It returns the beginning of the sequence up to its first highest score: a non-empty set, at least as discriminative as every single candidate, and perfect if a single candidate is. Without ties the result does not depend on set order, and sample(k) returns k copies of it. Before fit it raises AttributeError, after a fit that failed TypeError, for a matrix without columns UnboundLocalError. A second fit keeps the records of the first matrix.", "quantifier": "all binary matrices with a column, all labels, all gamma and eps, all histories of fits on the matrix, all traversal orders of sets", "why_tests_cant": "the result depends on the traversal order of hash sets and on every possible tie; tests see one order on few matrices", "anchors": ["corset/samplers/prune_and_greedy.py:PruneGreedy.fit", "corset/samplers/prune_and_greedy.py:PruneGreedy.greedy_choice", "corset/samplers/prune_and_greedy.py:PruneGreedy.sample"]}
{"id": "C110", "title": "The coupled greedy head sampler: law of the pair, greedy choice among the separating attributes", "statement": "CFTP_Greedy.fit succeeds exactly when the labels are 0 and 1, both occur and there are not more labels than records (otherwise AssertionError or KeyError), and the object then does not depend on earlier fits on the same matrix. sample_once then never raises and does not change the object; without a successful fit it raises AttributeError. It returns None, or the best beginning of a greedy sequence chosen from the attributes that some positive record has and some negative record lacks, where a score is the discriminativity divided by the number of records that have the attribute just added. Such a head is not empty, holds of the positive record, none of its attributes holds of the negative record, and if it has several attributes, at least the fraction eps of the number of positives has them all. The pair is drawn with probability proportional to the number of separating attributes; None has probability (1 - Z/B)^1024, where Z is the number of separating attributes over all pairs and B the number of negative records times the sizes of the positive records.", "quantifier": "all binary matrices, all labels, all gamma and eps, all histories of fits on the matrix, all traversal orders of sets, all random choices", "why_tests_cant": "the claim is about the distribution of a random choice by coupling and about every traversal order", "anchors": ["corset/samplers/cftp_and_greedy.py:CFTP_Greedy.fit", "corset/samplers/cftp_and_greedy.py:CFTP_Greedy.greedy_choice", "corset/samplers/cftp_and_greedy.py:CFTP_Greedy.sample_once", "corset/samplers/cftp.py"]}
{"id": "C111", "title": "A tuning trial reports averages of scores on records it did not train on, or fails and reports nothing", "statement": "A trial of scripts/tune_greedy.py, its experiment having been created before, either completes all its rounds or raises. If it completes them, then in every round the training records as read were divided anew, seven tenths (rounded down) to train on and the rest to evaluate on, the rules were learned from the first part, and what is reported to the search is, for each of the eight scores and for the number of rules, the average over the rounds (of the scores on the records not trained on in that round), and for the coverage the average over the rounds in which it is a number. If a round raises, nothing is reported, and the reason is one of: reading the data failed, the tables do not fit together or have fewer than two training records, two records trained on share a feature but not all labels or a record trained on has no feature (TypeError), some label is true of every record trained on (AssertionError). The tracking store has one run per round started: completed ones with the six hyperparameters (defaults filled in) and the scores, a failed one with neither. If the experiment was not created before, the trial fails with AttributeError without a run. Every configuration that the search may choose for the seven data sets is sensible and asks for a number of rules in the stated range; cal500 and all other names have no trials.", "quantifier": "all worlds of files and library results with zeros and ones, all configurations with positive numbers of heads and tails, both versions, any positive number of rounds, all random choices and set orders, differently in every round", "why_tests_cant": "the averages range over random divisions and random rules; failures depend on the random division", "anchors": ["scripts/tune_greedy.py:one_run", "scripts/tune_greedy.py:main", "corset/exp.py:train_greedy_and_eval", "corset/utils.py:get_experiment_id_by_name"]}
{"id": "C112", "title": "The summary of tuning results lists every setting once with its true average, best first", "statement": "scripts/summarize_tune_results.py prints a table with exactly one line for every combination of hyperparameter values that a run of the data set has, with the average and the sample variance of the metric over these runs, ordered by average, best first. Without runs it raises IndexError; if the newest run failed before its hyperparameters were logged it raises ValueError, whatever older runs there are; if no run has the metric, KeyError. The experiment is looked up in the default store, not in the store searched: if it is missing there, AttributeError is raised and the experiment is created there; otherwise the runs with its id in the store searched are summarized. Together with C111: if trials with pairwise different hyperparameters happened, interleaved in any way, and the newest run was completed, then the summary has exactly one line for every trial that completed a round, and for every trial that reported, the line has the number reported. A trial that failed after some rounds reports nothing but still has a line. The experiment summarized, tune_greedy_v3, is that of the trials of version v3 on data sets other than toy and of no others: trials of version v2 and trials on toy never change the summary.", "quantifier": "all contents of the tracking store, all sets of trials with any outcomes, all interleavings of their runs, all orders of ties", "why_tests_cant": "the agreement must hold for every history of the tracking store, including failed and interleaved trials", "anchors": ["scripts/summarize_tune_results.py", "scripts/tune_greedy.py:one_run"]}
{"id": "C113", "title": "Trie nodes keep their contract, and the fast and the slow class answer alike", "statement": "After any history of constructing nodes, add_child calls (failing ones included), marking and populate_sets calls, at every node of either class Node or NodeV2: the children are exactly the nodes made by add_child on it, in increasing order of item; has_child, get_child (KeyError if absent), num_children and is_leaf answer accordingly; add_child raises ValueError and changes nothing iff the item is not larger than the node's or is already a child's. Every node has exactly one way from a parentless node, its items increase, and get_set is that way for marked nodes (for NodeV2: once populate_sets was called above it; None before). Both classes give the same results for the same history. A SetTrie built of the objects answers search, search_subsets, search_supersets and == as C42-C45 say; with the class Node no insert_batch is needed. as_nested_tuple determines items and shape and ignores is_last. For children passed to the constructor the classes agree on has_child iff the list is in increasing order.", "quantifier": "all histories of calls on nodes, all nodes, items, queries and insertion histories, both classes, and all lists of distinct items passed to the constructor", "why_tests_cant": "the tests run a handful of literal trees; the contract must hold after every history and the agreement of two implementations must hold for every history and query", "anchors": ["corset/trie/node.py:Node", "corset/trie/node.py:NodeV2", "corset/trie/_trie.py:SetTrie", "corset/trie/utils.py:binary_search"]}
{"id": "C114", "title": "What the experiment scripts record, and the two that cannot finish", "statement": "Each job of train_greedy_and_eval.py and of effect_of_min_feature_proba.py adds exactly one record to the tracking store when its experiment exists: of a finished run, with the six hyperparameters (defaults filled in) and with the scores on the test records of rules learned from the training records; or of a failed run, and then the data could not be read, did not fit together, or had one of the two kinds of records the learner fails on. If the experiment does not exist the job raises AttributeError and records nothing. train_greedy_and_eval.py starts eight such jobs (one for toy) with the same configuration; effect_of_min_feature_proba.py runs each threshold of its list equally often with configurations that differ in nothing else, and starts no job for a data set it does not list. Jobs of effect_of_n_heads_per_tail.py return the configuration with the two numbers they were given together with their scores, and its table groups scores by these numbers. effect_of_num_rules.py never writes its file: it ends with TypeError for the data sets it lists and stops before the first job for others. tune_and_eval.py never writes test scores, whatever tuning found: after reading the data it fails with AssertionError.", "quantifier": "all data sets and data files, all configurations that the scripts use or that tuning may choose, all random choices of split, sampling and set orders, all states of the tracking store", "why_tests_cant": "the scripts take hours, need a cluster and files, and depend on random choices; that a file is never written is a claim about all runs", "anchors": ["scripts/train_greedy_and_eval.py:one_run", "scripts/effect_of_min_feature_proba.py:one_run", "scripts/effect_of_n_heads_per_tail.py:one_run", "scripts/effect_of_num_rules.py:one_run", "scripts/tune_and_eval.py:main", "corset/exp.py:train_greedy_and_eval", "corset/exp.py:train_and_eval"]}
{"id": "C115", "title": "Ground truth functions and batches of the greedy head samplers", "statement": "After a fit of PruneGreedy or CFTP_Greedy on a binary matrix with labels 0 and 1 that both occur (whatever the object was fitted to on that matrix before), get_ground_truth_proba_for_pairs returns exactly the pairs of a positive and a negative record, each with the number of attributes that the first has and the second does not have over the sum of these numbers; ZeroDivisionError if the sum is zero, IndexError if there are more labels than records. get_ground_truth_proba_for_samples returns exactly the attributes that separate some pair, each with the number of pairs it separates over the same sum, and never divides by zero; it is the law of an attribute chosen uniformly among those separating a pair drawn from the pairs' ground truth. Before a fit, and after a single refused fit, both raise AttributeError. CFTP_Greedy.sample_a_pair returns each pair with its ground truth times one common success probability, for which a formula is given, else None, and sample(k) is k independent draws of sample_once.", "quantifier": "for every binary matrix, every label vector, every history of fits on the matrix, every order in which sets are traversed, every batch size and every sequence of results", "why_tests_cant": "The functions exist to be compared with empirical frequencies; a test can only compare frequencies up to sampling error on a few small matrices.", "anchors": ["corset/samplers/prune_and_greedy.py:PruneGreedy.get_ground_truth_proba_for_pairs", "corset/samplers/prune_and_greedy.py:PruneGreedy.get_ground_truth_proba_for_samples", "corset/samplers/cftp_and_greedy.py:CFTP_Greedy.get_ground_truth_proba_for_pairs", "corset/samplers/cftp_and_greedy.py:CFTP_Greedy.get_ground_truth_proba_for_samples", "corset/samplers/cftp_and_greedy.py:CFTP_Greedy.sample_a_pair", "corset/samplers/cftp_and_greedy.py:CFTP_Greedy.sample"]}
{"id": "C116", "title": "Dummy samplers, alone and inside the learners", "statement": "After fit on a matrix with columns, sample_once of DummyHeadSampler and DummyTailSampler returns a set of exactly one column of the matrix last fitted, and sample(k) returns k such sets; without columns ValueError (sample(0) gives []), before fit AttributeError. Seeds passed to sample_once have no effect. sample re-seeds the generator from the operating system, so its result does not depend on the generator's state and seeding beforehand cannot reproduce it, while any number of sample_once calls after seeding can be reproduced. In a learner with the dummy samplers every selected rule and every candidate has exactly one feature and one label of the training data; under a budget of k rules the learner ends within k+1 rounds and, if it does not raise, holds exactly k rules; GreedySubmod does not raise if every feature occurs in the training data; a drawn feature that does not occur makes fit raise ValueError.", "quantifier": "for every generator and generator state, every matrix, every number of draws, every sequence of draws, every learner and every parameter setting", "why_tests_cant": "The tests of the learners run with these samplers; that a run of any length ends with exactly the budget, whatever is drawn, and that a seed does not fix the result, cannot be seen from finitely many runs.", "anchors": ["corset/samplers/dummy.py:DummyHeadSampler", "corset/samplers/dummy.py:DummyTailSampler", "corset/samplers/base.py:Sampler.sample", "corset/greedy/base.py:RuleSampler.generate_candidate_rules", "corset/greedy/submod.py:GreedySubmod.fit"]}
{"id": "C117", "title": "Batches of the coupling samplers are independent draws, and the reported number of iterations has an exact law", "statement": "sample_k_times(k) of CFTP (with and without return_details) and BoleyCFTP, and sample(k) of the Boley sampler, return k independent draws of sample()/sample_once(): the probability of every list of results is the product of the probabilities of its entries, and for the Boley sampler it tends to the product of the stated limit laws. A negative k is an empty list. sample_a_pair of the Boley sampler returns a pair of rows with probability proportional to the number of patterns separating them. sample(return_details=True) returns the pair (p, n) with num_iterations = 2^j with probability W(p,n)/Z * (q^(2^(j-1)) - q^(2^j)) (q^0 for j = 0), q = 1 - Z/B, so that the number of iterations is independent of the pair; giving up is reported with the largest power of two not above max_iters and no other number. Before a fit, the Boley sampler raises AttributeError for any non-empty batch.", "quantifier": "every dominated pair of weights, every max_iters, every batch size and list of results; for the Boley sampler every binary matrix, every labels, every history of fits and samples, every number of rounds", "why_tests_cant": "independence of successive draws and the exact law of the stopping time are statements about all outcomes of a random program; a test sees frequencies", "anchors": ["corset/samplers/cftp.py:CFTP.sample_k_times", "corset/samplers/cftp.py:CFTP.sample", "corset/samplers/boley_cftp.py:BoleyCFTP.sample_k_times", "corset/samplers/boley_discrim.py:BoleyCFTPDiscriminativitySampler.sample", "corset/samplers/boley_discrim.py:BoleyCFTPDiscriminativitySampler.sample_a_pair"]}
{"id": "C118", "title": "The directory helper creates exactly the missing directories, under every schedule of concurrent callers", "statement": "`makedir(d)` (the directory part of d, or d itself with usedir=False) ends with that directory and all its ancestors present and changes nothing else; a second call changes nothing. A path that exists, even a file, is accepted silently. A bare file name raises FileNotFoundError, because its directory part is empty; a file in the way raises NotADirectoryError and nothing is created. With any number of processes calling it at once and any interleaving of their system calls, the only error a call can end with is FileExistsError, the directory exists once a call has ended either way, a call fails only if another process wants the same directory or one below it, and a call ends within 2n+3 of its own steps.", "quantifier": "All disks, all paths, both values of usedir, all numbers of concurrent callers, all schedules of their steps.", "why_tests_cant": "The race between the existence check and the creation shows only under particular interleavings; a test runs one.", "anchors": ["corset/utils.py:makedir", "scripts/tune_and_eval.py", "scripts/effect_of_num_rules.py", "scripts/summarize_tune_results.py"]}
{"id": "C119", "title": "Saved objects come back, a crash during a save touches one file only, temporary directories are fresh", "statement": "Where a file can be written, save_file/save_json/save_pickle leave exactly the given content whatever was there before, change no other file, and reading or load_pickle gives it back; elsewhere they raise (FileNotFoundError, NotADirectoryError or IsADirectoryError) and change nothing. If the process dies at any point of a save, every other file is as before and this one is as before or has a beginning of the new content; a later load_pickle gives the earlier result, the new object or an error, never another object. A save is not atomic: a crash can lose the old content without leaving the new one. save_json with a value it cannot encode raises TypeError and the old content is lost. Saving results after makedir works below missing directories and fails for a bare file name. get_tempdir returns a new empty directory directly in the wanted one, never one that existed, so two calls give two directories.", "quantifier": "All disks, paths, texts, objects, ways the text is cut into writes, crash points, candidate names.", "why_tests_cant": "A crash point is a moment between two system calls; tests run saves to the end.", "anchors": ["corset/utils.py:save_pickle", "corset/utils.py:save_file", "corset/utils.py:load_pickle", "corset/utils.py:save_json", "corset/utils.py:get_tempdir", "scripts/tune_and_eval.py"]}
{"id": "C120", "title": "Negative labels: queries count offsets from the end, predictions count columns, and the two disagree by one", "statement": "conjunctive_collapse_v2 on a matrix with n columns accepts every non-empty list of integers from -(n+1) to n-1 and rejects any other with IndexError; -(j+1) is read as column n-j for j = 1..n and -1 as a column without entries. So Rule.bind_dataset accepts tails with labels down to -(L+1) (the exact success condition and supports for arbitrary integer tails), while predict reads a negative label the usual way, L + l, and raises IndexError exactly when a firing rule has a label outside -L..L-1. Hence a rule with label -(j+1) is counted on the rows with label L-j but predicts label L-j-1; with -1 it has no support but predicts the last label.", "quantifier": "every well-formed CSC matrix, every list of integers, every rule, every test matrix", "why_tests_cant": "The statement is about all integers in all positions; a test tries a few.", "anchors": ["corset/utils.py:conjunctive_collapse_v2", "corset/rule.py:Rule.bind_dataset", "corset/greedy/base.py:GreedyBase.predict"]}
{"id": "C121", "title": "The compiled clique back end names nodes by position", "statement": "enumerate_probable_cliques(g, alpha, backend='dfs_v2') returns increasing tuples of positions in g.nodes(), not of nodes. Read as the nodes at those positions they are, each once, the single nodes and the cliques whose product of edge probabilities, in the precision used, is at least alpha. In exact arithmetic these are the same cliques with the same probabilities that backend='dfs' returns. The tuples themselves agree only if the nodes of g are 0..n-1 in some order.", "quantifier": "every undirected graph with at least one node and with weights in [0,1], whatever its nodes are called and in whatever order they were added; every threshold; every number precision that rounds products monotonically; every set traversal order", "why_tests_cant": "The graphs that the samplers build always have nodes 0..n-1, so tests of the library never see other node names; graphs, thresholds and precisions are infinitely many.", "anchors": ["corset/samplers/dfs.pyx:dfs_v2", "corset/samplers/dfs.pyx:Graph", "corset/samplers/pc.py:enumerate_probable_cliques"]}
{"id": "C122", "title": "PCFrequencySampler as a whole draws probable label sets by support, and keeps nothing but its arguments across fits", "statement": "PCFrequencySampler(min_proba, do_prune_edges, dfs_backend).fit(Y) succeeds on every 0/1 matrix with at least one label column and a known back end; sample_once then returns each label set that is a single label or a clique of probability at least min_proba with probability its support over the total support of these sets, and nothing else; without any label occurrence it raises ValueError. A successful fit forgets earlier fits; a fit that raises leaves sampling unchanged; before the first successful fit sampling raises AttributeError.", "quantifier": "every 0/1 matrix, threshold, pruning flag, back end, set traversal order and every history of fits", "why_tests_cant": "An exact law and the absence of state carried over, for all data and histories.", "anchors": ["corset/samplers/pc.py:PCFrequencySampler", "corset/samplers/surs.py:ReducedSpaceSampler.fit", "corset/samplers/freq.py:SURSFrequencySamplerMixin", "corset/samplers/assignment.py:TrieSampleAssignmentMixin"]}
{"id": "C123", "title": "The law of the candidate rules", "statement": "With any binary X and Y and any history of selected rules that leaves label area uncovered, generate_candidate_rules(n_tails, n_heads) draws its tails independently, each probable label set with probability (its uncovered area) / (uncovered area of all probable label sets), and for every tail its heads independently, each probable feature set with probability (1 - noHead) * (pairs of a row with head and tail and a row with neither) / (the same over all heads), where noHead = (1 - accepted/proposed)^1024 is the probability that the head sampler gives up. Consequently: for every set of rules, the probability that the call returns and all its rules are in the set is (sum over tails of P(tail) * P(head in the set | tail)^n_heads)^n_tails, which determines the law of the returned set; the call returns with probability (sum P(tail) (1-noHead)^n_heads)^n_tails and raises otherwise; a given rule is in the batch with the probability that follows; with one tail and one head it is P(tail) * P(head | tail). The order in which sets are traversed and the head sampler's history do not matter.", "quantifier": "all binary X, Y with equally many rows, all thresholds, all histories of updates with positive uncovered area, all reachable head sampler states, all n_tails, all n_heads > 0, all sets of rules", "why_tests_cant": "A test sees a finite number of draws with one generator; the claim is an exact law over all data and all histories.", "anchors": ["corset/greedy/base.py:RuleSampler.generate_candidate_rules", "corset/samplers/uncovered_area.py:UncoveredAreaSampler.sample_once", "corset/samplers/discrim.py:CFTPDiscriminativitySampler"]}
{"id": "C124", "title": "With many tails the greedy choice is the best rule there is", "statement": "Whatever rules were selected so far: (a) every rule that can be drawn at all, that is a probable tail with uncovered area and a probable head that tells a pair of rows apart, is in the batch with a probability that, given that candidate generation returns, tends to one as n_tails grows; (b) the rule the learner picks from the batch, the one with the largest objective, has with a probability tending to one the largest objective among all rules that can be drawn, not just among those that were.", "quantifier": "all binary X, Y, all thresholds, all histories, all learners whose objective is defined on supported rules (the three of the package), all selections, all n_heads > 0; limit over n_tails", "why_tests_cant": "A limit over an unbounded parameter.", "anchors": ["corset/greedy/base.py:RuleSampler.generate_candidate_rules", "corset/greedy/divmax_v2.py:GreedyDivMaxV2.fit", "corset/greedy/diversity_maximization.py:GreedyDivMax.fit_1st_round"]}
{"id": "C125", "title": "Comparing two sparse matrices is exact, and rejects different shapes by raising", "statement": "csr_matrix_equal(m1, m2) on matrices of the same shape returns True exactly if all entries agree (repeated stored entries add up, order of storage and stored zeros do not matter) and False otherwise; on different shapes it raises AttributeError instead of returning False. It is reflexive, symmetric and transitive. Matrices made by convert_sets_to_matrix from lists of sets of the same length compare equal iff the lists are equal. For canonical 0/1 matrices (no stored zeros, no repeated entries) it answers True iff both converters give the same sets, iff every classifier predicts the same for both. With a stored zero this fails: two matrices that compare equal can get different predictions.", "quantifier": "all sparse matrices with integer entries, all lists of sets, all lists of rules and numbers of labels", "why_tests_cant": "Equality over all pairs of storages, and that no classifier tells two equal matrices apart, range over unboundedly many matrices and rules.", "anchors": ["corset/utils.py:csr_matrix_equal", "corset/utils.py:convert_sets_to_matrix", "corset/utils.py:convert_matrix_to_sets_v2", "corset/greedy/base.py:GreedyBase.predict"]}
{"id": "C126", "title": "Fitting matrices that do not fit together never returns a model", "statement": "fit(X, Y) of the three classifier classes on a new object, where Y has a label and X has another number of rows than Y or no column: no execution returns, whatever is drawn. The exception tells what is wrong: KeyError only if X has fewer rows than Y, TypeError or ValueError only if X has more rows, networkx's exception only if X has no column, AssertionError only if some label is carried by every row of Y. With fewer feature rows and no such label, KeyError is what every execution raises. If Y has rows but no label, fit returns no rules and the objective 0 whatever X is; if Y has no rows, fit raises ValueError.", "quantifier": "all pairs of binary sparse matrices with at least one label column and numbers of columns below the recursion limit, all thresholds, all parameters with at least one tail and one head per iteration, all random draws", "why_tests_cant": "the failure happens after a random draw and different draws raise different exceptions; a test sees one of them", "anchors": ["corset/greedy/divmax_v2.py:GreedyDivMaxV2.fit", "corset/greedy/diversity_maximization.py:GreedyDivMax.fit", "corset/greedy/base.py:RuleSampler.generate_candidate_rules", "corset/samplers/discrim.py:CFTPDiscriminativitySampler.fit", "corset/samplers/cftp.py", "corset/rule.py:Rule"]}
{"id": "C127", "title": "With many candidates a whole fit is the greedy search over all rules, with a coverage guarantee", "statement": "fit has finitely many results and exceptions of positive probability, and their probabilities sum to one. Let delta be a lower bound on the chance, in one tail, of every rule that can be drawn (such a delta > 0 exists for all data). With n_max_rules = k and n tails per iteration, the probability that fit of GreedyDivMaxV2 or GreedyDivMaxV3 (or the first round of GreedyDivMax) returns a list that differs from every list an exhaustive greedy search over all drawable rules would build is at most k (1 - delta)^n, hence tends to zero. On data on which fit cannot raise, the exhaustive greedy list is returned with probability at least 1 - k (1 - delta)^n. Every list G of that search satisfies, against every list O of at most k drawable rules of divergence at least kappa: kappa |covered O| <= (sum of divergence times newly covered occurrences over G) + kappa |covered G| + lambd diversity(G); with lambd = 0 and all divergences at most K it covers at least (1 - exp(-kappa/K)) |covered O| label occurrences.", "quantifier": "all 0/1 training data, thresholds, numbers of tails and heads, budgets, seeds (through the law of the generator), competing rule lists, and lower bounds delta and kappa", "why_tests_cant": "The claim bounds the probability of an event over all runs and compares the result with all lists of rules, of which there are exponentially many; a test sees one seed, one data set and no optimum.", "anchors": ["corset/greedy/base.py: GreedyBase.generate_candidates, GreedyBase.select_best_candidate, GreedyBase.fit", "corset/greedy/divmax_v2.py: GreedyDivMaxV2.fit", "corset/greedy/divmax_v3.py: GreedyDivMaxV3.quality_of_rule", "corset/greedy/diversity_maximization.py: GreedyDivMax.fit_1st_round, objective_of_rule"]}
{"id": "C128", "title": "Rounding does not break the tail sampler", "statement": "In IEEE double precision, with the order of numpy's additions left open: after fitting the uncovered-area sampler and any history of updates, for at most 2^23 rows, at most 2^23 samples per row and a total uncovered area of at most 2^53, a call of sample_once with uncovered area left never raises, whatever the two uniform variates (multiples of 2^-53) are: numpy's check that the probabilities sum to 1 and the sampler's own weight check pass, and the tail returned is listed for a row and has a label not yet covered for that row. With no area left it always raises NoMoreSamples. With n rows of at most m samples the probability of a tail is within (n(10n+11)+m(10m+11))/2^53 of its uncovered area divided by the total uncovered area, and a tail that can be returned in exact arithmetic is returned for some variates as long as (n(10n+11)+m(10m+11)) times the total area is below 2^53.", "quantifier": "all sample spaces, assignments and update histories within the stated sizes, all orders of summation, all pairs of variates, all tails", "why_tests_cant": "A run sees a few of the 2^106 pairs of variates; an index out of range or a fully covered sample drawn because of rounding would show up at a handful of them, and deviations of the order of 2^-53 are invisible in frequencies.", "anchors": ["corset/samplers/surs.py:ReducedSpaceSampler.sample_once", "corset/samplers/uncovered_area.py:UncoveredAreaMixin._update_row_probas", "corset/samplers/uncovered_area.py:UncoveredAreaMixin._sample_itemset_from_row"]}
{"id": "C129", "title": "Rounding does not change comparisons of ratios of counts", "statement": "Two ratios of counts a/b and c/d compare in double precision (<, <= and ==) exactly as the exact ratios do whenever a*d + c*b < 2**53. So on data with fewer than 2**26 rows the test in Rule.KL() that returns zero when the precision is below the base rate gives the exact answer, and the stopping test of a fit with tolerance c/d written as a decimal stops exactly when the newly covered fraction of label occurrences is at most c/d. Far beyond the bound different ratios can become the same double.", "quantifier": "all counts within the bound; every rule bound to every data set with fewer than 2**26 rows; every tolerance, candidate, set of selected rules and label matrix within the bound", "why_tests_cant": "whether rounding flips a comparison depends on the individual fractions; there are far too many pairs to try", "anchors": ["corset/rule.py: Rule.KL, Rule.true_positive_rate, Rule.base_rate", "corset/greedy/diversity_maximization.py: GreedyDivMax.should_stop", "corset/greedy/base.py: GreedyBase.marginal_coverage_ratio"]}
{"id": "C130", "title": "The sample space in floating point is the exact one up to a rounding slack at the threshold", "statement": "The sample space of the probable-clique samplers, with edge weights computed in doubles, products in doubles (dfs) or in C floats (dfs_v2), and edges pruned first or not, holds every set once. Every set in it is a single label or a set of s pairwise co-occurring labels whose exact probability is at least min_proba minus a slack of s(s-1)/2 * 7 * 2**-53 (dfs) or s(s-1)/2 * 3 * 2**-24 + 2**-24 (dfs_v2), and it holds every single label and every such set whose exact probability is at least min_proba plus that slack. If no set lies within the slack of min_proba, it is exactly the sample space of exact arithmetic. At the threshold the options decide differently: there is a data set with a pair of labels of probability exactly 3/8 that is lost with min_proba=0.375 by dfs and by dfs_v2 with pruning, and kept by dfs_v2 without pruning. A back end of another name raises ValueError.", "quantifier": "every binary label matrix with a label, every threshold in [0,1], both back ends, pruning on or off, every order of iteration of sets, every sufficient recursion limit", "why_tests_cant": "rounding errors accumulate along every clique of every size, and the cases where they matter are the rare ones next to the threshold", "anchors": ["corset/graph.py: construct_confidence_graph, convert_to_connectivity_graph", "corset/samplers/pc.py: enumerate_probable_cliques, dfs, prune_edges, PCSampleSpaceConstructor._build_sample_space, PCSampleSpaceConstructor._build_graph", "corset/samplers/dfs.pyx: Graph, dfs_v2, dfs_v2_aux"]}
{"id": "C131", "title": "Rounding of the objective changes the greedy choice only within a bound", "statement": "Let Rule.KL, jaccard_distance and the selection objectives of all four learners be evaluated in double precision, and let scipy's rel_entr be accurate up to eps*(1+|v|), where v is its exact value. On data with N < 2**26 rows: KL of a bound rule is within 3*(eps+(N+8)/2**53)*(log N+5) of its exact value; the objective of a rule that newly covers c cells when k rules are selected raises an exception exactly when the exact one does, and otherwise is within 4*c*(eps+(N+8)/2**53)*(log N+5)+|lambd|*k*(k+6)/2**53 of it (for GreedySubmod 4*(eps+(N+8)/2**53)*(log N+5)+3*|lambd|*c/2**53). So every rule that a fit selects is in its batch and no rule of the batch has an exact objective larger by more than twice that bound; and the approximation guarantee of the second round is lost by at most k times twice that bound. With correctly rounded operations eps is 2**-51; for at most 2**14 rows and label occurrences, 2**7 rules and |lambd| <= 1 the bound is below 2**-18.", "quantifier": "every implementation of rel_entr within the accuracy, every data set below the size limit, every rule bound to it, every list of selected rules, every weight lambd, every completed fit with every sampler, and every pool and budget of the second round", "why_tests_cant": "a test sees single values; that rounding can never make the greedy search choose a clearly worse rule needs an error analysis over all inputs", "anchors": ["corset/rule.py:KL", "corset/rule.py:jaccard_distance", "corset/greedy/diversity_maximization.py:objective_of_rule", "corset/greedy/divmax_v3.py:quality_of_rule", "corset/greedy/submod.py:objective_of_rule", "corset/greedy/diversity_maximization.py:fit_2nd_round"]}
{"id": "C132", "title": "Rounding does not break the head sampler", "statement": "In IEEE double precision: after fitting the discriminativity sampler with the tight proposal on binary labels, for at most 2^23 rows and (samples + 1) * rows at most 2^53, sample_once never raises, whatever 53-bit numbers the generator gives: it returns None or a sample that some positive row contains and some negative row does not, and leaves the sampler unchanged. With p positive and q negative rows the probability of every result is within 1024 * (p(10p+11) + q(10q+11) + 2) / 2^53 of its probability in exact arithmetic. So a sample is returned with probability success * (pairs it separates) / (sum of this over all samples) up to that bound, where success = 1 - (1 - sum / (product of the proposal's normalisers))^1024, and None with probability 1 - success up to that bound.", "quantifier": "all binary feature matrices, histories of fits, label vectors within the size bounds, sequences of generator outputs, and all results", "why_tests_cant": "a rounding error that makes numpy reject the probabilities or makes the acceptance ratio exceed the truth shows up for rare data and rare variates; the distribution is an average over 2^(53*3072) sequences", "anchors": ["corset/samplers/cftp.py: CFTP.add_data, simulate_backwards, sample", "corset/samplers/discrim.py: CFTPDiscriminativitySampler.sample_once"]}
{"id": "C133", "title": "A whole fit in double precision has nearly the law of the fit with exact samplers", "statement": "Run `fit` of any learner on a new classifier with both samplers computing in doubles (cumulative sums, divisions, rounded weights, 53-bit random numbers), for any order of additions. Everything it can return or raise, the fit with exact samplers can return or raise too, and the probability of any event differs by at most the number of iterations times n_tails times (error of a tail + n_heads times error of a head); both errors are explicit and of order rows squared over 2^53 (times 1024 for a head). With the objective in doubles as well and a budget of k rules, the probability that the first round returns a list with a rule that some other drawable rule beats, in the exact objective, by more than twice the rounding error of the objective is at most k(1-d)^n_tails plus that error, where d bounds the chance of every drawable rule from below. With lambd = 0 the list covers the share 1 - exp(-kappa/K) of what any competing list covers, up to an explicit rounding term, except with that probability.", "quantifier": "for all binary training data that are small enough for doubles (at most 2^23 rows, at most 2^23 probable label sets in a row, total areas at most 2^53), all thresholds, all parameters, all learners, all orders of summation, all accurate implementations of rel_entr, all events", "why_tests_cant": "The law of a fit is a distribution over all sequences of random numbers; a test sees a handful of seeds, on which a rounding error of 2^-53 per operation is invisible, and cannot rule out that the errors of thousands of dependent draws add up or let through a list that the exact samplers never return.", "anchors": ["corset/greedy/diversity_maximization.py:GreedyDivMax.fit", "corset/greedy/divmax_v2.py:GreedyDivMaxV2.fit", "corset/samplers/uncovered_area.py:UncoveredAreaSampler.sample", "corset/samplers/discrim.py", "corset/greedy/cftp_and_greedy.py:GreedyCFTPDivMaxV2"]}
{"id": "C134", "title": "Wide rows: rounding and overflow in the Boley sampler", "statement": "BoleyCFTPDiscriminativitySampler computes weights 2^k - 1 in float64. fit succeeds for rows of any width; its overflow check never fires. If the positive rows have at most 511 features and there are at most 2^23 labels, rounding changes the probability that sample_once returns a given pattern, None, or goes on drawing by at most 1024*(P(34P+63)+N(34N+63)+59)/2^53 with P positive and N negative rows. With at most 995 features sample_once never raises and never returns an empty or non-separating pattern, although products of weights may overflow. If some positive row has 1024 features or more, every call of sample_once raises ValueError. get_ground_truth_proba_for_pairs, which computes with int64, omits every pair whose positive row has 64 features or more.", "quantifier": "every binary matrix and label vector, every history of fits and samples, every order in which numpy adds, every sequence of generator outputs", "why_tests_cant": "the error bound is about exact probabilities over 2^53-ary outcomes, and the failure needs rows wider than any test fixture", "anchors": ["corset/samplers/boley_discrim.py:BoleyCFTPDiscriminativitySampler.fit", "corset/samplers/boley_discrim.py:BoleyCFTPDiscriminativitySampler.sample_once", "corset/samplers/boley_discrim.py:BoleyCFTPDiscriminativitySampler.get_ground_truth_proba_for_pairs", "corset/samplers/boley_cftp.py:BoleyCFTP.simulate_backwards"]}
{"id": "C135", "title": "What an interrupted update of the tail sampler leaves behind, and how to recover", "statement": "Interrupt update_row_weights(rows, labels) of a fitted UncoveredAreaSampler anywhere (Ctrl-C, a raising signal handler, or its own IndexError for a row that does not exist). The pairs of row and label dealt with are the first ones in loop order; row weights are the areas these leave uncovered, while the update history and (until the loops end) the row probabilities are the old ones. So sampling from a row raises the consistency exception exactly when the area taken from it exceeds numpy's tolerance, sample_once can raise it as soon as any weight (at most 99999 before) has changed, and rows nothing was taken from are sampled as before. Calling update_row_weights again with the same arguments repairs the object: it becomes exactly what an uninterrupted call makes it. The only exception is an interruption between the decrease of a weight and the deletion of the counter: then repeating the call leaves the weight of that row too small by the number of its samples with that label, and sampling from the row raises exactly when that number exceeds the tolerance.", "quantifier": "all sample spaces, assignments, earlier updates, arguments and points of interruption", "why_tests_cant": "the number of interruption points grows with the data and they cannot be hit reliably from a test", "anchors": ["corset/samplers/uncovered_area.py:UncoveredAreaMixin.update_row_weights", "corset/samplers/uncovered_area.py:UncoveredAreaMixin._sample_itemset_from_row"]}
{"id": "C136", "title": "Interrupting a pair sampler breaks it until the next fit", "statement": "CFTP.sample and BoleyCFTP.sample keep the random numbers and records drawn so far in lists on the object. If a call is interrupted (Ctrl-C) at any statement, the lists stay as they are. If they then hold neither nothing nor exactly one complete draw (which is the case for every interruption inside a group of assignments and for every one from the third iteration on), every later call raises ValueError whatever is drawn, and raising does not repair the object; CFTPDiscriminativitySampler.sample_once and BoleyDiscriminativitySampler.sample_once then raise it too. If one complete draw is left, the next call continues with that draw, as if it had not been interrupted. A fit gives the same sampler as it would have given without the interruption.", "quantifier": "every record weights, every point of every call, every sequence of later calls that raise", "why_tests_cant": "The interruption can come at any statement of any of unboundedly many iterations and after any draws.", "anchors": ["corset/samplers/cftp.py:CFTP.sample", "corset/samplers/cftp.py:CFTP.add_data", "corset/samplers/cftp.py:CFTP.reset_state", "corset/samplers/boley_cftp.py:BoleyCFTP.sample", "corset/samplers/boley_cftp.py:BoleyCFTP.expand_horizon", "corset/samplers/discrim.py:CFTPDiscriminativitySampler.fit"]}
{"id": "C137", "title": "An interrupted fit leaves a greedy prefix", "statement": "When fit of a new GreedyCFTPDivMax, V2 or V3 classifier is interrupted or raises anywhere in its loop, selected_rules holds rules that all have a supporting training row, each the greedy choice after those before it, and none of which met the stopping test. The update history of the tail sampler lists the updates of exactly these rules, except between the end of the update for a rule and the appending of the rule, when it is one ahead. For V2 and V3, the rules held between two iterations are rules that a complete fit with a smaller n_max_rules can return (unless drawing one more batch raises). During the second round of GreedyDivMax.fit, selected_rules holds only the greedy choices from the pool made so far, the rules of the first round are in selected_rules_round_1, and obj is not yet assigned; a fit that raises InsufficientCandidates has emptied selected_rules.", "quantifier": "every training data, every parameters, every random draws, every point of the loop and of the second round, including inside the update of the tail sampler", "why_tests_cant": "The point of interruption, the number of iterations and the draws are unbounded.", "anchors": ["corset/greedy/diversity_maximization.py:GreedyDivMax.fit_1st_round", "corset/greedy/diversity_maximization.py:GreedyDivMax.fit_2nd_round", "corset/greedy/diversity_maximization.py:GreedyDivMax.add_rule", "corset/greedy/divmax_v2.py:GreedyDivMaxV2.fit", "corset/samplers/uncovered_area.py:UncoveredAreaSampler.update_row_weights"]}
{"id": "C138", "title": "A head sampler after a fit that raised or was interrupted", "statement": "If a call of CFTPDiscriminativitySampler.fit on a fitted sampler raises or is interrupted before its last statement, sample and sample_once keep following the previous labels with exactly their previous probabilities, although get_ground_truth_proba_for_pairs and get_ground_truth_proba_for_samples already answer for the new labels once these are stored; labels longer than the data raise KeyError and leave the sampler in exactly this split state. If the first fit is interrupted after _sample_space was stored and before new_rows was, every later fit on any data raises AttributeError (AssertionError for labels other than 0 and 1), however many are tried, and sampling raises AttributeError: the object cannot be repaired by calling fit. At every other point a later fit on the same data gives exactly what it would have given without the failed call, and no exception on a binary matrix leaves the unrepairable state.", "quantifier": "every sampler parameters, data, labels, every point of every call, every sequence of later calls", "why_tests_cant": "The interruption can come at any statement, after any history, and the claim about later calls is about all of them.", "anchors": ["corset/samplers/discrim.py:CFTPDiscriminativitySampler.fit", "corset/samplers/discrim.py:CFTPDiscriminativitySampler._compute_weight_dict", "corset/samplers/discrim.py:CFTPDiscriminativitySampler.build_sample_space_and_generate_rows", "corset/samplers/discrim.py:CFTPDiscriminativitySampler.get_ground_truth_proba_for_pairs"]}
{"id": "C139", "title": "Greedy tail sampler in floating point", "statement": "For a 0/1 label matrix, fitting the greedy tail sampler raises OverflowError exactly when some row has 1025 labels or more. After a fit with a row of 1016 labels or more every sample_once raises ValueError on Python 3.10 and later, and uses the last row of the matrix on earlier versions, whatever the random numbers. If the total area weight is at most 2^1023, each result consists of labels of one row that no earlier row outnumbers by 54 labels or more (ValueError only when a row with a single label is drawn, from Python 3.9 on), so labels that occur only in outnumbered rows are never drawn; and the probability of any set of results differs from the one in exact arithmetic by at most (n(16n+2)+2^24)/2^53 for n rows.", "quantifier": "all 0/1 label matrices and attribute matrices, all iteration orders of sets, all pairs of the 2^53 values of random.random(), all Python versions from 3.8 on, all sets of results", "why_tests_cant": "The overflow thresholds and the absorption of small weights depend on the widest rows and on their order; the error bound averages over 2^106 pairs of random numbers.", "anchors": ["corset/samplers/greedy_area.py:GreedyAreaSampler.fit", "corset/samplers/greedy_area.py:GreedyAreaSampler.compute_weights", "corset/samplers/greedy_area.py:GreedyAreaSampler.sample_once"]}
{"id": "C140", "title": "Rounding does not break the original proposal of the head sampler", "statement": "In IEEE double precision, with the proposal distribution 'original': fit of the discriminativity sampler succeeds exactly for binary labels with both classes, not more labels than rows and at least one feature. After a fit with at most 2^23 labels and 2^53 samples, sample_once never raises, whatever 53-bit numbers the generator gives: it returns None or a sample that some positive row contains and some negative row does not, and leaves the sampler unchanged. With p positive and q negative rows, a sample is returned with probability success * (pairs it separates) / (sum of this over all samples) and None with probability 1 - success, each up to 1024 * (p(34p+63) + q(34q+63) + 75) / 2^53, where success = 1 - (1 - sum / (P * Q))^1024, P is the sum over positive rows of the square root of the number of samples they contain and Q the sum over negative rows of the square root of the number of samples they do not contain.", "quantifier": "all binary feature matrices, histories of fits and samples, label vectors within the size bounds, sequences of generator outputs, orders of summation in numpy's sum, and all results", "why_tests_cant": "Square roots, their products, the normalised weights and the acceptance ratio are all rounded; a bound on the probability of every result averages over 2^(53*3072) sequences of random numbers.", "anchors": ["corset/samplers/discrim.py:CFTPDiscriminativitySampler.fit", "corset/samplers/discrim.py:CFTPDiscriminativitySampler.sample_once", "corset/samplers/cftp.py:CFTP.sample", "corset/samplers/discrim.py:CFTPDiscriminativitySampler._compute_weight_dict"]}
{"id": "C141", "title": "Rounding does not break the area and frequency samplers", "statement": "In IEEE double precision, on binary data with n <= 2^23 rows whose total weight is below 2^63: the Boley area sampler, the Boley frequency sampler and the frequency sampler of a reduced sample space (with the Trie assignment) never raise once some row has something to draw, and return only non-empty itemsets (samples of the space) that some row contains. For every event, the area sampler's probability differs from the event's share of the total |F|*support(F) by at most (10n^2+75n+2^17)/2^53 + 2e, where e is the relative error of scipy's binomial coefficient; the reduced-space sampler's probability differs from the event's share of the total number of rows containing a sample by at most d = (n(10n+75)+12)/2^53. Each round of the frequency sampler's loop fails with the same probability q < 1, within d of n over the total support, and given that the loop has ended the probability of every event differs from its share of the support of the non-empty itemsets by at most 2d over the exact probability that a round succeeds. If no row contains a sample of the reduced space, drawing raises ValueError.", "quantifier": "all binary matrices within the size bounds, sample spaces, events, numbers of rounds, orders of traversal of sets, orders of summation in numpy's sum, and binomial routines with a relative error below one", "why_tests_cant": "Row weights, their quotients, the weights of the sizes and the cumulative sums are all rounded; the distance to the exact law is far below what sampling can resolve and has to hold for every matrix.", "anchors": ["corset/samplers/area.py:BoleyAreaSampler", "corset/samplers/freq.py:BoleyFrequencySampler", "corset/samplers/freq.py:SURSFrequencySamplerMixin", "corset/samplers/surs.py:ReducedSpaceSampler"]}
{"id": "C142", "title": "The viewer's figure has the requested panels, all in one order of rows and columns, or nothing is written or shown", "statement": "Calling the bicluster viewer on a matrix and two lists of clusters returns a figure whose panels are exactly the requested ones, in the order: the matrix as given, the matrix with rows and columns rearranged, the rearranged matrix with every cell coloured by the last bicluster that contains it. All rearranged panels use the same order of rows and columns, which lists every row and every column once and does not depend on the random shuffles made inside or on which panels are requested. The figure is saved iff an output file is named, only that file changes, and afterwards no figure is open. A bicluster index outside the matrix raises IndexError if a rearranged panel is requested (and is harmless otherwise), a missing right cluster raises IndexError, no requested panel raises ValueError, transpose=True raises NameError; a call that raises has written no file and shown nothing.", "quantifier": "all rational matrices, all lists of clusters of natural-number indices (empty, overlapping, repeated, out of range, of different lengths), all combinations of options, all outcomes of the shuffles, all earlier states of files and open figures", "why_tests_cant": "the order of rows comes from a heuristic over arbitrary overlapping clusters after random shuffles; a test sees one matrix, one shuffle and cannot compare panels in a rendered picture", "anchors": ["biclus_viz/PlotCreator.py:plotClusteredMatrix", "biclus_viz/PlotCreator.py:BlockBlockMatrix.plotMatrix", "biclus_viz/PlotCreator.py:BlockBlockMatrix.plotOriginalMatrix"]}
{"id": "C143", "title": "The viewer script colours a cell by the vote of the rows clustered with it; which arguments of the clustering step fail", "statement": "The script biclus_viz/main.py, on a matrix with more than five rows and more than five columns, whatever k-means answers and whatever the shuffles, saves one figure with the matrix, the rearranged matrix and the rearranged matrix with colours. A cell is coloured exactly when its column is not zero in more than a share t of the rows that k-means put together with its row; t depends on the cluster only and lies between 1/50 and 9/10. Coloured cells have the same colour exactly when their rows are in the same cluster. With five or fewer rows or columns the script raises ValueError and nothing is drawn or written. PCV in general: k below 1 or not below both sides of the matrix raises ValueError, so does a number of clusters below 1 or above the number of rows; an unknown projection raises TypeError; an unknown clustering raises nothing and gives no clusters.", "quantifier": "all rational matrices, all labellings k-means may return, all shuffles, all values of k, tau, threshold, projection and clustering, all earlier files and open figures", "why_tests_cant": "k-means and the shuffles are random, and the colours depend on an arbitrary labelling through a vote, a rearrangement and overlapping paint; a test fixes one of each", "anchors": ["biclus_viz/main.py", "biclus_viz/includes/pcv/PCV.py:PCV", "biclus_viz/includes/pcv/ProjCluster.py:ProjCluster", "biclus_viz/includes/pcv/ProjCluster.py:SimpleProj", "biclus_viz/includes/pcv/ProjCluster.py:kmeans"]}
{"id": "C144", "title": "Reported evaluation scores in double precision", "statement": "The eight scores that Evaluator.report returns are doubles, computed from exact counts with rounded divisions, products and sums. For binary prediction and ground-truth matrices of equal shape: subset accuracy, micro precision and micro recall are the doubles nearest to the exact scores; hamming accuracy is within 2^-52, micro F1 within a relative error of 28*2^-53, macro precision/recall within (4L+4)*2^-53 and macro F1 within (4L+28)*2^-53 for L labels; every reported score lies in [0,1]; 1.0 is reported exactly when the exact score is 1; two predictions for the same data are ordered by reported hamming accuracy, subset accuracy and micro recall exactly as by the exact scores (micro precision too on at most 2^26 cells); swapping predictions and ground truth exchanges reported precision and recall and changes no bit of the other scores. The relation subset accuracy <= hamming accuracy, which holds exactly, can be reversed by rounding.", "quantifier": "every pair of equally shaped binary matrices within the stated numbers of cells, and every order in which numpy adds up", "why_tests_cant": "rounding errors depend on every count and on the order of the additions; a test compares a handful of matrices with a tolerance and cannot bound the error, the order of near-ties, or exclude a score slightly above 1", "anchors": ["corset/evaluation.py:hamming_accuracy", "corset/evaluation.py:subset_accuracy", "corset/evaluation.py:micro_precision", "corset/evaluation.py:micro_recall", "corset/evaluation.py:micro_f1", "corset/evaluation.py:macro_precision", "corset/evaluation.py:macro_recall", "corset/evaluation.py:macro_f1"]}
{"id": "C145", "title": "Statistical summary of sampled tails", "statement": "TailEvaluator.report_summary returns, for each of the six columns of the report and under the same names, the number of scores that are not NaN, their mean, standard deviation (with n-1), minimum, quartiles (linear interpolation) and maximum. The table does not depend on the order in which the tails are given; minimum, quartiles and maximum increase and the mean lies between minimum and maximum; at least half of the scores lie on either side of the median; the deviation is 0 exactly for equal scores. All tails count for support, frequency, length and area, only tails with a label for edge density, only tails with two labels for edge ratio; mean frequency is mean support over the number of training rows. Without scores every statistic is NaN, and a report that fails makes the summary fail with the same exception.", "quantifier": "every data set, graph and list of tails", "why_tests_cant": "the statistics must be right for every list of scores, including ties, NaN entries, one or no scores, and every order of the tails", "anchors": ["corset/evaluation.py:TailEvaluator.report_summary", "corset/evaluation.py:TailEvaluator.report"]}
{"id": "C146", "title": "Printed summaries of rules and of label graphs show the true numbers", "statement": "For every rule bound to a dataset, the text of its summary shows the number of head items, the number of tail items, the number of examples with head and tail, and the label area exactly, and its precision and its base rate to the nearest two decimals of the exact quotients (for fewer than 2^45 examples, in spite of the two roundings). The text determines all six numbers, so two rules with the same summary have the same sizes and precisions that differ by at most 0.01. Printing a subgraph of the label graph gives exactly one line for every ordered pair of different listed labels that occur together in some example, with the names and frequencies of the two labels and the conditional probability to the nearest two decimals; listed labels that do not exist are ignored. A graph with label names is built exactly when every label has a name (IndexError otherwise).", "quantifier": "all datasets, rules, lists of names, sets of labels, and orders in which the edges are listed", "why_tests_cant": "The printed decimals come from rounding twice, and the claim concerns every quotient of counts; the lines printed depend on all pairs of labels of all label matrices.", "anchors": ["corset/rule.py:Rule.summary", "corset/graph.py:show_subgraph", "corset/graph.py:construct_confidence_graph"]}
{"id": "C147", "title": "Base classes learn, select and draw nothing, and fail without side effects", "statement": "A classifier of the base class learns nothing: after any sequence of calls whose last fit was fit(X, Y), predict returns for every matrix an all-zero matrix with as many columns as Y, and the coverage ratio is 0 (Y with at least one label). fit itself never raises, and predict raises exactly before the first fit, then TypeError; coverage_ratio then raises AttributeError. It never selects a rule: ValueError without candidates, NotImplementedError otherwise. The abstract sampler raises NotImplementedError on fit and on every non-empty batch. Fitting the abstract reduced-space sampler raises NotImplementedError and changes nothing; a subclass that supplies only the first steps keeps their effects and none of a later step is carried out; fit returns exactly when all four steps do, in order. The rounds disabled in the second variant of the learner raise RuntimeError and change nothing.", "quantifier": "all histories of calls on a base classifier, all data, candidate lists, batch sizes, and all subclasses of the reduced-space sampler", "why_tests_cant": "It concerns every sequence of calls and every subclass that supplies the missing steps.", "anchors": ["corset/greedy/base.py:GreedyBase.fit", "corset/greedy/base.py:GreedyBase.objective_of_rule", "corset/greedy/base.py:GreedyBase.select_best_candidate", "corset/samplers/base.py:Sampler", "corset/samplers/surs.py:ReducedSpaceSampler.fit", "corset/greedy/divmax_v2.py:fit_1st_round"]}
{"id": "C148", "title": "Reported tail statistics in double precision", "statement": "TailEvaluator reports frequency, edge density and edge ratio of tails as doubles, from double confidences, a numpy sum and rounded divisions. For a binary label matrix: the reported frequency is the double nearest to support/rows, lies in [0,1], ranks tails exactly as their supports do, and is 1.0 exactly for tails in every row and 0.0 exactly for tails in none (at most 2^51 rows). For a tail of k <= 2^24 labels that pairwise co-occur, reported edge density and ratio are within a relative error of 4k^2*2^-53 of the exact ones, density stays in [0,k-1] and ratio in [0,1] whatever order numpy adds in; density is NaN exactly for the empty tail and ratio exactly for fewer than two labels. A reported ratio of exactly 1.0 means the labels of the tail occur in exactly the same rows, and then the density is exactly k-1 (while 4*rows*k^4 <= 2^53). Two labels of a tail that never co-occur raise KeyError, a missing graph AttributeError, a label that is no column IndexError.", "quantifier": "every binary label matrix, every list of tails within the stated sizes, every set iteration order and every order in which numpy adds", "why_tests_cant": "Rounding depends on every confidence in the tail and on the order of summation; a test sees one matrix and one order, and a ratio such as 1.0000000000000002 appears only for particular sizes.", "anchors": ["corset/evaluation.py:TailEvaluator.frequency", "corset/evaluation.py:TailEvaluator.edge_density", "corset/evaluation.py:TailEvaluator.edge_ratio", "corset/graph.py:construct_confidence_graph"]}
{"id": "C149", "title": "read_data returns the same code as arrays or as CSR matrices", "statement": "After the file has been parsed into a table, read_data(path, sparsify=True) and read_data(path, sparsify=False) differ only in form: both fail with ValueError, exactly when the table has no column with 3 to 14 different values or none with at most two, or both succeed, and the CSR matrices have the shapes of the arrays and store exactly their ones, with value 1, without duplicates and explicit zeros. Hence they meet the assumption (binary CSR) under which the learners are analysed. Row r of either matrix stores exactly one entry for each coded table column whose cell is present in row r, in the order of the table's columns.", "quantifier": "all tables (any number of rows and columns, any linearly ordered values, missing cells allowed), rows, columns, both values of the flag", "why_tests_cant": "The agreement must hold for every table, including ones with missing cells or without a column of one kind; tests sample a few files.", "anchors": ["corset/utils_data.py:read_data", "corset/utils_data.py:preprocessing"]}
{"id": "C150", "title": "The order of the training records does not matter", "statement": "Take training data X, Y and put their rows in another order, the same for both. Fitting a new GreedyCFTPDivMax, GreedyCFTPDivMaxV2 or GreedyCFTPDivMaxV3 on the reordered data has the same law as fitting on the original: any event about the exception raised, or about the learned rules (heads and tails, in the order of their selection) and the objective, has the same probability, after any number of rounds. For the two-round learner this includes the selections and objectives of both rounds.", "quantifier": "all 0/1 training data, all permutations of the rows, all thresholds and parameters, all numbers of rounds, all events, and all set iteration orders that depend on the rules and not on the data they are bound to", "why_tests_cant": "The two runs draw different rows and consume their random numbers differently, so no two runs can be compared; only the laws agree, and a law over all batches cannot be measured.", "anchors": ["corset/greedy/base.py:GreedyBase.generate_candidate_rules", "corset/greedy/divmax_v2.py:GreedyDivMaxV2.fit", "corset/greedy/diversity_maximization.py:GreedyDivMax.fit", "corset/samplers/uncovered_area.py:UncoveredAreaSampler", "corset/samplers/discrim.py:CFTPDiscriminativitySampler", "corset/rule.py:Rule.bind_dataset"]}
{"id": "C151", "title": "Learning depends only on which record has which features and labels", "statement": "Two representations of the same training records that differ in the order in which the sparse matrices store the entries of a row, and in columns that no record uses, give the same law of the result of fit, also on machines that traverse sets of features, labels and rows and list the samples in different orders or have another recursion limit: any event about the exception raised, or about the learned rules in the order of their selection and the objective, has the same probability. For all three CFTP learners.", "quantifier": "all 0/1 training data, all representations of them with at least as many columns, all pairs of set iteration orders and enumeration orders (the traversal of sets of rules, which breaks ties between best candidates, being a function of the rules), all thresholds, parameters, numbers of rounds, events", "why_tests_cant": "The iteration orders are not under the control of a test, the two runs consume their random numbers differently, and what agrees is a law over all runs.", "anchors": ["corset/greedy/base.py:GreedyBase.generate_candidate_rules", "corset/greedy/divmax_v2.py:GreedyDivMaxV2.fit", "corset/greedy/diversity_maximization.py:GreedyDivMax.fit", "corset/samplers/uncovered_area.py:UncoveredAreaSampler", "corset/samplers/discrim.py:CFTPDiscriminativitySampler", "corset/samplers/pc.py", "corset/rule.py:Rule.__init__"]}
{"id": "C152", "title": "The numbering of features and labels does not matter", "statement": "Giving the features and the labels other numbers (permuting the columns of the training matrices) does not change what is learned: for a new GreedyCFTPDivMax, GreedyCFTPDivMaxV2 or GreedyCFTPDivMaxV3, every outcome of fit (an exception, or the rules in the order of their selection together with the objective or, for GreedyCFTPDivMax, both objectives and both selections) has exactly the probability that the same outcome with the rules renumbered has on the original data, as long as ties between best candidates are broken alike. And predicting with the renumbered rules on renumbered records gives exactly the renumbered predictions.", "quantifier": "all pairs of binary feature and label matrices that fit accepts, all permutations of their columns, all parameters and thresholds, all iteration orders of sets with corresponding tie breaking, all events on the result of fit; all rules with labels in range and all records for predict", "why_tests_cant": "It equates two probability laws for all data and all permutations; a test compares single random runs, in which other numbers already change the stream of random choices.", "anchors": ["corset/greedy/base.py:GreedyBase.generate_candidate_rules", "corset/greedy/base.py:GreedyBase.predict", "corset/greedy/divmax_v2.py:GreedyDivMaxV2.fit", "corset/greedy/diversity_maximization.py:GreedyDivMax.fit", "corset/samplers/uncovered_area.py:UncoveredAreaSampler", "corset/samplers/discrim.py:CFTPDiscriminativitySampler", "corset/samplers/pc.py", "corset/rule.py:Rule"]}
{"id": "C153", "title": "Repeating all records is the same as dividing the weight of diversity", "statement": "Train on data in which every record occurs k times, in any order, with lambd multiplied by k (by the square root of k for GreedyCFTPDivMaxV3). Then fit of GreedyCFTPDivMax, V2 and V3 raises every exception, and learns every list of rules, with the same probability as on the original data, and the objective is multiplied by the same factor. In other words the learned rules depend on the number of records only through lambd: copying the whole data set k times has the effect of dividing lambd by k.", "quantifier": "all 0/1 training data, all numbers of copies and orders of them, all thresholds, parameters and seeds (through the law of the generator), and all events about the result", "why_tests_cant": "The two runs draw from samplers over different rows, so they agree only in distribution; a test would have to estimate probabilities over all lists of rules for every data set and every number of copies.", "anchors": ["corset/greedy/divmax_v2.py:GreedyDivMaxV2.fit", "corset/greedy/divmax_v3.py:GreedyDivMaxV3.quality_of_rule", "corset/greedy/diversity_maximization.py:GreedyDivMax.fit", "corset/samplers/uncovered_area.py:UncoveredAreaSampler", "corset/samplers/discrim.py:CFTPDiscriminativitySampler.sample_once", "corset/rule.py:Rule.KL"]}
{"id": "C154", "title": "lambd trades gain against diversity, and nothing else", "statement": "With the same candidates and the same rules selected, a greater lambd never makes GreedyDivMax, V2 or V3 choose a rule that is nearer to the selected rules, and, for lambd of at least 0, never one whose gain (divergence times newly covered label occurrences, or times their square root in V3) is greater; in GreedySubmod a greater lambd never makes it choose a rule that covers fewer new occurrences or, if the smaller lambd is at least 0 and still covers any, one with a greater divergence. With lambd = 0 the chosen rule has the greatest gain; beyond some value of lambd it is one of the farthest candidates and has the greatest gain of these. With a budget of one rule (n_max_rules of at most 1), fit of a new classifier does the same for every lambd and the same draws. Which of its two rounds GreedyCFTPDivMax keeps depends only on the sign of lambd: for a positive one the first exactly if it is strictly more diverse, for 0 always the second, for a negative one the first exactly if it is strictly less diverse.", "quantifier": "all data, candidate sets, selected rules, pairs of lambd values, iteration orders of the candidate set, thresholds and random draws", "why_tests_cant": "The claims compare the choices for any two of infinitely many values of lambd on any candidates; a test sees a few values on one data set.", "anchors": ["corset/greedy/diversity_maximization.py:objective_of_rule", "corset/greedy/diversity_maximization.py:fit", "corset/greedy/divmax_v2.py:fit", "corset/greedy/divmax_v3.py:quality_of_rule", "corset/greedy/submod.py:objective_of_rule"]}
{"id": "C155", "title": "When a rule is learned twice", "statement": "A fit may put the same rule into the rule set more than once, but only in these situations. (1) The first round of GreedyCFTPDivMax without a rule budget and with a tolerance of at least 0 never selects a rule twice: each selected rule covers a label occurrence that no earlier one covers. (2) With a positive lambd, whenever a learner selects a rule that it has already selected, every other candidate of that iteration is at most as far from the selected rules as the repeated one, and gains at most lambd times the difference; if at most two rules had been selected, no candidate of the iteration gained anything, and if only one had been, every candidate covers exactly the same label occurrences. (3) From the fourth rule on this is not so: for some data and every large enough lambd a learner repeats a rule although another candidate covers something new with a positive gain. (4) GreedyCFTPDivMaxV2 and V3 with one tail and one head per iteration select the candidate whatever it is: the next rule is H -> T with the tail's share of the uncovered area times the probability of the head, whether or not it was selected before, so a rule is selected again with positive probability as soon as a row carries its tail with a label not covered there.", "quantifier": "all 0/1 data, parameters, selected rules, batches of candidates, random draws and executions of fit; every reachable state of the samplers", "why_tests_cant": "whether a duplicate can occur depends on all candidates of an iteration, on every random draw, and on lambd; a test run shows neither that duplicates are impossible nor when they are possible", "anchors": ["corset/greedy/diversity_maximization.py:objective_of_rule", "corset/greedy/diversity_maximization.py:should_stop", "corset/greedy/diversity_maximization.py:fit_1st_round", "corset/greedy/divmax_v2.py:fit", "corset/greedy/base.py:select_best_candidate"]}
{"id": "C156", "title": "The law of a fit with one candidate per iteration", "statement": "A new GreedyCFTPDivMaxV2 or GreedyCFTPDivMaxV3 classifier with one tail per iteration, one head per tail and n_max_rules = k learns exactly the rules r1, ..., rm, m <= k, in this order with a probability that has a closed form: the product over i of (uncovered area of ri's tail) / (uncovered area of all probable label sets), where uncovered means by r1, ..., r(i-1), times the probability of ri's head for that tail; times the probability that the fit ends there. The latter is 1 if r1, ..., rm leave no area uncovered; 0 if they do and m < k; and if m = k the probability that one further tail gets a head, since the fit draws a further candidate before it looks at the budget, and fails if there is none. The first round of GreedyCFTPDivMax has the same law on data with at least one label occurrence. No other rules are learned: every fit of the two classes that returns has at most k rules, with probable feature sets as heads and probable label sets as tails. The law does not depend on lambd, on the gains, on the choice between the two classes, or on the order in which sets are traversed.", "quantifier": "all 0/1 X and Y with equally many rows, all thresholds, budgets k, lambd, both classes, all sequences of at most k rules", "why_tests_cant": "an exact probability over all random draws of a whole fit, for all data and all rule sequences; a test sees single runs", "anchors": ["corset/greedy/divmax_v2.py:fit", "corset/greedy/divmax_v2.py:should_stop", "corset/greedy/base.py:generate_candidate_rules", "corset/samplers/uncovered_area.py:update_row_weights"]}
{"id": "C157", "title": "How likely a fit is to fail, and that more candidates make it worse", "statement": "fit raises when the head sampler gives up on a sampled tail, and it does so on each of its draws anew. (1) If it gives up with probability at most q for every probable label set that occurs, then fit of a new GreedyCFTPDivMaxV2 or V3 with n_max_rules = k raises with probability at most 1 - (1 - q)^(n_heads_per_tail * n_tails_per_iter * (k + 1)); the same holds for GreedyCFTPDivMax with a budget, on data with at least one label occurrence; and if for each of them at least a share rho of the proposed pairs of records is accepted, V2 and V3 raise with probability at most (k + 1) * n_tails_per_iter * n_heads_per_tail * exp(-1024 rho). (2) On data with at least one label occurrence, fit of each of the three learners raises at least with probability 1 - (sum over tails T of P(T) (1 - noHead(T))^n_heads)^n_tails, the probability that the first batch is not complete. (3) Hence on all data on which some execution of fit raises (C83: two records share a feature but differ in a label, or a label is carried by all records, or a probable label set occurs only in records without features), the probability that fit raises tends to 1 as n_tails_per_iter grows: asking for ever more candidates ends up preventing learning.", "quantifier": "all 0/1 training data, thresholds, budgets, numbers of tails and heads, random draws; all bounds q and rho", "why_tests_cant": "the probability of an exception over all random draws of a whole fit, and its limit, for all data; a test run either raises or does not", "anchors": ["corset/greedy/divmax_v2.py:fit", "corset/greedy/diversity_maximization.py:fit_1st_round", "corset/greedy/base.py:generate_candidate_rules", "corset/samplers/discrim.py:CFTPDiscriminativitySampler"]}
{"id": "C158", "title": "The objective of the next rule, and what larger batches do to it", "statement": "In every iteration of a fit of one of the three learners with a rule budget that is not used up, and with label area left to cover: the probability that the iteration selects a rule whose objective is at most c equals L(c)^n_tails, where L(c) is the probability that one tail gets heads that all give an objective of at most c, sum over T of P(T) * (sum of P(H | T) over the heads H with objective of H -> T at most c)^n_heads; and some rule is selected with probability S^n_tails, S = sum over T of P(T) (1 - noHead(T))^n_heads. Hence, given that a rule is selected, more tails per iteration never make a low objective more likely: for every c the conditional probability of an objective of at most c does not increase with n_tails; and if one tail alone exceeds c with conditional probability at least delta, then n tails select a rule of objective at most c with conditional probability at most exp(-n delta).", "quantifier": "all 0/1 data, thresholds, the three learners, parameters and lambd, all reachable states of the samplers and selected rules, all levels c, all numbers of tails and heads", "why_tests_cant": "a law over all random draws and a comparison of two laws, in every reachable state; a test sees single draws", "anchors": ["corset/greedy/base.py:generate_candidate_rules", "corset/greedy/base.py:select_best_candidate", "corset/greedy/divmax_v2.py:fit", "corset/greedy/diversity_maximization.py:objective_of_rule"]}
{"id": "C159", "title": "What many heads per tail do to a batch of candidates", "statement": "In every reachable state of a fit with label area left to cover: given that candidate generation returns, all tails of the batch lie in a set A with probability (G/S)^n_tails, where S is the sum over all tails of P(T) (1 - noHead(T))^n_heads, G is the part of that sum that belongs to A, and noHead(T) is the probability that one head attempt for T is rejected. Hence raising the number of heads per tail does not only add heads, it changes the tails: as n_heads grows, with everything else fixed, the conditional probability that all tails of the batch are tails with the least possible noHead tends to 1, and for every tail T whose noHead exceeds that of some other tail with uncovered area, the conditional probability that a given rule H -> T is among the candidates tends to 0. There is data on which this happens.", "quantifier": "all 0/1 data, thresholds, reachable states of both samplers and selected rules, all sets of tails, all numbers of tails and heads", "why_tests_cant": "a limit over all numbers of heads of a law over all random draws; a test sees single draws for a single parameter", "anchors": ["corset/greedy/base.py:generate_candidate_rules", "corset/samplers/discrim.py:CFTPDiscriminativitySampler"]}
{"id": "C160", "title": "Raising a probability threshold conditions the candidates", "statement": "In every reachable state of a fit with label area left to cover among the tails that meet the higher threshold: raising the label threshold (min_label_proba) from p to p' >= p, with the same rules selected so far, is conditioning. For every set A of rules, the probability that the batch is returned with all its rules in A, times the n_tails-th power of the probability that a tail drawn with threshold p meets p', equals the probability, with threshold p, of a batch in A whose tails all meet p'; hence, given that a batch is returned, the law with p' is the law with p given that all tails meet p'. Raising the feature threshold does the same to the heads of one tail: with one tail and one head, the ratio of the probabilities of two rules with the same tail whose heads meet the higher threshold does not change. A threshold above 1 leaves exactly the single features or labels; a threshold of at most 0 leaves exactly the non-empty sets any two members of which occur together in some record.", "quantifier": "all 0/1 data, all pairs of thresholds, all reachable states of both samplers and selected rules, all sets of rules, all numbers of tails and heads", "why_tests_cant": "an identity between two laws over all random draws, for all thresholds and states; a test sees single draws for single thresholds", "anchors": ["corset/greedy/base.py:generate_candidate_rules", "corset/samplers/uncovered_area.py:UncoveredAreaSampler", "corset/samplers/discrim.py:CFTPDiscriminativitySampler"]}
{"id": "C161", "title": "Records without labels do not change the tails, but they change the heads", "statement": "Take training data and add records without any label, anywhere and with any features (or remove them, as filter_rows_with_no_labels does). After fitting on either data and after updates that cover the same cells, the tail sampler has the same law on both: every label set has the same probability, and so has NoMoreSamples. The heads are affected: with one tail and one head per iteration, two rules with the same tail are drawn in the proportion of their weights, and the weight of a rule on the larger data is its weight on the labelled records plus its support times the number of added records that lack some feature of its head, so every unlabelled record favours heads that it does not have.", "quantifier": "all 0/1 data, all ways to add unlabelled records, all thresholds, all histories of updates, all label sets and heads of the sample spaces, both machines' iteration orders", "why_tests_cant": "equality of two laws over all random draws, for all data and all added records; a test sees single draws on single data", "anchors": ["corset/samplers/uncovered_area.py:UncoveredAreaSampler", "corset/utils.py:filter_rows_with_no_labels", "corset/greedy/base.py:generate_candidate_rules", "corset/samplers/discrim.py:CFTPDiscriminativitySampler"]}
{"id": "C162", "title": "When two models predict alike, and which rules are redundant", "statement": "For models whose rules use existing features and labels: model A never predicts a label that model B does not, for any records, exactly when for every rule of A and every label in its tail B has a rule with that label in its tail and with a head contained in the head of A's rule; and it is enough to compare the two predictions on the records that consist of exactly the heads of A's rules. Hence predict returns the same matrices for all records exactly when this holds in both directions, and removing a rule changes no prediction for any records exactly when each of its labels is concluded by another rule of the model from a part of its head. Only features that occur in heads are read: records that agree on them get the same predictions, whatever their other features and the number of columns.", "quantifier": "all rule lists with features and labels in range, all binary matrices with the given number of columns", "why_tests_cant": "equality of predictions for all records, which a test can only sample; the theorem also says which finitely many records are enough", "anchors": ["corset/greedy/base.py:predict", "corset/rule.py:Rule"]}
{"id": "C163", "title": "What separates the coverage ratio from the recall on the training data", "statement": "For any rules bound to any binary training data, recall on that data minus the coverage ratio is exactly the share of label occurrences that are predicted, but only by rules that conclude some label the record lacks. The two agree exactly when every label occurrence that is predicted is predicted by some rule whose whole tail is right on the record, in particular when no rule is ever wrong on the training data. A rule all of whose labels already follow from selected rules adds nothing to the predictions, but its gain in coverage counts exactly the cells of its area on which every selected rule that concludes the label is partly wrong; that gain is zero when no selected rule is ever wrong.", "quantifier": "all well-formed feature matrices and binary label matrices with as many rows and at least one label occurrence, all lists of rules bound to them, and all further bound rules", "why_tests_cant": "A test compares the two figures for one model; the exact difference, and that it vanishes in exactly the stated cases, ranges over all data and all rule lists.", "anchors": ["corset/greedy/base.py:coverage_ratio", "corset/greedy/base.py:predict", "corset/rule.py:marginal_coverage"]}
{"id": "C164", "title": "What a greater rule budget changes", "statement": "Take two budgets k <= k' with all other parameters and the data the same. For a new GreedyCFTPDivMaxV2 or V3, whatever is asked of a list of rules, the first k rules of a fit with budget k' that returns satisfy it with at most the probability with which all rules of a fit with budget k satisfy it, and the fit with the greater budget raises at least as often: the greater budget goes on where the smaller one stops, and loses exactly the executions in which a later draw raises. On data on which fit never raises (C83), the first k rules with budget k' have exactly the law of the rules with budget k, so a larger n_max_rules never changes the rules learned before. All of this also holds for the first round of GreedyCFTPDivMax, on data with at least one label occurrence.", "quantifier": "all 0/1 training data, thresholds, budgets k <= k', other parameters, set iteration orders, events about the learned rules, and the random draws (through the law of the result)", "why_tests_cant": "The draws of two fits cannot be made the same by a seed that both consume in the same way for all data, and a statement about the law of the result for all events, data and pairs of budgets is beyond any sample of runs.", "anchors": ["corset/greedy/divmax_v2.py:should_stop", "corset/greedy/diversity_maximization.py:should_stop", "corset/greedy/base.py:generate_candidate_rules"]}
{"id": "C165", "title": "What a smaller tolerance changes", "statement": "Take two tolerances t' <= t for GreedyCFTPDivMax without a rule budget, everything else being the same. On data with at least one label occurrence: (1) a property of lists of rules that passes to their beginnings, such as having at most m rules, is at most as likely for the rules of the first round of a fit that returns with the smaller tolerance t' as with t; (2) with the smaller tolerance fit raises at least as often; (3) on data on which fit never raises (C83), and for t' of at least 0, a property that passes to continuations, such as covering at least a share c of the label occurrences, is at least as likely with the smaller tolerance. So a smaller tolerance lets the first round go on where the greater one ends it, and changes nothing before.", "quantifier": "all 0/1 training data with a label occurrence, thresholds, tolerances t' <= t, other parameters, set iteration orders, properties of the stated kinds, and the random draws (through the law of the result)", "why_tests_cant": "The claims compare the laws of two random procedures for every data set and every pair of tolerances; runs of both can only estimate single probabilities.", "anchors": ["corset/greedy/diversity_maximization.py:should_stop", "corset/greedy/base.py:generate_candidate_rules"]}
{"id": "C166", "title": "What the precision of single rules says about the training predictions", "statement": "Predicting the training records with rules bound to the training data: a record receives a label it does not carry exactly if some rule applies to it without the record carrying all labels of that rule. The number of wrongly predicted labels is at most the sum over the rules of the number of records that spoil the rule's precision times the number of its labels. The micro-averaged precision on the training data is 1 exactly if every rule has precision 1.", "quantifier": "all well-formed data with binary labels and at least one record and label, all lists of rules bound to it", "why_tests_cant": "The equivalence ranges over all training data and all rule lists; a test sees one data set, on which overlapping rules may hide a wrong prediction.", "anchors": ["corset/rule.py:precision", "corset/greedy/base.py:predict", "corset/evaluation.py:micro_precision"]}
